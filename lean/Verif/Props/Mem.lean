import Verif.Model.Mem
import Verif.Spec.Mem
import Verif.Lemmas.Mem
/-!
# C02 (pointers), C03, C04, C05: arrays and the heap
-/

namespace EB
open Spec

/-! ## C02: pointers -/

theorem ptrForHeap_low (i : Nat) : (ptrForHeap i).setWidth 32 = -(BitVec.ofNat 32 i) - 1#32 := by
  unfold ptrForHeap
  ext k hk
  simp only [← BitVec.getLsbD_eq_getElem, BitVec.getLsbD_setWidth, BitVec.getLsbD_signExtend]
  simp [hk, show k < 64 by omega]

/-- **C02** A heap pointer decodes to the heap index it was made from (24-bit indexes), a constant
pointer (the index itself) to the constant index, and so neither is mistaken for the other. -/
theorem C02_datumPtr (i : Nat) (h : i < 2 ^ 24) :
    DatumPtr.ofU64 (ptrForHeap i) = some (.heap i) ∧
    DatumPtr.ofU64 (BitVec.ofNat 64 i) = some (.constant i) := by
  constructor
  · unfold DatumPtr.ofU64
    simp only [ptrForHeap_low]
    have h1 : (-(BitVec.ofNat 32 i) - 1#32).toNat = 2 ^ 32 - 1 - i := by
      rw [BitVec.toNat_sub, BitVec.toNat_neg]; simp; omega
    have h2 : (-(BitVec.ofNat 32 i) - 1#32).toInt < 0 := by
      rw [BitVec.toInt_eq_toNat_cond, h1]; simp; omega
    rw [if_pos h2]
    have h3 : (-(-(BitVec.ofNat 32 i) - 1#32) - 1#32).toNat = i := by
      rw [BitVec.toNat_sub, BitVec.toNat_neg, h1]; simp; omega
    rw [h3, if_pos h]
  · unfold DatumPtr.ofU64
    have h1 : ((BitVec.ofNat 64 i).setWidth 32).toNat = i := by
      simp; omega
    simp only [h1]
    have h2 : ¬ ((BitVec.ofNat 64 i).setWidth 32).toInt < 0 := by
      rw [BitVec.toInt_eq_toNat_cond, h1]; split <;> omega
    rw [if_neg h2, if_pos h]

/-- **C02** Different heap indexes have different pointers, and no heap pointer equals a constant
pointer. -/
theorem C02_datumPtr_injective (i j : Nat) (hi : i < 2 ^ 24) (hj : j < 2 ^ 24) :
    (ptrForHeap i = ptrForHeap j → i = j) ∧ ptrForHeap i ≠ BitVec.ofNat 64 j := by
  constructor
  · intro h
    have := (C02_datumPtr i hi).1
    rw [h, (C02_datumPtr j hj).1] at this
    simpa using this.symm
  · intro h
    have := (C02_datumPtr i hi).1
    rw [h, (C02_datumPtr j hj).2] at this
    simp at this

example : ptrForHeap 0 = 0xffffffffffffffff#64 ∧
    DatumPtr.ofU64 0xffffffffffffffff#64 = some (.heap 0) := by decide

/-! ## C03: subscripts -/

/-- **C03** Subscripts are accepted exactly when in bounds, and then address a cell inside the
array. -/
theorem C03_accepted_iff (dims : List Nat) (subs : List Int) :
    (∃ k, flatIndex dims subs = some (.ok k)) ↔ InBounds dims subs := by
  constructor
  · rintro ⟨k, h⟩; exact ((flatIndex_ok_iff _ _ _).1 h).1
  · intro h; exact ⟨_, (flatIndex_ok_iff _ _ _).2 ⟨h, rfl⟩⟩

/-- **C03** Accepted subscripts address a cell inside the array. -/
theorem C03_in_range (dims : List Nat) (subs : List Int) (k : Nat)
    (h : flatIndex dims subs = some (.ok k)) : k < size dims := by
  obtain ⟨hb, rfl⟩ := (flatIndex_ok_iff _ _ _).1 h
  exact position_lt hb

/-- **C03** Different accepted subscripts address different cells. -/
theorem C03_injective (dims : List Nat) (s t : List Int) (k : Nat)
    (hs : flatIndex dims s = some (.ok k)) (ht : flatIndex dims t = some (.ok k)) : s = t := by
  obtain ⟨h1, h2⟩ := (flatIndex_ok_iff _ _ _).1 hs
  obtain ⟨h3, h4⟩ := (flatIndex_ok_iff _ _ _).1 ht
  exact position_inj h1 h3 (h2.symm.trans h4)

/-- **C03** Every cell is addressed by some accepted subscripts. -/
theorem C03_surjective (dims : List Nat) (k : Nat) (h : k < size dims) :
    ∃ s, flatIndex dims s = some (.ok k) := by
  obtain ⟨s, h1, h2⟩ := position_surj dims k h
  exact ⟨s, (flatIndex_ok_iff _ _ _).2 ⟨h1, h2.symm⟩⟩

/-- The first subscript that is out of bounds, with the size of its dimension. -/
def Spec.firstBad : List Nat → List Int → Option (Int × Nat)
  | d :: ds, s :: ss => if s < 0 ∨ (d : Int) ≤ s then some (s, d) else Spec.firstBad ds ss
  | _, _ => none

theorem flatIndexLoop_error : ∀ (dims : List Nat) (subs : List Int) (o m : Nat) (e : SubscriptError),
    flatIndexLoop o m subs dims = .error e →
    ∃ s d, firstBad dims subs = some (s, d) ∧
      ((s < 0 ∧ e = .negative s) ∨ ((d : Int) ≤ s ∧ e = .exceeds s.toNat d))
  | [], [], _, _, _, h => by simp [flatIndexLoop] at h
  | [], _ :: _, _, _, _, h => by simp [flatIndexLoop] at h
  | _ :: _, [], _, _, _, h => by simp [flatIndexLoop] at h
  | d :: ds, s :: ss, o, m, e, h => by
    unfold flatIndexLoop at h
    unfold firstBad
    split at h
    · rename_i h0
      refine ⟨s, d, ?_, Or.inl ⟨h0, by simpa using h.symm⟩⟩
      rw [if_pos (Or.inl h0)]
    · split at h
      · rename_i h0 h1
        refine ⟨s, d, ?_, Or.inr ⟨by omega, by simpa using h.symm⟩⟩
        rw [if_pos (Or.inr (by omega))]
      · rename_i h0 h1
        rw [if_neg (by omega)]
        exact flatIndexLoop_error ds ss _ _ e h

/-- **C03** A rejection names the first offending subscript and the right reason. -/
theorem C03_error (dims : List Nat) (subs : List Int) (e : SubscriptError)
    (h : flatIndex dims subs = some (.error e)) :
    ∃ s d, firstBad dims subs = some (s, d) ∧
      ((s < 0 ∧ e = .negative s) ∨ ((d : Int) ≤ s ∧ e = .exceeds s.toNat d)) := by
  unfold flatIndex at h
  split at h
  · exact flatIndexLoop_error _ _ _ _ _ (Option.some.inj h)
  · cases h

example : flatIndex [2, 3, 4] [1, 2, 3] = some (.ok 23) ∧
    flatIndex [2, 3, 4] [1, 3, 3] = some (.error (.exceeds 3 3)) := by decide

/-! ## C04: elements are independent variables -/

theorem store_wf {a a' : ArrayData} {subs : List Int} {v : BitVec 64}
    (h : a.store subs v = some (.ok a')) (hw : a.WF) :
    a'.WF ∧ a'.dimensions = a.dimensions := by
  unfold ArrayData.store at h
  split at h
  · cases h
  · cases h
  · split at h
    · simp only [Option.some.injEq, Except.ok.injEq] at h
      subst h
      exact ⟨by simpa [ArrayData.WF] using hw, rfl⟩
    · cases h

/-- **C04** Storing with in-bounds subscripts always succeeds on a well-formed array, and reading
back gives the stored value at those subscripts and the old value everywhere else. -/
theorem C04_store_load (a : ArrayData) (hw : a.WF) (s t : List Int) (v : BitVec 64)
    (hs : InBounds a.dimensions s) (ht : InBounds a.dimensions t) :
    ∃ a', a.store s v = some (.ok a') ∧ a'.WF ∧ a'.dimensions = a.dimensions ∧
      a'.load t = if s = t then some (.ok v) else a.load t := by
  have hps := position_lt hs
  have hpt := position_lt ht
  have e1 := (flatIndex_ok_iff a.dimensions s _).2 ⟨hs, rfl⟩
  have e2 := (flatIndex_ok_iff a.dimensions t _).2 ⟨ht, rfl⟩
  refine ⟨{ a with values := a.values.set (position a.dimensions s) v }, ?_, ?_, rfl, ?_⟩
  · unfold ArrayData.store
    rw [e1]
    simp only
    rw [if_pos (by rw [hw]; exact hps)]
  · simpa [ArrayData.WF] using hw
  · unfold ArrayData.load
    rw [e2]
    simp only
    by_cases h : s = t
    · subst h
      rw [if_pos rfl, List.getElem?_set_self (by rw [hw]; exact hps)]
      rfl
    · rw [if_neg h, List.getElem?_set_ne (fun hp => h (position_inj hs ht hp))]

/-- Applying a history of writes, oldest first. A write that is rejected leaves the array as it
was (the VM raises the error and the program may go on). -/
def writeAll (a : ArrayData) : List (List Int × BitVec 64) → ArrayData
  | [] => a
  | (s, v) :: rest =>
    writeAll (match a.store s v with | some (.ok a') => a' | _ => a) rest

/-- **C04** After any sequence of writes (including rejected ones) to a new array of any type and
dimensions, reading an in-bounds element returns the value last written to those subscripts, or
the default of the type. -/
theorem C04_history (ty : ExprType) (dims : List Nat) (ws : List (List Int × BitVec 64))
    (t : List Int) (ht : InBounds dims t) :
    (writeAll (newArray ty dims) ws).load t =
      some (.ok (lastWrite (if ty = .text then ptrForHeap 0 else 0#64) t ws)) := by
  suffices H : ∀ (a : ArrayData) (dflt : BitVec 64), a.WF → a.dimensions = dims →
      a.load t = some (.ok dflt) → (writeAll a ws).load t = some (.ok (lastWrite dflt t ws)) by
    apply H _ _ (newArray_wf ty dims) rfl
    unfold ArrayData.load newArray
    have e := (flatIndex_ok_iff dims t _).2 ⟨ht, rfl⟩
    simp only [e]
    rw [List.getElem?_replicate, if_pos (by rw [foldl_mul]; simpa using position_lt ht)]
    rfl
  induction ws with
  | nil => intro a d _ _ h; exact h
  | cons w rest ih =>
    intro a dflt hw hd hl
    obtain ⟨s, v⟩ := w
    unfold writeAll lastWrite
    by_cases hs : InBounds dims s
    · obtain ⟨a', e1, e2, e3, e4⟩ := C04_store_load a hw s t v (hd ▸ hs) (hd ▸ ht)
      rw [e1]
      apply ih a' _ e2 (e3.trans hd)
      rw [e4]
      split <;> simp_all
    · have hne : ¬ s = t := fun h => hs (h ▸ ht)
      rw [if_neg hne]
      have hrej : ∀ a', a.store s v ≠ some (.ok a') := by
        intro a' h
        unfold ArrayData.store at h
        split at h
        · cases h
        · cases h
        · rename_i k hk
          exact hs (hd ▸ ((flatIndex_ok_iff _ _ _).1 hk).1)
      have : (match a.store s v with | some (.ok a') => a' | _ => a) = a := by
        split
        · rename_i a' h; exact absurd h (hrej a')
        · rfl
      rw [this]
      exact ih a dflt hw hd hl

example : (writeAll (newArray .integer [2, 2]) [([0, 1], 5#64), ([1, 0], 6#64), ([2, 0], 7#64)]).load
    [0, 1] = some (.ok 5#64) := by decide

/-! ## C05: the heap -/

/-- Heap invariant: entry 0 is the shared empty string and the limits hold. -/
structure Heap.WF (h : Heap) : Prop where
  empty : h.data[0]? = some (.text [])
  small : h.data.length ≤ 2 ^ 24

theorem heap_new_wf (n : Nat) : (Heap.new n).WF := ⟨rfl, by simp [Heap.new]⟩

/-- **C05** A successful allocation returns a pointer to the new datum and leaves every existing
entry readable at the same place. -/
theorem C05_push_ok (h h' : Heap) (d : HeapDatum) (p : BitVec 64) (hw : h.WF)
    (he : h.push d = some (p, h')) :
    h'.WF ∧ h'.maxEntries = h.maxEntries ∧
    (∃ i, DatumPtr.ofU64 p = some (.heap i) ∧ h'.data[i]? = some d) ∧
    (∀ (i : Nat) x, h.data[i]? = some x → h'.data[i]? = some x) ∧
    (h.data.length ≤ max 1 h.maxEntries → h'.data.length ≤ max 1 h.maxEntries) := by
  unfold Heap.push at he
  split at he
  · rename_i hd
    cases he
    subst hd
    exact ⟨hw, rfl, ⟨0, (C02_datumPtr 0 (by decide)).1, hw.empty⟩, fun _ _ h => h, id⟩
  · split at he
    · cases he
    · split at he
      · cases he
      · rename_i h1 h2
        cases he
        have hlen : 0 < h.data.length := by
          rcases Nat.eq_zero_or_pos h.data.length with h0 | h0
          · have := hw.empty
            rw [List.length_eq_zero_iff.1 h0] at this
            cases this
          · exact h0
        refine ⟨⟨?_, ?_⟩, rfl, ⟨h.data.length, (C02_datumPtr _ (by omega)).1, ?_⟩, ?_, ?_⟩
        · simp only
          rw [List.getElem?_append_left hlen]; exact hw.empty
        · simp; omega
        · simp
        · intro i x hx
          have : i < h.data.length := (List.getElem?_eq_some_iff.1 hx).1
          simp only
          rw [List.getElem?_append_left this]; exact hx
        · simp; omega

/-- **C05** An allocation fails exactly when it needs a new entry and the heap is full (or the
24-bit index space is exhausted); the failing operation returns no new heap. -/
theorem C05_push_fail (h : Heap) (d : HeapDatum) :
    h.push d = none ↔ d ≠ .text [] ∧ (h.maxEntries ≤ h.data.length ∨ 2 ^ 24 ≤ h.data.length) := by
  unfold Heap.push
  split
  · simp_all
  · split
    · simp_all
    · split <;> simp_all <;> omega

/-- Any sequence of allocations; failed ones leave the heap as it was. -/
def pushAll (h : Heap) : List HeapDatum → Heap
  | [] => h
  | d :: ds => pushAll (match h.push d with | some (_, h') => h' | none => h) ds

/-- **C05** After any sequence of allocations, starting from a new heap with any limit: everything
readable before is readable unchanged, and the heap has at most `max 1 limit` entries (entry 0 is
the built-in empty string). -/
theorem C05_history (h : Heap) (hw : h.WF) (hl : h.data.length ≤ max 1 h.maxEntries)
    (ds : List HeapDatum) :
    (pushAll h ds).WF ∧ (∀ (i : Nat) x, h.data[i]? = some x → (pushAll h ds).data[i]? = some x) ∧
    (pushAll h ds).data.length ≤ max 1 h.maxEntries := by
  induction ds generalizing h with
  | nil => exact ⟨hw, fun _ _ h => h, hl⟩
  | cons d ds ih =>
    unfold pushAll
    cases he : h.push d with
    | none => exact ih h hw hl
    | some r =>
      obtain ⟨p, h'⟩ := r
      obtain ⟨a, b, _, c, e⟩ := C05_push_ok h h' d p hw he
      obtain ⟨i1, i2, i3⟩ := ih h' a (by rw [b]; exact e hl)
      refine ⟨i1, fun i x hx => i2 i x (c i x hx), by rw [← b]; exact i3⟩

/-- The starting heap meets the hypotheses of `C05_history`. -/
example : (Heap.new 3).WF ∧ (Heap.new 3).data.length ≤ max 1 (Heap.new 3).maxEntries :=
  ⟨heap_new_wf 3, by decide⟩
example : (pushAll (Heap.new 2) [.text ['a'], .text ['b']]).data = [.text [], .text ['a']] := by decide

end EB
