import Verif.Model.Mem
import Verif.Spec.Mem
/-! Helper lemmas about arrays and the heap. -/

namespace EB
open Spec

/-- Row-major position, by recursion. -/
def position : List Nat → List Int → Nat
  | d :: ds, s :: ss => s.toNat + d * position ds ss
  | _, _ => 0

theorem flatIndexLoop_ok : ∀ (dims : List Nat) (subs : List Int) (o m : Nat), InBounds dims subs →
    flatIndexLoop o m subs dims = .ok (o + m * position dims subs)
  | [], [], o, m, _ => by simp [flatIndexLoop, position]
  | d :: ds, s :: ss, o, m, h => by
    obtain ⟨h0, h1, h2⟩ := h
    unfold flatIndexLoop
    rw [if_neg (by omega), if_neg (by omega), flatIndexLoop_ok ds ss _ _ h2]
    simp only [position, Except.ok.injEq, Nat.mul_add]
    rw [Nat.mul_comm s.toNat m, Nat.mul_assoc]
    omega
  | [], _ :: _, _, _, h => absurd h (by simp [InBounds])
  | _ :: _, [], _, _, h => absurd h (by simp [InBounds])

theorem flatIndexLoop_inBounds : ∀ (dims : List Nat) (subs : List Int) (o m k : Nat),
    subs.length = dims.length → flatIndexLoop o m subs dims = .ok k → InBounds dims subs
  | [], [], _, _, _, _, _ => trivial
  | d :: ds, s :: ss, o, m, k, hl, h => by
    unfold flatIndexLoop at h
    split at h
    · cases h
    · split at h
      · cases h
      · rename_i h0 h1
        exact ⟨by omega, by omega, flatIndexLoop_inBounds ds ss _ _ k (by simpa using hl) h⟩
  | [], _ :: _, _, _, _, hl, _ => by simp at hl
  | _ :: _, [], _, _, _, hl, _ => by simp at hl

theorem inBounds_length : ∀ {dims : List Nat} {subs : List Int}, InBounds dims subs →
    subs.length = dims.length
  | [], [], _ => rfl
  | _ :: _, _ :: _, h => by simp [inBounds_length h.2.2]
  | [], _ :: _, h => absurd h (by simp [InBounds])
  | _ :: _, [], h => absurd h (by simp [InBounds])

theorem flatIndex_ok_iff (dims : List Nat) (subs : List Int) (k : Nat) :
    flatIndex dims subs = some (.ok k) ↔ InBounds dims subs ∧ k = position dims subs := by
  unfold flatIndex
  constructor
  · intro h
    split at h
    · rename_i hl
      have h' := Option.some.inj h
      have hb := flatIndexLoop_inBounds _ _ _ _ _ hl h'
      rw [flatIndexLoop_ok _ _ _ _ hb] at h'
      exact ⟨hb, by have := Except.ok.inj h'; omega⟩
    · cases h
  · rintro ⟨hb, rfl⟩
    rw [if_pos (inBounds_length hb), flatIndexLoop_ok _ _ _ _ hb]
    simp

theorem position_lt : ∀ {dims : List Nat} {subs : List Int}, InBounds dims subs →
    position dims subs < size dims
  | [], [], _ => by simp [position, size]
  | d :: ds, s :: ss, h => by
    obtain ⟨h0, h1, h2⟩ := h
    have ih := position_lt h2
    simp only [position, size]
    have : d * (position ds ss + 1) ≤ d * size ds := Nat.mul_le_mul_left d ih
    rw [Nat.mul_add, Nat.mul_one] at this
    omega
  | [], _ :: _, h => absurd h (by simp [InBounds])
  | _ :: _, [], h => absurd h (by simp [InBounds])

theorem position_inj : ∀ {dims : List Nat} {s t : List Int}, InBounds dims s → InBounds dims t →
    position dims s = position dims t → s = t
  | [], [], [], _, _, _ => rfl
  | d :: ds, s :: ss, t :: ts, hs, ht, h => by
    obtain ⟨hs0, hs1, hs2⟩ := hs
    obtain ⟨ht0, ht1, ht2⟩ := ht
    simp only [position] at h
    have h1 : s.toNat = t.toNat := by
      have h2 := congrArg (· % d) h
      simpa [Nat.add_mul_mod_self_left, Nat.mod_eq_of_lt (show s.toNat < d by omega),
        Nat.mod_eq_of_lt (show t.toNat < d by omega)] using h2
    have h3 : d * position ds ss = d * position ds ts := by omega
    have h4 := Nat.eq_of_mul_eq_mul_left (by omega : 0 < d) h3
    rw [position_inj hs2 ht2 h4, show s = t by omega]
  | [], _ :: _, _, h, _, _ => absurd h (by simp [InBounds])
  | [], [], _ :: _, _, h, _ => absurd h (by simp [InBounds])
  | _ :: _, [], _, h, _, _ => absurd h (by simp [InBounds])
  | _ :: _, _ :: _, [], _, h, _ => absurd h (by simp [InBounds])

theorem position_surj : ∀ (dims : List Nat) (k : Nat), k < size dims →
    ∃ s, InBounds dims s ∧ position dims s = k
  | [], k, h => ⟨[], trivial, by simp [position]; simp [size] at h; omega⟩
  | d :: ds, k, h => by
    simp only [size] at h
    have hd : 0 < d := by
      rcases Nat.eq_zero_or_pos d with h0 | h0
      · subst h0; simp at h
      · exact h0
    obtain ⟨ss, h1, h2⟩ := position_surj ds (k / d) (Nat.div_lt_of_lt_mul h)
    refine ⟨((k % d : Nat) : Int) :: ss, ⟨by omega, ?_, h1⟩, ?_⟩
    · have := Nat.mod_lt k hd
      omega
    · simp only [position, h2]
      rw [Int.toNat_natCast]
      exact Nat.mod_add_div k d

theorem foldl_mul (dims : List Nat) (a : Nat) : dims.foldl (· * ·) a = a * size dims := by
  induction dims generalizing a with
  | nil => simp [size]
  | cons d ds ih => simp only [List.foldl_cons, ih, size]; rw [Nat.mul_assoc]

/-- Well-formed arrays have one value per element. -/
def ArrayData.WF (a : ArrayData) : Prop := a.values.length = size a.dimensions

theorem newArray_wf (ty : ExprType) (dims : List Nat) : (newArray ty dims).WF := by
  simp [ArrayData.WF, newArray, foldl_mul]

end EB
