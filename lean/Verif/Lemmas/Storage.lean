import Verif.Spec.Storage
/-!
# Lemmas about the storage model
-/

namespace EB
open Spec

/-! ## Maps -/

namespace FMap
variable {K V : Type} [DecidableEq K]

theorem get?_erase (m : FMap K V) (k k' : K) : (m.erase k).get? k' = if k' = k then none else m.get? k' := by
  induction m with
  | nil => simp [erase, get?]
  | cons e m ih =>
    obtain ⟨a, v⟩ := e
    unfold erase at ih ⊢
    simp only [List.filter_cons]
    by_cases h : a = k
    · subst h
      simp only [ne_eq, not_true_eq_false, decide_false, Bool.false_eq_true, if_false, ih, get?]
      by_cases h' : k' = a
      · simp [h']
      · simp [h', Ne.symm h']
    · simp only [ne_eq, h, not_false_eq_true, decide_true, if_true, get?, ih]
      by_cases h' : a = k'
      · subst h'; simp [h]
      · simp [h']

theorem get?_insert (m : FMap K V) (k k' : K) (v : V) :
    (m.insert k v).get? k' = if k' = k then some v else m.get? k' := by
  unfold insert
  simp only [get?, get?_erase]
  by_cases h : k = k'
  · simp [h]
  · simp [h, Ne.symm h]

theorem mem_of_get? {m : FMap K V} {k : K} {v : V} (h : m.get? k = some v) : (k, v) ∈ m := by
  induction m with
  | nil => simp [get?] at h
  | cons e m ih =>
    obtain ⟨a, w⟩ := e
    simp only [get?] at h
    split at h
    next he => simp at h; subst he; subst h; simp
    next he => exact List.mem_cons_of_mem _ (ih h)

/-- No key appears twice. -/
def Wf (m : FMap K V) : Prop := (m.map (·.1)).Nodup

theorem get?_of_mem {m : FMap K V} (hw : m.Wf) {k : K} {v : V} (h : (k, v) ∈ m) : m.get? k = some v := by
  induction m with
  | nil => simp at h
  | cons e m ih =>
    obtain ⟨a, w⟩ := e
    unfold Wf at hw
    simp only [List.map_cons, List.nodup_cons] at hw
    simp only [get?]
    simp only [List.mem_cons, Prod.mk.injEq] at h
    rcases h with ⟨rfl, rfl⟩ | h
    · simp
    · have : a ≠ k := by
        intro e; subst e
        exact hw.1 (List.mem_map.mpr ⟨_, h, rfl⟩)
      simp only [this, if_false]
      exact ih hw.2 h

theorem get?_eq_some {m : FMap K V} (hw : m.Wf) {k : K} {v : V} : m.get? k = some v ↔ (k, v) ∈ m :=
  ⟨mem_of_get?, get?_of_mem hw⟩

theorem wf_erase {m : FMap K V} (hw : m.Wf) (k : K) : (m.erase k).Wf := by
  unfold Wf erase at *
  exact hw.sublist (List.Sublist.map _ List.filter_sublist)

theorem wf_insert {m : FMap K V} (hw : m.Wf) (k : K) (v : V) : (m.insert k v).Wf := by
  have := wf_erase hw k
  unfold Wf insert at *
  simp only [List.map_cons, List.nodup_cons]
  refine ⟨?_, this⟩
  simp [erase]

end FMap

/-! ## Paths -/

theorem driveValid_iff (s : Str) : driveValid s = true ↔ DriveName s := by
  unfold driveValid DriveName
  simp only [Bool.and_eq_true, Bool.not_eq_true', List.isEmpty_eq_false_iff, ne_eq, List.any_eq_false,
    Bool.or_eq_true, beq_iff_eq, not_or]
  constructor
  · rintro ⟨h1, h2⟩; exact ⟨h1, fun c hc => ⟨(h2 c hc).1.1.1, (h2 c hc).1.1.2, (h2 c hc).1.2, (h2 c hc).2⟩⟩
  · rintro ⟨h1, h2⟩; exact ⟨h1, fun c hc => ⟨⟨⟨(h2 c hc).1, (h2 c hc).2.1⟩, (h2 c hc).2.2.1⟩, (h2 c hc).2.2.2⟩⟩

theorem splitChar_ne_nil (c : Char) (s : Str) : splitChar c s ≠ [] := by
  cases s with
  | nil => simp [splitChar]
  | cons d s =>
    unfold splitChar
    split
    · simp
    · split <;> simp

theorem splitChar_not_mem {c : Char} {s : Str} (h : c ∉ s) : splitChar c s = [s] := by
  induction s with
  | nil => rfl
  | cons d s ih =>
    simp only [List.mem_cons, not_or] at h
    unfold splitChar
    rw [if_neg (Ne.symm h.1), ih h.2]

theorem splitChar_append {c : Char} {a : Str} (b : Str) (h : c ∉ a) :
    splitChar c (a ++ c :: b) = a :: splitChar c b := by
  induction a with
  | nil => simp [splitChar]
  | cons d a ih =>
    simp only [List.mem_cons, not_or] at h
    simp only [List.cons_append]
    rw [splitChar, if_neg (Ne.symm h.1), ih h.2]

theorem splitChar_one {c : Char} {s p : Str} (h : splitChar c s = [p]) : s = p ∧ c ∉ s := by
  induction s generalizing p with
  | nil => simp [splitChar] at h; simp [h]
  | cons d s ih =>
    unfold splitChar at h
    split at h
    · simp only [List.cons.injEq] at h; exact absurd h.2 (splitChar_ne_nil _ _)
    · next hd =>
      split at h
      · next hn => exact absurd hn (splitChar_ne_nil _ _)
      · next f fs hf =>
        simp only [List.cons.injEq] at h
        obtain ⟨rfl, rfl⟩ := h
        obtain ⟨rfl, h2⟩ := ih hf
        simp [h2, Ne.symm hd]

theorem splitChar_two {c : Char} {s a b : Str} (h : splitChar c s = [a, b]) :
    s = a ++ c :: b ∧ c ∉ a ∧ c ∉ b := by
  induction s generalizing a with
  | nil => simp [splitChar] at h
  | cons d s ih =>
    unfold splitChar at h
    split at h
    · next hd =>
      simp only [List.cons.injEq] at h
      obtain ⟨rfl, h⟩ := h
      obtain ⟨rfl, h2⟩ := splitChar_one (p := b) (by simpa using h)
      simp [hd, h2]
    · next hd =>
      split at h
      · next hn => exact absurd hn (splitChar_ne_nil _ _)
      · next f fs hf =>
        simp only [List.cons.injEq] at h
        obtain ⟨rfl, rfl⟩ := h
        obtain ⟨h1, h2, h3⟩ := ih hf
        subst h1
        simp [h2, h3, Ne.symm hd]

theorem slashes_count (p : Str) (n : Nat) :
    p.foldl (fun a c => if c = '/' then a + 1 else a) n = n + p.count '/' := by
  induction p generalizing n with
  | nil => simp
  | cons c p ih =>
    simp only [List.foldl_cons, ih, List.count_cons]
    by_cases h : c = '/' <;> simp [h]; omega

theorem checkPath_ok {p q : Str} (h : checkPath p = .ok q) :
    ∃ leaf, PathPart p leaf ∧ ∀ d, Location.leaf ⟨d, q⟩ = leaf := by
  unfold checkPath at h
  split at h
  · next he =>
    simp at he h; subst he; subst h
    exact ⟨none, .empty, by intro d; rfl⟩
  · next he =>
    split at h
    · simp at h
    · next hv =>
      simp only at h
      split at h
      · simp at h
      · next hs =>
        simp only [Outcome.ok.injEq] at h
        subst h
        simp only [slashes_count, Nat.zero_add] at hs
        simp only [Bool.or_eq_true, Bool.not_eq_true', beq_iff_eq, not_or, Bool.not_eq_false, pathValid,
          Bool.and_eq_true, List.isEmpty_eq_false_iff, List.any_eq_false] at hv
        obtain ⟨⟨⟨⟨⟨hne, hch⟩, h1⟩, h2⟩, h3⟩, h4⟩ := hv
        have hch : ∀ c ∈ p, c ≠ ':' ∧ c ≠ '\\' := hch
        match p, hne with
        | c :: p, _ =>
          by_cases hc : c = '/'
          · subst hc
            have hnp : '/' ∉ p := by
              intro hm
              have := List.count_pos_iff.mpr hm
              apply hs
              right
              simp; omega
            by_cases hp : p = []
            · subst hp; exact ⟨none, .root, by intro d; rfl⟩
            · refine ⟨some p, .rooted p ⟨hp, ?_, ?_, ?_⟩, ?_⟩
              · intro c hc
                have := hch c (by simp [hc])
                exact ⟨fun e => hnp (e ▸ hc), this.2, this.1⟩
              · intro e; subst e; exact h3 rfl
              · intro e; subst e; exact h4 rfl
              · intro d
                simp [Location.leaf, hp]
          · have hnp : '/' ∉ c :: p := by
              intro hm
              have := List.count_pos_iff.mpr hm
              apply hs
              simp only [List.head?_cons, ne_eq, Option.some.injEq, hc, not_false_eq_true, and_true]
              omega
            refine ⟨some (c :: p), .file (c :: p) ⟨by simp, ?_, h1, h2⟩, ?_⟩
            · intro d hd
              have := hch d hd
              exact ⟨fun e => hnp (e ▸ hd), this.2, this.1⟩
            · intro d
              simp [Location.leaf, hc]

theorem checkPath_part {p : Str} {leaf : Option Str} (h : PathPart p leaf) :
    ∃ q, checkPath p = .ok q ∧ ∀ d, Location.leaf ⟨d, q⟩ = leaf := by
  suffices hh : ∃ q, checkPath p = .ok q by
    obtain ⟨q, hq⟩ := hh
    refine ⟨q, hq, ?_⟩
    obtain ⟨leaf', h1, h2⟩ := checkPath_ok hq
    have : leaf' = leaf := by
      clear hq h2
      cases h with
      | empty =>
        cases h1 with
        | empty => rfl
        | file _ hf => exact absurd rfl hf.1
      | root =>
        cases h1 with
        | root => rfl
        | file _ hf => exact absurd rfl (hf.2.1 '/' (by simp)).1
        | rooted _ hf => exact absurd rfl hf.1
      | file _ hf =>
        cases h1 with
        | empty => exact absurd rfl hf.1
        | root => exact absurd rfl (hf.2.1 '/' (by simp)).1
        | file => rfl
        | rooted => exact absurd rfl (hf.2.1 '/' (by simp)).1
      | rooted n hf =>
        cases h1 with
        | root => exact absurd rfl hf.1
        | file _ hf' => exact absurd rfl (hf'.2.1 '/' (by simp)).1
        | rooted => rfl
    rw [this] at h2
    exact h2
  cases h with
  | empty => exact ⟨_, rfl⟩
  | root => exact ⟨_, rfl⟩
  | file _ hf =>
    refine ⟨p, ?_⟩
    obtain ⟨h1, h2, h3, h4⟩ := hf
    have hns : p.count '/' = 0 := List.count_eq_zero.mpr fun hm => (h2 _ hm).1 rfl
    have e1 : pathValid p = true := by
      simp only [pathValid, Bool.and_eq_true, Bool.not_eq_true', List.isEmpty_eq_false_iff, ne_eq, h1,
        not_false_eq_true, true_and, List.any_eq_false, Bool.or_eq_true, beq_iff_eq, not_or]
      exact fun c hc => ⟨(h2 c hc).2.2, (h2 c hc).2.1⟩
    have e2 : p ≠ ['/', '.'] := fun e => by subst e; simp at hns
    have e3 : p ≠ ['/', '.', '.'] := fun e => by subst e; simp at hns
    unfold checkPath
    simp only [slashes_count, Nat.zero_add, hns]
    simp [h1, e1, h3, h4, e2, e3]
  | rooted n hf =>
    refine ⟨'/' :: n, ?_⟩
    obtain ⟨h1, h2, h3, h4⟩ := hf
    have hns : n.count '/' = 0 := List.count_eq_zero.mpr fun hm => (h2 _ hm).1 rfl
    have e1 : pathValid ('/' :: n) = true := by
      simp only [pathValid, Bool.and_eq_true, Bool.not_eq_true', List.isEmpty_eq_false_iff, ne_eq, reduceCtorEq,
        not_false_eq_true, true_and, List.any_eq_false, Bool.or_eq_true, beq_iff_eq, not_or, List.mem_cons]
      rintro c (rfl | hc)
      · decide
      · exact ⟨(h2 c hc).2.2, (h2 c hc).2.1⟩
    unfold checkPath
    simp only [slashes_count, Nat.zero_add, List.count_cons, hns]
    simp [e1, h3, h4]

theorem checkPath_no_panic (p : Str) : checkPath p ≠ .panic := by
  unfold checkPath
  split
  · simp
  · split
    · simp
    · simp only; split <;> simp

theorem pathPart_no_colon {p : Str} {leaf : Option Str} (h : PathPart p leaf) : ':' ∉ p := by
  cases h with
  | empty => simp
  | root => decide
  | file _ hf => exact fun hm => (hf.2.1 _ hm).2.2 rfl
  | rooted n hf =>
    simp only [List.mem_cons, not_or]
    exact ⟨by decide, fun hm => (hf.2.1 _ hm).2.2 rfl⟩

theorem driveKey_spec (C : CaseOps) (s : Str) :
    (DriveName s ∧ driveKey C s = .ok (upper C.up s)) ∨ (¬ DriveName s ∧ driveKey C s = .error "InvalidInput") := by
  unfold driveKey
  by_cases h : DriveName s
  · left; refine ⟨h, ?_⟩
    simp [(driveValid_iff s).mpr h, upper]
  · right; refine ⟨h, ?_⟩
    have : driveValid s = false := by
      rw [Bool.eq_false_iff]; exact fun e => h ((driveValid_iff s).mp e)
    simp [this]

theorem location_new_ok {C : CaseOps} {s : Str} {l : Location} (h : Location.new C s = .ok l) :
    Path C.up s l.drive l.leaf := by
  unfold Location.new at h
  split at h
  · next d p hs =>
    obtain ⟨rfl, -, -⟩ := splitChar_two hs
    rcases driveKey_spec C d with ⟨hd, e⟩ | ⟨hd, e⟩
    · rw [e] at h
      simp only at h
      split at h
      · next q hq =>
        simp only [Outcome.ok.injEq] at h
        subst h
        obtain ⟨leaf, h1, h2⟩ := checkPath_ok hq
        rw [h2]
        exact .absolute _ _ _ hd h1
      · simp at h
      · simp at h
    · rw [e] at h; simp at h
  · next p hs =>
    obtain ⟨rfl, -⟩ := splitChar_one hs
    split at h
    · next q hq =>
      simp only [Outcome.ok.injEq] at h
      subst h
      obtain ⟨leaf, h1, h2⟩ := checkPath_ok hq
      rw [h2]
      exact .relative _ _ h1
    · simp at h
    · simp at h
  · simp at h

theorem location_of_path {C : CaseOps} {s : Str} {dr leaf : Option Str} (h : Path C.up s dr leaf) :
    ∃ l, Location.new C s = .ok l ∧ l.drive = dr ∧ l.leaf = leaf := by
  cases h with
  | relative p leaf hp =>
    obtain ⟨q, h1, h2⟩ := checkPath_part hp
    refine ⟨⟨none, q⟩, ?_, rfl, h2 _⟩
    unfold Location.new
    rw [splitChar_not_mem (pathPart_no_colon hp)]
    simp [h1]
  | absolute d p leaf hd hp =>
    obtain ⟨q, h1, h2⟩ := checkPath_part hp
    refine ⟨⟨some (upper C.up d), q⟩, ?_, rfl, h2 _⟩
    unfold Location.new
    rw [splitChar_append p (fun hm => (hd.2 _ hm).1 rfl), splitChar_not_mem (pathPart_no_colon hp)]
    rcases driveKey_spec C d with ⟨-, e⟩ | ⟨hd', -⟩
    · simp [e, h1]
    · exact absurd hd hd'

theorem location_no_panic (C : CaseOps) (s : Str) : Location.new C s ≠ .panic := by
  unfold Location.new
  split
  · next d p hs =>
    rcases driveKey_spec C d with ⟨-, e⟩ | ⟨-, e⟩
    · rw [e]
      simp only
      split
      · simp
      · simp
      · next h => exact absurd h (checkPath_no_panic _)
    · rw [e]; simp
  · split
    · simp
    · simp
    · next h => exact absurd h (checkPath_no_panic _)
  · simp

/-- Parsing a path either succeeds with its meaning or fails. -/
theorem location_cases (C : CaseOps) (s : Str) :
    (∃ l, Location.new C s = .ok l ∧ Path C.up s l.drive l.leaf ∧
      ∀ dr leaf, Path C.up s dr leaf → dr = l.drive ∧ leaf = l.leaf) ∨
    (∃ e, Location.new C s = .error e ∧ ∀ dr leaf, ¬ Path C.up s dr leaf) := by
  cases hl : Location.new C s with
  | ok l =>
    left
    refine ⟨l, rfl, location_new_ok hl, ?_⟩
    intro dr leaf hp
    obtain ⟨l', h1, h2, h3⟩ := location_of_path hp
    rw [hl] at h1
    simp only [Outcome.ok.injEq] at h1
    subst h1
    exact ⟨h2.symm, h3.symm⟩
  | error e =>
    right
    refine ⟨e, rfl, ?_⟩
    intro dr leaf hp
    obtain ⟨l', h1, -⟩ := location_of_path hp
    rw [hl] at h1
    simp at h1
  | panic => exact absurd hl (location_no_panic C s)

/-- File names come out of `Path` valid. -/
theorem path_fileName {u : Char → Str} {s : Str} {dr : Option Str} {n : Str} (h : Path u s dr (some n)) :
    FileName n := by
  cases h with
  | relative _ _ hp => cases hp <;> assumption
  | absolute _ _ _ _ hp => cases hp <;> assumption

end EB
