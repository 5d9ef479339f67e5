import Verif.Lemmas.Session
/-!
# Symbol tables as lists of declarations
-/

namespace EB
open Spec

theorem declPos_none {k : Str} {ds : Decls} : position k ds = none ↔ ∀ d ∈ ds, d.1 ≠ k := by
  induction ds with
  | nil => simp [position]
  | cons d ds ih =>
    obtain ⟨k', p⟩ := d
    unfold position
    by_cases h : k' = k
    · rw [if_pos h]; simp [h]
    · rw [if_neg h]; simp [h, ih]

theorem declPos_some {k : Str} {ds : Decls} {p : Proto} {n : Nat} (h : position k ds = some (p, n)) :
    ds[n]? = some (k, p) := by
  induction ds generalizing n with
  | nil => simp [position] at h
  | cons d ds ih =>
    obtain ⟨k', p'⟩ := d
    unfold position at h
    by_cases hk : k' = k
    · rw [if_pos hk] at h; cases h; simp [hk]
    · rw [if_neg hk] at h
      cases hp : position k ds with
      | none => rw [hp] at h; simp at h
      | some e =>
        obtain ⟨q, m⟩ := e
        rw [hp] at h
        cases h
        simpa using ih hp

theorem declPos_of_get {k : Str} {ds : Decls} {p : Proto} {n : Nat} (hn : (ds.map (·.1)).Nodup)
    (h : ds[n]? = some (k, p)) : position k ds = some (p, n) := by
  induction ds generalizing n with
  | nil => simp at h
  | cons d ds ih =>
    obtain ⟨k', p'⟩ := d
    unfold position
    simp only [List.map_cons, List.nodup_cons] at hn
    cases n with
    | zero => simp at h; obtain ⟨rfl, rfl⟩ := h; simp
    | succ n =>
      simp only [List.getElem?_cons_succ] at h
      have hne : k' ≠ k := by
        rintro rfl
        exact hn.1 (List.mem_map.2 ⟨_, List.mem_of_getElem? h, rfl⟩)
      rw [if_neg hne, ih hn.2 h]
      rfl

theorem declPos_lt {k : Str} {ds : Decls} {p : Proto} {n : Nat} (h : position k ds = some (p, n)) : n < ds.length :=
  (List.getElem?_eq_some_iff.1 (declPos_some h)).1

theorem declPos_append {k : Str} {ds ds' : Decls} :
    position k (ds ++ ds') = (position k ds).or ((position k ds').map fun (p, n) => (p, n + ds.length)) := by
  induction ds with
  | nil =>
    simp only [List.nil_append, position, Option.none_or, List.length_nil, Nat.add_zero]
    cases position k ds' <;> rfl
  | cons d ds ih =>
    obtain ⟨k', p⟩ := d
    simp only [List.cons_append, position]
    by_cases h : k' = k
    · simp [h]
    · rw [if_neg h, if_neg h, ih]
      cases position k ds with
      | some e => rfl
      | none =>
        cases position k ds' with
        | none => rfl
        | some e => simp [Nat.add_assoc]

/-- The declarations that a table stands for. -/
theorem represents_of_wf {t : IdMap Str Proto} (h : t.Wf) : ∃ ds, Represents t ds := by
  have key : ∀ k ∈ t.keys, ∃ p id, t.get? k = some (p, id) := by
    intro k hk
    obtain ⟨i, hi⟩ := List.getElem?_of_mem hk
    obtain ⟨v, hv⟩ := (IdMap.keys_getElem? h).1 hi
    exact ⟨v, i, hv⟩
  let ds : Decls := t.keys.map fun k => (k, ((t.get? k).map (·.1)).getD (.scalar .integer))
  have hmap : ds.map (·.1) = t.keys := by simp [ds, Function.comp_def]
  have hnd : (ds.map (·.1)).Nodup := by rw [hmap]; exact IdMap.keys_nodup h
  refine ⟨ds, by simp [ds, IdMap.keys_length], hnd, ?_⟩
  intro k
  cases hk : t.get? k with
  | none =>
    symm
    rw [declPos_none]
    intro d hd heq
    have : k ∈ t.keys := by rw [← hmap]; exact List.mem_map.2 ⟨d, hd, heq⟩
    obtain ⟨p, id, hp⟩ := key k this
    rw [hk] at hp; simp at hp
  | some e =>
    obtain ⟨p, id⟩ := e
    symm
    apply declPos_of_get hnd
    simp only [ds, List.getElem?_map, Option.map_eq_some_iff]
    exact ⟨k, (IdMap.keys_getElem? h).2 ⟨p, hk⟩, by rw [hk]; rfl⟩

theorem represents_unique {t : IdMap Str Proto} {ds ds' : Decls} (h : Represents t ds) (h' : Represents t ds') : ds = ds' := by
  apply List.ext_getElem?
  intro i
  cases hi : ds[i]? with
  | some e =>
    obtain ⟨k, p⟩ := e
    have := declPos_of_get h.once hi
    rw [← h.get, h'.get] at this
    rw [declPos_some this]
  | none =>
    symm
    rw [List.getElem?_eq_none_iff] at hi ⊢
    rw [← h'.len, h.len]; exact hi

/-- Tables that grow stand for more declarations. -/
theorem represents_ext {t t' : IdMap Str Proto} {ds ds' : Decls} (h : Represents t ds) (h' : Represents t' ds')
    (he : t.Ext t') : ds <+: ds' := by
  rw [List.prefix_iff_eq_take]
  apply List.ext_getElem?
  intro i
  rw [List.getElem?_take]
  by_cases hi : i < ds.length
  · rw [if_pos hi]
    have hd : ds[i]? = some (ds[i].1, ds[i].2) := List.getElem?_eq_getElem hi
    have := declPos_of_get h.once hd
    rw [← h.get] at this
    have := he.ids _ _ _ this
    rw [h'.get] at this
    rw [declPos_some this, hd]
  · rw [if_neg hi, List.getElem?_eq_none_iff]; omega

end EB
