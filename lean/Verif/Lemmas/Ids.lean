import Verif.Model.Codegen
import Verif.Lemmas.Storage
import Mathlib.Data.List.Perm.Subperm
import Mathlib.Data.List.Range
/-!
# Lemmas about maps with identifiers
-/

set_option linter.unusedSectionVars false

namespace EB

namespace FMap
variable {K V : Type} [DecidableEq K]

theorem get?_none_iff {m : FMap K V} {k : K} : m.get? k = none ↔ ∀ e ∈ m, e.1 ≠ k := by
  induction m with
  | nil => simp [get?]
  | cons e m ih =>
    obtain ⟨a, v⟩ := e
    simp only [get?, List.mem_cons, forall_eq_or_imp]
    split
    next h => simp [h]
    next h => simp [h, ih]

theorem erase_eq_self {m : FMap K V} {k : K} (h : m.get? k = none) : m.erase k = m := by
  unfold erase
  rw [List.filter_eq_self]
  intro e he
  simpa using get?_none_iff.1 h e he

theorem length_erase {m : FMap K V} (hw : m.Wf) {k : K} {v : V} (h : m.get? k = some v) :
    (m.erase k).length + 1 = m.length := by
  induction m with
  | nil => simp [get?] at h
  | cons e m ih =>
    obtain ⟨a, w⟩ := e
    unfold Wf at hw
    simp only [List.map_cons, List.nodup_cons] at hw
    simp only [get?] at h
    unfold erase at ih ⊢
    simp only [List.filter_cons]
    split at h
    next he =>
      subst he
      have hn : FMap.get? m a = none := by
        rw [get?_none_iff]
        intro e he h'
        exact hw.1 (List.mem_map.mpr ⟨e, he, h'⟩)
      have := erase_eq_self hn
      unfold erase at this
      rw [if_neg (by simp), this]
      rfl
    next he =>
      simp only [ne_eq, he, not_false_eq_true, decide_true, if_true, List.length_cons]
      rw [ih hw.2 h]

end FMap

namespace IdMap
variable {K V : Type} [DecidableEq K]

/-- Keys are distinct, identifiers are distinct and they are below the number of entries. -/
structure Wf (m : IdMap K V) : Prop where
  keys : m.map.Wf
  ids : (m.map.map (·.2.2)).Nodup
  lt : ∀ e ∈ m.map, e.2.2 < m.map.length

theorem wf_empty : (empty : IdMap K V).Wf := by
  constructor <;> simp [empty, FMap.Wf]

theorem get?_eq_some {m : IdMap K V} (h : m.Wf) {k : K} {v : V} {id : Nat} :
    m.get? k = some (v, id) ↔ (k, v, id) ∈ m.map := FMap.get?_eq_some h.keys

/-- Distinct names have distinct identifiers. -/
theorem id_inj {m : IdMap K V} (h : m.Wf) {k k' : K} {v v' : V} {id : Nat}
    (h1 : m.get? k = some (v, id)) (h2 : m.get? k' = some (v', id)) : k = k' := by
  rw [get?_eq_some h] at h1 h2
  have := h.ids
  have hp : List.Pairwise (fun a b => a ≠ b) (m.map.map (·.2.2)) := this
  rw [List.pairwise_map] at hp
  by_contra hne
  have hne' : (k, v, id) ≠ (k', v', id) := fun e => hne (by simpa using (Prod.ext_iff.1 e).1)
  have hs : Std.Symm (fun a b : K × V × Nat => a.2.2 ≠ b.2.2) := ⟨fun _ _ h => Ne.symm h⟩
  exact hp.forall h1 h2 hne' rfl

theorem id_lt {m : IdMap K V} (h : m.Wf) {k : K} {v : V} {id : Nat} (h1 : m.get? k = some (v, id)) :
    id < m.len := h.lt _ ((get?_eq_some h).1 h1)

/-! ## Insertion -/

theorem insert_new {m : IdMap K V} {limit : Nat} {k : K} {v : V} (hk : m.get? k = none)
    (hl : m.len < limit) : m.insert limit k v = some ((none, m.len), ⟨(k, v, m.len) :: m.map⟩) := by
  unfold insert get? len FMap.insert at *
  rw [hk]
  simp [hl, FMap.erase_eq_self hk]

theorem insert_full {m : IdMap K V} {limit : Nat} {k : K} {v : V} (hk : m.get? k = none)
    (hl : ¬ m.len < limit) : m.insert limit k v = none := by
  unfold insert get? len at *
  rw [hk]
  simp [hl]

theorem wf_insert_new {m : IdMap K V} (h : m.Wf) {k : K} {v : V} (hk : m.get? k = none) :
    (⟨(k, v, m.len) :: m.map⟩ : IdMap K V).Wf := by
  refine ⟨?_, ?_, ?_⟩
  · have := h.keys
    unfold FMap.Wf at *
    simp only [List.map_cons, List.nodup_cons]
    refine ⟨?_, this⟩
    intro hm
    obtain ⟨e, he, h'⟩ := List.mem_map.1 hm
    exact FMap.get?_none_iff.1 hk e he h'
  · simp only [List.map_cons, List.nodup_cons]
    refine ⟨?_, h.ids⟩
    intro hm
    obtain ⟨e, he, h'⟩ := List.mem_map.1 hm
    have := h.lt e he
    unfold len at h'
    omega
  · intro e he
    simp only [List.mem_cons] at he
    simp only [List.length_cons]
    rcases he with rfl | he
    · simp [len]
    · have := h.lt e he; omega

theorem get?_insert_new {m : IdMap K V} {k k' : K} {v : V} :
    (⟨(k, v, m.len) :: m.map⟩ : IdMap K V).get? k' = if k' = k then some (v, m.len) else m.get? k' := by
  unfold get?
  simp only [FMap.get?]
  by_cases h : k = k'
  · simp [h]
  · simp [h, Ne.symm h]

theorem len_insert_new {m : IdMap K V} {k : K} {v : V} :
    (⟨(k, v, m.len) :: m.map⟩ : IdMap K V).len = m.len + 1 := by simp [len]

/-- What an update does. -/
theorem get?_update {m : IdMap K V} {k k' : K} {v : V} :
    (m.update k v).get? k' =
      if k' = k then (m.get? k).map fun e => (v, e.2) else m.get? k' := by
  unfold update get?
  split
  next old id h =>
    simp only [FMap.get?_insert]
    by_cases h' : k' = k
    · simp [h', h]
    · simp [h']
  next h =>
    by_cases h' : k' = k
    · simp [h', h]
    · simp [h']

theorem wf_update {m : IdMap K V} (h : m.Wf) (k : K) (v : V) : (m.update k v).Wf := by
  unfold update
  split
  next old id hk =>
    have hl := FMap.length_erase h.keys hk
    have hm := FMap.mem_of_get? hk
    refine ⟨FMap.wf_insert h.keys _ _, ?_, ?_⟩
    · unfold FMap.insert FMap.erase
      simp only [List.map_cons, List.nodup_cons]
      refine ⟨?_, h.ids.sublist (List.Sublist.map _ List.filter_sublist)⟩
      intro hc
      obtain ⟨e, he, h'⟩ := List.mem_map.1 hc
      obtain ⟨he, hne⟩ := List.mem_filter.1 he
      obtain ⟨a, w, i⟩ := e
      simp only at h'
      subst h'
      have := id_inj h (k := a) (k' := k) ((get?_eq_some h).2 he) (v' := old) hk
      simp [this] at hne
    · intro e he
      unfold FMap.insert at he ⊢
      simp only [List.length_cons, hl]
      simp only [List.mem_cons] at he
      rcases he with rfl | he
      · exact h.lt (k, old, id) hm
      · exact h.lt _ (List.mem_filter.1 he).1
  next hk => exact h

theorem len_update {m : IdMap K V} (h : m.Wf) (k : K) (v : V) : (m.update k v).len = m.len := by
  unfold update
  split
  next old id hk =>
    have hl := FMap.length_erase h.keys hk
    unfold len FMap.insert
    simpa using hl
  next hk => rfl

/-! ## Enumeration by identifier -/

theorem insertById_perm (e : K × V × Nat) (l : List (K × V × Nat)) : (insertById e l).Perm (e :: l) := by
  induction l with
  | nil => simp [insertById]
  | cons f fs ih =>
    unfold insertById
    split
    · exact List.Perm.refl _
    · exact (List.Perm.cons f ih).trans (List.Perm.swap e f fs)

theorem sortById_perm (l : List (K × V × Nat)) : (sortById l).Perm l := by
  induction l with
  | nil => simp [sortById]
  | cons e l ih => exact (insertById_perm e _).trans (List.Perm.cons e ih)

theorem insertById_sorted (e : K × V × Nat) {l : List (K × V × Nat)}
    (h : l.Pairwise fun a b => a.2.2 ≤ b.2.2) : (insertById e l).Pairwise fun a b => a.2.2 ≤ b.2.2 := by
  induction l with
  | nil => simp [insertById]
  | cons f fs ih =>
    unfold insertById
    rw [List.pairwise_cons] at h
    split
    next he =>
      rw [List.pairwise_cons, List.pairwise_cons]
      refine ⟨?_, h⟩
      intro b hb
      simp only [List.mem_cons] at hb
      rcases hb with rfl | hb
      · exact he
      · exact Nat.le_trans he (h.1 b hb)
    next he =>
      rw [List.pairwise_cons]
      refine ⟨?_, ih h.2⟩
      intro b hb
      have := (insertById_perm e fs).mem_iff.1 hb
      simp only [List.mem_cons] at this
      rcases this with rfl | hb
      · omega
      · exact h.1 b hb

theorem sortById_sorted (l : List (K × V × Nat)) : (sortById l).Pairwise fun a b => a.2.2 ≤ b.2.2 := by
  induction l with
  | nil => simp [sortById]
  | cons e l ih => exact insertById_sorted e ih

/-- The sorted identifiers are 0, 1, 2, ... -/
theorem sortById_ids {m : IdMap K V} (h : m.Wf) :
    (sortById m.map).map (·.2.2) = List.range m.len := by
  have hp : ((sortById m.map).map (·.2.2)).Perm (List.range m.len) := by
    refine ((sortById_perm m.map).map _).trans ?_
    refine (List.subperm_of_subset h.ids ?_).perm_of_length_le (by simp [len])
    intro x hx
    obtain ⟨e, he, rfl⟩ := List.mem_map.1 hx
    exact List.mem_range.2 (h.lt e he)
  refine List.Perm.eq_of_pairwise (le := fun a b => a ≤ b) ?_ ?_ ?_ hp
  · intro a b _ _ h1 h2; omega
  · rw [List.pairwise_map]; exact sortById_sorted _
  · exact List.pairwise_lt_range.imp fun h => Nat.le_of_lt h

theorem keys_length {m : IdMap K V} : m.keys.length = m.len := by
  unfold keys len
  simpa using (sortById_perm m.map).length_eq

/-- The list of keys has at position `id` the key with that identifier. -/
theorem keys_getElem? {m : IdMap K V} (h : m.Wf) {k : K} {id : Nat} :
    m.keys[id]? = some k ↔ ∃ v, m.get? k = some (v, id) := by
  have hs := sortById_ids h
  unfold keys
  simp only [List.getElem?_map, Option.map_eq_some_iff, Prod.exists]
  constructor
  · rintro ⟨a, v, i, hi, rfl⟩
    have h1 : ((sortById m.map).map (·.2.2))[id]? = some i := by simp [hi]
    rw [hs] at h1
    have hlt : id < m.len := by
      rcases Nat.lt_or_ge id m.len with h' | h'
      · exact h'
      · rw [List.getElem?_eq_none (by simpa using h')] at h1; simp at h1
    rw [List.getElem?_range hlt] at h1
    simp at h1
    subst h1
    exact ⟨v, (get?_eq_some h).2 ((sortById_perm m.map).mem_iff.1 (List.mem_of_getElem? hi))⟩
  · rintro ⟨v, hv⟩
    have hm := (sortById_perm m.map).mem_iff.2 ((get?_eq_some h).1 hv)
    obtain ⟨j, hj⟩ := List.mem_iff_getElem?.1 hm
    have h1 : ((sortById m.map).map (·.2.2))[j]? = some id := by simp [hj]
    rw [hs] at h1
    have hlt : j < m.len := by
      rcases Nat.lt_or_ge j m.len with h' | h'
      · exact h'
      · rw [List.getElem?_eq_none (by simpa using h')] at h1; simp at h1
    rw [List.getElem?_range hlt] at h1
    simp at h1
    subst h1
    exact ⟨k, v, j, hj, rfl⟩

theorem keys_nodup {m : IdMap K V} (h : m.Wf) : m.keys.Nodup := by
  unfold keys
  have := h.keys
  unfold FMap.Wf at this
  exact ((sortById_perm m.map).map (fun e => e.1)).nodup_iff.2 this

/-! ## Extension -/

/-- `m'` has all the keys of `m` with the same values and identifiers. -/
structure Ext (m m' : IdMap K V) : Prop where
  wf : m.Wf → m'.Wf
  len : m.len ≤ m'.len
  ids : ∀ k v id, m.get? k = some (v, id) → m'.get? k = some (v, id)

theorem Ext.refl (m : IdMap K V) : m.Ext m := ⟨id, Nat.le_refl _, fun _ _ _ h => h⟩

theorem Ext.trans {a b c : IdMap K V} (h1 : a.Ext b) (h2 : b.Ext c) : a.Ext c :=
  ⟨fun h => h2.wf (h1.wf h), Nat.le_trans h1.len h2.len, fun k v id h =>
    h2.ids k v id (h1.ids k v id h)⟩

theorem ext_insert_new {m : IdMap K V} {k : K} {v : V} (hk : m.get? k = none) :
    m.Ext ⟨(k, v, m.len) :: m.map⟩ := by
  refine ⟨fun h => wf_insert_new h hk, by rw [len_insert_new]; omega, ?_⟩
  intro k' v' id h
  rw [get?_insert_new]
  by_cases h' : k' = k
  · subst h'; rw [hk] at h; simp at h
  · simp [h', h]

theorem Ext.keys {m m' : IdMap K V} (h : m.Ext m') (hw : m.Wf) : m.keys <+: m'.keys := by
  rw [List.prefix_iff_eq_take]
  apply List.ext_getElem?
  intro i
  rw [List.getElem?_take]
  split
  next hi =>
    rw [List.getElem?_eq_getElem hi]
    symm
    obtain ⟨v, hv⟩ := (keys_getElem? hw).1 (List.getElem?_eq_getElem hi)
    exact (keys_getElem? (h.wf hw)).2 ⟨v, h.ids _ _ _ hv⟩
  next hi => exact List.getElem?_eq_none (by omega)

end IdMap

end EB
