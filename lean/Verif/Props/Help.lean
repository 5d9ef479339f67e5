import Verif.Spec.Help
import Verif.Props.Files
import Verif.Lemmas.Ids
import Verif.Lemmas.Gpio
import Mathlib.Data.List.Nodup
/-!
# C79: `HELP` finds the topic that is asked for
-/

namespace EB

open Spec

theorem symKey_capitals (s : Str) : symKey s = capitals s := List.map_congr_left fun c _ => Wire.upper_same c

theorem helpName_shown (i : HelpItem) : helpName i = shownName i := by
  unfold helpName shownName
  cases i.returns with
  | none => simp
  | some t => cases t <;> rfl

theorem capitals_shown {i : HelpItem} (h : capitals i.name = i.name) : capitals (shownName i) = shownName i := by
  unfold shownName
  unfold capitals at *
  rw [List.map_append, h]
  congr 1
  cases i.returns with
  | none => rfl
  | some t => cases t <;> decide

theorem shown_name {i : HelpItem} (h : ∀ c ∈ i.name, c ∉ ['?', '#', '%', '$']) :
    (shownName i).filter (fun c => decide (c ∉ ['?', '#', '%', '$'])) = i.name := by
  unfold shownName
  rw [List.filter_append, List.filter_eq_self.2 (by simpa using h)]
  cases i.returns with
  | none => simp
  | some t => cases t <;> simp

theorem lex_asymm : ∀ {a b : Str}, List.Lex (· < ·) a b → List.Lex (· < ·) b a → False
  | _, _, .rel h, .rel h' => absurd h' (by simp only [Char.lt_def] at *; exact Nat.lt_asymm h)
  | _, _, .rel h, .cons _ => absurd h (by simp)
  | _, _, .cons _, .rel h => absurd h (by simp)
  | _, _, .cons h, .cons h' => lex_asymm h h'

theorem lex_irrefl {a : Str} (h : List.Lex (· < ·) a a) : False := lex_asymm h h

theorem dictionary_nodup {l : List Str} (h : Dictionary l) : l.Nodup :=
  h.imp fun h e => by subst e; exact lex_irrefl h

/-- A dictionary is known when its entries are. -/
theorem dictionary_unique {V : Type} {l l' : List (Str × V)} (h : Dictionary (l.map (·.1))) (h' : Dictionary (l'.map (·.1)))
    (hm : ∀ e, e ∈ l ↔ e ∈ l') : l = l' := by
  have n : l.Nodup := List.Nodup.of_map _ (dictionary_nodup h)
  have n' : l'.Nodup := List.Nodup.of_map _ (dictionary_nodup h')
  have hp := (List.perm_ext_iff_of_nodup n n').2 hm
  exact hp.eq_of_pairwise (le := fun a b => List.Lex (· < ·) a.1 b.1) (fun a b _ _ h1 h2 => (lex_asymm h1 h2).elim)
    (List.pairwise_map.1 h) (List.pairwise_map.1 h')

theorem insert_fresh {V : Type} {m : FMap Str V} {k : Str} {v : V} (h : k ∉ m.map (·.1)) : m.insert k v = (k, v) :: m := by
  unfold FMap.insert
  rw [FMap.erase_eq_self]
  rw [FMap.get?_none_iff]
  rintro e he rfl
  exact h (List.mem_map.2 ⟨e, he, rfl⟩)

theorem insert_all {A V : Type} (f : A → Str) (g : A → V) (l : List A) : ∀ {m : FMap Str V},
    (l.map f).Nodup → (∀ a ∈ l, f a ∉ m.map (·.1)) →
    l.foldl (fun m a => FMap.insert m (f a) (g a)) m = (l.map fun a => (f a, g a)).reverse ++ m := by
  induction l with
  | nil => simp
  | cons a l ih =>
    intro m hn hm
    rw [List.map_cons, List.nodup_cons] at hn
    rw [List.foldl_cons, insert_fresh (hm a (by simp)), ih hn.2]
    · simp
    · intro b hb
      rw [List.map_cons, List.mem_cons, not_or]
      exact ⟨fun e => hn.1 (List.mem_map.2 ⟨b, hb, e⟩), hm b (by simp [hb])⟩

theorem indexItems_eq (l : List HelpItem) : ∀ {m : FMap Str Str}, (l.map helpName).Nodup → (∀ a ∈ l, helpName a ∉ m.map (·.1)) →
    indexItems m l = some ((l.map fun a => (helpName a, a.blurb)).reverse ++ m) := by
  induction l with
  | nil => simp [indexItems]
  | cons a l ih =>
    intro m hn hm
    rw [List.map_cons, List.nodup_cons] at hn
    have h0 : m.get? (helpName a) = none := by
      rw [FMap.get?_none_iff]
      intro e he e'
      exact hm a (by simp) (List.mem_map.2 ⟨e, he, e'⟩)
    rw [indexItems, h0]
    simp only
    rw [insert_fresh (hm a (by simp)), ih hn.2]
    · simp
    · intro b hb
      rw [List.map_cons, List.mem_cons, not_or]
      exact ⟨fun e => hn.1 (List.mem_map.2 ⟨b, hb, e⟩), hm b (by simp [hb])⟩

/-- The categories. -/
theorem groups (cs : List HelpItem) : FMap.Wf (cs.foldl addCategory []) ∧
    ∀ t, FMap.get? (cs.foldl addCategory []) t =
      if cs.filter (fun i => decide (i.category.1 = t)) = [] then none else some (cs.filter fun i => decide (i.category.1 = t)) := by
  induction cs using List.reverseRecOn with
  | nil => exact ⟨List.nodup_nil, fun t => rfl⟩
  | append_singleton cs i ih =>
    rw [List.foldl_append, List.foldl_cons, List.foldl_nil]
    generalize cs.foldl addCategory [] = m at ih ⊢
    refine ⟨FMap.wf_insert ih.1 _ _, fun t => ?_⟩
    unfold addCategory
    rw [FMap.get?_insert, List.filter_append, ih.2, ih.2]
    by_cases h : t = i.category.1
    · subst h
      rw [if_pos rfl]
      by_cases h' : cs.filter (fun j => decide (j.category.1 = i.category.1)) = []
      · simp [h']
      · simp [h']
    · rw [if_neg h]
      have : ([i] : List HelpItem).filter (fun j => decide (j.category.1 = t)) = [] := by simp [Ne.symm h]
      rw [this, List.append_nil]

theorem wf_all {A V : Type} (f : A → Str) (g : A → V) (l : List A) : ∀ {m : FMap Str V}, m.Wf →
    FMap.Wf (l.foldl (fun m a => FMap.insert m (f a) (g a)) m) := by
  induction l with
  | nil => exact fun h => h
  | cons a l ih => exact fun h => ih (FMap.wf_insert h _ _)

/-- The topic of a category. -/
def categoryEntry (c : Str × List HelpItem) : Str × Topic :=
  (symKey c.1, .category c.1 (match c.2 with | [] => [] | i :: _ => i.category.1 :: i.category.2)
    (inOrder ((c.2.map fun a => (helpName a, a.blurb)).reverse ++ [])))

theorem addCategories_cons {t : FMap Str Topic} {name : Str} {i : HelpItem} {items : List HelpItem} {G : FMap Str (List HelpItem)}
    {index : FMap Str Str} (h : callablesToIndex (i :: items) = some index) :
    addCategories t ((name, i :: items) :: G) =
      addCategories (t.insert (symKey name) (.category name (i.category.1 :: i.category.2) index)) G := by
  simp [addCategories, h]

theorem addCategories_eq (G : FMap Str (List HelpItem)) : ∀ {t : FMap Str Topic}, t.Wf → (G.map fun c => symKey c.1).Nodup →
    (∀ c ∈ G, c.2 ≠ [] ∧ (c.2.map helpName).Nodup ∧ symKey c.1 ∉ t.map (·.1)) →
    ∃ T, addCategories t G = some T ∧ T.Wf ∧ ∀ e, e ∈ T ↔ e ∈ G.map categoryEntry ∨ e ∈ t := by
  induction G with
  | nil => exact fun h _ _ => ⟨_, rfl, h, by simp⟩
  | cons c G ih =>
    intro t hw hn hc
    rw [List.map_cons, List.nodup_cons] at hn
    obtain ⟨name, items⟩ := c
    obtain ⟨h1, h2, h3⟩ := hc _ (List.mem_cons_self ..)
    cases items with
    | nil => exact absurd rfl h1
    | cons i items =>
      simp only at h2 h3
      have e1 : callablesToIndex (i :: items) = some (inOrder (((i :: items).map fun a => (helpName a, a.blurb)).reverse ++ [])) := by
        unfold callablesToIndex
        rw [indexItems_eq _ h2 (by simp)]
        rfl
      rw [addCategories_cons e1]
      obtain ⟨T, hT, hW, hM⟩ := ih (t := t.insert (symKey name) (.category name (i.category.1 :: i.category.2)
          (inOrder (((i :: items).map fun a => (helpName a, a.blurb)).reverse ++ [])))) (FMap.wf_insert hw _ _) hn.2 (by
        intro c hc'
        obtain ⟨g1, g2, g3⟩ := hc c (List.mem_cons_of_mem _ hc')
        refine ⟨g1, g2, ?_⟩
        rw [insert_fresh h3, List.map_cons, List.mem_cons, not_or]
        exact ⟨fun e => hn.1 (List.mem_map.2 ⟨c, hc', e⟩), g3⟩)
      refine ⟨T, hT, hW, fun e => ?_⟩
      have ec : categoryEntry (name, i :: items) = (symKey name, .category name (i.category.1 :: i.category.2)
          (inOrder (((i :: items).map fun a => (helpName a, a.blurb)).reverse ++ []))) := rfl
      rw [hM, insert_fresh h3, List.mem_cons, ← ec, List.map_cons (f := categoryEntry), List.mem_cons]
      tauto

theorem index_inOrder {l : List (Str × Str)} {P : Str → Str → Prop} (hw : FMap.Wf l) (h : ∀ n b, (n, b) ∈ l ↔ P n b) :
    IndexOf P (inOrder l) :=
  ⟨inOrder_dictionary hw, fun n b => by rw [(inOrder_perm l).mem_iff, h]⟩

theorem index_unique {P : Str → Str → Prop} {l l' : List (Str × Str)} (h : IndexOf P l) (h' : IndexOf P l') : l = l' :=
  dictionary_unique h.1 h'.1 fun e => (h.2 e.1 e.2).trans (h'.2 e.1 e.2).symm

/-- The trie of the topics holds the topics. -/
theorem topics_mem {lang : List HelpSection} {cs : List HelpItem} (H : Manual lang cs)
    {shuffle : FMap Str (List HelpItem) → FMap Str (List HelpItem)} (hs : ∀ l, (shuffle l).Perm l) :
    ∃ T, topicsNew lang cs shuffle = some T ∧ T.Wf ∧ ∀ k v, (k, v) ∈ T ↔ IsTopic lang cs k v := by
  have hname : ∀ i ∈ cs, symKey (helpName i) = shownName i := fun i hi => by
    rw [symKey_capitals, helpName_shown, capitals_shown (H.words i hi).1]
  have hnodup : (cs.map shownName).Nodup := by
    have e : (cs.map shownName).map (fun s => s.filter fun c => decide (c ∉ ['?', '#', '%', '$'])) = cs.map (·.name) := by
      rw [List.map_map]
      exact List.map_congr_left fun i hi => shown_name (H.words i hi).2
    exact List.Nodup.of_map _ (e ▸ H.names)
  have href : symKey "Language reference".toList = reference := by decide
  have htitles : (lang.map (·.title)).Nodup := by
    have e : lang.map (fun s => capitals s.title) = (lang.map (·.title)).map capitals := by rw [List.map_map]; rfl
    exact List.Nodup.of_map _ (e ▸ H.sections)
  have e1 := insert_all (fun s : HelpSection => symKey s.title) (fun s => Topic.language s) lang (m := [])
    (by simpa only [symKey_capitals] using H.sections) (by simp)
  have e2 := insert_all (fun s : HelpSection => s.title) (fun s => s.first) lang (m := []) htitles (by simp)
  have w1 := wf_all (fun s : HelpSection => symKey s.title) (fun s => Topic.language s) lang (m := []) List.nodup_nil
  have w2 := wf_all (fun s : HelpSection => s.title) (fun s => s.first) lang (m := []) List.nodup_nil
  unfold topicsNew
  simp only
  have hindex := index_inOrder (P := fun n b => ∃ s ∈ lang, s.title = n ∧ s.first = b) w2 (fun n b => by
    rw [e2]; simp)
  generalize inOrder (lang.foldl (fun m s => FMap.insert m s.title s.first) []) = index at hindex ⊢
  have hf : symKey "Language reference".toList ∉
      (lang.foldl (fun m s => FMap.insert m (symKey s.title) (Topic.language s)) ([] : FMap Str Topic)).map (·.1) := by
    rw [e1, href]
    simp only [List.append_nil, List.map_reverse, List.map_map, List.mem_reverse, List.mem_map, Function.comp, not_exists, not_and]
    intro s hs'
    rw [symKey_capitals]
    exact (H.apart s hs').1
  have w3 := FMap.wf_insert w1 (symKey "Language reference".toList)
    (.category "Language reference".toList ["General language topics".toList] index)
  rw [insert_fresh hf] at w3 ⊢
  generalize ht : ((symKey "Language reference".toList, Topic.category "Language reference".toList ["General language topics".toList] index) ::
    lang.foldl (fun m s => FMap.insert m (symKey s.title) (Topic.language s)) ([] : FMap Str Topic)) = t2 at w3 ⊢
  have m2 : ∀ e, e ∈ t2 ↔ e = (reference, Topic.category "Language reference".toList ["General language topics".toList] index) ∨
      ∃ s ∈ lang, (capitals s.title, Topic.language s) = e := by
    intro e
    rw [← ht, e1, href, List.mem_cons]
    simp [symKey_capitals]
  have k2 : ∀ k, k ∈ t2.map (·.1) → k = reference ∨ ∃ s ∈ lang, capitals s.title = k := by
    intro k hk
    obtain ⟨e, he, rfl⟩ := List.mem_map.1 hk
    rcases (m2 e).1 he with rfl | ⟨s, h, rfl⟩
    · exact .inl rfl
    · exact .inr ⟨s, h, rfl⟩
  have hf3 : ∀ a ∈ cs, symKey (helpName a) ∉ t2.map (·.1) := by
    intro a ha hk
    rw [hname a ha] at hk
    rcases k2 _ hk with h | ⟨s, h, e⟩
    · exact (H.apart' a ha).1 h
    · exact ((H.apart s h).2 a ha).1 e
  have e3 := insert_all (fun i => symKey (helpName i)) (fun i => Topic.callable (helpName i) i) cs (m := t2)
    (by rw [List.map_congr_left hname]; exact hnodup) hf3
  have w4 := wf_all (fun i => symKey (helpName i)) (fun i => Topic.callable (helpName i) i) cs w3
  generalize cs.foldl (fun m i => FMap.insert m (symKey (helpName i)) (Topic.callable (helpName i) i)) t2 = t3 at e3 w4 ⊢
  have m3 : ∀ e, e ∈ t3 ↔ (∃ i ∈ cs, (shownName i, Topic.callable (shownName i) i) = e) ∨ e ∈ t2 := by
    intro e
    rw [e3, List.mem_append, List.mem_reverse, List.mem_map]
    constructor
    · rintro (⟨i, hi, rfl⟩ | h)
      · exact .inl ⟨i, hi, by rw [hname i hi, helpName_shown]⟩
      · exact .inr h
    · rintro (⟨i, hi, rfl⟩ | h)
      · exact .inl ⟨i, hi, by rw [hname i hi, helpName_shown]⟩
      · exact .inr h
  obtain ⟨gw, gm⟩ := groups cs
  have hg : ∀ c, c ∈ shuffle (cs.foldl addCategory []) ↔ c.2 = cs.filter (fun i => decide (i.category.1 = c.1)) ∧ c.2 ≠ [] := by
    rintro ⟨t, l⟩
    rw [(hs _).mem_iff]
    constructor
    · intro h
      have := FMap.get?_of_mem gw h
      rw [gm] at this
      split at this
      · exact absurd this (by simp)
      · next h' => cases this; exact ⟨rfl, h'⟩
    · rintro ⟨h1, h2⟩
      simp only at h1 h2
      apply FMap.mem_of_get?
      rw [gm, ← h1, if_neg h2]
  have hin : ∀ c, c ∈ shuffle (cs.foldl addCategory []) → ∃ i ∈ cs, i.category.1 = c.1 := by
    intro c hc
    obtain ⟨h1, h2⟩ := (hg c).1 hc
    obtain ⟨i, hi⟩ := List.exists_mem_of_ne_nil _ h2
    rw [h1, List.mem_filter] at hi
    exact ⟨i, hi.1, of_decide_eq_true hi.2⟩
  have hkeys : ((shuffle (cs.foldl addCategory [])).map fun c => symKey c.1).Nodup := by
    have : FMap.Wf (shuffle (cs.foldl addCategory [])) := ((hs _).map Prod.fst).nodup_iff.2 gw
    have hp : (shuffle (cs.foldl addCategory [])).Pairwise fun a b => a.1 ≠ b.1 := List.pairwise_map.1 this
    refine List.pairwise_map.2 (hp.imp_of_mem fun {a b} ha hb h e => ?_)
    obtain ⟨i, hi, ei⟩ := hin a ha
    obtain ⟨j, hj, ej⟩ := hin b hb
    rw [symKey_capitals, symKey_capitals, ← ei, ← ej] at e
    exact h (by rw [← ei, ← ej, H.categories i hi j hj e])
  obtain ⟨T, hT, hW, hM⟩ := addCategories_eq (shuffle (cs.foldl addCategory [])) w4 hkeys (by
    intro c hc
    obtain ⟨h1, h2⟩ := (hg c).1 hc
    refine ⟨h2, ?_, ?_⟩
    · rw [h1]
      have : (cs.map helpName) = cs.map shownName := List.map_congr_left fun i _ => helpName_shown i
      exact (this ▸ hnodup).sublist (List.filter_sublist.map _)
    · intro hk
      obtain ⟨i, hi, ei⟩ := hin c hc
      rw [symKey_capitals, ← ei] at hk
      obtain ⟨e, he, ek⟩ := List.mem_map.1 hk
      rcases (m3 e).1 he with ⟨j, hj, rfl⟩ | h
      · exact (H.apart' j hj).2.2 i hi ek
      · rcases k2 _ (List.mem_map.2 ⟨e, h, ek⟩) with h | ⟨s, h, e⟩
        · exact (H.apart' i hi).2.1 h
        · exact ((H.apart s h).2 i hi).2 e)
  refine ⟨T, hT, hW, fun k v => ?_⟩
  rw [hM, m3, m2]
  -- the entry of a category
  have hcat : ∀ i ∈ cs, ∀ l, l = cs.filter (fun j => decide (j.category.1 = i.category.1)) →
      ∃ index, categoryEntry (i.category.1, l) =
        (capitals i.category.1, .category i.category.1 (i.category.1 :: i.category.2) index) ∧
        IndexOf (fun n b => ∃ j ∈ cs, j.category = i.category ∧ shownName j = n ∧ j.blurb = b) index := by
    intro i hi l hl
    have hcs : ∀ j, j ∈ l ↔ j ∈ cs ∧ j.category = i.category := by
      intro j
      rw [hl, List.mem_filter, decide_eq_true_iff]
      constructor
      · rintro ⟨h, e⟩; exact ⟨h, H.categories j h i hi (by rw [e])⟩
      · rintro ⟨h, e⟩; exact ⟨h, by rw [e]⟩
    refine ⟨inOrder ((l.map fun a => (helpName a, a.blurb)).reverse ++ []), ?_, ?_⟩
    · have : i ∈ l := (hcs i).2 ⟨hi, rfl⟩
      unfold categoryEntry
      cases l with
      | nil => simp at this
      | cons j l =>
        have := ((hcs j).1 (List.mem_cons_self ..)).2
        simp only [this, symKey_capitals]
    · refine index_inOrder ?_ fun n b => ?_
      · unfold FMap.Wf
        rw [List.append_nil, List.map_reverse, List.nodup_reverse, List.map_map]
        have : l.map ((fun e => e.1) ∘ fun a => (helpName a, a.blurb)) = l.map shownName :=
          List.map_congr_left fun i _ => helpName_shown i
        rw [this, hl]
        exact hnodup.sublist (List.filter_sublist.map _)
      · simp only [List.append_nil, List.mem_reverse, List.mem_map, Prod.mk.injEq, helpName_shown]
        constructor
        · rintro ⟨j, hj, e⟩; exact ⟨j, ((hcs j).1 hj).1, ((hcs j).1 hj).2, e⟩
        · rintro ⟨j, hj, e, e'⟩; exact ⟨j, (hcs j).2 ⟨hj, e⟩, e'⟩
  constructor
  · rintro (h | ⟨i, hi, e⟩ | e | ⟨s, h, e⟩)
    · obtain ⟨⟨t, l⟩, hc, e⟩ := List.mem_map.1 h
      obtain ⟨i, hi, rfl⟩ := hin _ hc
      obtain ⟨index, e', hx⟩ := hcat i hi l ((hg _).1 hc).1
      rw [e'] at e
      cases e
      exact .category hi hx
    · cases e; exact .callable hi
    · cases e; exact .reference hindex
    · cases e; exact .language h
  · intro h
    cases h with
    | language h => exact .inr (.inr (.inr ⟨_, h, rfl⟩))
    | reference h => exact .inr (.inr (.inl (by rw [index_unique h hindex])))
    | callable h => exact .inr (.inl ⟨_, h, rfl⟩)
    | @category i index hi h =>
      refine .inl (List.mem_map.2 ⟨(i.category.1, cs.filter (fun j => decide (j.category.1 = i.category.1))), (hg _).2 ⟨rfl, ?_⟩, ?_⟩)
      · exact List.ne_nil_of_mem (List.mem_filter.2 ⟨hi, by simp⟩)
      · obtain ⟨index', e', hx⟩ := hcat i hi _ rfl
        rw [e', index_unique h hx]

/-- C79: `HELP` with a text shows the topic of that name, in letters of any case; if there is none, it shows the only topic whose name begins
with the text; if several do, it fails and gives the names of all of them in order; and if none does, it says that there is no such topic.  The
topics are the sections of the language reference, the callables and the categories with their indices. -/
theorem C79_find {lang : List HelpSection} {cs : List HelpItem} (H : Manual lang cs)
    {shuffle : FMap Str (List HelpItem) → FMap Str (List HelpItem)} (hs : ∀ l, (shuffle l).Perm l) (text : Str) :
    ∃ T, topicsNew lang cs shuffle = some T ∧
      (∀ topic, IsTopic lang cs (capitals text) topic → helpFind T text = .shown topic) ∧
      ((∀ topic, ¬ IsTopic lang cs (capitals text) topic) →
        ∃ names, Dictionary names ∧ (∀ k, k ∈ names ↔ (∃ more, k = capitals text ++ more) ∧ ∃ topic, IsTopic lang cs k topic) ∧
          (names = [] → helpFind T text = .unknown) ∧
          (∀ k, names = [k] → ∃ topic, IsTopic lang cs k topic ∧ helpFind T text = .shown topic) ∧
          (2 ≤ names.length → helpFind T text = .ambiguous names)) := by
  obtain ⟨T, hT, hW, hM⟩ := topics_mem H hs
  refine ⟨T, hT, fun topic h => ?_, fun h => ?_⟩
  · unfold helpFind
    simp only
    rw [symKey_capitals, FMap.get?_of_mem hW ((hM _ _).2 h)]
  · have h0 : T.get? (capitals text) = none := by
      cases e : T.get? (capitals text) with
      | none => rfl
      | some v => exact absurd ((hM _ _).1 (FMap.mem_of_get? e)) (h v)
    have hw : FMap.Wf (T.filter fun e => (capitals text).isPrefixOf e.1) := List.Nodup.sublist (List.filter_sublist.map _) hW
    have hm : ∀ e, e ∈ inOrder (T.filter fun e => (capitals text).isPrefixOf e.1) ↔
        (∃ more, e.1 = capitals text ++ more) ∧ IsTopic lang cs e.1 e.2 := by
      intro e
      rw [(inOrder_perm _).mem_iff, List.mem_filter, List.isPrefixOf_iff_prefix, hM e.1 e.2 |>.symm, and_comm]
      constructor
      · rintro ⟨⟨m, e1⟩, e2⟩; exact ⟨⟨m, e1.symm⟩, e2⟩
      · rintro ⟨⟨m, e1⟩, e2⟩; exact ⟨⟨m, e1.symm⟩, e2⟩
    refine ⟨(inOrder (T.filter fun e => (capitals text).isPrefixOf e.1)).map (·.1), inOrder_dictionary hw, fun k => ?_, ?_, ?_, ?_⟩
    · rw [List.mem_map]
      constructor
      · rintro ⟨e, he, rfl⟩
        exact ⟨((hm e).1 he).1, _, ((hm e).1 he).2⟩
      · rintro ⟨h1, v, h2⟩
        exact ⟨(k, v), (hm (k, v)).2 ⟨h1, h2⟩, rfl⟩
    all_goals
      unfold helpFind
      simp only
      rw [symKey_capitals, h0]
      simp only
      generalize inOrder (T.filter fun e => (capitals text).isPrefixOf e.1) = es at hm ⊢
    · intro e
      rw [List.map_eq_nil_iff] at e
      rw [e]
    · intro k e
      match es, e with
      | [e0], e =>
        cases e
        exact ⟨e0.2, ((hm e0).1 (by simp)).2, rfl⟩
    · intro e
      match es, e with
      | _ :: _ :: _, _ => rfl

/-- C79: every command and every function is found under its name, in letters of any case, and under the title of its category there is a page
that lists all of the category and nothing else. -/
theorem C79_callables {lang : List HelpSection} {cs : List HelpItem} (H : Manual lang cs)
    {shuffle : FMap Str (List HelpItem) → FMap Str (List HelpItem)} (hs : ∀ l, (shuffle l).Perm l) :
    ∃ T, topicsNew lang cs shuffle = some T ∧ ∀ i ∈ cs, ∀ text,
      (capitals text = capitals (shownName i) → helpFind T text = .shown (.callable (shownName i) i)) ∧
      (capitals text = capitals i.category.1 → ∃ index,
        IndexOf (fun n b => ∃ j ∈ cs, j.category = i.category ∧ shownName j = n ∧ j.blurb = b) index ∧
        helpFind T text = .shown (.category i.category.1 (i.category.1 :: i.category.2) index)) := by
  obtain ⟨T, hT, hW, hM⟩ := topics_mem H hs
  refine ⟨T, hT, fun i hi text => ⟨fun h => ?_, fun h => ?_⟩⟩
  · unfold helpFind
    simp only
    rw [symKey_capitals, h, capitals_shown (H.words i hi).1, FMap.get?_of_mem hW ((hM _ _).2 (.callable hi))]
  · have hw : FMap.Wf ((cs.filter fun j => decide (j.category = i.category)).map fun j => (shownName j, j.blurb)) := by
      unfold FMap.Wf
      rw [List.map_map]
      have e : ((cs.filter fun j => decide (j.category = i.category)).map shownName).map
          (fun s => s.filter fun c => decide (c ∉ ['?', '#', '%', '$'])) =
          (cs.filter fun j => decide (j.category = i.category)).map (·.name) := by
        rw [List.map_map]
        exact List.map_congr_left fun j hj => shown_name (H.words j (List.mem_filter.1 hj).1).2
      exact List.Nodup.of_map _ (e ▸ H.names.sublist (List.filter_sublist.map _))
    have hx := index_inOrder (P := fun n b => ∃ j ∈ cs, j.category = i.category ∧ shownName j = n ∧ j.blurb = b) hw (fun n b => by
      simp only [List.mem_map, List.mem_filter, decide_eq_true_iff, Prod.mk.injEq]
      constructor
      · rintro ⟨j, ⟨h1, h2⟩, h3⟩; exact ⟨j, h1, h2, h3⟩
      · rintro ⟨j, h1, h2, h3⟩; exact ⟨j, ⟨h1, h2⟩, h3⟩)
    refine ⟨_, hx, ?_⟩
    unfold helpFind
    simp only
    rw [symKey_capitals, h, FMap.get?_of_mem hW ((hM _ _).2 (.category hi hx))]

theorem IsTopic.swap {lang : List HelpSection} {cs cs' : List HelpItem} (hp : cs.Perm cs') {k : Str} {v : Topic}
    (h : IsTopic lang cs k v) : IsTopic lang cs' k v := by
  cases h with
  | language h => exact .language h
  | reference h => exact .reference h
  | callable h => exact .callable (hp.mem_iff.1 h)
  | category hi h =>
    refine .category (hp.mem_iff.1 hi) ⟨h.1, fun n b => ?_⟩
    rw [h.2]
    exact exists_congr fun j => and_congr_left fun _ => hp.mem_iff

/-- C79: what `HELP` shows does not depend on the order in which hash maps give their entries, and the summary lists the language reference and
every category of a callable once, in order. -/
theorem C79_order {lang : List HelpSection} {cs cs' : List HelpItem} (H : Manual lang cs) (H' : Manual lang cs') (hp : cs.Perm cs')
    {shuffle shuffle' : FMap Str (List HelpItem) → FMap Str (List HelpItem)} (hs : ∀ l, (shuffle l).Perm l)
    (hs' : ∀ l, (shuffle' l).Perm l) :
    ∃ T T', topicsNew lang cs shuffle = some T ∧ topicsNew lang cs' shuffle' = some T' ∧
      (∀ text, helpFind T text = helpFind T' text) ∧ helpSummary T = helpSummary T' ∧
      Dictionary ((helpSummary T).map capitals) ∧
      ∀ title, title ∈ helpSummary T ↔ title = "Language reference".toList ∨ ∃ i ∈ cs, i.category.1 = title := by
  obtain ⟨T, hT, hW, hM⟩ := topics_mem H hs
  obtain ⟨T', hT', hW', hM'⟩ := topics_mem H' hs'
  have hmem : ∀ e, e ∈ T ↔ e ∈ T' := fun e =>
    (hM e.1 e.2).trans (Iff.trans ⟨IsTopic.swap hp, IsTopic.swap hp.symm⟩ (hM' e.1 e.2).symm)
  have hord : ∀ p : Str × Topic → Bool, inOrder (T.filter p) = inOrder (T'.filter p) := by
    intro p
    refine dictionary_unique (inOrder_dictionary (List.Nodup.sublist (List.filter_sublist.map _) hW))
      (inOrder_dictionary (List.Nodup.sublist (List.filter_sublist.map _) hW')) fun e => ?_
    rw [(inOrder_perm _).mem_iff, (inOrder_perm _).mem_iff, List.mem_filter, List.mem_filter, hmem]
  have hget : ∀ k, T.get? k = T'.get? k := by
    intro k
    cases e : T.get? k with
    | some v => exact (FMap.get?_of_mem hW' ((hmem _).1 (FMap.mem_of_get? e))).symm
    | none =>
      cases e' : T'.get? k with
      | none => rfl
      | some v => rw [FMap.get?_of_mem hW ((hmem _).2 (FMap.mem_of_get? e'))] at e; exact absurd e (by simp)
  have hall : inOrder T = inOrder T' := by
    have := hord fun _ => true
    simpa using this
  have hmemS : ∀ title, title ∈ helpSummary T ↔ title = "Language reference".toList ∨ ∃ i ∈ cs, i.category.1 = title := by
    intro title
    unfold helpSummary
    rw [List.mem_filterMap]
    constructor
    · rintro ⟨⟨k, v⟩, he, e⟩
      have := (hM _ _).1 ((inOrder_perm T).mem_iff.1 he)
      cases this with
      | language _ => simp at e
      | callable _ => simp at e
      | reference _ => simp only [Option.some.injEq] at e; exact .inl e.symm
      | category hi _ => simp only [Option.some.injEq] at e; exact .inr ⟨_, hi, e⟩
    · rintro (rfl | ⟨i, hi, rfl⟩)
      · have hw : FMap.Wf (lang.map fun s => (s.title, s.first)) := by
          unfold FMap.Wf
          rw [List.map_map]
          have e : lang.map (fun s => capitals s.title) = (lang.map (·.title)).map capitals := by rw [List.map_map]; rfl
          exact List.Nodup.of_map _ (e ▸ H.sections)
        have hx := index_inOrder (P := fun n b => ∃ s ∈ lang, s.title = n ∧ s.first = b) hw (fun n b => by simp)
        exact ⟨_, (inOrder_perm T).mem_iff.2 ((hM _ _).2 (.reference hx)), rfl⟩
      · obtain ⟨T2, hT2, h2⟩ := C79_callables H hs
        obtain rfl : T2 = T := Option.some.inj (hT2.symm.trans hT)
        obtain ⟨index, hx, -⟩ := (h2 i hi i.category.1).2 rfl
        exact ⟨_, (inOrder_perm T2).mem_iff.2 ((hM _ _).2 (.category hi hx)), rfl⟩
  refine ⟨T, T', hT, hT', fun text => ?_, ?_, ?_, hmemS⟩
  · unfold helpFind
    simp only [hget, hord]
  · unfold helpSummary
    rw [hall]
  · have hp' : (inOrder T).Pairwise fun a b => List.Lex (· < ·) a.1 b.1 := List.pairwise_map.1 (inOrder_dictionary hW)
    unfold helpSummary
    refine List.pairwise_map.2 (List.pairwise_filterMap.2 (hp'.imp_of_mem fun {a b} ha hb hlt t ht t' ht' => ?_))
    have ia := (hM _ _).1 ((inOrder_perm T).mem_iff.1 ha)
    have ib := (hM _ _).1 ((inOrder_perm T).mem_iff.1 hb)
    have key : ∀ {k : Str} {v : Topic} {t : Str}, IsTopic lang cs k v →
        (match v with | .category name _ _ => some name | _ => none) = some t → k = capitals t := by
      intro k v t hv hm'
      cases hv with
      | language _ => simp at hm'
      | callable _ => simp at hm'
      | reference _ => simp only [Option.some.injEq] at hm'; rw [← hm']; decide
      | category _ _ => simp only [Option.some.injEq] at hm'; rw [← hm']
    rw [← key ia ht, ← key ib ht']
    exact hlt

/-! ### An example -/

namespace Ex

def helpSections : List HelpSection :=
  [⟨"Types".toList, "Available types".toList, []⟩, ⟨"IF".toList, "Conditional statements".toList, []⟩, ⟨"DO".toList, "Loops".toList, []⟩,
    ⟨"Functions".toList, "User-defined functions".toList, []⟩]

def helpStrings : Str × List Str := ("String and character functions".toList, [])
def helpConsole : Str × List Str := ("Console".toList, ["The EndBASIC console is the display you are seeing".toList])

def helpItems : List HelpItem :=
  [⟨"LEN".toList, some .integer, helpStrings, "Returns the length of the string in expr$.".toList⟩,
    ⟨"CLS".toList, none, helpConsole, "Clears the screen.".toList⟩,
    ⟨"LEFT".toList, some .text, helpStrings, "Returns a given number of characters from the left side.".toList⟩,
    ⟨"COLOR".toList, none, helpConsole, "Sets the foreground and background colors.".toList⟩]

end Ex

set_option maxRecDepth 100000 in
example : Manual Ex.helpSections Ex.helpItems := by
  constructor <;> decide +kernel

/-- What the example is asked. -/
def Ex.askHelp (text : String) : Option HelpFound :=
  (topicsNew Ex.helpSections Ex.helpItems List.reverse).map fun t => helpFind t text.toList

set_option maxRecDepth 100000 in
example : (∀ l, (List.reverse l : FMap Str (List HelpItem)).Perm l) ∧
    Ex.askHelp "le" = some (.ambiguous ["LEFT$".toList, "LEN%".toList]) ∧
    Ex.askHelp "Len" = some (.shown (.callable "LEN%".toList Ex.helpItems[0])) ∧
    Ex.askHelp "con" = some (.shown (.category "Console".toList
      ["Console".toList, "The EndBASIC console is the display you are seeing".toList]
      [("CLS".toList, "Clears the screen.".toList), ("COLOR".toList, "Sets the foreground and background colors.".toList)])) ∧
    Ex.askHelp "x" = some .unknown ∧
    (topicsNew Ex.helpSections Ex.helpItems List.reverse).map helpSummary =
      some ["Console".toList, "Language reference".toList, "String and character functions".toList] := by
  refine ⟨fun l => List.reverse_perm l, ?_⟩
  decide +kernel

end EB
