import Verif.Spec.Help
/-!
# C79: the language reference is read section by section
-/

namespace EB

open Spec

theorem afterEach_skip {p u w : Str} (h : ∀ s, s ≠ [] → s <:+ u → ¬ p <+: s ++ w) : afterEach p (u ++ w) = afterEach p w := by
  induction u with
  | nil => rfl
  | cons c u ih =>
    rw [List.cons_append, afterEach, if_neg, ih fun s hs hu => h s hs (hu.trans (List.suffix_cons c u))]
    rw [List.isPrefixOf_iff_prefix]
    exact h (c :: u) (by simp) (List.suffix_refl _)

theorem splitFirst_skip {p u w : Str} (h : ∀ s, s ≠ [] → s <:+ u → ¬ p <+: s ++ w) :
    splitFirst p (u ++ w) = (splitFirst p w).map fun (a, b) => (u ++ a, b) := by
  induction u with
  | nil => rw [List.nil_append]; cases splitFirst p w <;> rfl
  | cons c u ih =>
    rw [List.cons_append, splitFirst, if_neg, ih fun s hs hu => h s hs (hu.trans (List.suffix_cons c u))]
    · cases splitFirst p w <;> rfl
    · rw [List.isPrefixOf_iff_prefix]
      exact h (c :: u) (by simp) (List.suffix_refl _)

theorem splitFirst_here {p w : Str} (hp : p ≠ []) : splitFirst p (p ++ w) = some ([], w) := by
  cases p with
  | nil => exact absurd rfl hp
  | cons c p =>
    rw [List.cons_append, splitFirst, if_pos]
    · simp
    · rw [List.isPrefixOf_iff_prefix]; exact ⟨w, rfl⟩

/-- The beginning of a section. -/
def sectionMark (crlf : Bool) : Str := if crlf then "\r\n\r\n# ".toList else "\n\n# ".toList
/-- The end of a line. -/
def eolOf (crlf : Bool) : Str := if crlf then "\r\n".toList else "\n".toList

/-- No section begins inside what comes before a section or the end. -/
theorem no_straddle (crlf : Bool) {u w : Str} (hu : ¬ sectionMark crlf <:+: u) (hw : (∃ v, w = sectionMark crlf ++ v) ∨ w = eolOf crlf) :
    ∀ s, s ≠ [] → s <:+ u → ¬ sectionMark crlf <+: s ++ w := by
  intro s hs hsu hp
  by_cases hl : (sectionMark crlf).length ≤ s.length
  · exact hu ((List.IsPrefix.isInfix ((List.prefix_append_right_inj []).1 (by
      simpa using List.prefix_of_prefix_length_le hp (List.prefix_append s w) hl))).trans hsu.isInfix)
  · cases crlf
    · match s, hs, hl with
      | [a], _, _ => rcases hw with ⟨v, rfl⟩ | rfl <;> simp [sectionMark, eolOf] at hp
      | [a, b], _, _ => rcases hw with ⟨v, rfl⟩ | rfl <;> simp [sectionMark, eolOf] at hp
      | [a, b, c], _, _ => rcases hw with ⟨v, rfl⟩ | rfl <;> simp [sectionMark, eolOf] at hp
      | a :: b :: c :: d :: r, _, hl => simp [sectionMark] at hl
    · match s, hs, hl with
      | [a], _, _ => rcases hw with ⟨v, rfl⟩ | rfl <;> simp [sectionMark, eolOf] at hp
      | [a, b], _, _ => rcases hw with ⟨v, rfl⟩ | rfl <;> simp [sectionMark, eolOf] at hp
      | [a, b, c], _, _ => rcases hw with ⟨v, rfl⟩ | rfl <;> simp [sectionMark, eolOf] at hp
      | [a, b, c, d], _, _ => rcases hw with ⟨v, rfl⟩ | rfl <;> simp [sectionMark, eolOf] at hp
      | [a, b, c, d, e], _, _ => rcases hw with ⟨v, rfl⟩ | rfl <;> simp [sectionMark, eolOf] at hp
      | a :: b :: c :: d :: e :: f :: r, _, hl => simp [sectionMark] at hl

/-- The sections and the end of the text. -/
def remaining (crlf : Bool) : List (Str × Str) → Str
  | [] => eolOf crlf
  | s :: ss => sectionMark crlf ++ (s.1 ++ ((eolOf crlf ++ eolOf crlf ++ s.2) ++ remaining crlf ss))

theorem remaining_begins (crlf : Bool) (ss : List (Str × Str)) :
    (∃ v, remaining crlf ss = sectionMark crlf ++ v) ∨ remaining crlf ss = eolOf crlf := by
  cases ss with
  | nil => exact .inr rfl
  | cons s ss => exact .inl ⟨_, rfl⟩

/-- No line ends in a title. -/
theorem title_skip {p u w : Str} (hp : ∃ c q, p = c :: q ∧ c ∉ u) : ∀ s, s ≠ [] → s <:+ u → ¬ p <+: s ++ w := by
  obtain ⟨c, q, rfl, hc⟩ := hp
  intro s hs hu h
  cases s with
  | nil => exact hs rfl
  | cons a s =>
    rw [List.cons_append, List.cons_prefix_cons] at h
    exact hc (h.1 ▸ hu.subset (by simp))

theorem after_mark (crlf : Bool) (v : Str) : afterEach (sectionMark crlf) (sectionMark crlf ++ v) = v :: afterEach (sectionMark crlf) v := by
  cases crlf <;> simp [sectionMark, afterEach, List.isPrefixOf]

theorem sections_read (crlf : Bool) (ss : List (Str × Str)) (ht : ∀ s ∈ ss, '\n' ∉ s.1 ∧ '\r' ∉ s.1)
    (hb : ∀ s ∈ ss, ¬ sectionMark crlf <:+: (eolOf crlf ++ eolOf crlf ++ s.2)) :
    (afterEach (sectionMark crlf) (remaining crlf ss)).mapM (parseSection (eolOf crlf) (sectionMark crlf) (eolOf crlf ++ eolOf crlf)) = some ss := by
  induction ss with
  | nil => cases crlf <;> decide
  | cons s ss ih =>
    have t0 := ht s (List.mem_cons_self ..)
    have b0 := hb s (List.mem_cons_self ..)
    have hm : ∃ c q, sectionMark crlf = c :: q ∧ c ∉ s.1 := by
      cases crlf
      · exact ⟨'\n', _, rfl, t0.1⟩
      · exact ⟨'\r', _, rfl, t0.2⟩
    have he : ∃ c q, eolOf crlf ++ eolOf crlf = c :: q ∧ c ∉ s.1 := by
      cases crlf
      · exact ⟨'\n', _, rfl, t0.1⟩
      · exact ⟨'\r', _, rfl, t0.2⟩
    rw [remaining, after_mark, afterEach_skip (title_skip hm), afterEach_skip (no_straddle crlf b0 (remaining_begins crlf ss))]
    have ih := ih (fun s hs => ht s (List.mem_cons_of_mem _ hs)) (fun s hs => hb s (List.mem_cons_of_mem _ hs))
    have b1 : ¬ sectionMark crlf <:+: s.2 := fun h => b0 (h.trans (List.suffix_append _ _).isInfix)
    have hps : parseSection (eolOf crlf) (sectionMark crlf) (eolOf crlf ++ eolOf crlf)
        (s.1 ++ ((eolOf crlf ++ eolOf crlf ++ s.2) ++ remaining crlf ss)) = some s := by
      unfold parseSection
      rw [splitFirst_skip (title_skip he), List.append_assoc (eolOf crlf ++ eolOf crlf),
        splitFirst_here (by cases crlf <;> decide)]
      simp only [Option.map_some, List.append_nil]
      rw [splitFirst_skip (no_straddle crlf b1 (remaining_begins crlf ss))]
      cases ss with
      | cons t ss =>
        rw [remaining, splitFirst_here (by cases crlf <;> decide)]
        simp
      | nil =>
        have e : splitFirst (sectionMark crlf) (eolOf crlf) = none := by cases crlf <;> decide
        rw [remaining, e]
        simp
    rw [List.mapM_cons, hps, ih]
    rfl

theorem remaining_eq (crlf : Bool) (ss : List (Str × Str)) :
    ss.flatMap (fun s => eolOf crlf ++ eolOf crlf ++ "# ".toList ++ s.1 ++ eolOf crlf ++ eolOf crlf ++ s.2) ++ eolOf crlf =
      remaining crlf ss := by
  induction ss with
  | nil => rfl
  | cons s ss ih =>
    have e : sectionMark crlf = eolOf crlf ++ eolOf crlf ++ "# ".toList := by cases crlf <;> rfl
    rw [remaining, ← ih, e]
    simp

theorem splitFirst_none {p : Str} {c : Char} {q : Str} (hp : p = c :: q) : ∀ {u : Str}, c ∉ u → splitFirst p u = none := by
  intro u h
  have := splitFirst_skip (p := p) (u := u) (w := []) (title_skip ⟨c, q, hp, h⟩)
  rw [List.append_nil] at this
  rw [this]
  rfl

theorem splitFirst_some {p : Str} (hp : p ≠ []) (u : Str) : (splitFirst p (u ++ p)).isSome := by
  induction u with
  | nil =>
    have := splitFirst_here (w := []) hp
    rw [List.append_nil] at this
    rw [List.nil_append, this]; rfl
  | cons c u ih =>
    rw [List.cons_append, splitFirst]
    split
    · rfl
    · rw [Option.isSome_map]; exact ih

/-- C79: the language reference is read as its sections, each with its title and its whole text, whether lines end as in Unix or as in
Windows. -/
theorem C79_reference {eol intro : Str} {sections : List (Str × Str)} (H : GoodText eol intro sections) :
    parseLangReference (referenceText eol intro sections) = some sections := by
  obtain ⟨crlf, rfl⟩ : ∃ crlf, eol = eolOf crlf := by
    rcases H.ends with h | h
    · exact ⟨false, h⟩
    · exact ⟨true, h⟩
  have em : sectionMark crlf = eolOf crlf ++ eolOf crlf ++ "# ".toList := by cases crlf <;> rfl
  have hr : afterEach (sectionMark crlf) (referenceText (eolOf crlf) intro sections) = afterEach (sectionMark crlf) (remaining crlf sections) := by
    unfold referenceText
    rw [List.append_assoc, remaining_eq]
    exact afterEach_skip (no_straddle crlf (em ▸ H.start) (remaining_begins crlf sections))
  have key := sections_read crlf sections H.titles (fun s hs => em ▸ H.bodies s hs)
  rw [← hr] at key
  unfold parseLangReference
  cases crlf with
  | true =>
    have : (splitFirst "\r\n".toList (referenceText (eolOf true) intro sections)).isSome :=
      splitFirst_some (p := "\r\n".toList) (by decide) (intro ++ _)
    rw [if_pos this]
    exact key
  | false =>
    have hn := H.plain rfl
    have h0 : '\r' ∉ referenceText (eolOf false) intro sections := by
      unfold referenceText
      simp only [List.mem_append, List.mem_flatMap, not_or, not_exists, not_and]
      have e : '\r' ∉ eolOf false := by decide
      refine ⟨⟨hn.1, fun s hs => ?_⟩, e⟩
      exact ⟨⟨⟨⟨⟨⟨e, e⟩, by decide⟩, (hn.2 s hs).1⟩, e⟩, e⟩, (hn.2 s hs).2⟩
    have : splitFirst "\r\n".toList (referenceText (eolOf false) intro sections) = none := splitFirst_none rfl h0
    rw [this, if_neg (by simp)]
    exact key

/-- A text with two sections. -/
example : GoodText "\n".toList "The language".toList [("Types".toList, "Available types\n\nThere are several".toList), ("DO".toList, "Loops".toList)] ∧
    referenceText "\n".toList "The language".toList [("Types".toList, "Available types\n\nThere are several".toList), ("DO".toList, "Loops".toList)] =
      "The language\n\n# Types\n\nAvailable types\n\nThere are several\n\n# DO\n\nLoops\n".toList := by
  constructor
  · constructor <;> decide +kernel
  · decide +kernel

end EB
