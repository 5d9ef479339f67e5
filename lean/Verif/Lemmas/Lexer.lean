import Verif.Spec.Lexer
import Mathlib.Tactic.Tauto
/-!
# Lemmas about the lexer
-/

namespace EB
open Spec

/-- The characters of a list of spans. -/
def chars (cs : List CharSpan) : Str := cs.map Prod.fst

@[simp] theorem chars_nil : chars [] = [] := rfl
@[simp] theorem chars_cons (c : CharSpan) (cs : List CharSpan) : chars (c :: cs) = c.1 :: chars cs := rfl
@[simp] theorem chars_append (a b : List CharSpan) : chars (a ++ b) = chars a ++ chars b := by
  simp [chars]

/-! ## ASCII tables -/

theorem ascii_all {P : Char → Prop} [DecidablePred P] (h : ∀ n < 128, P (Char.ofNat n)) (c : Char)
    (hc : c.toNat < 128) : P c := by
  have := h c.toNat hc
  rwa [Char.ofNat_toNat] at this

theorem toUpper_big (c : Char) (h : 128 ≤ c.toNat) : c.toUpper = c := by
  unfold Char.toUpper
  split
  · rename_i h'
    have h2 := h'.2
    exfalso
    have : c.toNat ≤ 122 := h2
    omega
  · rfl

theorem digitOf_eq (c : Char) : digitOf c = (digitVal c).filter (· < 16) := by
  by_cases h : c.toNat < 128
  · revert h
    exact ascii_all (P := fun c => digitOf c = (digitVal c).filter (· < 16)) (by decide +kernel) c
  · have hb : 128 ≤ c.toNat := by omega
    have h1 : digitVal c = none := by
      unfold digitVal
      have hle : ∀ d : Char, d.toNat < 128 → ¬ c ≤ d := by
        intro d hd hcd
        have : c.toNat ≤ d.toNat := hcd
        omega
      rw [if_neg (fun hh => hle '9' (by decide) hh.2), if_neg (fun hh => hle 'z' (by decide) hh.2),
        if_neg (fun hh => hle 'Z' (by decide) hh.2)]
    rw [h1, digitOf, toUpper_big c hb]
    simp only [Option.filter_none, List.findIdx?_eq_none_iff]
    intro x hx
    simp only [beq_eq_false_iff_ne, ne_eq]
    rintro rfl
    have : ∀ y ∈ digitChars, y.toNat < 128 := by decide
    have := this x hx
    omega

theorem isAsciiDigit_iff (c : Char) : isAsciiDigit c = true ↔ ∃ d, digitOf c = some d ∧ d < 10 := by
  by_cases h : c.toNat < 128
  · have : isAsciiDigit c = ((digitOf c).any (· < 10)) := by
      revert h
      exact ascii_all (P := fun c => isAsciiDigit c = ((digitOf c).any (· < 10))) (by decide +kernel) c
    rw [this]
    cases digitOf c <;> simp
  · have h1 : isAsciiDigit c = false := by
      unfold isAsciiDigit
      have : ¬ c ≤ '9' := by
        intro hh
        have : c.toNat ≤ 57 := hh
        omega
      simp [this]
    have h2 : digitOf c = none := by
      rw [digitOf_eq]
      have : digitVal c = none := by
        unfold digitVal
        have hle : ∀ d : Char, d.toNat < 128 → ¬ c ≤ d := by
          intro d hd hcd
          have : c.toNat ≤ d.toNat := hcd
          omega
        rw [if_neg (fun hh => hle '9' (by decide) hh.2), if_neg (fun hh => hle 'z' (by decide) hh.2),
          if_neg (fun hh => hle 'Z' (by decide) hh.2)]
      rw [this]; rfl
    simp [h1, h2]

theorem hexDigit_iff (c : Char) :
    (isAsciiDigit c = true ∨ ('a' ≤ c ∧ c ≤ 'f') ∨ ('A' ≤ c ∧ c ≤ 'F')) ↔ ∃ d, digitOf c = some d := by
  by_cases h : c.toNat < 128
  · have : (isAsciiDigit c || (decide ('a' ≤ c) && decide (c ≤ 'f')) || (decide ('A' ≤ c) && decide (c ≤ 'F'))) =
        (digitOf c).isSome := by
      revert h
      exact ascii_all (P := fun c => (isAsciiDigit c || (decide ('a' ≤ c) && decide (c ≤ 'f')) ||
        (decide ('A' ≤ c) && decide (c ≤ 'F'))) = (digitOf c).isSome) (by decide +kernel) c
    rw [← Option.isSome_iff_exists, ← this]
    simp [or_assoc]
  · have hle : ∀ d : Char, d.toNat < 128 → ¬ c ≤ d := by
      intro d hd hcd
      have : c.toNat ≤ d.toNat := hcd
      omega
    have h2 : digitOf c = none := by
      rw [digitOf_eq]
      have : digitVal c = none := by
        unfold digitVal
        rw [if_neg (fun hh => hle '9' (by decide) hh.2), if_neg (fun hh => hle 'z' (by decide) hh.2),
          if_neg (fun hh => hle 'Z' (by decide) hh.2)]
      rw [this]; rfl
    have h3 := hle '9' (by decide)
    have h4 := hle 'f' (by decide)
    have h5 := hle 'F' (by decide)
    simp [h2, h3, h4, h5, isAsciiDigit]

theorem isSeparator_iff (c : Char) : isSeparator c = true ↔ c ∈ separators := by
  have : separators = ['\n', ':', '(', ')', '\'', '=', '<', '>', ';', ',', '+', '-', '*', '/', '^', ' ', '\t', '\r'] := by
    decide
  simp [isSeparator, isSpace, this, or_assoc]

theorem isSpace_iff (c : Char) : isSpace c = true ↔ c ∈ blanks := by
  have : blanks = [' ', '\t', '\r'] := by decide
  simp [isSpace, this, or_assoc]

theorem isWord_iff (T : TextOps) (c : Char) : isWord T c = true ↔ WordChar T c := by
  simp [isWord, WordChar]

theorem word_not_sep {T : TextOps} (hT : TextOk T) {c : Char} (hc : c ∈ separators) : isWord T c = false := by
  have h1 : ∀ c ∈ separators, c.toNat < 128 ∧ c ≠ '_' ∧ c.isAlphanum = false := by decide
  obtain ⟨ha, hb, hd⟩ := h1 c hc
  simp [isWord, hb, hT.alnum c ha, hd]

/-! ## Numbers in a base -/

theorem valueIn_foldl_ge (base : Nat) (hb : 1 ≤ base) (s : Str) (n : Nat) :
    n ≤ s.foldl (fun n c => n * base + (digitOf c).getD 0) n := by
  induction s generalizing n with
  | nil => exact Nat.le_refl _
  | cons c cs ih =>
    refine Nat.le_trans ?_ (ih _)
    have : n * 1 ≤ n * base := Nat.mul_le_mul_left n hb
    show n ≤ n * base + (digitOf c).getD 0
    omega

theorem parseRadix_ok_iff (limit base : Nat) (h1 : 1 ≤ base) (h16 : base ≤ 16) (s : Str) (acc n : Nat)
    (ha : acc < limit) :
    parseRadix limit base acc s = .ok n ↔
      DigitsIn base s ∧ n = s.foldl (fun n c => n * base + (digitOf c).getD 0) acc ∧ n < limit := by
  induction s generalizing acc with
  | nil =>
    simp only [parseRadix, Except.ok.injEq, List.foldl_nil]
    constructor
    · rintro rfl; exact ⟨by intro c hc; simp at hc, rfl, ha⟩
    · rintro ⟨_, rfl, _⟩; rfl
  | cons c cs ih =>
    simp only [parseRadix, List.foldl_cons]
    have hd := digitOf_eq c
    cases hv : digitVal c with
    | none =>
      rw [hv] at hd
      simp only [reduceCtorEq, false_iff]
      rintro ⟨hdig, _⟩
      obtain ⟨d, h, _⟩ := hdig c (by simp)
      rw [h] at hd; simp at hd
    | some d =>
      rw [hv] at hd
      by_cases hlt : d < base
      · have hd' : digitOf c = some d := by rw [hd]; simp [Option.filter]; omega
        simp only [hlt, if_true, hd', Option.getD_some]
        by_cases hl : acc * base + d < limit
        · rw [if_pos hl, ih _ hl]
          constructor
          · rintro ⟨h1, h2, h3⟩
            refine ⟨?_, h2, h3⟩
            intro x hx
            rcases List.mem_cons.1 hx with rfl | hx
            · exact ⟨d, hd', hlt⟩
            · exact h1 x hx
          · rintro ⟨h1, h2, h3⟩
            exact ⟨fun x hx => h1 x (List.mem_cons_of_mem _ hx), h2, h3⟩
        · rw [if_neg hl]
          simp only [reduceCtorEq, false_iff]
          rintro ⟨_, h2, h3⟩
          have := valueIn_foldl_ge base h1 cs (acc * base + d)
          omega
      · simp only [hlt, if_false, reduceCtorEq, false_iff]
        rintro ⟨hdig, _⟩
        obtain ⟨d', h, hl'⟩ := hdig c (by simp)
        rw [hd] at h
        simp only [Option.filter] at h
        split at h
        · cases h; omega
        · simp at h

/-! ## Completeness: a well-formed token is read as that token -/

theorem consumeText_ok (io : Bool) (d q : CharSpan) (hd : d.1 = '"') (hq : q.1 = '"') {w s : Str}
    (h : TextBody w s) : ∀ (acc : Str) (ws ys : List CharSpan), chars ws = w →
      consumeText io d acc false (ws ++ q :: ys) = some (⟨.text (acc ++ s), d.2⟩, ys) := by
  induction h with
  | nil =>
    intro acc ws ys hw
    have : ws = [] := by simpa [chars] using hw
    subst this
    simp [consumeText, hq, hd]
  | plain h h' _ ih =>
    intro acc ws ys hw
    cases ws with
    | nil => simp at hw
    | cons x xs =>
      simp only [chars_cons, List.cons.injEq] at hw
      obtain ⟨h1, h2⟩ := hw
      simp only [List.cons_append, consumeText, h1, hd, h, h', Bool.false_eq_true, if_false]
      rw [ih _ _ _ h2]
      simp
  | escaped c _ ih =>
    intro acc ws ys hw
    match ws, hw with
    | x :: y :: xs, hw =>
      simp only [chars_cons, List.cons.injEq] at hw
      obtain ⟨h1, h2, h3⟩ := hw
      simp only [List.cons_append, consumeText, h1, h2, Bool.false_eq_true, if_false, if_true]
      rw [ih _ _ _ h3]
      simp
    | [], hw => simp at hw
    | [x], hw => simp at hw

theorem consumeNumber_digits (T : TextOps) (io : Bool) (pos : LineCol) (ds ys : List CharSpan) (s : Str)
    (dot : Bool) (h : DigitsIn 10 (chars ds)) :
    consumeNumber T io pos s dot (ds ++ ys) = consumeNumber T io pos (s ++ chars ds) dot ys := by
  induction ds generalizing s with
  | nil => simp
  | cons x xs ih =>
    have hx : isAsciiDigit x.1 = true := (isAsciiDigit_iff _).2 (h x.1 (by simp))
    have hne : x.1 ≠ '.' := by
      rintro he; rw [he] at hx; exact absurd hx (by decide)
    simp only [List.cons_append, consumeNumber, hne, if_false, hx, if_true, chars_cons]
    rw [ih _ (fun c hc => h c (List.mem_cons_of_mem _ hc))]
    simp

theorem consumeNumber_end (T : TextOps) (pos : LineCol) (ys : List CharSpan) (s : Str) (dot : Bool)
    (h : EndsWord (chars ys)) : consumeNumber T false pos s dot ys = finishNumber T false pos s dot ys := by
  cases ys with
  | nil => rfl
  | cons y ys =>
    have hy : y.1 ∈ separators := h y.1 rfl
    have h1 : ∀ c ∈ separators, c ≠ '.' ∧ isAsciiDigit c = false := by decide
    obtain ⟨ha, hb⟩ := h1 _ hy
    simp only [consumeNumber, ha, if_false, hb, Bool.false_eq_true, (isSeparator_iff _).2 hy, if_true]

theorem consumeInteger_digits (io : Bool) (base : Nat) (pos : LineCol) (ds ys : List CharSpan) (s : Str)
    (h : ∀ c ∈ chars ds, ∃ d, digitOf c = some d) :
    consumeInteger io base pos s (ds ++ ys) = consumeInteger io base pos (s ++ chars ds) ys := by
  induction ds generalizing s with
  | nil => simp
  | cons x xs ih =>
    have hx := (hexDigit_iff x.1).2 (h x.1 (by simp))
    have hne : x.1 ≠ '.' := by
      rintro he; rw [he] at hx; revert hx; decide
    have ih' := ih (s ++ [x.1]) (fun c hc => h c (List.mem_cons_of_mem _ hc))
    simp only [List.cons_append, consumeInteger, hne, if_false, chars_cons]
    by_cases hd : isAsciiDigit x.1 = true
    · rw [if_pos hd, ih']; simp
    · rw [if_neg hd, if_pos (hx.resolve_left hd), ih']; simp

theorem consumeInteger_end (base : Nat) (pos : LineCol) (ys : List CharSpan) (s : Str)
    (h : EndsWord (chars ys)) : consumeInteger false base pos s ys = finishInteger false base pos s ys := by
  cases ys with
  | nil => rfl
  | cons y ys =>
    have hy : y.1 ∈ separators := h y.1 rfl
    have h1 : ∀ c ∈ separators, c ≠ '.' ∧ isAsciiDigit c = false ∧ ¬ (('a' ≤ c ∧ c ≤ 'f') ∨ ('A' ≤ c ∧ c ≤ 'F')) := by
      decide
    obtain ⟨ha, hb, hc⟩ := h1 _ hy
    simp only [consumeInteger, ha, if_false, hb, Bool.false_eq_true, hc, (isSeparator_iff _).2 hy, if_true]

theorem consumeSymbol_word (T : TextOps) (io : Bool) (e pos : LineCol) (ws ys : List CharSpan) (s : Str)
    (h : ∀ c ∈ chars ws, WordChar T c) :
    consumeSymbol T io e pos s (ws ++ ys) = consumeSymbol T io e pos (s ++ chars ws) ys := by
  induction ws generalizing s with
  | nil => simp
  | cons x xs ih =>
    have hx := (isWord_iff T x.1).2 (h x.1 (by simp))
    simp only [List.cons_append, consumeSymbol, hx, if_true, chars_cons]
    rw [ih _ (fun c hc => h c (List.mem_cons_of_mem _ hc))]
    simp

theorem annotation_chars {T : TextOps} (hT : TextOk T) (c : Char) (ty : ExprType)
    (h : annotation (some ty) = [c]) :
    isWord T c = false ∧ isSeparator c = false ∧ annotationOf c = some ty := by
  have key : ∀ c : Char, c.toNat < 128 → c ≠ '_' → c.isAlphanum = false → isWord T c = false := by
    intro c ha hb hd
    simp [isWord, hb, hT.alnum c ha, hd]
  cases ty <;> (simp only [annotation, String.reduceToList, List.cons.injEq, and_true] at h; subst h) <;>
    exact ⟨key _ (by decide) (by decide) (by decide), by decide, by decide⟩

theorem consumeSymbol_end {T : TextOps} (hT : TextOk T) (e pos : LineCol) (as ys : List CharSpan) (s : Str)
    (ty : Option ExprType) (ha : chars as = annotation ty) (h : WordEnd ty (chars ys)) :
    consumeSymbol T false e pos s (as ++ ys) = finishSymbol T false e pos s ty ys := by
  cases ty with
  | none =>
    have : as = [] := by simpa [chars, annotation] using ha
    subst this
    have h := h rfl
    cases ys with
    | nil => rfl
    | cons y ys =>
      have hy : y.1 ∈ separators := h y.1 rfl
      simp only [List.nil_append, consumeSymbol, word_not_sep hT hy, Bool.false_eq_true, if_false,
        (isSeparator_iff _).2 hy, if_true]
  | some t =>
    obtain ⟨x, rfl⟩ : ∃ x, as = [x] := by
      match as, ha with
      | [x], _ => exact ⟨x, rfl⟩
      | [], ha => cases t <;> simp [annotation] at ha
      | _ :: _ :: _, ha => cases t <;> simp [annotation] at ha
    have ha' : annotation (some t) = [x.1] := by rw [← ha]; rfl
    obtain ⟨h1, h2, h3⟩ := annotation_chars hT x.1 t ha'
    simp only [List.cons_append, List.nil_append, consumeSymbol, h1, h2, h3, Bool.false_eq_true, if_false]

theorem lookup_eq_some_iff_mem {K V : Type} [BEq K] [LawfulBEq K] (l : List (K × V)) (hn : (l.map Prod.fst).Nodup) (k : K)
    (v : V) : l.lookup k = some v ↔ (k, v) ∈ l := by
  induction l with
  | nil => simp
  | cons x xs ih =>
    obtain ⟨k', v'⟩ := x
    simp only [List.map_cons, List.nodup_cons] at hn
    rw [List.lookup_cons]
    by_cases hk : k = k'
    · subst hk
      simp only [beq_self_eq_true, Option.some.injEq, List.mem_cons, Prod.mk.injEq, true_and]
      constructor
      · intro h; exact Or.inl h.symm
      · rintro (h | h)
        · exact h.symm
        · exact absurd (List.mem_map_of_mem (f := Prod.fst) h) hn.1
    · have : (k == k') = false := by simpa using hk
      simp only [this, ih hn.2, List.mem_cons, Prod.mk.injEq, hk, false_and, false_or]

theorem keywords_lookup (w : Str) (t : Tok) : keywords.lookup w = some t ↔ (w, t) ∈ reserved := by
  rw [lookup_eq_some_iff_mem keywords (by decide +kernel)]
  have : keywords = reserved := rfl
  rw [this]

theorem name_head {T : TextOps} {w : Str} (h : Name T w) :
    ∃ c cs, w = c :: cs ∧ WordChar T c ∧ isAsciiDigit c = false ∧ ∀ x ∈ cs, WordChar T x := by
  cases w with
  | nil => exact absurd rfl h.1
  | cons c cs =>
    refine ⟨c, cs, rfl, h.2.1 c (by simp), ?_, fun x hx => h.2.1 x (List.mem_cons_of_mem _ hx)⟩
    have := h.2.2 c rfl
    simpa [isAsciiDigit] using this

/-- The characters with which the dispatch of the lexer is not a word. -/
def specialChars : Str := "\n:;,()+-*/^='\"<>@&".toList

theorem word_not_special {T : TextOps} (hT : TextOk T) {c : Char} (h : WordChar T c) : c ∉ specialChars := by
  intro hc
  have h1 : ∀ c ∈ specialChars, c.toNat < 128 ∧ c ≠ '_' ∧ c.isAlphanum = false := by decide
  obtain ⟨ha, hb, hd⟩ := h1 c hc
  rcases h with h | h
  · exact hb h
  · rw [hT.alnum c ha, hd] at h; simp at h

theorem not_special_tests {c : Char} (h : c ∉ specialChars) :
    singleTok c = none ∧ c ≠ '\'' ∧ c ≠ '"' ∧ ¬ (c = '<' ∨ c = '>') ∧ c ≠ '@' ∧ c ≠ '&' := by
  have hs : specialChars = ['\n', ':', ';', ',', '(', ')', '+', '-', '*', '/', '^', '=', '\'', '"', '<', '>', '@', '&'] := by
    decide
  rw [hs] at h
  simp only [List.mem_cons, List.not_mem_nil, or_false, not_or] at h
  obtain ⟨h1, h2, h3, h4, h5, h6, h7, h8, h9, h10, h11, h12, h13, h14, h15, h16, h17, h18⟩ := h
  refine ⟨?_, h13, h14, by tauto, h17, h18⟩
  simp [singleTok, *]

/-- The dispatch on the first character of a word. -/
theorem readFrom_word {T : TextOps} (hT : TextOk T) (io : Bool) (e : LineCol) (c : CharSpan) (cs : List CharSpan)
    (hw : WordChar T c.1) (hd : isAsciiDigit c.1 = false) :
    readFrom T io e c cs = consumeSymbol T io e c.2 [c.1] cs := by
  obtain ⟨h1, h2, h3, h4, h5, h6⟩ := not_special_tests (word_not_special hT hw)
  simp only [readFrom, h1, h2, h3, h4, h5, h6, hd, (isWord_iff T _).2 hw, if_false, if_true, Bool.false_eq_true]

theorem readFrom_digit {T : TextOps} (io : Bool) (e : LineCol) (c : CharSpan) (cs : List CharSpan)
    (hd : isAsciiDigit c.1 = true) :
    readFrom T io e c cs = consumeNumber T io c.2 [c.1] false cs := by
  have : c.1 ∉ specialChars := by
    intro hc
    have : ∀ c ∈ specialChars, isAsciiDigit c = false := by decide
    rw [this _ hc] at hd
    exact absurd hd (by decide)
  obtain ⟨h1, h2, h3, h4, h5, h6⟩ := not_special_tests this
  simp only [readFrom, h1, h2, h3, h4, h5, h6, hd, if_false, if_true]

theorem consumeLabelRest_ok {T : TextOps} (hT : TextOk T) (pos : LineCol) (ws ys : List CharSpan) (s : Str)
    (h : ∀ c ∈ chars ws, WordChar T c) (hr : EndsWord (chars ys)) :
    consumeLabelRest T false pos s (ws ++ ys) = some (⟨.label (s ++ chars ws), pos⟩, ys) := by
  induction ws generalizing s with
  | nil =>
    cases ys with
    | nil => simp [consumeLabelRest]
    | cons y ys =>
      have hy : y.1 ∈ separators := hr y.1 rfl
      simp [consumeLabelRest, word_not_sep hT hy, (isSeparator_iff _).2 hy]
  | cons x xs ih =>
    have hx := (isWord_iff T x.1).2 (h x.1 (by simp))
    simp only [List.cons_append, consumeLabelRest, hx, if_true, chars_cons]
    rw [ih _ (fun c hc => h c (List.mem_cons_of_mem _ hc))]
    simp

theorem chars_eq_append {cs : List CharSpan} {a b : Str} (h : chars cs = a ++ b) :
    ∃ x y, cs = x ++ y ∧ chars x = a ∧ chars y = b := by
  obtain ⟨x, y, h1, h2, h3⟩ := List.map_eq_append_iff.1 h
  exact ⟨x, y, h1, h2, h3⟩

theorem readFrom_symbol {T : TextOps} (hT : TextOk T) (e : LineCol) (c : CharSpan) (cs ys : List CharSpan)
    {w : Str} {ty : Option ExprType} (hw : Name T w) (hl : chars (c :: cs) = w ++ annotation ty)
    (hr : WordEnd ty (chars ys)) :
    readFrom T false e c (cs ++ ys) = finishSymbol T false e c.2 w ty ys := by
  obtain ⟨c', w', rfl, h1, h2, h3⟩ := name_head hw
  simp only [chars_cons, List.cons_append, List.cons.injEq] at hl
  obtain ⟨hc, hl⟩ := hl
  obtain ⟨a, b, rfl, ha, hb⟩ := chars_eq_append hl
  rw [readFrom_word hT _ _ _ _ (hc ▸ h1) (hc ▸ h2), List.append_assoc,
    consumeSymbol_word T _ _ _ _ _ _ (by rw [ha]; exact h3), consumeSymbol_end hT _ _ _ _ _ ty hb hr, hc, ha]
  rfl

/-- A well-formed token is read as that token. -/
theorem readFrom_complete {T : TextOps} (hT : TextOk T) (e : LineCol) (c : CharSpan) (cs ys : List CharSpan)
    {lex : Str} {t : Tok} {rest : Str} (h : Lexeme T lex t rest) (hl : chars (c :: cs) = lex)
    (hr : chars ys = rest) : readFrom T false e c (cs ++ ys) = some (⟨t, c.2⟩, ys) := by
  cases h with
  | @punct p _ _ h =>
    simp only [chars_cons, List.cons.injEq] at hl
    obtain ⟨hc, hcs⟩ := hl
    have : cs = [] := by simpa [chars] using hcs
    subst this
    have key : ∀ x ∈ punctuation, singleTok x.1 = some x.2 := by decide
    have := key _ h
    simp only [readFrom, hc, this, List.nil_append]
  | operator h =>
    have key : ∀ x ∈ operators, ∃ a b, x.1 = [a, b] ∧ (a = '<' ∨ a = '>') ∧
        ((a = '<' ∧ b = '>' ∧ x.2 = .notEqual) ∨ (a = '<' ∧ b = '=' ∧ x.2 = .lessEqual) ∨
          (a = '<' ∧ b = '<' ∧ x.2 = .shiftLeft) ∨ (a = '>' ∧ b = '=' ∧ x.2 = .greaterEqual) ∨
          (a = '>' ∧ b = '>' ∧ x.2 = .shiftRight)) := by
      intro x hx
      simp only [operators, String.reduceToList, List.mem_cons, List.not_mem_nil, or_false] at hx
      rcases hx with rfl | rfl | rfl | rfl | rfl <;> exact ⟨_, _, rfl, by simp⟩
    obtain ⟨a, b, h1, h2, h3⟩ := key _ h
    simp only at h1 h3
    rw [h1] at hl
    match cs, hl with
    | [d], hl =>
      simp only [chars_cons, chars_nil, List.cons.injEq, and_true] at hl
      obtain ⟨hc, hd⟩ := hl
      rcases h3 with ⟨rfl, rfl, rfl⟩ | ⟨rfl, rfl, rfl⟩ | ⟨rfl, rfl, rfl⟩ | ⟨rfl, rfl, rfl⟩ | ⟨rfl, rfl, rfl⟩ <;>
        simp [readFrom, hc, singleTok, consumeOperator, hd]
    | [], hl => simp at hl
    | _ :: _ :: _, hl => simp at hl
  | less h =>
    have : cs = [] := by
      cases cs with
      | nil => rfl
      | cons x xs => simp at hl
    subst this
    simp only [chars_cons, chars_nil, String.reduceToList, List.cons.injEq, and_true] at hl
    cases ys with
    | nil => simp [readFrom, hl, singleTok, consumeOperator]
    | cons y ys =>
      subst hr
      have := h y.1 rfl
      simp only [String.reduceToList, List.mem_cons, List.not_mem_nil, or_false, not_or] at this
      simp [readFrom, hl, singleTok, consumeOperator, this]
  | greater h =>
    have : cs = [] := by
      cases cs with
      | nil => rfl
      | cons x xs => simp at hl
    subst this
    simp only [chars_cons, chars_nil, String.reduceToList, List.cons.injEq, and_true] at hl
    cases ys with
    | nil => simp [readFrom, hl, singleTok, consumeOperator]
    | cons y ys =>
      subst hr
      have := h y.1 rfl
      simp only [String.reduceToList, List.mem_cons, List.not_mem_nil, or_false, not_or] at this
      simp [readFrom, hl, singleTok, consumeOperator, this]
  | @text w s _ h =>
    simp only [chars_cons, List.cons_append, List.cons.injEq] at hl
    obtain ⟨hc, hl⟩ := hl
    obtain ⟨a, b, rfl, ha, hb⟩ := chars_eq_append hl
    obtain ⟨q, rfl⟩ : ∃ q, b = [q] := by
      match b, hb with
      | [q], _ => exact ⟨q, rfl⟩
      | [], hb => simp at hb
      | _ :: _ :: _, hb => simp at hb
    simp only [chars_cons, chars_nil, String.reduceToList, List.cons.injEq, and_true] at hb
    have := consumeText_ok false c q hc hb h [] a ys ha
    simp only [List.nil_append] at this
    simp only [readFrom, hc, List.append_assoc, List.cons_append, List.nil_append]
    simpa [singleTok] using this
  | @integer ds _ h hd hv hr' =>
    subst hl
    have hc : isAsciiDigit c.1 = true := (isAsciiDigit_iff _).2 (hd c.1 (by simp))
    have hcs : DigitsIn 10 (chars cs) := fun x hx => hd x (by simp [hx])
    rw [readFrom_digit _ _ _ _ hc, consumeNumber_digits T false c.2 cs ys [c.1] false hcs,
      consumeNumber_end T c.2 ys _ _ (by rw [hr]; exact hr')]
    have := (parseRadix_ok_iff (2 ^ 31) 10 (by omega) (by omega) (chars (c :: cs)) 0 _ (by omega)).2
      ⟨hd, rfl, hv⟩
    simp only [finishNumber, Bool.false_eq_true, if_false]
    simp only [chars_cons] at this
    simp only [List.cons_append, List.nil_append, this]
    rfl
  | @double a b _ ha hb hda hdb hr' =>
    obtain ⟨a', b', h1, h2, h3⟩ := chars_eq_append hl
    obtain ⟨dot, b'', rfl, hdot, hb''⟩ : ∃ dot b'', b' = dot :: b'' ∧ dot.1 = '.' ∧ chars b'' = b := by
      cases b' with
      | nil => simp at h3
      | cons x xs => simp only [chars_cons, List.cons.injEq] at h3; exact ⟨x, xs, rfl, h3⟩
    cases a' with
    | nil => exact absurd h2.symm ha
    | cons c' a'' =>
      simp only [List.cons_append, List.cons.injEq] at h1
      obtain ⟨rfl, rfl⟩ := h1
      subst h2
      have hc : isAsciiDigit c.1 = true := (isAsciiDigit_iff _).2 (hda c.1 (by simp))
      have hcs : DigitsIn 10 (chars a'') := fun x hx => hda x (by simp [hx])
      rw [readFrom_digit _ _ _ _ hc, List.append_assoc, consumeNumber_digits T false c.2 a'' _ [c.1] false hcs]
      simp only [List.cons_append, consumeNumber, hdot, if_true, Bool.false_eq_true, if_false]
      rw [consumeNumber_digits T false c.2 b'' ys _ true (by rw [hb'']; exact hdb),
        consumeNumber_end T c.2 ys _ _ (by rw [hr]; exact hr')]
      have hlast : ∀ x : Str, (x ++ '.' :: b).getLast? ≠ some '.' := by
        intro x
        obtain ⟨b₀, l, rfl⟩ : ∃ b₀ l, b = b₀ ++ [l] := ⟨b.dropLast, b.getLast hb, (List.dropLast_concat_getLast hb).symm⟩
        have : x ++ '.' :: (b₀ ++ [l]) = (x ++ '.' :: b₀) ++ [l] := by simp
        rw [this, List.getLast?_concat]
        obtain ⟨d, hd1, hd2⟩ := hdb l (by simp)
        rintro heq
        cases heq
        rw [show digitOf '.' = none by decide] at hd1
        cases hd1
      simp only [finishNumber, if_true, hb'']
      rw [if_neg]
      · simp
      · have := hlast ([c.1] ++ chars a'')
        simpa using this
  | @based l base u ds _ hlb hu h hd hv hr' =>
    have hbase : (base = 2 ∨ base = 8 ∨ base = 10 ∨ base = 16) ∧ baseOf l = some base := by
      have key : ∀ x ∈ baseLetters, (x.2 = 2 ∨ x.2 = 8 ∨ x.2 = 10 ∨ x.2 = 16) ∧ baseOf x.1 = some x.2 := by decide
      exact key _ hlb
    have hb1 : 1 ≤ base := by omega
    have hb16 : base ≤ 16 := by omega
    simp only [chars_cons, List.cons_append, List.cons.injEq] at hl
    obtain ⟨hc, hl⟩ := hl
    obtain ⟨lx, cs', rfl, hlx, hl⟩ : ∃ lx cs', cs = lx :: cs' ∧ lx.1 = l ∧ chars cs' = u ++ ds := by
      cases cs with
      | nil => simp at hl
      | cons x xs => simp only [chars_cons, List.cons.injEq] at hl; exact ⟨x, xs, rfl, hl⟩
    obtain ⟨u', ds', rfl, hu', hds⟩ := chars_eq_append hl
    subst hds
    have hcons : ∃ x xs, ds' = x :: xs := by
      cases ds' with
      | nil => exact absurd rfl h
      | cons x xs => exact ⟨x, xs, rfl⟩
    obtain ⟨x, xs, rfl⟩ := hcons
    have hx : x.1 ≠ '_' := by
      obtain ⟨d, hd1, hd2⟩ := hd x.1 (by simp)
      rintro heq
      rw [heq, show digitOf '_' = none by decide] at hd1
      cases hd1
    have hfin : consumeInteger false base c.2 [] ((x :: xs) ++ ys) =
        some (⟨.integer (BitVec.ofNat 32 (valueIn base (chars (x :: xs)))), c.2⟩, ys) := by
      rw [consumeInteger_digits false base c.2 (x :: xs) ys [] (fun c hc => by
          obtain ⟨d, h1, _⟩ := hd c hc; exact ⟨d, h1⟩),
        consumeInteger_end base c.2 ys _ (by rw [hr]; exact hr')]
      have := (parseRadix_ok_iff (2 ^ 32) base hb1 hb16 (chars (x :: xs)) 0 _ (by omega)).2 ⟨hd, rfl, hv⟩
      simp only [finishInteger, List.nil_append]
      rw [if_neg h, this]
      rfl
    have hamp : readFrom T false e c (lx :: (u' ++ (x :: xs)) ++ ys) =
        consumeIntegerWithBase false c.2 (lx :: (u' ++ (x :: xs)) ++ ys) := by
      simp [readFrom, hc, singleTok]
    rw [hamp, List.cons_append]
    rcases hu with rfl | rfl
    · have : u' = [] := by simpa [chars] using hu'
      subst this
      simp only [consumeIntegerWithBase, hlx, hbase.2, List.nil_append, List.cons_append, hx, if_false]
      exact hfin
    · obtain ⟨q, rfl⟩ : ∃ q, u' = [q] := by
        match u', hu' with
        | [q], _ => exact ⟨q, rfl⟩
        | [], hb => simp at hb
        | _ :: _ :: _, hb => simp at hb
      simp only [chars_cons, chars_nil, String.reduceToList, List.cons.injEq, and_true] at hu'
      simp only [consumeIntegerWithBase, hlx, hbase.2, List.cons_append, List.nil_append, hu', if_true]
      exact hfin
  | @reserved w _ _ ty hw hk hr' =>
    rw [readFrom_symbol hT e c cs ys hw hl (by rw [hr]; exact hr')]
    have h1 : upperStr T w = upperWord T w := rfl
    have hrem : upperWord T w ≠ "REM".toList := by
      intro heq
      rw [heq] at hk
      have : ∀ x ∈ reserved, x.1 ≠ "REM".toList := by decide
      exact this _ hk rfl
    simp only [finishSymbol, h1, hrem, if_false, (keywords_lookup _ _).2 hk]
  | @symbol w _ ty hw hk hrem hr' =>
    rw [readFrom_symbol hT e c cs ys hw hl (by rw [hr]; exact hr')]
    have h1 : upperStr T w = upperWord T w := rfl
    have h2 : keywords.lookup (upperWord T w) = none := by
      cases hq : keywords.lookup (upperWord T w) with
      | none => rfl
      | some t => exact absurd ((keywords_lookup _ _).1 hq) (hk t)
    simp only [finishSymbol, h1, hrem, if_false, h2]
  | @label w _ hw hh hr' =>
    simp only [chars_cons, List.cons.injEq] at hl
    obtain ⟨hc, hl⟩ := hl
    subst hl
    have : readFrom T false e c (cs ++ ys) = consumeLabel T false c.2 (cs ++ ys) := by
      simp [readFrom, hc, singleTok]
    rw [this]
    cases cs with
    | nil => obtain ⟨x, hx, _⟩ := hh; simp at hx
    | cons x xs =>
      obtain ⟨x', hx, hnum⟩ := hh
      simp only [chars_cons, List.head?_cons, Option.some.injEq] at hx
      subst hx
      simp only [List.cons_append, consumeLabel]
      rw [if_pos ⟨(isWord_iff T _).2 (hw _ (by simp)), by simp [hnum]⟩,
        consumeLabelRest_ok hT c.2 xs ys [x.1] (fun c hc => hw c (by simp [hc])) (by rw [hr]; exact hr')]
      rfl

/-! ## Soundness: what is read is well formed or an error -/

/-- The characters `pre`, already read, and some of `cs` make a token at `pos`. -/
def Reads (T : TextOps) (pos : LineCol) (pre : Str) (cs : List CharSpan) (t : TokSpan) (rest : List CharSpan) : Prop :=
  ∃ mid, cs = mid ++ rest ∧ t.pos = pos ∧
    (Lexeme T (pre ++ chars mid) t.tok (chars rest) ∨ ∃ msg, t.tok = .bad msg)

theorem Reads.step {T : TextOps} {pos : LineCol} {pre : Str} {c : CharSpan} {cs : List CharSpan} {t : TokSpan}
    {rest : List CharSpan} (h : Reads T pos (pre ++ [c.1]) cs t rest) : Reads T pos pre (c :: cs) t rest := by
  obtain ⟨mid, h1, h2, h3⟩ := h
  refine ⟨c :: mid, by simp [h1], h2, ?_⟩
  simpa using h3

theorem Reads.here {T : TextOps} {pos : LineCol} {pre : Str} {t : Tok} {rest : List CharSpan}
    (h : Lexeme T pre t (chars rest)) : Reads T pos pre rest ⟨t, pos⟩ rest :=
  ⟨[], rfl, rfl, Or.inl (by simpa using h)⟩

theorem handleBad_reads (T : TextOps) (msg : Str) (pos : LineCol) (pre : Str) (cs : List CharSpan) {t : TokSpan}
    {rest : List CharSpan} (h : handleBad false msg pos cs = some (t, rest)) : Reads T pos pre cs t rest := by
  induction cs generalizing pre with
  | nil =>
    simp only [handleBad, Bool.false_eq_true, if_false, Option.some.injEq, Prod.mk.injEq] at h
    obtain ⟨rfl, rfl⟩ := h
    exact ⟨[], rfl, rfl, Or.inr ⟨msg, rfl⟩⟩
  | cons c cs ih =>
    simp only [handleBad] at h
    split at h
    · simp only [Option.some.injEq, Prod.mk.injEq] at h
      obtain ⟨rfl, rfl⟩ := h
      exact ⟨[], rfl, rfl, Or.inr ⟨msg, rfl⟩⟩
    · exact (ih (pre ++ [c.1]) h).step

theorem textBody_append {w s w' s' : Str} (h : TextBody w s) (h' : TextBody w' s') : TextBody (w ++ w') (s ++ s') := by
  induction h with
  | nil => simpa using h'
  | plain h1 h2 _ ih => exact .plain h1 h2 ih
  | escaped c _ ih => exact .escaped c ih

theorem consumeText_sound (T : TextOps) (d : CharSpan) (hd : d.1 = '"') (cs : List CharSpan) (t : TokSpan)
    (rest : List CharSpan) :
    ∀ (w s : Str) (esc : Bool),
      (if esc then ∃ w₀, w = w₀ ++ ['\\'] ∧ TextBody w₀ s else TextBody w s) →
      consumeText false d s esc cs = some (t, rest) → Reads T d.2 ('"' :: w) cs t rest := by
  induction cs with
  | nil =>
    intro w s esc _ h
    simp only [consumeText, Bool.false_eq_true, if_false] at h
    exact handleBad_reads T _ _ _ _ h
  | cons c cs ih =>
    intro w s esc hw h
    simp only [consumeText] at h
    cases esc with
    | true =>
      simp only [if_true] at h hw
      obtain ⟨w₀, rfl, hw₀⟩ := hw
      have := ih (w₀ ++ ['\\'] ++ [c.1]) (s ++ [c.1]) false (by
        simp only [Bool.false_eq_true, if_false, List.append_assoc]
        exact textBody_append hw₀ (.escaped c.1 .nil)) h
      exact Reads.step (by simpa using this)
    | false =>
      simp only [Bool.false_eq_true, if_false] at h hw
      by_cases h1 : c.1 = '\\'
      · rw [if_pos h1] at h
        have := ih (w ++ [c.1]) s true (by
          simp only [if_true]; exact ⟨w, by rw [h1], hw⟩) h
        exact Reads.step (by simpa using this)
      · rw [if_neg h1] at h
        by_cases h2 : c.1 = d.1
        · rw [if_pos h2] at h
          simp only [Option.some.injEq, Prod.mk.injEq] at h
          obtain ⟨rfl, rfl⟩ := h
          have hc : c.1 = '"' := h2.trans hd
          refine Reads.step (Reads.here ?_)
          rw [hc]
          exact .text hw
        · rw [if_neg h2] at h
          have := ih (w ++ [c.1]) (s ++ [c.1]) false (by
            simp only [Bool.false_eq_true, if_false]
            exact textBody_append hw (.plain (by rw [← hd]; exact h2) h1 .nil)) h
          exact Reads.step (by simpa using this)

theorem digitsIn_append {b : Nat} {s s' : Str} (h : DigitsIn b s) (h' : DigitsIn b s') : DigitsIn b (s ++ s') := by
  intro c hc
  rcases List.mem_append.1 hc with hc | hc
  · exact h c hc
  · exact h' c hc

theorem digitsIn_single {c : Char} (h : isAsciiDigit c = true) : DigitsIn 10 [c] := by
  intro x hx
  rw [List.mem_singleton.1 hx]
  exact (isAsciiDigit_iff c).1 h

/-- What has been read of a number. -/
def NumberPrefix (s : Str) (dot : Bool) : Prop :=
  if dot then ∃ a b, a ≠ [] ∧ DigitsIn 10 a ∧ DigitsIn 10 b ∧ s = a ++ '.' :: b else s ≠ [] ∧ DigitsIn 10 s

theorem finishNumber_sound (T : TextOps) (pos : LineCol) (s : Str) (dot : Bool) (hs : NumberPrefix s dot)
    (cs : List CharSpan) (hr : EndsWord (chars cs)) {t : TokSpan} {rest : List CharSpan}
    (h : finishNumber T false pos s dot cs = some (t, rest)) : Reads T pos s cs t rest := by
  unfold finishNumber at h
  cases dot with
  | true =>
    simp only [if_true] at h
    split at h
    · exact handleBad_reads T _ _ _ _ h
    · rename_i hl
      simp only [Option.some.injEq, Prod.mk.injEq] at h
      obtain ⟨rfl, rfl⟩ := h
      simp only [NumberPrefix, if_true] at hs
      obtain ⟨a, b, ha, hda, hdb, rfl⟩ := hs
      refine Reads.here (.double ha ?_ hda hdb hr)
      rintro rfl
      apply hl
      simp
  | false =>
    simp only [Bool.false_eq_true, if_false] at h
    simp only [NumberPrefix, Bool.false_eq_true, if_false] at hs
    split at h
    · rename_i n hn
      simp only [Option.some.injEq, Prod.mk.injEq] at h
      obtain ⟨rfl, rfl⟩ := h
      obtain ⟨h1, h2, h3⟩ := (parseRadix_ok_iff _ 10 (by omega) (by omega) s 0 n (by omega)).1 hn
      subst h2
      exact Reads.here (.integer hs.1 hs.2 h3 hr)
    · exact handleBad_reads T _ _ _ _ h

theorem endsWord_cons {c : CharSpan} {cs : List CharSpan} (h : isSeparator c.1 = true) : EndsWord (chars (c :: cs)) := by
  intro x hx
  simp only [chars_cons, List.head?_cons, Option.some.injEq] at hx
  subst hx
  exact (isSeparator_iff _).1 h

theorem endsWord_nil : EndsWord (chars []) := by intro x hx; simp at hx

theorem consumeNumber_sound (T : TextOps) (pos : LineCol) (cs : List CharSpan) (t : TokSpan) (rest : List CharSpan) :
    ∀ (s : Str) (dot : Bool), NumberPrefix s dot → consumeNumber T false pos s dot cs = some (t, rest) →
      Reads T pos s cs t rest := by
  induction cs with
  | nil =>
    intro s dot hs h
    simp only [consumeNumber, Bool.false_eq_true, if_false] at h
    exact finishNumber_sound T pos s dot hs [] endsWord_nil h
  | cons c cs ih =>
    intro s dot hs h
    simp only [consumeNumber] at h
    by_cases h1 : c.1 = '.'
    · rw [if_pos h1] at h
      cases dot with
      | true => exact (handleBad_reads T _ _ _ _ h).step
      | false =>
        simp only [Bool.false_eq_true, if_false] at h
        simp only [NumberPrefix, Bool.false_eq_true, if_false] at hs
        refine Reads.step ?_
        rw [h1]
        refine ih _ _ ?_ h
        simp only [NumberPrefix, if_true]
        exact ⟨s, [], hs.1, hs.2, by intro c hc; simp at hc, rfl⟩
    · rw [if_neg h1] at h
      by_cases h2 : isAsciiDigit c.1 = true
      · rw [if_pos h2] at h
        refine Reads.step (ih _ _ ?_ h)
        cases dot with
        | true =>
          simp only [NumberPrefix, if_true] at hs ⊢
          obtain ⟨a, b, ha, hda, hdb, rfl⟩ := hs
          exact ⟨a, b ++ [c.1], ha, hda, digitsIn_append hdb (digitsIn_single h2), by simp⟩
        | false =>
          simp only [NumberPrefix, Bool.false_eq_true, if_false] at hs ⊢
          exact ⟨by simp, digitsIn_append hs.2 (digitsIn_single h2)⟩
      · rw [if_neg h2] at h
        split at h
        · rename_i h3
          exact finishNumber_sound T pos s dot hs _ (endsWord_cons h3) h
        · exact (handleBad_reads T _ _ _ _ h).step

theorem consumeInteger_sound (T : TextOps) (pos : LineCol) (l : Char) (base : Nat) (u : Str)
    (hl : (l, base) ∈ baseLetters) (hu : u = [] ∨ u = "_".toList) (cs : List CharSpan) (t : TokSpan)
    (rest : List CharSpan) :
    ∀ s : Str, consumeInteger false base pos s cs = some (t, rest) →
      Reads T pos ('&' :: l :: u ++ s) cs t rest := by
  have hbase : (base = 2 ∨ base = 8 ∨ base = 10 ∨ base = 16) := by
    have key : ∀ x ∈ baseLetters, (x.2 = 2 ∨ x.2 = 8 ∨ x.2 = 10 ∨ x.2 = 16) := by decide
    exact key _ hl
  have fin : ∀ s cs, EndsWord (chars cs) → finishInteger false base pos s cs = some (t, rest) →
      Reads T pos ('&' :: l :: u ++ s) cs t rest := by
    intro s cs hr h
    unfold finishInteger at h
    split at h
    · exact handleBad_reads T _ _ _ _ h
    · rename_i hne
      split at h
      · rename_i n hn
        simp only [Option.some.injEq, Prod.mk.injEq] at h
        obtain ⟨rfl, rfl⟩ := h
        obtain ⟨h1, h2, h3⟩ := (parseRadix_ok_iff _ base (by omega) (by omega) s 0 n (by omega)).1 hn
        subst h2
        exact Reads.here (.based hl hu hne h1 h3 hr)
      · exact handleBad_reads T _ _ _ _ h
  induction cs with
  | nil =>
    intro s h
    simp only [consumeInteger, Bool.false_eq_true, if_false] at h
    exact fin s [] endsWord_nil h
  | cons c cs ih =>
    intro s h
    simp only [consumeInteger] at h
    split at h
    · exact (handleBad_reads T _ _ _ _ h).step
    · split at h
      · have := ih _ h
        exact Reads.step (by simpa using this)
      · split at h
        · have := ih _ h
          exact Reads.step (by simpa using this)
        · split at h
          · rename_i h3
            exact fin s _ (endsWord_cons h3) h
          · exact (handleBad_reads T _ _ _ _ h).step

theorem consumeIntegerWithBase_sound (T : TextOps) (pos : LineCol) (cs : List CharSpan) (t : TokSpan)
    (rest : List CharSpan) (h : consumeIntegerWithBase false pos cs = some (t, rest)) :
    Reads T pos "&".toList cs t rest := by
  cases cs with
  | nil =>
    simp only [consumeIntegerWithBase, Bool.false_eq_true, if_false] at h
    exact handleBad_reads T _ _ _ _ h
  | cons c cs =>
    simp only [consumeIntegerWithBase] at h
    cases hb : baseOf c.1 with
    | none =>
      simp only [hb] at h
      split at h
      · exact handleBad_reads T _ _ _ _ h
      · exact (handleBad_reads T _ _ _ _ h).step
    | some base =>
      have hl : (c.1, base) ∈ baseLetters := by
        unfold baseOf at hb
        simp only [baseLetters, List.mem_cons, Prod.mk.injEq, List.not_mem_nil, or_false]
        split at hb
        · rename_i hx; simp only [Option.some.injEq] at hb; subst hb; rcases hx with hx | hx <;> simp [hx]
        · split at hb
          · rename_i hx; simp only [Option.some.injEq] at hb; subst hb; rcases hx with hx | hx <;> simp [hx]
          · split at hb
            · rename_i hx; simp only [Option.some.injEq] at hb; subst hb; rcases hx with hx | hx <;> simp [hx]
            · split at hb
              · rename_i hx; simp only [Option.some.injEq] at hb; subst hb; rcases hx with hx | hx <;> simp [hx]
              · simp at hb
      simp only [hb] at h
      refine Reads.step ?_
      cases cs with
      | nil =>
        simp only [Bool.false_eq_true, if_false] at h
        exact handleBad_reads T _ _ _ _ h
      | cons d ds =>
        simp only at h
        split at h
        · rename_i hd
          have := consumeInteger_sound T pos c.1 base "_".toList hl (Or.inr rfl) ds t rest [] h
          refine Reads.step ?_
          rw [hd]
          simpa using this
        · have := consumeInteger_sound T pos c.1 base [] hl (Or.inl rfl) (d :: ds) t rest [] h
          simpa using this

theorem consumeOperator_sound (T : TextOps) (first : CharSpan) (hf : first.1 = '<' ∨ first.1 = '>')
    (cs : List CharSpan) (t : TokSpan) (rest : List CharSpan)
    (h : consumeOperator false first cs = some (t, rest)) : Reads T first.2 [first.1] cs t rest := by
  cases cs with
  | nil =>
    simp only [consumeOperator, Bool.false_eq_true, if_false, Option.some.injEq, Prod.mk.injEq] at h
    obtain ⟨rfl, rfl⟩ := h
    refine Reads.here ?_
    rcases hf with hf | hf
    · simp only [hf, if_true]; exact .less (by intro c hc; simp at hc)
    · simp only [hf, show ('>' : Char) ≠ '<' by decide, if_false]; exact .greater (by intro c hc; simp at hc)
  | cons c cs =>
    simp only [consumeOperator] at h
    rcases hf with hf | hf
    · simp only [hf, if_true] at h ⊢
      by_cases h1 : c.1 = '>'
      · simp only [h1, if_true, Option.some.injEq, Prod.mk.injEq] at h
        obtain ⟨rfl, rfl⟩ := h
        refine Reads.step (Reads.here ?_)
        rw [h1]; exact .operator (by decide)
      · by_cases h2 : c.1 = '='
        · simp only [h2, show ('=' : Char) ≠ '>' by decide, if_false, if_true, Option.some.injEq, Prod.mk.injEq] at h
          obtain ⟨rfl, rfl⟩ := h
          refine Reads.step (Reads.here ?_)
          rw [h2]; exact .operator (by decide)
        · by_cases h3 : c.1 = '<'
          · simp only [h3, show ('<' : Char) ≠ '>' by decide, show ('<' : Char) ≠ '=' by decide, if_false, if_true,
              Option.some.injEq, Prod.mk.injEq] at h
            obtain ⟨rfl, rfl⟩ := h
            refine Reads.step (Reads.here ?_)
            rw [h3]; exact .operator (by decide)
          · simp only [h1, h2, h3, if_false, Option.some.injEq, Prod.mk.injEq] at h
            obtain ⟨rfl, rfl⟩ := h
            refine Reads.here (.less ?_)
            intro x hx
            simp only [chars_cons, List.head?_cons, Option.some.injEq] at hx
            subst hx
            simp only [String.reduceToList, List.mem_cons, List.not_mem_nil, or_false, not_or]
            exact ⟨h3, h2, h1⟩
    · simp only [hf, show ('>' : Char) ≠ '<' by decide, if_false] at h ⊢
      by_cases h2 : c.1 = '='
      · simp only [h2, if_true, Option.some.injEq, Prod.mk.injEq] at h
        obtain ⟨rfl, rfl⟩ := h
        refine Reads.step (Reads.here ?_)
        rw [h2]; exact .operator (by decide)
      · by_cases h1 : c.1 = '>'
        · simp only [h1, show ('>' : Char) ≠ '=' by decide, if_false, if_true, Option.some.injEq, Prod.mk.injEq] at h
          obtain ⟨rfl, rfl⟩ := h
          refine Reads.step (Reads.here ?_)
          rw [h1]; exact .operator (by decide)
        · simp only [h1, h2, if_false, Option.some.injEq, Prod.mk.injEq] at h
          obtain ⟨rfl, rfl⟩ := h
          refine Reads.here (.greater ?_)
          intro x hx
          simp only [chars_cons, List.head?_cons, Option.some.injEq] at hx
          subst hx
          simp only [String.reduceToList, List.mem_cons, List.not_mem_nil, or_false, not_or]
          exact ⟨h2, h1⟩

theorem consumeLabelRest_sound (T : TextOps) (pos : LineCol) (cs : List CharSpan) (t : TokSpan)
    (rest : List CharSpan) :
    ∀ s : Str, (∀ c ∈ s, WordChar T c) → (∃ c, s.head? = some c ∧ T.numeric c = false) →
      consumeLabelRest T false pos s cs = some (t, rest) → Reads T pos ('@' :: s) cs t rest := by
  induction cs with
  | nil =>
    intro s hw hh h
    simp only [consumeLabelRest, Bool.false_eq_true, if_false, Option.some.injEq, Prod.mk.injEq] at h
    obtain ⟨rfl, rfl⟩ := h
    exact Reads.here (.label hw hh endsWord_nil)
  | cons c cs ih =>
    intro s hw hh h
    simp only [consumeLabelRest] at h
    split at h
    · rename_i hc
      refine Reads.step (ih (s ++ [c.1]) ?_ ?_ h)
      · intro x hx
        rcases List.mem_append.1 hx with hx | hx
        · exact hw x hx
        · rw [List.mem_singleton.1 hx]; exact (isWord_iff T _).1 hc
      · obtain ⟨x, hx, hn⟩ := hh
        exact ⟨x, by cases s <;> simp_all, hn⟩
    · split at h
      · rename_i hsep
        simp only [Option.some.injEq, Prod.mk.injEq] at h
        obtain ⟨rfl, rfl⟩ := h
        exact Reads.here (.label hw hh (endsWord_cons hsep))
      · exact handleBad_reads T _ _ _ _ h

theorem consumeLabel_sound (T : TextOps) (pos : LineCol) (cs : List CharSpan) (t : TokSpan) (rest : List CharSpan)
    (h : consumeLabel T false pos cs = some (t, rest)) : Reads T pos "@".toList cs t rest := by
  cases cs with
  | nil =>
    simp only [consumeLabel, Bool.false_eq_true, if_false, Option.some.injEq, Prod.mk.injEq] at h
    obtain ⟨rfl, rfl⟩ := h
    exact ⟨[], rfl, rfl, Or.inr ⟨_, rfl⟩⟩
  | cons c cs =>
    simp only [consumeLabel] at h
    split at h
    · rename_i hc
      refine Reads.step ?_
      refine consumeLabelRest_sound T pos cs t rest [c.1] ?_ ⟨c.1, rfl, by simpa using hc.2⟩ h
      intro x hx
      rw [List.mem_singleton.1 hx]; exact (isWord_iff T _).1 hc.1
    · simp only [Option.some.injEq, Prod.mk.injEq] at h
      obtain ⟨rfl, rfl⟩ := h
      exact ⟨[], rfl, rfl, Or.inr ⟨_, rfl⟩⟩

theorem consumeRestOfLine_sound (e : LineCol) (cs : List CharSpan) (t : TokSpan) (rest : List CharSpan)
    (h : consumeRestOfLine false e cs = some (t, rest)) :
    (t = ⟨.eof, e⟩ ∧ rest = [] ∧ '\n' ∉ chars cs) ∨
    ∃ body nl, cs = body ++ nl :: rest ∧ '\n' ∉ chars body ∧ nl.1 = '\n' ∧ t = ⟨.eol, nl.2⟩ := by
  induction cs with
  | nil =>
    simp only [consumeRestOfLine, Bool.false_eq_true, if_false, Option.some.injEq, Prod.mk.injEq] at h
    obtain ⟨rfl, rfl⟩ := h
    exact Or.inl ⟨rfl, rfl, by simp⟩
  | cons c cs ih =>
    simp only [consumeRestOfLine] at h
    split at h
    · rename_i hc
      simp only [Option.some.injEq, Prod.mk.injEq] at h
      obtain ⟨rfl, rfl⟩ := h
      exact Or.inr ⟨[], c, rfl, by simp, hc, rfl⟩
    · rename_i hc
      rcases ih h with ⟨h1, h2, h3⟩ | ⟨body, nl, h1, h2, h3, h4⟩
      · exact Or.inl ⟨h1, h2, by simp [h3, Ne.symm hc]⟩
      · exact Or.inr ⟨c :: body, nl, by simp [h1], by simp [h2, Ne.symm hc], h3, h4⟩

/-- The characters read and the following ones up to the end of the line are a comment. -/
def Comments (T : TextOps) (e : LineCol) (pre : Str) (cs : List CharSpan) (t : TokSpan) (rest : List CharSpan) : Prop :=
  (t = ⟨.eof, e⟩ ∧ rest = [] ∧ Comment T (pre ++ chars cs)) ∨
  ∃ body nl, cs = body ++ nl :: rest ∧ nl.1 = '\n' ∧ t = ⟨.eol, nl.2⟩ ∧ Comment T (pre ++ chars body)

theorem Comments.step {T : TextOps} {e : LineCol} {pre : Str} {c : CharSpan} {cs : List CharSpan} {t : TokSpan}
    {rest : List CharSpan} (h : Comments T e (pre ++ [c.1]) cs t rest) : Comments T e pre (c :: cs) t rest := by
  rcases h with ⟨h1, h2, h3⟩ | ⟨body, nl, h1, h2, h3, h4⟩
  · exact Or.inl ⟨h1, h2, by simpa using h3⟩
  · exact Or.inr ⟨c :: body, nl, by simp [h1], h2, h3, by simpa using h4⟩

theorem wordEnd_prefix {ty : Option ExprType} {a b : Str} (h : WordEnd ty (a ++ b)) : WordEnd ty a := by
  intro hty c hc
  refine h hty c ?_
  cases a with
  | nil => simp at hc
  | cons x xs => simpa using hc

theorem finishSymbol_sound {T : TextOps} (e pos : LineCol) (w : Str) (ty : Option ExprType) (hw : Name T w)
    (cs : List CharSpan) (hr : WordEnd ty (chars cs)) (t : TokSpan) (rest : List CharSpan)
    (h : finishSymbol T false e pos w ty cs = some (t, rest)) :
    Reads T pos (w ++ annotation ty) cs t rest ∨ Comments T e (w ++ annotation ty) cs t rest := by
  unfold finishSymbol at h
  split at h
  · rename_i hrem
    right
    rcases consumeRestOfLine_sound e cs t rest h with ⟨h1, h2, h3⟩ | ⟨body, nl, h1, h2, h3, h4⟩
    · exact Or.inl ⟨h1, h2, .rem hw hrem hr h3⟩
    · refine Or.inr ⟨body, nl, h1, h3, h4, .rem hw hrem ?_ h2⟩
      rw [h1, chars_append] at hr
      exact wordEnd_prefix hr
  · rename_i hrem
    left
    split at h
    · rename_i t' ht
      simp only [Option.some.injEq, Prod.mk.injEq] at h
      obtain ⟨rfl, rfl⟩ := h
      exact Reads.here (.reserved hw ((keywords_lookup _ _).1 ht) hr)
    · rename_i hk
      simp only [Option.some.injEq, Prod.mk.injEq] at h
      obtain ⟨rfl, rfl⟩ := h
      refine Reads.here (.symbol hw ?_ hrem hr)
      intro t ht
      have h2 : keywords.lookup (upperWord T w) = some t := (keywords_lookup _ _).2 ht
      have h3 : keywords.lookup (upperWord T w) = none := hk
      rw [h3] at h2
      cases h2

theorem annotationOf_some {c : Char} {ty : ExprType} (h : annotationOf c = some ty) : annotation (some ty) = [c] := by
  unfold annotationOf at h
  split at h
  · rename_i hc; cases h; rw [hc]; rfl
  · split at h
    · rename_i hc; cases h; rw [hc]; rfl
    · split at h
      · rename_i hc; cases h; rw [hc]; rfl
      · split at h
        · rename_i hc; cases h; rw [hc]; rfl
        · cases h

theorem consumeSymbol_sound {T : TextOps} (e pos : LineCol) (cs : List CharSpan) (t : TokSpan)
    (rest : List CharSpan) :
    ∀ s : Str, Name T s → consumeSymbol T false e pos s cs = some (t, rest) →
      Reads T pos s cs t rest ∨ Comments T e s cs t rest := by
  induction cs with
  | nil =>
    intro s hs h
    simp only [consumeSymbol, Bool.false_eq_true, if_false] at h
    have := finishSymbol_sound e pos s none hs [] (fun _ => endsWord_nil) t rest h
    simpa [annotation] using this
  | cons c cs ih =>
    intro s hs h
    simp only [consumeSymbol] at h
    split at h
    · rename_i hc
      have hn : Name T (s ++ [c.1]) := by
        refine ⟨by simp, ?_, ?_⟩
        · intro x hx
          rcases List.mem_append.1 hx with hx | hx
          · exact hs.2.1 x hx
          · rw [List.mem_singleton.1 hx]; exact (isWord_iff T _).1 hc
        · intro x hx
          refine hs.2.2 x ?_
          cases s with
          | nil => exact absurd rfl hs.1
          | cons y ys => simpa using hx
      rcases ih _ hn h with h | h
      · exact Or.inl h.step
      · exact Or.inr h.step
    · split at h
      · rename_i hsep
        have := finishSymbol_sound e pos s none hs (c :: cs) (fun _ => endsWord_cons hsep) t rest h
        simpa [annotation] using this
      · split at h
        · rename_i ty hty
          have hann := annotationOf_some hty
          have := finishSymbol_sound e pos s (some ty) hs cs (fun h => by cases h) t rest h
          rw [hann] at this
          rcases this with h | h
          · exact Or.inl h.step
          · exact Or.inr h.step
        · exact Or.inl (handleBad_reads T _ _ _ _ h).step

theorem readFrom_sound {T : TextOps} (e : LineCol) (c : CharSpan) (cs : List CharSpan) (t : TokSpan)
    (rest : List CharSpan) (h : readFrom T false e c cs = some (t, rest)) :
    Reads T c.2 [c.1] cs t rest ∨ Comments T e [c.1] cs t rest := by
  unfold readFrom at h
  cases hs : singleTok c.1 with
  | some t' =>
    simp only [hs, Option.some.injEq, Prod.mk.injEq] at h
    obtain ⟨rfl, rfl⟩ := h
    refine Or.inl (Reads.here (.punct ?_))
    unfold singleTok at hs
    simp only [punctuation, List.mem_cons, Prod.mk.injEq, List.not_mem_nil, or_false]
    repeat' split at hs
    all_goals first
      | (rename_i hx; simp only [Option.some.injEq] at hs; subst hs; simp [hx])
      | simp at hs
  | none =>
    simp only [hs] at h
    split at h
    · rename_i hc
      right
      rcases consumeRestOfLine_sound e cs t rest h with ⟨h1, h2, h3⟩ | ⟨body, nl, h1, h2, h3, h4⟩
      · exact Or.inl ⟨h1, h2, by rw [hc]; exact .quote h3⟩
      · exact Or.inr ⟨body, nl, h1, h3, h4, by rw [hc]; exact .quote h2⟩
    · split at h
      · rename_i hc
        left
        have := consumeText_sound T c hc cs t rest [] [] false (by simpa using .nil) h
        rw [hc]
        exact this
      · split at h
        · rename_i hc
          exact Or.inl (consumeOperator_sound T c hc cs t rest h)
        · split at h
          · rename_i hc
            have := consumeLabel_sound T c.2 cs t rest h
            left
            rw [hc]; exact this
          · split at h
            · rename_i hc
              have := consumeIntegerWithBase_sound T c.2 cs t rest h
              left
              rw [hc]; exact this
            · split at h
              · rename_i hc
                refine Or.inl (consumeNumber_sound T c.2 cs t rest _ _ ?_ h)
                simp only [NumberPrefix, Bool.false_eq_true, if_false]
                exact ⟨by simp, digitsIn_single hc⟩
              · rename_i hd
                split at h
                · rename_i hw
                  refine consumeSymbol_sound e c.2 cs t rest _ ?_ h
                  refine ⟨by simp, ?_, ?_⟩
                  · intro x hx
                    rw [List.mem_singleton.1 hx]; exact (isWord_iff T _).1 hw
                  · intro x hx
                    simp only [List.head?_cons, Option.some.injEq] at hx
                    subst hx
                    simpa [isAsciiDigit] using hd
                · exact Or.inl (handleBad_reads T _ _ _ _ h)

theorem lexeme_tok {T : TextOps} {lex : Str} {t : Tok} {rest : Str} (h : Lexeme T lex t rest) :
    t ≠ .eof ∧ (∀ msg, t ≠ .bad msg) ∧ lex ≠ [] := by
  cases h with
  | @punct c t _ h =>
    have key : ∀ x ∈ punctuation, x.2 ≠ .eof ∧ (match x.2 with | .bad _ => false | _ => true) = true := by decide
    have := key _ h
    refine ⟨this.1, ?_, by simp⟩
    rintro msg rfl
    exact absurd this.2 (by simp)
  | @operator s t _ h =>
    have key : ∀ x ∈ operators, x.2 ≠ .eof ∧ (match x.2 with | .bad _ => false | _ => true) = true ∧ x.1 ≠ [] := by decide
    have := key _ h
    refine ⟨this.1, ?_, this.2.2⟩
    rintro msg rfl
    exact absurd this.2.1 (by simp)
  | less _ => exact ⟨by decide, by intro m; simp, by decide⟩
  | greater _ => exact ⟨by decide, by intro m; simp, by decide⟩
  | text _ => exact ⟨by simp, by intro m; simp, by simp⟩
  | integer h _ _ _ => exact ⟨by simp, by intro m; simp, h⟩
  | double _ _ _ _ _ => exact ⟨by simp, by intro m; simp, by simp⟩
  | based _ _ _ _ _ _ => exact ⟨by simp, by intro m; simp, by simp⟩
  | @reserved w _ t ty hw h _ =>
    have key : ∀ x ∈ reserved, x.2 ≠ .eof ∧ (match x.2 with | .bad _ => false | _ => true) = true := by decide
    have := key _ h
    refine ⟨this.1, ?_, by simp [hw.1]⟩
    rintro msg rfl
    exact absurd this.2 (by simp)
  | symbol hw _ _ _ => exact ⟨by simp, by intro m; simp, by simp [hw.1]⟩
  | label _ _ _ => exact ⟨by simp, by intro m; simp, by simp⟩

/-- Where the lexer gives an error token no well-formed token begins. -/
theorem noToken_of_bad {T : TextOps} (hT : TextOk T) (e : LineCol) (c : CharSpan) (cs : List CharSpan) (t : TokSpan)
    (rest : List CharSpan) (h : readFrom T false e c cs = some (t, rest)) (msg : Str) (ht : t.tok = .bad msg) :
    NoToken T (chars (c :: cs)) := by
  intro lex t' rest' hs hlex
  obtain ⟨x, y, hxy, hx, hy⟩ := chars_eq_append hs
  cases x with
  | nil => exact (lexeme_tok hlex).2.2 hx.symm
  | cons x xs =>
    simp only [List.cons_append, List.cons.injEq] at hxy
    obtain ⟨rfl, rfl⟩ := hxy
    rw [readFrom_complete hT e c xs y hlex hx hy] at h
    simp only [Option.some.injEq, Prod.mk.injEq] at h
    obtain ⟨rfl, _⟩ := h
    exact (lexeme_tok hlex).2.1 msg ht

/-! ## Positions -/

theorem endPos_append (p : LineCol) (a b : Str) : endPos p (a ++ b) = endPos (endPos p a) b := by
  induction a generalizing p with
  | nil => rfl
  | cons c cs ih => simp only [List.cons_append, endPos]; exact ih _

theorem charSpans_append (p : LineCol) (a b : Str) :
    charSpans p (a ++ b) = charSpans p a ++ charSpans (endPos p a) b := by
  induction a generalizing p with
  | nil => rfl
  | cons c cs ih => simp only [List.cons_append, charSpans, endPos, ih]

@[simp] theorem chars_charSpans (p : LineCol) (s : Str) : chars (charSpans p s) = s := by
  induction s generalizing p with
  | nil => rfl
  | cons c cs ih => simp [charSpans, ih]

theorem charSpans_length (p : LineCol) (s : Str) : (charSpans p s).length = s.length := by
  have := congrArg List.length (chars_charSpans p s)
  simpa [chars] using this

theorem charSpans_eq_append {p : LineCol} {s : Str} {a b : List CharSpan} (h : charSpans p s = a ++ b) :
    s = chars a ++ chars b ∧ a = charSpans p (chars a) ∧ b = charSpans (endPos p (chars a)) (chars b) := by
  have h1 : s = chars a ++ chars b := by
    rw [← chars_append, ← h, chars_charSpans]
  refine ⟨h1, ?_⟩
  rw [h1, charSpans_append] at h
  have hl : (charSpans p (chars a)).length = a.length := by rw [charSpans_length]; simp [chars]
  obtain ⟨h2, h3⟩ := List.append_inj h hl
  exact ⟨h2.symm, h3.symm⟩

theorem posOf_append (s : Str) (c : Char) : posOf (s ++ [c]) = (posOf s).after c := by
  unfold posOf LineCol.after
  by_cases h : c = '\n'
  · subst h
    simp only [List.count_append, if_true, lastLine, List.reverse_append, List.reverse_cons, List.reverse_nil,
      List.nil_append, List.singleton_append, List.takeWhile_cons]
    simp [width]
    omega
  · have hl : lastLine (s ++ [c]) = lastLine s ++ [c] := by
      simp only [lastLine, List.reverse_append, List.reverse_cons, List.reverse_nil, List.nil_append,
        List.singleton_append, List.takeWhile_cons]
      have : (c != '\n') = true := by simpa using h
      simp [this]
    have hc : ([c] : Str).count '\n' = 0 := by
      simp [h]
    rw [hl, List.count_append, hc, if_neg h]
    by_cases ht : c = '\t'
    · subst ht
      simp only [if_true, width, List.foldl_append, List.foldl_cons, List.foldl_nil]
      refine congrArg₂ LineCol.mk (by omega) ?_
      generalize hw : List.foldl _ 0 (lastLine s) = w
      omega
    · rw [if_neg ht]
      simp only [width, List.foldl_append, List.foldl_cons, List.foldl_nil, ht, if_false]
      refine congrArg₂ LineCol.mk (by omega) ?_
      generalize hw : List.foldl _ 0 (lastLine s) = w
      omega

theorem endPos_concat (p : LineCol) (s : Str) (c : Char) : endPos p (s ++ [c]) = (endPos p s).after c := by
  rw [endPos_append]; rfl

/-- The position that the reader computes is the one of the specification. -/
theorem endPos_posOf (before s : Str) : endPos (posOf before) s = posOf (before ++ s) := by
  induction s generalizing before with
  | nil => simp [endPos]
  | cons c cs ih =>
    rw [endPos, ← posOf_append, ih]
    simp

theorem posOf_nil : posOf [] = ⟨1, 1⟩ := rfl

theorem width_pos {s : Str} (h : s ≠ []) : 0 < width s := by
  obtain ⟨s', c, rfl⟩ : ∃ s' c, s = s' ++ [c] := ⟨s.dropLast, s.getLast h, (List.dropLast_concat_getLast h).symm⟩
  simp only [width, List.foldl_append, List.foldl_cons, List.foldl_nil]
  split <;> omega

theorem posOf_ne_start {s : Str} (h : s ≠ []) : posOf s ≠ ⟨1, 1⟩ := by
  intro heq
  simp only [posOf, LineCol.mk.injEq] at heq
  obtain ⟨h1, h2⟩ := heq
  have hcount : s.count '\n' = 0 := by omega
  have hnl : '\n' ∉ s := List.count_eq_zero.1 hcount
  have hl : lastLine s = s := by
    unfold lastLine
    have htw : ∀ l : Str, '\n' ∉ l → l.takeWhile (· != '\n') = l := by
      intro l
      induction l with
      | nil => intro _; rfl
      | cons c cs ih =>
        intro hc
        simp only [List.mem_cons, not_or] at hc
        have : (c != '\n') = true := by simpa using fun e => hc.1 e.symm
        simp [this, ih hc.2]
    rw [htw _ (by simpa using hnl), List.reverse_reverse]
  have := width_pos h
  rw [hl] at h2
  omega

/-! ## Reading a token and all tokens -/

/-- The result of reading a token: the end of the file after skipped text, or a piece. -/
def ReadsPiece (T : TextOps) (skipped : Str → Str → Prop) (e : LineCol) (cs : List CharSpan) (t : TokSpan)
    (rest : List CharSpan) : Prop :=
  (t = ⟨.eof, e⟩ ∧ rest = [] ∧ skipped (chars cs) []) ∨
  ∃ sk x mid, cs = sk ++ (x :: mid ++ rest) ∧ t.pos = x.2 ∧ t.tok ≠ .eof ∧
    skipped (chars sk) (chars (x :: mid) ++ chars rest) ∧
    (Lexeme T (chars (x :: mid)) t.tok (chars rest) ∨
      ((∃ msg, t.tok = .bad msg) ∧ NoToken T (chars (x :: mid) ++ chars rest)))

theorem skipped_nil (T : TextOps) (rest : Str) : Skipped T [] rest :=
  ⟨[], [], rfl, by simp, Or.inl rfl⟩

theorem skipped_cons {T : TextOps} {c : Char} {s rest : Str} (hc : c ∈ blanks) (h : Skipped T s rest) :
    Skipped T (c :: s) rest := by
  obtain ⟨b, cm, rfl, h1, h2⟩ := h
  refine ⟨c :: b, cm, rfl, ?_, h2⟩
  intro x hx
  rcases List.mem_cons.1 hx with rfl | hx
  · exact hc
  · exact h1 x hx

theorem readFrom_piece {T : TextOps} (hT : TextOk T) (e : LineCol) (c : CharSpan) (cs : List CharSpan) (t : TokSpan)
    (rest : List CharSpan) (h : readFrom T false e c cs = some (t, rest)) :
    ReadsPiece T (Skipped T) e (c :: cs) t rest := by
  rcases readFrom_sound e c cs t rest h with ⟨mid, h1, h2, h3⟩ | ⟨h1, h2, h3⟩ | ⟨body, nl, h1, h2, h3, h4⟩
  · refine Or.inr ⟨[], c, mid, by simp [h1], h2, ?_, skipped_nil T _, ?_⟩
    · rcases h3 with h3 | ⟨msg, h3⟩
      · exact (lexeme_tok h3).1
      · rw [h3]; simp
    · rcases h3 with h3 | ⟨msg, h3⟩
      · exact Or.inl h3
      · refine Or.inr ⟨⟨msg, h3⟩, ?_⟩
        have := noToken_of_bad hT e c cs t rest h msg h3
        rw [h1] at this
        simpa using this
  · exact Or.inl ⟨h1, h2, ⟨[], _, rfl, by simp, Or.inr ⟨h3, Or.inl rfl⟩⟩⟩
  · refine Or.inr ⟨c :: body, nl, [], by simp [h1], by rw [h3], by rw [h3]; simp, ?_, ?_⟩
    · exact ⟨[], _, rfl, by simp, Or.inr ⟨h4, Or.inr (by simp [h2])⟩⟩
    · left
      rw [h3]
      simp only [chars_cons, chars_nil, h2]
      exact .punct (by decide)

theorem readPlain_piece {T : TextOps} (hT : TextOk T) (e : LineCol) (cs : List CharSpan) (t : TokSpan)
    (rest : List CharSpan) (h : readPlain T false e cs = some (t, rest)) :
    ReadsPiece T (Skipped T) e cs t rest := by
  induction cs with
  | nil =>
    simp only [readPlain, Bool.false_eq_true, if_false, Option.some.injEq, Prod.mk.injEq] at h
    obtain ⟨rfl, rfl⟩ := h
    exact Or.inl ⟨rfl, rfl, skipped_nil T _⟩
  | cons c cs ih =>
    simp only [readPlain] at h
    split at h
    · rename_i hc
      have hb := (isSpace_iff c.1).1 hc
      rcases ih h with ⟨h1, h2, h3⟩ | ⟨sk, x, mid, h1, h2, h3, h4, h5⟩
      · exact Or.inl ⟨h1, h2, skipped_cons hb h3⟩
      · exact Or.inr ⟨c :: sk, x, mid, by simp [h1], h2, h3, skipped_cons hb h4, h5⟩
    · exact readFrom_piece hT e c cs t rest h

theorem readTok_piece {T : TextOps} (hT : TextOk T) (e : LineCol) (cs : List CharSpan) (t : TokSpan)
    (rest : List CharSpan) (h : readTok T false e cs = some (t, rest)) :
    ReadsPiece T (SkippedFirst T) e cs t rest := by
  have lift : ∀ cs t rest, ReadsPiece T (Skipped T) e cs t rest → ReadsPiece T (SkippedFirst T) e cs t rest := by
    rintro cs t rest (⟨h1, h2, h3⟩ | ⟨sk, x, mid, h1, h2, h3, h4, h5⟩)
    · exact Or.inl ⟨h1, h2, Or.inl h3⟩
    · exact Or.inr ⟨sk, x, mid, h1, h2, h3, Or.inl h4, h5⟩
  cases cs with
  | nil => exact lift _ _ _ (readPlain_piece hT e _ t rest h)
  | cons c cs =>
    simp only [readTok] at h
    split at h
    · rename_i hc
      have hbad : ∀ cs, handleBad false "Unknown character: #".toList c.2 cs = some (t, rest) →
          ReadsPiece T (SkippedFirst T) e (c :: cs) t rest := by
        intro cs hh
        refine lift _ _ _ (readFrom_piece hT e c cs t rest ?_)
        have hw : isWord T '#' = false := by simp [isWord, hT.alnum '#' (by decide)]
        simp only [readFrom, hc.2]
        simpa [singleTok, hw, isAsciiDigit] using hh
      cases cs with
      | nil => simp only [Bool.false_eq_true, if_false] at h; exact hbad _ h
      | cons d ds =>
        simp only at h
        split at h
        · rename_i hd
          cases hrl : consumeRestOfLine false e ds with
          | none => simp [hrl] at h
          | some r =>
            obtain ⟨t', rest''⟩ := r
            simp only [hrl] at h
            have hpl := readPlain_piece hT e _ t rest h
            rcases consumeRestOfLine_sound e ds t' rest'' hrl with ⟨h1, h2, h3⟩ | ⟨body, nl, h1, h2, h3, h4⟩
            · subst h2
              simp only [readPlain, Bool.false_eq_true, if_false, Option.some.injEq, Prod.mk.injEq] at h
              obtain ⟨rfl, rfl⟩ := h
              refine Or.inl ⟨rfl, rfl, Or.inr (Or.inl ⟨chars ds, ?_, h3, rfl⟩)⟩
              simp [hc.2, hd]
            · have hline : ∀ s rest', Skipped T s rest' →
                  SkippedFirst T ('#' :: '!' :: chars body ++ '\n' :: s) rest' :=
                fun s rest' hs => Or.inr (Or.inr ⟨chars body, s, rfl, h2, hs⟩)
              rcases hpl with ⟨g1, g2, g3⟩ | ⟨sk, x, mid, g1, g2, g3, g4, g5⟩
              · refine Or.inl ⟨g1, g2, ?_⟩
                have := hline _ _ g3
                simpa [hc.2, hd, h1, h3] using this
              · refine Or.inr ⟨c :: d :: body ++ nl :: sk, x, mid, by simp [h1, g1], g2, g3, ?_, g5⟩
                have := hline _ _ g4
                simpa [hc.2, hd, h3] using this
        · exact hbad _ h
    · exact lift _ _ _ (readPlain_piece hT e _ t rest h)

theorem readTok_not_start {T : TextOps} (e p : LineCol) (s : Str) (h : p ≠ ⟨1, 1⟩) :
    readTok T false e (charSpans p s) = readPlain T false e (charSpans p s) := by
  cases s with
  | nil => rfl
  | cons c cs => simp [charSpans, readTok, h]

theorem handleBad_isSome (msg : Str) (pos : LineCol) (cs : List CharSpan) : (handleBad false msg pos cs).isSome := by
  induction cs with
  | nil => rfl
  | cons c cs ih => simp only [handleBad]; split <;> simp [ih]

theorem consumeRestOfLine_isSome (e : LineCol) (cs : List CharSpan) : (consumeRestOfLine false e cs).isSome := by
  induction cs with
  | nil => rfl
  | cons c cs ih => simp only [consumeRestOfLine]; split <;> simp [ih]

theorem finishNumber_isSome (T : TextOps) (pos : LineCol) (s : Str) (dot : Bool) (cs : List CharSpan) :
    (finishNumber T false pos s dot cs).isSome := by
  unfold finishNumber; repeat' split
  all_goals simp [handleBad_isSome]

theorem consumeNumber_isSome (T : TextOps) (pos : LineCol) (cs : List CharSpan) :
    ∀ (s : Str) (dot : Bool), (consumeNumber T false pos s dot cs).isSome := by
  induction cs with
  | nil => intro s dot; simp [consumeNumber, finishNumber_isSome]
  | cons c cs ih => intro s dot; simp only [consumeNumber]; repeat' split
                    all_goals simp [handleBad_isSome, finishNumber_isSome, ih]

theorem finishInteger_isSome (base : Nat) (pos : LineCol) (s : Str) (cs : List CharSpan) :
    (finishInteger false base pos s cs).isSome := by
  unfold finishInteger; repeat' split
  all_goals simp [handleBad_isSome]

theorem consumeInteger_isSome (base : Nat) (pos : LineCol) (cs : List CharSpan) :
    ∀ (s : Str), (consumeInteger false base pos s cs).isSome := by
  induction cs with
  | nil => intro s; simp [consumeInteger, finishInteger_isSome]
  | cons c cs ih => intro s; simp only [consumeInteger]; repeat' split
                    all_goals simp [handleBad_isSome, finishInteger_isSome, ih]

theorem finishSymbol_isSome (T : TextOps) (e pos : LineCol) (s : Str) (ty : Option ExprType) (cs : List CharSpan) :
    (finishSymbol T false e pos s ty cs).isSome := by
  unfold finishSymbol; repeat' split
  all_goals simp [consumeRestOfLine_isSome]

theorem consumeSymbol_isSome (T : TextOps) (e pos : LineCol) (cs : List CharSpan) :
    ∀ (s : Str), (consumeSymbol T false e pos s cs).isSome := by
  induction cs with
  | nil => intro s; simp [consumeSymbol, finishSymbol_isSome]
  | cons c cs ih => intro s; simp only [consumeSymbol]; repeat' split
                    all_goals simp [handleBad_isSome, finishSymbol_isSome, ih]

theorem consumeText_isSome (d : CharSpan) (cs : List CharSpan) :
    ∀ (s : Str) (esc : Bool), (consumeText false d s esc cs).isSome := by
  induction cs with
  | nil => intro s esc; simp [consumeText, handleBad_isSome]
  | cons c cs ih => intro s esc; simp only [consumeText]; repeat' split
                    all_goals simp [ih]

theorem consumeLabelRest_isSome (T : TextOps) (pos : LineCol) (cs : List CharSpan) :
    ∀ (s : Str), (consumeLabelRest T false pos s cs).isSome := by
  induction cs with
  | nil => intro s; simp [consumeLabelRest]
  | cons c cs ih => intro s; simp only [consumeLabelRest]; repeat' split
                    all_goals simp [handleBad_isSome, ih]

theorem readFrom_isSome (T : TextOps) (e : LineCol) (c : CharSpan) (cs : List CharSpan) :
    (readFrom T false e c cs).isSome := by
  have hop : (consumeOperator false c cs).isSome := by
    cases cs <;> simp only [consumeOperator, Bool.false_eq_true, if_false] <;> repeat' split
    all_goals simp
  have hlab : (consumeLabel T false c.2 cs).isSome := by
    cases cs <;> simp only [consumeLabel, Bool.false_eq_true, if_false] <;> repeat' split
    all_goals simp [consumeLabelRest_isSome]
  have hbase : (consumeIntegerWithBase false c.2 cs).isSome := by
    unfold consumeIntegerWithBase
    simp only [Bool.false_eq_true, if_false]
    repeat' split
    all_goals simp [handleBad_isSome, consumeInteger_isSome]
  unfold readFrom; repeat' split
  all_goals simp [handleBad_isSome, consumeRestOfLine_isSome, consumeText_isSome, hop, hlab, hbase,
    consumeNumber_isSome, consumeSymbol_isSome]

theorem readPlain_isSome (T : TextOps) (e : LineCol) (cs : List CharSpan) : (readPlain T false e cs).isSome := by
  induction cs with
  | nil => rfl
  | cons c cs ih => simp only [readPlain]; split <;> simp [ih, readFrom_isSome]

/-- Without I/O errors reading always gives a token. -/
theorem readTok_isSome (T : TextOps) (e : LineCol) (cs : List CharSpan) : (readTok T false e cs).isSome := by
  unfold readTok
  cases cs with
  | nil => exact readPlain_isSome T e []
  | cons c cs =>
    simp only
    split
    · cases cs with
      | nil => simp [handleBad_isSome]
      | cons d ds =>
        simp only
        split
        · have := consumeRestOfLine_isSome e ds
          obtain ⟨⟨t, r⟩, hr⟩ := Option.isSome_iff_exists.1 this
          simp [hr, readPlain_isSome]
        · simp [handleBad_isSome]
    · exact readPlain_isSome T e _

/-- All tokens of a text that follows `before`. -/
theorem lexLoop_pieces {T : TextOps} (hT : TextOk T) (n : Nat) (before s : Str) (hb : before ≠ []) (hn : s.length ≤ n) :
    ∃ pieces tail, s = piecesText pieces ++ tail ∧ PiecesOk T pieces tail ∧
      lexLoop T false (posOf (before ++ s)) n (charSpans (posOf before) s) = piecesTokens before pieces := by
  induction n generalizing before s with
  | zero =>
    have : s = [] := List.length_eq_zero_iff.1 (by omega)
    subst this
    exact ⟨[], [], rfl, skipped_nil T _, rfl⟩
  | succ n ih =>
    obtain ⟨⟨t, rest⟩, hr⟩ := Option.isSome_iff_exists.1 (readTok_isSome T (posOf (before ++ s)) (charSpans (posOf before) s))
    have hp := hr
    rw [readTok_not_start _ _ _ (posOf_ne_start hb)] at hp
    rcases readPlain_piece hT _ _ t rest hp with ⟨h1, h2, h3⟩ | ⟨sk, x, mid, h1, h2, h3, h4, h5⟩
    · refine ⟨[], s, rfl, ?_, ?_⟩
      · rw [chars_charSpans] at h3; exact h3
      · simp only [lexLoop, hr, h1, if_true]; rfl
    · obtain ⟨e1, e2, e3⟩ := charSpans_eq_append h1
      have e3' := e3.symm
      obtain ⟨f1, f2, f3⟩ := charSpans_eq_append e3'
      rw [endPos_posOf, endPos_posOf] at f3
      have hxpos : x.2 = posOf (before ++ chars sk) := by
        have := f2
        simp only [chars_cons, charSpans, List.cons.injEq] at this
        rw [endPos_posOf] at this
        exact congrArg Prod.snd this.1
      have hs : s = chars sk ++ chars (x :: mid) ++ chars rest := by
        rw [e1, chars_append]; simp
      have hlen : (chars rest).length ≤ n := by
        have := congrArg List.length hs
        simp at this
        omega
      obtain ⟨pieces, tail, g1, g2, g3⟩ := ih (before ++ chars sk ++ chars (x :: mid)) (chars rest) (by simp [hb]) hlen
      refine ⟨⟨chars sk, chars (x :: mid), t.tok⟩ :: pieces, tail, ?_, ?_, ?_⟩
      · rw [hs, g1]; simp [piecesText]
      · refine ⟨?_, ⟨by simp, ?_⟩, g2⟩
        · rw [← g1]; exact h4
        · rw [← g1]; exact h5
      · simp only [lexLoop, hr]
        rw [if_neg h3]
        simp only [piecesTokens]
        have ht : t = ⟨t.tok, posOf (before ++ chars sk)⟩ := by rw [← hxpos, ← h2]
        have hend : before ++ s = before ++ chars sk ++ chars (x :: mid) ++ chars rest := by rw [hs]; simp
        rw [hend]
        have g3' : lexLoop T false (posOf (before ++ chars sk ++ chars (x :: mid) ++ chars rest)) n rest =
            piecesTokens (before ++ chars sk ++ chars (x :: mid)) pieces := by
          rw [← g3]
          exact congrArg _ f3
        rw [g3']
        exact congrArg (· :: _) ht

/-- All tokens of a text. -/
theorem lexText_pieces {T : TextOps} (hT : TextOk T) (s : Str) :
    ∃ pieces tail, s = piecesText pieces ++ tail ∧ TextPieces T pieces tail ∧
      (lexText T false s).toks = piecesTokens [] pieces := by
  have hend : endPos ⟨1, 1⟩ s = posOf s := by rw [← posOf_nil, endPos_posOf]; rfl
  simp only [lexText, hend]
  obtain ⟨n, hn⟩ : ∃ n, s.length = n := ⟨_, rfl⟩
  rw [hn]
  cases n with
  | zero =>
    have : s = [] := List.length_eq_zero_iff.1 hn
    subst this
    exact ⟨[], [], rfl, Or.inl (skipped_nil T _), rfl⟩
  | succ n =>
    obtain ⟨⟨t, rest⟩, hr⟩ := Option.isSome_iff_exists.1 (readTok_isSome T (posOf s) (charSpans ⟨1, 1⟩ s))
    rcases readTok_piece hT _ _ t rest hr with ⟨h1, h2, h3⟩ | ⟨sk, x, mid, h1, h2, h3, h4, h5⟩
    · refine ⟨[], s, rfl, ?_, ?_⟩
      · rw [chars_charSpans] at h3; exact h3
      · simp only [lexLoop, hr, h1, if_true]; rfl
    · obtain ⟨e1, e2, e3⟩ := charSpans_eq_append h1
      have e3' := e3.symm
      obtain ⟨f1, f2, f3⟩ := charSpans_eq_append e3'
      rw [← posOf_nil, endPos_posOf, endPos_posOf] at f3
      have hxpos : x.2 = posOf (chars sk) := by
        have := f2
        simp only [chars_cons, charSpans, List.cons.injEq] at this
        rw [← posOf_nil, endPos_posOf] at this
        exact congrArg Prod.snd this.1
      have hs : s = chars sk ++ chars (x :: mid) ++ chars rest := by
        rw [e1, chars_append]; simp
      have hlen : (chars rest).length ≤ n := by
        have := congrArg List.length hs
        simp at this
        omega
      obtain ⟨pieces, tail, g1, g2, g3⟩ :=
        lexLoop_pieces hT n (chars sk ++ chars (x :: mid)) (chars rest) (by simp) hlen
      refine ⟨⟨chars sk, chars (x :: mid), t.tok⟩ :: pieces, tail, ?_, ?_, ?_⟩
      · rw [hs, g1]; simp [piecesText]
      · refine ⟨?_, ⟨by simp, ?_⟩, g2⟩
        · rw [← g1]; exact h4
        · rw [← g1]; exact h5
      · simp only [lexLoop, hr]
        rw [if_neg h3]
        simp only [piecesTokens, List.nil_append]
        have ht : t = ⟨t.tok, posOf (chars sk)⟩ := by rw [← hxpos, ← h2]
        have g3' : lexLoop T false (posOf s) n rest = piecesTokens (chars sk ++ chars (x :: mid)) pieces := by
          rw [← g3, ← hs]
          exact congrArg _ (by simpa using f3)
        rw [g3']
        exact congrArg (· :: _) ht

/-! ## Well-formed texts are read as their tokens -/

theorem readPlain_blanks (T : TextOps) (e : LineCol) (b cs : List CharSpan) (h : ∀ x ∈ chars b, x ∈ blanks) :
    readPlain T false e (b ++ cs) = readPlain T false e cs := by
  induction b with
  | nil => rfl
  | cons x xs ih =>
    have hx := (isSpace_iff x.1).2 (h x.1 (by simp))
    simp only [List.cons_append, readPlain, hx, if_true]
    exact ih (fun y hy => h y (List.mem_cons_of_mem _ hy))

theorem consumeRestOfLine_eof (e : LineCol) (cs : List CharSpan) (h : '\n' ∉ chars cs) :
    consumeRestOfLine false e cs = some (⟨.eof, e⟩, []) := by
  induction cs with
  | nil => rfl
  | cons x xs ih =>
    simp only [chars_cons, List.mem_cons, not_or] at h
    simp only [consumeRestOfLine, if_neg (Ne.symm h.1)]
    exact ih h.2

theorem consumeRestOfLine_nl (e : LineCol) (cs ys : List CharSpan) (nl : CharSpan) (hnl : nl.1 = '\n')
    (h : '\n' ∉ chars cs) : consumeRestOfLine false e (cs ++ nl :: ys) = some (⟨.eol, nl.2⟩, ys) := by
  induction cs with
  | nil => simp [consumeRestOfLine, hnl]
  | cons x xs ih =>
    simp only [chars_cons, List.mem_cons, not_or] at h
    simp only [List.cons_append, consumeRestOfLine, if_neg (Ne.symm h.1)]
    exact ih h.2

theorem wordEnd_append {ty : Option ExprType} {a b : Str} (h : WordEnd ty a) (hb : EndsWord b) : WordEnd ty (a ++ b) := by
  intro ht
  have := h ht
  cases a with
  | nil => exact hb
  | cons x xs => intro c hc; exact this c hc

theorem comment_read {T : TextOps} (hT : TextOk T) (e : LineCol) (cm ys : List CharSpan) (hc : Comment T (chars cm))
    (hy : EndsWord (chars ys)) :
    ∃ body, '\n' ∉ chars body ∧ readPlain T false e (cm ++ ys) = consumeRestOfLine false e (body ++ ys) := by
  generalize hs : chars cm = s at hc
  cases hc with
  | @quote body h =>
    cases cm with
    | nil => simp at hs
    | cons x xs =>
      simp only [chars_cons, List.cons.injEq] at hs
      obtain ⟨hx, hxs⟩ := hs
      refine ⟨xs, by rw [hxs]; exact h, ?_⟩
      have h1 : isSpace '\'' = false := by decide
      have h2 : singleTok '\'' = none := by decide
      simp only [List.cons_append, readPlain, readFrom, hx, h1, Bool.false_eq_true, if_false, h2, if_true]
  | @rem w body ty hw hk hr h =>
    obtain ⟨ab, bd, rfl, hab, hbd⟩ := chars_eq_append hs
    cases ab with
    | nil => exact absurd hab.symm (by simp [hw.1])
    | cons x xs =>
      refine ⟨bd, by rw [hbd]; exact h, ?_⟩
      have hword : WordChar T x.1 := by
        obtain ⟨c', w', rfl, h1, _⟩ := name_head hw
        simp only [chars_cons, List.cons_append, List.cons.injEq] at hab
        rw [hab.1]; exact h1
      have h1 : isSpace x.1 = false := by
        cases hsp : isSpace x.1 with
        | false => rfl
        | true =>
          have hm : x.1 ∈ separators := by
            have : ∀ c ∈ blanks, c ∈ separators := by decide
            exact this _ ((isSpace_iff _).1 hsp)
          have := word_not_sep hT hm
          rw [(isWord_iff T _).2 hword] at this
          exact absurd this (by decide)
      simp only [List.cons_append, List.append_assoc, readPlain, h1, Bool.false_eq_true, if_false]
      rw [readFrom_symbol hT e x xs (bd ++ ys) hw hab (by rw [chars_append, hbd]; exact wordEnd_append hr hy)]
      simp only [finishSymbol]
      exact if_pos hk

theorem readPlain_eof {T : TextOps} (hT : TextOk T) (e : LineCol) (sk : List CharSpan) (h : Skipped T (chars sk) []) :
    readPlain T false e sk = some (⟨.eof, e⟩, []) := by
  obtain ⟨b, c, h1, h2, h3⟩ := h
  obtain ⟨x, y, rfl, rfl, rfl⟩ := chars_eq_append h1
  rw [readPlain_blanks T e x y h2]
  rcases h3 with h3 | ⟨h3, -⟩
  · have : y = [] := by simpa [chars] using h3
    subst this; rfl
  · obtain ⟨body, g1, g2⟩ := comment_read hT e y [] h3 endsWord_nil
    simp only [List.append_nil] at g2
    rw [g2, consumeRestOfLine_eof e _ g1]

theorem lexeme_first {T : TextOps} (hT : TextOk T) {c : Char} {w : Str} {t : Tok} {rest : Str}
    (h : Lexeme T (c :: w) t rest) : c ∉ blanks ∧ c ≠ '#' ∧ (c = '\n' → w = [] ∧ t = .eol) := by
  have key := readFrom_complete hT ⟨1, 1⟩ (c, ⟨1, 1⟩) (charSpans ⟨1, 1⟩ w) (charSpans ⟨1, 1⟩ rest) h (by simp) (by simp)
  have hbad : ∀ cs, isWord T c = false → c ∈ blanks ∨ c = '#' → readFrom T false ⟨1, 1⟩ (c, ⟨1, 1⟩) cs =
      handleBad false ("Unknown character: ".toList ++ [c]) ⟨1, 1⟩ cs := by
    intro cs hw hc
    have h1 : ∀ c ∈ '#' :: blanks, c ∉ specialChars ∧ isAsciiDigit c = false := by decide
    have hc' : c ∈ '#' :: blanks := by rcases hc with hc | hc <;> simp [hc]
    obtain ⟨g1, g2, g3, g4, g5, g6⟩ := not_special_tests (h1 c hc').1
    simp only [readFrom, g1, g2, g3, g4, g5, g6, (h1 c hc').2, hw, if_false, Bool.false_eq_true]
  have hno : isWord T c = false → ¬ (c ∈ blanks ∨ c = '#') := by
    intro hw hc
    rw [hbad _ hw hc] at key
    obtain ⟨mid, h1, h2, h3⟩ := handleBad_reads T _ _ [c] _ key
    rcases h3 with h3 | ⟨msg, h3⟩
    · exact (by
        have : ∀ (msg : Str) (pos : LineCol) (cs : List CharSpan) (t : TokSpan) r,
            handleBad false msg pos cs = some (t, r) → t.tok = .bad msg := by
          intro msg pos cs
          induction cs with
          | nil => intro t r hh; simp [handleBad] at hh; rw [← hh.1]
          | cons a as ih =>
            intro t r hh
            simp only [handleBad] at hh
            split at hh
            · simp at hh; rw [← hh.1]
            · exact ih t r hh
        exact (lexeme_tok h).2.1 _ (this _ _ _ _ _ key))
    · exact (lexeme_tok h).2.1 msg h3
  refine ⟨?_, ?_, ?_⟩
  · intro hc
    have hm : c ∈ separators := by
      have : ∀ c ∈ blanks, c ∈ separators := by decide
      exact this _ hc
    exact hno (word_not_sep hT hm) (Or.inl hc)
  · intro hc
    have hw : isWord T c = false := by subst hc; simp [isWord, hT.alnum '#' (by decide)]
    exact hno hw (Or.inr hc)
  · rintro rfl
    have h1 : singleTok '\n' = some .eol := by decide
    simp only [readFrom, h1, Option.some.injEq, Prod.mk.injEq, TokSpan.mk.injEq] at key
    obtain ⟨⟨h2, -⟩, h3⟩ := key
    have hl := congrArg List.length h3
    simp only [List.length_append, charSpans_length] at hl
    exact ⟨List.length_eq_zero_iff.1 (by omega), h2.symm⟩

theorem readPlain_complete {T : TextOps} (hT : TextOk T) (e : LineCol) (sk mid rest : List CharSpan) (x : CharSpan) (t : Tok)
    (hs : Skipped T (chars sk) (chars (x :: mid) ++ chars rest)) (hl : Lexeme T (chars (x :: mid)) t (chars rest)) :
    readPlain T false e (sk ++ (x :: mid ++ rest)) = some (⟨t, x.2⟩, rest) := by
  obtain ⟨b, c, h1, h2, h3⟩ := hs
  obtain ⟨b', y, rfl, rfl, rfl⟩ := chars_eq_append h1
  rw [List.append_assoc, readPlain_blanks T e b' _ h2]
  obtain ⟨f1, f2, f3⟩ := lexeme_first hT hl
  rcases h3 with h3 | ⟨h3, h4⟩
  · have : y = [] := by simpa [chars] using h3
    subst this
    have hsp : isSpace x.1 = false := by
      cases h : isSpace x.1 with
      | false => rfl
      | true => exact absurd ((isSpace_iff _).1 h) f1
    simp only [List.nil_append, List.cons_append, readPlain, hsp, Bool.false_eq_true, if_false]
    exact readFrom_complete hT e x mid rest hl rfl rfl
  · have hx : x.1 = '\n' := by
      rcases h4 with h4 | h4
      · simp at h4
      · simpa using h4
    obtain ⟨g1, g2⟩ := f3 hx
    have : mid = [] := by simpa [chars] using g1
    subst this
    obtain ⟨body, g3, g4⟩ := comment_read hT e y ([x] ++ rest) h3 (by
      intro c hc
      simp only [List.singleton_append, chars_cons, List.head?_cons, Option.some.injEq] at hc
      rw [← hc, hx]; decide)
    rw [g4, g2]
    exact consumeRestOfLine_nl e body rest x hx g3

theorem readTok_eof {T : TextOps} (hT : TextOk T) (e : LineCol) (s : Str) (h : SkippedFirst T s []) :
    readTok T false e (charSpans ⟨1, 1⟩ s) = some (⟨.eof, e⟩, []) := by
  have hline : ∀ line : Str, '\n' ∉ line → ∀ s' : Str, s' = [] ∨ (∃ s'', s' = '\n' :: s'' ∧ Skipped T s'' []) →
      readTok T false e (charSpans ⟨1, 1⟩ ('#' :: '!' :: line ++ s')) = some (⟨.eof, e⟩, []) := by
    intro line hl s' hs'
    simp only [List.cons_append, charSpans, readTok, and_self, if_true, charSpans_append]
    rcases hs' with rfl | ⟨s'', rfl, hs''⟩
    · simp only [charSpans, List.append_nil]
      rw [consumeRestOfLine_eof _ _ (by simpa using hl)]
      rfl
    · simp only [charSpans]
      rw [consumeRestOfLine_nl _ _ _ _ rfl (by simpa using hl)]
      exact readPlain_eof hT e _ (by simpa using hs'')
  rcases h with h | ⟨line, rfl, h1, -⟩ | ⟨line, s', rfl, h1, h2⟩
  · have hne : ∀ c cs, s = c :: cs → c ≠ '#' := by
      rintro c cs rfl rfl
      obtain ⟨b, cm, h1, h2, h3⟩ := h
      cases b with
      | cons b bs =>
        simp only [List.cons_append, List.cons.injEq] at h1
        have := h2 b (by simp)
        rw [← h1.1] at this
        exact absurd this (by decide)
      | nil =>
        simp only [List.nil_append] at h1
        rcases h3 with h3 | ⟨h3, -⟩
        · rw [h3] at h1; simp at h1
        · rw [← h1] at h3
          generalize hs : '#' :: cs = s at h3
          cases h3 with
          | quote _ => simp at hs
          | @rem w body ty hw hk hr hb =>
            obtain ⟨c', w', rfl, g1, _⟩ := name_head hw
            simp only [List.cons_append, List.cons.injEq] at hs
            have hw' : isWord T '#' = false := by simp [isWord, hT.alnum '#' (by decide)]
            rw [hs.1, (isWord_iff T _).2 g1] at hw'
            exact absurd hw' (by decide)
    have : readTok T false e (charSpans ⟨1, 1⟩ s) = readPlain T false e (charSpans ⟨1, 1⟩ s) := by
      cases s with
      | nil => rfl
      | cons c cs => simp [charSpans, readTok, hne c cs rfl]
    rw [this]
    exact readPlain_eof hT e _ (by simpa using h)
  · have := hline line h1 [] (Or.inl rfl)
    simpa using this
  · exact hline line h1 _ (Or.inr ⟨s', rfl, h2⟩)

theorem readTok_complete {T : TextOps} (hT : TextOk T) (e : LineCol) (sk lex rest : Str) (t : Tok)
    (hs : SkippedFirst T sk (lex ++ rest)) (hl : Lexeme T lex t rest) :
    readTok T false e (charSpans ⟨1, 1⟩ (sk ++ lex ++ rest)) =
      some (⟨t, posOf sk⟩, charSpans (posOf (sk ++ lex)) rest) := by
  cases lex with
  | nil => exact absurd rfl (lexeme_tok hl).2.2
  | cons c w =>
  obtain ⟨f1, f2, f3⟩ := lexeme_first hT hl
  have hspan : charSpans ⟨1, 1⟩ (sk ++ c :: w ++ rest) =
      charSpans ⟨1, 1⟩ sk ++ ((c, posOf sk) :: charSpans ((posOf sk).after c) w ++ charSpans (posOf (sk ++ c :: w)) rest) := by
    rw [charSpans_append, charSpans_append, ← posOf_nil, endPos_posOf, endPos_posOf]
    simp [charSpans]
  have hplain : Skipped T sk (c :: w ++ rest) →
      readPlain T false e (charSpans ⟨1, 1⟩ (sk ++ c :: w ++ rest)) =
      some (⟨t, posOf sk⟩, charSpans (posOf (sk ++ c :: w)) rest) := by
    intro hs
    rw [hspan]
    refine readPlain_complete hT e _ _ _ (c, posOf sk) t ?_ ?_ <;> simpa using by assumption
  rcases hs with h | ⟨line, rfl, h1, h2⟩ | ⟨line, s', rfl, h1, h2⟩
  · have hne : ∀ d ds, sk ++ c :: w ++ rest = d :: ds → d ≠ '#' := by
      rintro d ds hd rfl
      obtain ⟨b, cm, h1, h2, h3⟩ := h
      cases b with
      | cons b bs =>
        rw [h1] at hd
        simp only [List.cons_append, List.cons.injEq] at hd
        have := h2 b (by simp)
        rw [hd.1] at this
        exact absurd this (by decide)
      | nil =>
        simp only [List.nil_append] at h1
        rw [h1] at hd
        rcases h3 with h3 | ⟨h3, -⟩
        · rw [h3] at hd
          simp only [List.nil_append, List.cons_append, List.cons.injEq] at hd
          exact f2 hd.1
        · cases h3 with
          | quote _ => simp at hd
          | @rem w body ty hw hk hr hb =>
            obtain ⟨c', w', rfl, g1, _⟩ := name_head hw
            simp only [List.cons_append, List.cons.injEq] at hd
            have hw' : isWord T '#' = false := by simp [isWord, hT.alnum '#' (by decide)]
            rw [← hd.1, (isWord_iff T _).2 g1] at hw'
            exact absurd hw' (by decide)
    rw [← hplain h]
    generalize sk ++ c :: w ++ rest = s at hne
    cases s with
    | nil => rfl
    | cons d ds => simp [charSpans, readTok, hne d ds rfl]
  · simp at h2
  · have e1 : '#' :: '!' :: line ++ '\n' :: s' ++ c :: w ++ rest = '#' :: '!' :: (line ++ ('\n' :: (s' ++ c :: w ++ rest))) := by
      simp
    rw [e1]
    simp only [charSpans, readTok, and_self, if_true, charSpans_append]
    rw [consumeRestOfLine_nl _ _ _ _ rfl (by simpa using h1)]
    simp only
    have hp : (endPos (LineCol.after (LineCol.after ⟨1, 1⟩ '#') '!') line).after '\n' = posOf ('#' :: '!' :: line ++ ['\n']) := by
      have : posOf ('#' :: '!' :: line ++ ['\n']) = endPos ⟨1, 1⟩ ('#' :: '!' :: line ++ ['\n']) := by
        rw [← posOf_nil, endPos_posOf]; rfl
      rw [this, List.cons_append, List.cons_append]
      simp only [endPos, endPos_append]
    rw [hp]
    simp only [endPos_posOf, endPos_append]
    have := readPlain_complete hT e (charSpans (posOf ('#' :: '!' :: line ++ ['\n'])) s')
      (charSpans ((posOf ('#' :: '!' :: line ++ '\n' :: s')).after c) w)
      (charSpans (posOf ('#' :: '!' :: line ++ '\n' :: s' ++ c :: w)) rest)
      (c, posOf ('#' :: '!' :: line ++ '\n' :: s')) t (by simpa using h2) (by simpa using hl)
    simpa [charSpans] using this

theorem lexLoop_complete {T : TextOps} (hT : TextOk T) (n : Nat) (before : Str) (ps : List Piece) (tail : Str)
    (hb : before ≠ []) (hn : (piecesText ps ++ tail).length ≤ n) (hp : PiecesOk T ps tail)
    (hg : ∀ p ∈ ps, ∀ msg, p.tok ≠ .bad msg) (e : LineCol) :
    lexLoop T false e n (charSpans (posOf before) (piecesText ps ++ tail)) = piecesTokens before ps := by
  induction n generalizing before ps with
  | zero =>
    cases ps with
    | nil => rfl
    | cons p ps =>
      exfalso
      have := hp.2.1.1
      simp only [piecesText, List.length_append] at hn
      exact this (List.length_eq_zero_iff.1 (by omega))
  | succ n ih =>
    cases ps with
    | nil =>
      simp only [piecesText, List.nil_append, lexLoop]
      rw [readTok_not_start _ _ _ (posOf_ne_start hb), readPlain_eof hT e _ (by rw [chars_charSpans]; exact hp)]
      rfl
    | cons p ps =>
      obtain ⟨h1, ⟨h2, h3⟩, h4⟩ := hp
      have hlex : Lexeme T p.lex p.tok (piecesText ps ++ tail) := by
        rcases h3 with h3 | ⟨⟨msg, h3⟩, -⟩
        · exact h3
        · exact absurd h3 (hg p (by simp) msg)
      obtain ⟨c, w, hcw⟩ : ∃ c w, p.lex = c :: w := by
        cases h : p.lex with
        | nil => exact absurd h h2
        | cons c w => exact ⟨c, w, rfl⟩
      have hspan : charSpans (posOf before) (piecesText (p :: ps) ++ tail) =
          charSpans (posOf before) p.skip ++ ((c, posOf (before ++ p.skip)) :: charSpans ((posOf (before ++ p.skip)).after c) w ++
            charSpans (posOf (before ++ p.skip ++ p.lex)) (piecesText ps ++ tail)) := by
        have : piecesText (p :: ps) ++ tail = p.skip ++ (p.lex ++ (piecesText ps ++ tail)) := by simp [piecesText]
        rw [this, charSpans_append, charSpans_append, endPos_posOf, endPos_posOf, hcw]
        simp [charSpans]
      simp only [lexLoop]
      rw [readTok_not_start _ _ _ (posOf_ne_start hb), hspan]
      rw [readPlain_complete hT e _ _ _ (c, posOf (before ++ p.skip)) p.tok
        (by simpa [hcw] using h1) (by simpa [hcw] using hlex)]
      simp only
      rw [if_neg (lexeme_tok hlex).1, piecesTokens]
      refine congrArg (_ :: ·) (ih _ ps (by simp [hb]) ?_ h4 (fun q hq => hg q (by simp [hq])))
      simp only [piecesText, List.length_append, hcw, List.length_cons] at hn ⊢
      omega

/-- A text made of well-formed tokens is read as these tokens. -/
theorem lexText_complete {T : TextOps} (hT : TextOk T) (ps : List Piece) (tail : Str) (hp : TextPieces T ps tail)
    (hg : ∀ p ∈ ps, ∀ msg, p.tok ≠ .bad msg) :
    (lexText T false (piecesText ps ++ tail)).toks = piecesTokens [] ps := by
  simp only [lexText]
  generalize endPos ⟨1, 1⟩ (piecesText ps ++ tail) = e
  generalize hn : (piecesText ps ++ tail).length = n
  cases n with
  | zero =>
    cases ps with
    | nil => rfl
    | cons p ps =>
      exfalso
      have := hp.2.1.1
      simp only [piecesText, List.length_append] at hn
      exact this (List.length_eq_zero_iff.1 (by omega))
  | succ n =>
    cases ps with
    | nil =>
      simp only [piecesText, List.nil_append, lexLoop]
      rw [readTok_eof hT e _ hp]
      rfl
    | cons p ps =>
      obtain ⟨h1, ⟨h2, h3⟩, h4⟩ := hp
      have hlex : Lexeme T p.lex p.tok (piecesText ps ++ tail) := by
        rcases h3 with h3 | ⟨⟨msg, h3⟩, -⟩
        · exact h3
        · exact absurd h3 (hg p (by simp) msg)
      have hsp : piecesText (p :: ps) ++ tail = p.skip ++ p.lex ++ (piecesText ps ++ tail) := by simp [piecesText]
      simp only [lexLoop]
      rw [hsp, readTok_complete hT e p.skip p.lex _ p.tok h1 hlex]
      simp only
      rw [if_neg (lexeme_tok hlex).1, piecesTokens]
      refine congrArg (_ :: ·) (lexLoop_complete hT n _ ps tail (by simp [h2]) ?_ h4 (fun q hq => hg q (by simp [hq])) e)
      have := List.length_pos_iff.2 h2
      simp only [piecesText, List.length_append] at hn ⊢
      omega

theorem skippedFirst_nil_of {T : TextOps} {c : Char} {cs sk rest : Str} (h : SkippedFirst T sk rest)
    (hs : c :: cs = sk ++ rest) (h1 : c ∉ blanks) (h2 : c ≠ '\'') (h3 : c ≠ '#')
    (h4 : WordChar T c → '0' ≤ c ∧ c ≤ '9') : sk = [] := by
  cases sk with
  | nil => rfl
  | cons d ds =>
    exfalso
    simp only [List.cons_append, List.cons.injEq] at hs
    obtain ⟨rfl, -⟩ := hs
    rcases h with ⟨b, cm, g1, g2, g3⟩ | ⟨line, g1, -⟩ | ⟨line, s', g1, -⟩
    · cases b with
      | cons x xs =>
        simp only [List.cons_append, List.cons.injEq] at g1
        exact h1 (g1.1 ▸ g2 x (by simp))
      | nil =>
        simp only [List.nil_append] at g1
        subst g1
        rcases g3 with g3 | ⟨g3, -⟩
        · simp at g3
        · generalize hz : c :: ds = z at g3
          cases g3 with
          | quote _ => simp only [List.cons.injEq] at hz; exact h2 hz.1
          | @rem w body ty hw hk hr hb =>
            cases w with
            | nil => exact hw.1 rfl
            | cons x xs =>
              simp only [List.cons_append, List.cons.injEq] at hz
              obtain ⟨rfl, -⟩ := hz
              exact hw.2.2 c rfl (h4 (hw.2.1 c (by simp)))
    · simp only [List.cons.injEq] at g1; exact h3 g1.1
    · simp only [List.cons_append, List.cons.injEq] at g1; exact h3 g1.1

/-- Where no token begins the first token is an error token. -/
theorem lexText_bad {T : TextOps} (hT : TextOk T) (c : Char) (cs : Str) (hn : NoToken T (c :: cs))
    (h1 : c ∉ blanks) (h2 : c ≠ '\'') (h3 : c ≠ '#') (h4 : WordChar T c → '0' ≤ c ∧ c ≤ '9') :
    ∃ msg, (lexText T false (c :: cs)).toks.head? = some ⟨.bad msg, ⟨1, 1⟩⟩ := by
  obtain ⟨ps, tail, e1, e2, e3⟩ := lexText_pieces hT (c :: cs)
  rw [e3]
  cases ps with
  | nil =>
    simp only [piecesText, List.nil_append] at e1
    have : tail = [] := skippedFirst_nil_of (sk := tail) (rest := []) e2 (by simpa using e1) h1 h2 h3 h4
    rw [this] at e1; simp at e1
  | cons p ps =>
    obtain ⟨g1, ⟨g2, g3⟩, -⟩ := e2
    have hsk := skippedFirst_nil_of g1 (by rw [e1]; simp [piecesText]) h1 h2 h3 h4
    have hs : c :: cs = p.lex ++ (piecesText ps ++ tail) := by rw [e1]; simp [piecesText, hsk]
    rcases g3 with g3 | ⟨⟨msg, g3⟩, -⟩
    · exact absurd g3 (hn _ _ _ hs)
    · exact ⟨msg, by simp [piecesTokens, g3, hsk, posOf_nil]⟩

/-- The first token of a text that begins with a well-formed token. -/
theorem lexText_first {T : TextOps} (hT : TextOk T) {lex rest : Str} {t : Tok} (h : Lexeme T lex t rest) :
    (lexText T false (lex ++ rest)).toks.head? = some ⟨t, ⟨1, 1⟩⟩ := by
  obtain ⟨c, w, rfl⟩ : ∃ c w, lex = c :: w := by
    cases lex with
    | nil => exact absurd rfl (lexeme_tok h).2.2
    | cons c w => exact ⟨c, w, rfl⟩
  have := readTok_complete hT (endPos ⟨1, 1⟩ (c :: w ++ rest)) [] (c :: w) rest t (Or.inl (skipped_nil T _)) h
  simp only [List.nil_append] at this
  simp only [lexText, List.cons_append, List.length_cons, lexLoop] at this ⊢
  rw [this]
  simp only
  rw [if_neg (lexeme_tok h).1]
  rfl

/-- One well-formed token alone. -/
theorem lexText_single {T : TextOps} (hT : TextOk T) {lex : Str} {t : Tok} (h : Lexeme T lex t []) :
    (lexText T false lex).toks = [⟨t, ⟨1, 1⟩⟩] := by
  have := lexText_complete hT [⟨[], lex, t⟩] [] ⟨Or.inl (skipped_nil T _), ⟨(lexeme_tok h).2.2, Or.inl h⟩, skipped_nil T _⟩
    (by intro p hp; simp only [List.mem_singleton] at hp; subst hp; exact (lexeme_tok h).2.1)
  simpa [piecesText, piecesTokens, posOf_nil] using this

end EB
