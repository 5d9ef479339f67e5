import Verif.Lemmas.Lexer
import Verif.Model.Source
/-!
# Properties of the lexer: C24 (positions), C25 (tokens cover the text), C26 (literals) and
C49 (printed constants)

`Spec/Lexer.lean` states the lexical grammar (`Lexeme`), what may stand between tokens (`Skipped`)
and positions (`posOf`).
-/

namespace EB
open Spec

/-- Character functions that agree with the documented ones on ASCII, for the examples. -/
def asciiText : TextOps where
  alnum c := c.isAlphanum
  numeric c := c.isDigit
  upper c := [c.toUpper]
  parseDouble _ := 0
  showDouble _ := "0.5".toList

theorem asciiText_ok : TextOk asciiText := ⟨fun _ _ => rfl, fun _ _ => rfl, fun _ _ => rfl⟩

/-! ## C24 -/

/-- C24: every token of a text is at the line and column of its first character, counted in the
text before it, and the end of the file is at the position after the text.  Error tokens included. -/
theorem C24_positions {T : TextOps} (hT : TextOk T) (s : Str) :
    (lexText T false s).eofPos = posOf s ∧
    ∀ (i : Nat) (t : TokSpan), (lexText T false s).toks[i]? = some t →
      ∃ before lex rest, s = before ++ lex ++ rest ∧ t.pos = posOf before ∧
        (Lexeme T lex t.tok rest ∨ ((∃ msg, t.tok = .bad msg) ∧ lex ≠ [] ∧ NoToken T (lex ++ rest))) := by
  refine ⟨?_, ?_⟩
  · simp only [lexText]; rw [← posOf_nil, endPos_posOf]; rfl
  · obtain ⟨ps, tail, e1, e2, e3⟩ := lexText_pieces hT s
    have key : ∀ (ps : List Piece) (before : Str) (i : Nat) (t : TokSpan), PiecesOk T ps tail →
        (piecesTokens before ps)[i]? = some t → ∃ b lex rest, before ++ piecesText ps ++ tail = b ++ lex ++ rest ∧
          t.pos = posOf b ∧
          (Lexeme T lex t.tok rest ∨ ((∃ msg, t.tok = .bad msg) ∧ lex ≠ [] ∧ NoToken T (lex ++ rest))) := by
      intro ps
      induction ps with
      | nil => intro before i t _ h; simp [piecesTokens] at h
      | cons p ps ih =>
        intro before i t hp h
        obtain ⟨h1, ⟨h2, h3⟩, h4⟩ := hp
        cases i with
        | zero =>
          simp only [piecesTokens, List.getElem?_cons_zero, Option.some.injEq] at h
          subst h
          refine ⟨before ++ p.skip, p.lex, piecesText ps ++ tail, by simp [piecesText], rfl, ?_⟩
          rcases h3 with h3 | ⟨h3, h5⟩
          · exact Or.inl h3
          · exact Or.inr ⟨h3, h2, h5⟩
        | succ i =>
          simp only [piecesTokens, List.getElem?_cons_succ] at h
          obtain ⟨b, lex, rest, g1, g2⟩ := ih _ i t h4 h
          exact ⟨b, lex, rest, by rw [← g1]; simp [piecesText], g2⟩
    intro i t h
    rw [e3] at h
    cases ps with
    | nil => simp [piecesTokens] at h
    | cons p ps =>
      obtain ⟨h1, ⟨h2, h3⟩, h4⟩ := e2
      cases i with
      | zero =>
        simp only [piecesTokens, List.getElem?_cons_zero, Option.some.injEq] at h
        subst h
        refine ⟨p.skip, p.lex, piecesText ps ++ tail, by rw [e1]; simp [piecesText], by simp, ?_⟩
        rcases h3 with h3 | ⟨h3, h5⟩
        · exact Or.inl h3
        · exact Or.inr ⟨h3, h2, h5⟩
      | succ i =>
        simp only [piecesTokens, List.getElem?_cons_succ, List.nil_append] at h
        obtain ⟨b, lex, rest, g1, g2⟩ := key ps _ i t h4 h
        exact ⟨b, lex, rest, by rw [← g1, e1]; simp [piecesText], g2⟩

/-- A tab after `ab` leads to column 9, and the text goes on after a newline. -/
example : (lexText asciiText false "ab\t= 1\n\t$ ".toList).toks =
    [⟨.symbol ⟨"ab".toList, none⟩, ⟨1, 1⟩⟩, ⟨.equal, ⟨1, 9⟩⟩, ⟨.integer 1, ⟨1, 11⟩⟩, ⟨.eol, ⟨1, 12⟩⟩,
     ⟨.bad "Unknown character: $".toList, ⟨2, 9⟩⟩] ∧
    (lexText asciiText false "ab\t= 1\n\t$ ".toList).eofPos = ⟨2, 11⟩ := by decide +kernel

example : posOf "ab\t= 1\n\t".toList = ⟨2, 9⟩ := by decide

/-! ## C25 -/

/-- C25: every text is cut into pieces in order, each of at least one character and each a
well-formed token or an error token at a place where no well-formed token begins, with nothing but
blanks and comments between them and at the end; these are the tokens read. -/
theorem C25_cover {T : TextOps} (hT : TextOk T) (s : Str) :
    ∃ pieces tail, s = piecesText pieces ++ tail ∧ TextPieces T pieces tail ∧ (∀ p ∈ pieces, p.lex ≠ []) ∧
      (lexText T false s).toks = piecesTokens [] pieces := by
  obtain ⟨ps, tail, e1, e2, e3⟩ := lexText_pieces hT s
  have key : ∀ ps, PiecesOk T ps tail → ∀ p ∈ ps, p.lex ≠ [] := by
    intro ps
    induction ps with
    | nil => intro _ p hp; simp at hp
    | cons q qs ih =>
      intro h p hp
      rcases List.mem_cons.1 hp with rfl | hp
      · exact h.2.1.1
      · exact ih h.2.2 p hp
  refine ⟨ps, tail, e1, e2, ?_, e3⟩
  intro p hp
  cases ps with
  | nil => simp at hp
  | cons q qs =>
    rcases List.mem_cons.1 hp with rfl | hp
    · exact e2.2.1.1
    · exact key qs e2.2.2 p hp

/-- C25, the converse: a text made of well-formed tokens, blanks and comments is read as these
tokens. -/
theorem C25_wellformed {T : TextOps} (hT : TextOk T) (pieces : List Piece) (tail : Str)
    (hp : TextPieces T pieces tail) (hg : ∀ p ∈ pieces, ∀ msg, p.tok ≠ .bad msg) :
    (lexText T false (piecesText pieces ++ tail)).toks = piecesTokens [] pieces :=
  lexText_complete hT pieces tail hp hg

example : TextPieces asciiText
    [⟨"#!x\n ".toList, "If".toList, .if⟩, ⟨" ".toList, "&x_fF".toList, .integer 255⟩,
     ⟨"' rest".toList, "\n".toList, .eol⟩] "  REM the end".toList := by
  refine ⟨Or.inr (Or.inr ⟨"x".toList, " ".toList, rfl, by decide, ⟨" ".toList, [], rfl, by decide, Or.inl rfl⟩⟩),
    ⟨by decide, Or.inl ?_⟩, ⟨" ".toList, [], rfl, by decide, Or.inl rfl⟩, ⟨by decide, Or.inl ?_⟩,
    ⟨[], "' rest".toList, rfl, by decide, Or.inr ⟨.quote (by decide), Or.inr rfl⟩⟩, ⟨by decide, Or.inl (.punct (by decide))⟩,
    ⟨"  ".toList, "REM the end".toList, rfl, by decide,
      Or.inr ⟨.rem (w := "REM".toList) (ty := none) (body := " the end".toList) ?_ (by decide) ?_ (by decide), Or.inl rfl⟩⟩⟩
  · exact .reserved (w := "If".toList) (ty := none) ⟨by decide, by simp [WordChar, asciiText], by simp⟩ (by decide)
      (by intro _ c hc; simp [piecesText] at hc; subst hc; decide)
  · exact .based (l := 'x') (base := 16) (u := "_".toList) (ds := "fF".toList) (by decide) (Or.inr rfl) (by decide)
      (by intro c hc; simp at hc; rcases hc with rfl | rfl <;> exact ⟨15, by decide, by decide⟩) (by decide)
      (by intro c hc; simp [piecesText] at hc; subst hc; decide)
  · exact ⟨by decide, by simp [WordChar, asciiText], by simp⟩
  · intro _ c hc; simp at hc; subst hc; decide

/-- C25, termination: reading as many times as there are characters reaches the end of the text,
so that more reads give nothing else. -/
theorem C25_terminates {T : TextOps} (hT : TextOk T) (s : Str) (n : Nat) (hn : s.length ≤ n) (e : LineCol) (he : e = posOf s) :
    lexLoop T false e n (charSpans ⟨1, 1⟩ s) = (lexText T false s).toks := by
  have hend : endPos ⟨1, 1⟩ s = posOf s := by rw [← posOf_nil, endPos_posOf]; rfl
  simp only [lexText, hend, ← he]
  have gen : ∀ k m (cs : List CharSpan), cs.length ≤ k → cs.length ≤ m →
      lexLoop T false e k cs = lexLoop T false e m cs := by
    intro k
    induction k with
    | zero =>
      intro m cs h1 h2
      have : cs = [] := List.length_eq_zero_iff.1 (by omega)
      subst this
      cases m with
      | zero => rfl
      | succ m => rfl
    | succ k ih =>
      intro m cs h1 h2
      cases m with
      | zero =>
        have : cs = [] := List.length_eq_zero_iff.1 (by omega)
        subst this
        rfl
      | succ m =>
        simp only [lexLoop]
        cases hr : readTok T false e cs with
        | none => rfl
        | some r =>
          obtain ⟨t, rest⟩ := r
          simp only
          split
          · rfl
          · rename_i ht
            rcases readTok_piece hT e cs t rest hr with ⟨g1, -⟩ | ⟨sk, x, mid, g1, -⟩
            · rw [g1] at ht; exact absurd rfl ht
            · have hl := congrArg List.length g1
              simp only [List.length_append, List.length_cons] at hl
              rw [ih m rest (by omega) (by omega)]
  exact gen n s.length _ (by rw [charSpans_length]; exact hn) (by rw [charSpans_length]; exact Nat.le_refl _)

/-- C25: every read without I/O error gives a token, and takes at least one character of the text
unless it gives the end of the file; the end of the file is given again at every later read. -/
theorem C25_progress {T : TextOps} (hT : TextOk T) (e : LineCol) (cs : List CharSpan) :
    ∃ t rest, readTok T false e cs = some (t, rest) ∧
      ((t = ⟨.eof, e⟩ ∧ rest = []) ∨ (t.tok ≠ .eof ∧ rest.length < cs.length ∧ ∃ taken, cs = taken ++ rest)) ∧
      readTok T false e [] = some (⟨.eof, e⟩, []) := by
  obtain ⟨⟨t, rest⟩, hr⟩ := Option.isSome_iff_exists.1 (readTok_isSome T e cs)
  refine ⟨t, rest, hr, ?_, rfl⟩
  rcases readTok_piece hT e cs t rest hr with ⟨g1, g2, -⟩ | ⟨sk, x, mid, g1, g2, g3, -⟩
  · exact Or.inl ⟨g1, g2⟩
  · refine Or.inr ⟨g3, ?_, sk ++ x :: mid, by rw [g1]; simp⟩
    rw [g1]; simp; omega

example : readTok asciiText false ⟨9, 9⟩ (charSpans ⟨1, 1⟩ "  12 + 3".toList) =
    some (⟨.integer 12, ⟨1, 3⟩⟩, [(' ', ⟨1, 5⟩), ('+', ⟨1, 6⟩), (' ', ⟨1, 7⟩), ('3', ⟨1, 8⟩)]) := by decide +kernel

/-! ## C26 -/

/-- C26: decimal digits whose value is below 2^31 are the integer of that value. -/
theorem C26_decimal {T : TextOps} (hT : TextOk T) (ds rest : Str) (h : ds ≠ []) (hd : DigitsIn 10 ds)
    (hr : EndsWord rest) (hv : valueIn 10 ds < 2 ^ 31) :
    (lexText T false (ds ++ rest)).toks.head? = some ⟨.integer (BitVec.ofNat 32 (valueIn 10 ds)), ⟨1, 1⟩⟩ :=
  lexText_first hT (.integer h hd hv hr)

/-- C26: the number denoted is the one written. -/
theorem C26_decimal_value (n : Nat) (hn : n < 2 ^ 31) :
    DigitsIn 10 (Nat.toDigits 10 n) ∧ valueIn 10 (Nat.toDigits 10 n) = n ∧
    (BitVec.ofNat 32 n : I32).toInt = n := by
  have hdig : ∀ d < 10, digitOf (Nat.digitChar d) = some d := by decide
  have key : ∀ n, DigitsIn 10 (Nat.toDigits 10 n) ∧ valueIn 10 (Nat.toDigits 10 n) = n := by
    intro n
    induction n using Nat.strongRecOn with
    | _ n ih =>
      by_cases h : n < 10
      · rw [Nat.toDigits_of_lt_base h]
        refine ⟨?_, by simp [valueIn, hdig n h]⟩
        intro c hc
        simp only [List.mem_singleton] at hc
        subst hc
        exact ⟨n, hdig n h, h⟩
      · rw [Nat.toDigits_of_base_le (by omega) (by omega)]
        obtain ⟨i1, i2⟩ := ih (n / 10) (by omega)
        have hm := hdig (n % 10) (by omega)
        refine ⟨digitsIn_append i1 ?_, ?_⟩
        · intro c hc
          simp only [List.mem_singleton] at hc
          subst hc
          exact ⟨n % 10, hm, by omega⟩
        · simp only [valueIn, List.foldl_append, List.foldl_cons, List.foldl_nil, hm, Option.getD_some] at i2 ⊢
          rw [i2]; omega
  refine ⟨(key n).1, (key n).2, ?_⟩
  rw [BitVec.toInt_eq_toNat_of_lt] <;> simp <;> omega

theorem lexText_digits_bad {T : TextOps} (hT : TextOk T) (ds rest : Str) (h : ds ≠ []) (hd : DigitsIn 10 ds)
    (hr : EndsWord rest) (hv : 2 ^ 31 ≤ valueIn 10 ds) : NoToken T (ds ++ rest) := by
  cases ds with
  | nil => exact absurd rfl h
  | cons c w =>
    have hc : isAsciiDigit c = true := (isAsciiDigit_iff c).2 (hd c (by simp))
    have hw : DigitsIn 10 w := fun x hx => hd x (List.mem_cons_of_mem _ hx)
    have key : readFrom T false ⟨1, 1⟩ (c, ⟨1, 1⟩) (charSpans ⟨1, 1⟩ w ++ charSpans ⟨1, 1⟩ rest) =
        finishNumber T false ⟨1, 1⟩ (c :: w) false (charSpans ⟨1, 1⟩ rest) := by
      rw [readFrom_digit _ _ _ _ hc, consumeNumber_digits _ _ _ _ _ _ _ (by simpa using hw),
        consumeNumber_end _ _ _ _ _ (by simpa using hr)]
      simp
    have hp : ∀ n, parseRadix (2 ^ 31) 10 0 (c :: w) ≠ .ok n := by
      intro n hn
      have := (parseRadix_ok_iff (2 ^ 31) 10 (by omega) (by omega) (c :: w) 0 n (by omega)).1 hn
      have h2 : n = valueIn 10 (c :: w) := this.2.1
      omega
    cases hb : parseRadix (2 ^ 31) 10 0 (c :: w) with
    | ok n => exact absurd hb (hp n)
    | error e =>
      simp only [finishNumber, Bool.false_eq_true, if_false, hb] at key
      obtain ⟨⟨t, r⟩, hs⟩ := Option.isSome_iff_exists.1 (handleBad_isSome ("Bad integer ".toList ++ (c :: w) ++ ": ".toList ++ e) ⟨1, 1⟩ (charSpans ⟨1, 1⟩ rest))
      rw [hs] at key
      have hbad : ∃ msg, t.tok = .bad msg := by
        have gen : ∀ (msg : Str) (pos : LineCol) (cs : List CharSpan) (t : TokSpan) r,
            handleBad false msg pos cs = some (t, r) → t.tok = .bad msg := by
          intro msg pos cs
          induction cs with
          | nil => intro t r hh; simp [handleBad] at hh; rw [← hh.1]
          | cons a as ih =>
            intro t r hh
            simp only [handleBad] at hh
            split at hh
            · simp at hh; rw [← hh.1]
            · exact ih t r hh
        exact ⟨_, gen _ _ _ _ _ hs⟩
      obtain ⟨msg, hm⟩ := hbad
      have := noToken_of_bad hT _ _ _ _ _ key msg hm
      simpa using this

/-- C26: decimal digits whose value is 2^31 or more are rejected. -/
theorem C26_decimal_too_big {T : TextOps} (hT : TextOk T) (ds rest : Str) (h : ds ≠ []) (hd : DigitsIn 10 ds)
    (hr : EndsWord rest) (hv : 2 ^ 31 ≤ valueIn 10 ds) :
    ∃ msg, (lexText T false (ds ++ rest)).toks.head? = some ⟨.bad msg, ⟨1, 1⟩⟩ := by
  have hn := lexText_digits_bad hT ds rest h hd hr hv
  cases ds with
  | nil => exact absurd rfl h
  | cons c w =>
    have hc : isAsciiDigit c = true := (isAsciiDigit_iff c).2 (hd c (by simp))
    have hc' : '0' ≤ c ∧ c ≤ '9' := by simpa [isAsciiDigit] using hc
    refine lexText_bad hT c (w ++ rest) hn ?_ ?_ ?_ (fun _ => hc') <;>
      (rintro hx; first | (subst hx; revert hc; decide) | (have : ∀ c ∈ blanks, isAsciiDigit c = false := by decide
                                                           rw [this c hx] at hc; simp at hc))

/-- C26: digits of a base below 2^32, after `&` and the letter of the base in either case and
possibly an underscore, are the integer with that bit pattern. -/
theorem C26_based {T : TextOps} (hT : TextOk T) (l : Char) (base : Nat) (u ds rest : Str) (hl : (l, base) ∈ baseLetters)
    (hu : u = [] ∨ u = "_".toList) (h : ds ≠ []) (hd : DigitsIn base ds) (hr : EndsWord rest)
    (hv : valueIn base ds < 2 ^ 32) :
    (lexText T false ('&' :: l :: u ++ ds ++ rest)).toks.head? =
      some ⟨.integer (BitVec.ofNat 32 (valueIn base ds)), ⟨1, 1⟩⟩ :=
  lexText_first hT (.based hl hu h hd hv hr)

/-- C26: the only integer tokens are those: an integer token anywhere in a text stands for decimal
digits of its value or for `&`, a base letter and digits of its value. -/
theorem C26_integer_only {T : TextOps} (hT : TextOk T) (s : Str) (i : Nat) (v : I32) (pos : LineCol)
    (ht : (lexText T false s).toks[i]? = some ⟨.integer v, pos⟩) :
    ∃ before lex rest, s = before ++ lex ++ rest ∧ pos = posOf before ∧ EndsWord rest ∧
      ((lex ≠ [] ∧ DigitsIn 10 lex ∧ v.toInt = valueIn 10 lex) ∨
       ∃ l base u ds, lex = '&' :: l :: u ++ ds ∧ (l, base) ∈ baseLetters ∧ (u = [] ∨ u = "_".toList) ∧ ds ≠ [] ∧
         DigitsIn base ds ∧ v.toNat = valueIn base ds) := by
  obtain ⟨before, lex, rest, h1, h2, h3⟩ := (C24_positions hT s).2 i _ ht
  rcases h3 with h3 | ⟨⟨msg, h3⟩, -⟩
  · refine ⟨before, lex, rest, h1, h2, ?_⟩
    simp only at h3
    generalize hv : Tok.integer v = t at h3
    cases h3 with
    | @punct c _ _ h =>
      have : ∀ x ∈ punctuation, (match x.2 with | .integer _ => false | _ => true) = true := by decide
      have := this _ h; rw [← hv] at this; simp at this
    | operator h =>
      have : ∀ x ∈ operators, (match x.2 with | .integer _ => false | _ => true) = true := by decide
      have := this _ h; rw [← hv] at this; simp at this
    | reserved _ h _ =>
      have : ∀ x ∈ reserved, (match x.2 with | .integer _ => false | _ => true) = true := by decide
      have := this _ h; rw [← hv] at this; simp at this
    | less _ => simp at hv
    | greater _ => simp at hv
    | text _ => simp at hv
    | double _ _ _ _ _ => simp at hv
    | symbol _ _ _ _ => simp at hv
    | label _ _ _ => simp at hv
    | integer h hd hv' hr =>
      simp only [Tok.integer.injEq] at hv
      refine ⟨hr, Or.inl ⟨h, hd, ?_⟩⟩
      rw [hv, BitVec.toInt_eq_toNat_of_lt] <;> simp <;> omega
    | based hl hu h hd hv' hr =>
      simp only [Tok.integer.injEq] at hv
      refine ⟨hr, Or.inr ⟨_, _, _, _, rfl, hl, hu, h, hd, ?_⟩⟩
      rw [hv]; simp; omega
  · simp at h3

/-- C26: digits in a base that do not fit in 32 bits are rejected, and so are digits that the base
does not have. -/
theorem C26_based_too_big {T : TextOps} (hT : TextOk T) (l : Char) (base : Nat) (u ds rest : Str)
    (hl : (l, base) ∈ baseLetters) (hu : u = [] ∨ u = "_".toList) (hd : DigitsIn 16 ds) (hr : EndsWord rest)
    (hv : ds = [] ∨ ¬ DigitsIn base ds ∨ 2 ^ 32 ≤ valueIn base ds) :
    ∃ msg, (lexText T false ('&' :: l :: u ++ ds ++ rest)).toks.head? = some ⟨.bad msg, ⟨1, 1⟩⟩ := by
  have hwc : ¬ WordChar T '&' := by
    rintro (h | h)
    · exact absurd h (by decide)
    · rw [hT.alnum '&' (by decide)] at h; exact absurd h (by decide)
  refine lexText_bad hT '&' (l :: u ++ ds ++ rest) ?_ (by decide) (by decide) (by decide) (fun h => absurd h hwc)
  intro lex t rest' hs hlex
  -- everything up to `rest` is one lexeme
  cases hlex with
  | @punct c t _ h =>
    have : ∀ x ∈ punctuation, x.1 ≠ '&' := by decide
    simp only [List.cons_append, List.cons.injEq] at hs
    exact this _ h hs.1.symm
  | operator h =>
    have : ∀ x ∈ operators, x.1.head? = some '<' ∨ x.1.head? = some '>' := by decide
    have h2 := congrArg List.head? hs
    have h3 : lex ≠ [] := by
      have : ∀ x ∈ operators, x.1 ≠ [] := by decide
      exact this _ h
    cases lex with
    | nil => exact h3 rfl
    | cons a as =>
      simp at h2
      have := this _ h
      simp at this
      rcases this with rfl | rfl <;> exact absurd h2 (by decide)
  | less _ => simp at hs
  | greater _ => simp at hs
  | text _ => simp at hs
  | integer h hd' _ _ =>
    cases lex with
    | nil => exact h rfl
    | cons a as =>
      simp only [List.cons_append, List.cons.injEq] at hs
      obtain ⟨d, h1, _⟩ := hd' a (by simp)
      rw [← hs.1, show digitOf '&' = none by decide] at h1
      simp at h1
  | @double a b _ ha _ hda _ _ =>
    cases a with
    | nil => exact ha rfl
    | cons a as =>
      simp only [List.cons_append, List.cons.injEq] at hs
      obtain ⟨d, h1, _⟩ := hda a (by simp)
      rw [← hs.1, show digitOf '&' = none by decide] at h1
      simp at h1
  | @reserved w _ _ ty hw _ _ =>
    cases w with
    | nil => exact hw.1 rfl
    | cons a as =>
      simp only [List.cons_append, List.cons.injEq] at hs
      exact hwc (hs.1 ▸ hw.2.1 a (by simp))
  | @symbol w _ ty hw _ _ _ =>
    cases w with
    | nil => exact hw.1 rfl
    | cons a as =>
      simp only [List.cons_append, List.cons.injEq] at hs
      exact hwc (hs.1 ▸ hw.2.1 a (by simp))
  | label _ _ _ => simp at hs
  | @based l' base' u' ds' _ hl' hu' h' hd' hv' hr' =>
    simp only [List.cons_append, List.append_assoc, List.cons.injEq, true_and] at hs
    obtain ⟨rfl, hs⟩ := hs
    have hbb : base' = base := by
      have : ∀ x ∈ baseLetters, ∀ y ∈ baseLetters, x.1 = y.1 → x.2 = y.2 := by decide
      exact this _ hl' _ hl rfl
    subst hbb
    have hb16 : base' ≤ 16 := by
      have : ∀ x ∈ baseLetters, x.2 ≤ 16 := by decide
      exact this _ hl
    have hdig : ∀ a : Char, (∃ d, digitOf a = some d ∧ d < 16) → a ∉ separators ∧ a ≠ '_' := by
      rintro a ⟨d, h1, _⟩
      have hs : ∀ a ∈ separators, digitOf a = none := by decide
      refine ⟨fun ha => ?_, fun ha => ?_⟩
      · rw [hs a ha] at h1; simp at h1
      · rw [ha, show digitOf '_' = none by decide] at h1; simp at h1
    have hend : ∀ (r : Str), EndsWord r → r.head? ≠ some '_' := by
      intro r hr hh
      exact absurd (hr '_' hh) (by decide)
    -- the underscore and the digits are the same
    have split : ∀ (u u' a b r r' : Str), (u = [] ∨ u = "_".toList) → (u' = [] ∨ u' = "_".toList) → DigitsIn 16 a → DigitsIn 16 b →
        EndsWord r → EndsWord r' → u ++ (a ++ r) = u' ++ (b ++ r') → a = b := by
      have core : ∀ (a b r r' : Str), DigitsIn 16 a → DigitsIn 16 b → EndsWord r → EndsWord r' → a ++ r = b ++ r' → a = b := by
        intro a
        induction a with
        | nil =>
          intro b r r' _ hb hr hr' he
          cases b with
          | nil => rfl
          | cons b bs =>
            simp only [List.nil_append, List.cons_append] at he
            exact absurd (hr b (by rw [he]; rfl)) (hdig b (hb b (by simp))).1
        | cons x xs ih =>
          intro b r r' ha hb hr hr' he
          cases b with
          | nil =>
            simp only [List.nil_append, List.cons_append] at he
            exact absurd (hr' x (by rw [← he]; rfl)) (hdig x (ha x (by simp))).1
          | cons b bs =>
            simp only [List.cons_append, List.cons.injEq] at he
            rw [he.1, ih bs r r' (fun c hc => ha c (List.mem_cons_of_mem _ hc)) (fun c hc => hb c (List.mem_cons_of_mem _ hc)) hr hr' he.2]
      have nou : ∀ (a r : Str), DigitsIn 16 a → EndsWord r → (a ++ r).head? ≠ some '_' := by
        intro a r ha hr hh
        cases a with
        | nil => exact hend r hr hh
        | cons x xs =>
          simp only [List.cons_append, List.head?_cons, Option.some.injEq] at hh
          exact (hdig x (ha x (by simp))).2 hh
      rintro u u' a b r r' (rfl | rfl) (rfl | rfl) ha hb hr hr' he
      · exact core a b r r' ha hb hr hr' he
      · exact absurd (by simp only [List.nil_append] at he; rw [he]; rfl) (nou a r ha hr)
      · exact absurd (by simp only [List.nil_append] at he; rw [← he]; rfl) (nou b r' hb hr')
      · simp only [String.reduceToList, List.cons_append, List.nil_append, List.cons.injEq, true_and] at he
        exact core a b r r' ha hb hr hr' he
    have hds : ds = ds' := split u u' ds ds' rest rest' hu hu' hd
      (fun c hc => by obtain ⟨d, h1, h2⟩ := hd' c hc; exact ⟨d, h1, by omega⟩) hr hr' hs
    subst hds
    rcases hv with hv | hv | hv
    · exact h' hv
    · exact hv hd'
    · omega

example : (lexText asciiText false "2147483647 2147483648 &xffffffff &x100000000 &b_102 &o777 &D12".toList).toks.map (·.tok) =
    [.integer 2147483647, .bad "Bad integer 2147483648: number too large to fit in target type".toList, .integer (-1),
     .bad "Bad integer 100000000: number too large to fit in target type".toList,
     .bad "Bad integer 102: invalid digit found in string".toList, .integer 511, .integer 12] := by decide +kernel

example : DigitsIn 10 "2147483648".toList ∧ valueIn 10 "2147483648".toList = 2 ^ 31 ∧ EndsWord " ".toList := by
  refine ⟨?_, by decide +kernel, ?_⟩
  · have : ∀ c ∈ "2147483648".toList, ∃ d < 10, digitOf c = some d := by decide +kernel
    intro c hc
    obtain ⟨d, h1, h2⟩ := this c hc
    exact ⟨d, h2, h1⟩
  · intro c hc; simp at hc; subst hc; decide

/-- C26: a text literal denotes its characters; a backslash makes the next character literal. -/
theorem C26_text {T : TextOps} (hT : TextOk T) (w s rest : Str) (h : TextBody w s) :
    (lexText T false ('"' :: w ++ "\"".toList ++ rest)).toks.head? = some ⟨.text s, ⟨1, 1⟩⟩ :=
  lexText_first hT (.text h)

/-- C26: every string can be written as a literal. -/
theorem C26_text_all (s : Str) : ∃ w, TextBody w s := by
  induction s with
  | nil => exact ⟨[], .nil⟩
  | cons c cs ih =>
    obtain ⟨w, hw⟩ := ih
    exact ⟨'\\' :: c :: w, .escaped c hw⟩

/-- C26: text tokens stand for such literals only. -/
theorem C26_text_only {T : TextOps} (hT : TextOk T) (s : Str) (i : Nat) (v : Str) (pos : LineCol)
    (ht : (lexText T false s).toks[i]? = some ⟨.text v, pos⟩) :
    ∃ before w rest, s = before ++ ('"' :: w ++ "\"".toList) ++ rest ∧ pos = posOf before ∧ TextBody w v := by
  obtain ⟨before, lex, rest, h1, h2, h3⟩ := (C24_positions hT s).2 i _ ht
  rcases h3 with h3 | ⟨⟨msg, h3⟩, -⟩
  · simp only at h3
    generalize hv : Tok.text v = t at h3
    cases h3 with
    | punct h =>
      have : ∀ x ∈ punctuation, (match x.2 with | .text _ => false | _ => true) = true := by decide
      have := this _ h; rw [← hv] at this; simp at this
    | operator h =>
      have : ∀ x ∈ operators, (match x.2 with | .text _ => false | _ => true) = true := by decide
      have := this _ h; rw [← hv] at this; simp at this
    | reserved _ h _ =>
      have : ∀ x ∈ reserved, (match x.2 with | .text _ => false | _ => true) = true := by decide
      have := this _ h; rw [← hv] at this; simp at this
    | less _ => simp at hv
    | greater _ => simp at hv
    | integer _ _ _ _ => simp at hv
    | double _ _ _ _ _ => simp at hv
    | based _ _ _ _ _ _ => simp at hv
    | symbol _ _ _ _ => simp at hv
    | label _ _ _ => simp at hv
    | text h =>
      simp only [Tok.text.injEq] at hv
      exact ⟨before, _, rest, h1, h2, hv ▸ h⟩
  · simp at h3

example : (lexText asciiText false "\"a\\\"b\\\\ \nc\" \"open".toList).toks =
    [⟨.text "a\"b\\ \nc".toList, ⟨1, 1⟩⟩, ⟨.bad "Incomplete string due to EOF: open".toList, ⟨2, 4⟩⟩] := by decide +kernel

/-! ## C49 -/

/-- The literal token of a constant. -/
def literalTok : ConstantDatum → Tok
  | .boolean b => .boolean b
  | .double d => .double d
  | .integer i => .integer i
  | .text s => .text s

/-- The printed constant is one literal that denotes the constant. -/
def ReadsBack (T : TextOps) (c : ConstantDatum) : Prop :=
  (lexText T false (c.asSource T)).toks.map (·.tok) = [literalTok c]

theorem doubleQuotes_eq {s : Str} (h : '"' ∉ s) : doubleQuotes s = s := by
  induction s with
  | nil => rfl
  | cons c cs ih =>
    simp only [List.mem_cons, not_or] at h
    have := ih h.2
    simp only [doubleQuotes] at this ⊢
    simp [List.flatMap_cons, Ne.symm h.1, this]

theorem textBody_plain {s : Str} (h1 : '"' ∉ s) (h2 : '\\' ∉ s) : TextBody s s := by
  induction s with
  | nil => exact .nil
  | cons c cs ih =>
    simp only [List.mem_cons, not_or] at h1 h2
    exact .plain (Ne.symm h1.1) (Ne.symm h2.1) (ih h1.2 h2.2)

theorem count_doubleQuotes (s : Str) :
    (doubleQuotes s).count '"' = 2 * s.count '"' ∧ (doubleQuotes s).length = s.length + s.count '"' := by
  induction s with
  | nil => exact ⟨rfl, rfl⟩
  | cons c cs ih =>
    obtain ⟨h1, h2⟩ := ih
    simp only [doubleQuotes] at h1 h2
    simp only [doubleQuotes, List.flatMap_cons, List.count_append, List.length_append, h1, h2, List.count_cons, List.length_cons]
    by_cases hc : c = '"'
    · subst hc; simp; omega
    · simp [hc]; omega

theorem textBody_count {w s : Str} (h : TextBody w s) :
    w.count '"' = s.count '"' ∧ w.length = s.length + (w.length - s.length) ∧
    (w.length = s.length → '\\' ∉ w) ∧ s.length ≤ w.length := by
  induction h with
  | nil => simp
  | @plain c w s h h' t ih =>
    obtain ⟨i1, i2, i3, i4⟩ := ih
    refine ⟨by simp [List.count_cons, i1], by simp; omega, ?_, by simp; omega⟩
    intro hl
    simp only [List.length_cons] at hl
    simp only [List.mem_cons, not_or]
    exact ⟨fun e => h' e.symm, i3 (by omega)⟩
  | @escaped c w s t ih =>
    obtain ⟨i1, i2, i3, i4⟩ := ih
    refine ⟨by simp [List.count_cons, i1], by simp; omega, ?_, by simp; omega⟩
    intro hl
    simp only [List.length_cons] at hl
    omega

/-- C49, what holds: truth values, integers that are not negative and texts without quotes and
backslashes are read back.  Missing: the others, which are not read back (`C49_not_read_back`). -/
theorem C49_read_back_partial {T : TextOps} (hT : TextOk T) (c : ConstantDatum)
    (hc : match c with
      | .boolean _ => True
      | .integer i => 0 ≤ i.toInt
      | .text s => '"' ∉ s ∧ '\\' ∉ s
      | .double d => ∃ a b, a ≠ [] ∧ b ≠ [] ∧ DigitsIn 10 a ∧ DigitsIn 10 b ∧
          (c.asSource T = a ++ '.' :: b) ∧ T.parseDouble (a ++ '.' :: b) = d) : ReadsBack T c := by
  have single : ∀ {lex t}, Lexeme T lex t [] → (lexText T false lex).toks.map (·.tok) = [t] := by
    intro lex t h; rw [lexText_single hT h]; rfl
  unfold ReadsBack
  have hend : EndsWord [] := by intro c hc; simp at hc
  cases c with
  | boolean b =>
    have hw : ∀ w : Str, w ≠ [] → (∀ c ∈ w, c.toNat < 128 ∧ c.isAlphanum = true ∧ ¬ ('0' ≤ c ∧ c ≤ '9')) → Name T w := by
      intro w h1 h2
      refine ⟨h1, fun c hc => Or.inr ?_, ?_⟩
      · rw [hT.alnum c (h2 c hc).1]; exact (h2 c hc).2.1
      · intro c hc
        cases w with
        | nil => exact absurd rfl h1
        | cons a as => simp at hc; subst hc; exact (h2 a (by simp)).2.2
    have hup : ∀ w : Str, (∀ c ∈ w, c.toNat < 128 ∧ c.toUpper = c) → upperWord T w = w := by
      intro w
      induction w with
      | nil => intro _; rfl
      | cons a as ih =>
        intro h
        have ha := h a (by simp)
        have := ih (fun c hc => h c (List.mem_cons_of_mem _ hc))
        simp only [upperWord] at this ⊢
        simp [List.flatMap_cons, hT.upper a ha.1, ha.2, this]
    cases b with
    | true =>
      refine single (.reserved (w := "TRUE".toList) (ty := none) (hw _ (by decide) (by decide)) ?_ (fun _ => hend))
      rw [hup _ (by decide)]; decide
    | false =>
      refine single (.reserved (w := "FALSE".toList) (ty := none) (hw _ (by decide) (by decide)) ?_ (fun _ => hend))
      rw [hup _ (by decide)]; decide
  | integer i =>
    simp only at hc
    have h31 : i.toInt.natAbs < 2 ^ 31 := by have := BitVec.toInt_lt (x := i); omega
    obtain ⟨h1, h2, -⟩ := C26_decimal_value i.toInt.natAbs h31
    have := single (.integer (rest := []) Nat.toDigits_ne_nil h1 (by rw [h2]; exact h31) hend)
    rw [h2] at this
    simp only [ConstantDatum.asSource, showI32, literalTok, if_neg (by omega : ¬ i.toInt < 0), showNat]
    rw [this]
    have hi : BitVec.ofNat 32 i.toInt.natAbs = i := by
      have hn : i.toInt = i.toNat := by
        rw [BitVec.toInt_eq_toNat_cond] at hc ⊢
        split
        · rfl
        · rename_i h; rw [if_neg h] at hc; have := i.isLt; omega
      rw [hn]; simp
    rw [hi]
  | text s =>
    simp only at hc
    simp only [ConstantDatum.asSource, doubleQuotes_eq hc.1, literalTok]
    exact single (.text (textBody_plain hc.1 hc.2))
  | double d =>
    simp only at hc
    obtain ⟨a, b, ha, hb, hda, hdb, he, hp⟩ := hc
    rw [he]
    have := single (.double (rest := []) ha hb hda hdb hend)
    rw [this, hp]; rfl

example : ReadsBack asciiText (.text "a 'b' \t".toList) ∧ ReadsBack asciiText (.integer 2147483647) ∧
    ReadsBack asciiText (.boolean true) ∧ ReadsBack asciiText (.double 0) := by
  refine ⟨?_, ?_, ?_, ?_⟩ <;> (unfold ReadsBack; decide +kernel)

/-- C49 does not hold: negative integers are printed as two tokens, and a text with a quote or a
backslash is printed in a form that the lexer does not read as that text (finding F24). -/
theorem C49_not_read_back {T : TextOps} (hT : TextOk T) :
    (∀ i : I32, i.toInt < 0 → ¬ ReadsBack T (.integer i)) ∧
    (∀ s : Str, '"' ∈ s ∨ '\\' ∈ s → ¬ ReadsBack T (.text s)) := by
  refine ⟨?_, ?_⟩
  · intro i hi h
    have hf := lexText_first hT (T := T) (.punct (rest := showNat i.toInt.natAbs) (by decide : ('-', Tok.minus) ∈ punctuation))
    simp only [ReadsBack, ConstantDatum.asSource, showI32, if_pos hi] at h
    have h2 : (lexText T false ('-' :: showNat i.toInt.natAbs)).toks.head?.map (·.tok) = some .minus := by
      have : ['-'] ++ showNat i.toInt.natAbs = '-' :: showNat i.toInt.natAbs := rfl
      rw [this] at hf; rw [hf]; rfl
    rw [← List.head?_map, h] at h2
    simp [literalTok] at h2
  · intro s hs h
    unfold ReadsBack at h
    obtain ⟨ps, tail, e1, e2, e3⟩ := lexText_pieces hT ((ConstantDatum.text s).asSource T)
    rw [e3] at h
    match ps, h with
    | [], h => simp [piecesTokens] at h
    | _ :: _ :: _, h => simp [piecesTokens] at h
    | [p], h =>
      obtain ⟨h1, ⟨h2, h3⟩, h4⟩ := e2
      simp only [piecesTokens, List.map_cons, List.map_nil, literalTok, List.cons.injEq, and_true] at h
      have hwc : ¬ WordChar T '"' := by
        rintro (h | h)
        · exact absurd h (by decide)
        · rw [hT.alnum '"' (by decide)] at h; exact absurd h (by decide)
      have hsk : p.skip = [] := by
        refine skippedFirst_nil_of (c := '"') (cs := doubleQuotes s ++ "\"".toList) h1 ?_ (by decide) (by decide) (by decide)
          (fun h => absurd h hwc)
        rw [show '"' :: (doubleQuotes s ++ "\"".toList) = (ConstantDatum.text s).asSource T from rfl, e1]
        simp [piecesText]
      rcases h3 with h3 | ⟨⟨msg, h3⟩, -⟩
      · -- the literal is `"w"`, followed by blanks or a comment
        rw [h] at h3
        have hbody : ∃ w, p.lex = '"' :: w ++ "\"".toList ∧ TextBody w s := by
          generalize hv : Tok.text s = t at h3
          generalize hq : p.lex = lx at h3
          cases h3 with
          | punct h =>
            have : ∀ x ∈ punctuation, (match x.2 with | .text _ => false | _ => true) = true := by decide
            have := this _ h; rw [← hv] at this; simp at this
          | operator h =>
            have : ∀ x ∈ operators, (match x.2 with | .text _ => false | _ => true) = true := by decide
            have := this _ h; rw [← hv] at this; simp at this
          | reserved _ h _ =>
            have : ∀ x ∈ reserved, (match x.2 with | .text _ => false | _ => true) = true := by decide
            have := this _ h; rw [← hv] at this; simp at this
          | less _ => simp at hv
          | greater _ => simp at hv
          | integer _ _ _ _ => simp at hv
          | double _ _ _ _ _ => simp at hv
          | based _ _ _ _ _ _ => simp at hv
          | symbol _ _ _ _ => simp at hv
          | label _ _ _ => simp at hv
          | text h => simp only [Tok.text.injEq] at hv; exact ⟨_, rfl, hv ▸ h⟩
        obtain ⟨w, hw1, hw2⟩ := hbody
        have hall : '"' :: (doubleQuotes s ++ "\"".toList) = '"' :: (w ++ "\"".toList) ++ tail := by
          rw [show '"' :: (doubleQuotes s ++ "\"".toList) = (ConstantDatum.text s).asSource T from rfl, e1]
          simp [piecesText, hsk, hw1]
        simp only [List.cons_append, List.cons.injEq, true_and] at hall
        obtain ⟨c1, c2, c3, c4⟩ := textBody_count hw2
        obtain ⟨d1, d2⟩ := count_doubleQuotes s
        have hq := congrArg (List.count '"') hall
        have hl := congrArg List.length hall
        simp only [List.count_append, List.length_append, String.reduceToList, List.count_cons, List.count_nil, List.length_cons,
          List.length_nil, d1, d2, c1] at hq hl
        -- what follows would consist of quotes only, which are not skipped
        have : tail = [] := by
          cases ht : tail with
          | nil => rfl
          | cons x xs =>
            exfalso
            have hq2 : (x :: xs).count '"' = s.count '"' := by rw [← ht]; omega
            have hle : (x :: xs).length ≤ (x :: xs).count '"' := by rw [← ht] at hq2 ⊢; omega
            have hx : x = '"' := by
              have h1 := List.count_le_length (a := '"') (l := xs)
              simp only [List.length_cons, List.count_cons] at hle
              by_cases hx : x = '"'
              · exact hx
              · simp [hx] at hle; omega
            rw [ht] at h4
            have := skippedFirst_nil_of (sk := x :: xs) (rest := []) (c := '"') (cs := xs) (Or.inl h4) (by simp [hx])
              (by decide) (by decide) (by decide) (fun h => absurd h hwc)
            simp at this
        subst this
        simp only [List.append_nil, List.append_cancel_right_eq] at hall
        simp at hq
        have hs0 : s.count '"' = 0 := by omega
        have hns : '"' ∉ s := List.count_eq_zero.1 hs0
        rw [doubleQuotes_eq hns] at hall
        rcases hs with hs | hs
        · exact hns hs
        · subst hall
          exact c3 rfl hs
      · rw [h3] at h; simp at h

example : (lexText asciiText false ((ConstantDatum.text "a\"b".toList).asSource asciiText)).toks.map (·.tok) =
    [.text "a".toList, .text "b".toList] := by decide +kernel

end EB
