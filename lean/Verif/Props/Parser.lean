import Verif.Lemmas.ParserGroup
/-!
# Properties of the parser of expressions: C27 (precedence) and C28 (what is accepted)

`Spec/Expr.lean` gives the grammar: `Tree` are expressions as written, `Tree.toks` their tokens and
`Tree.expr` what they stand for.  `Tree.Canonical` and `Groups` state precedence in two ways.
A stream is a list of tokens `used ++ rest`: the parser has to take `used` and leave `rest`.
-/

namespace EB
open Spec

/-! ## C27 -/

/-- C27: the tokens of a tree that respects precedence are parsed as what the tree stands for. -/
theorem C27_tree (T : TextOps) (t : Tree) (hc : t.Canonical) (rest : List TokSpan) (E : LineCol) (hr : Ends rest) :
    parseExpr T none ⟨t.toks ++ rest, E, false⟩ = (.ok (some t.expr), ⟨rest, E, false⟩) :=
  parseExpr_complete T t hc rest E false hr (fun _ => rfl)

/-- `-a ^ b * c = d`, that is `((-(a ^ b)) * c) = d`. -/
def exTree : Tree :=
  .bin .eq ⟨1, 8⟩ (.bin .mul ⟨1, 6⟩ (.un .neg ⟨1, 1⟩ (.bin .pow ⟨1, 3⟩ (.sym ⟨['a'], none⟩ ⟨1, 2⟩) (.sym ⟨['b'], none⟩ ⟨1, 4⟩)))
    (.sym ⟨['c'], none⟩ ⟨1, 7⟩)) (.sym ⟨['d'], none⟩ ⟨1, 9⟩)

example : exTree.Canonical ∧ Ends [⟨.eol, ⟨1, 10⟩⟩] ∧ exTree.toks.map TokSpan.tok =
    [.minus, .symbol ⟨['a'], none⟩, .exponent, .symbol ⟨['b'], none⟩, .multiply, .symbol ⟨['c'], none⟩, .equal, .symbol ⟨['d'], none⟩] := by
  refine ⟨?_, ?_, rfl⟩
  · simp [exTree, Tree.Canonical, Tree.leftEdge, Tree.rightEdge, strength, prefixStrength, levels, List.findIdx_cons]
  · intro t ht; cases ht; simp [endTokens]

/-- C27: operands joined by binary operators are grouped by splitting at the rightmost operator
among those that bind the loosest: higher operators first, from left to right among equals.  The
operands are literals, names, calls and anything in parentheses. -/
theorem C27_grouping (T : TextOps) (a : Tree) (xs : Chain) (ha : a.Primary ∧ a.Canonical)
    (hx : ∀ x ∈ xs, x.2.2.Primary ∧ x.2.2.Canonical) (rest : List TokSpan) (E : LineCol) (hr : Ends rest) :
    ∃ t, Groups a xs t ∧ parseExpr T none ⟨chainToks a xs ++ rest, E, false⟩ = (.ok (some t.expr), ⟨rest, E, false⟩) ∧
      ∀ t', Groups a xs t' → t'.expr = t.expr := by
  obtain ⟨t, ht⟩ := groups_exists xs.length a xs (Nat.le_refl _)
  obtain ⟨h1, _, _, h2⟩ := groups_canonical ht ha hx
  have hp := C27_tree T t h1 rest E hr
  rw [h2] at hp
  refine ⟨t, ht, hp, fun t' ht' => ?_⟩
  obtain ⟨k1, _, _, k2⟩ := groups_canonical ht' ha hx
  have hp' := C27_tree T t' k1 rest E hr
  rw [k2, hp] at hp'
  injection hp' with hp' _
  injection hp' with hp'
  injection hp' with hp'
  exact hp'.symm

/-- `1 - 2 - 3 * 4` is `(1 - 2) - (3 * 4)`. -/
example : Groups (.int 1 ⟨1, 1⟩) [(.sub, ⟨1, 2⟩, .int 2 ⟨1, 3⟩), (.sub, ⟨1, 4⟩, .int 3 ⟨1, 5⟩), (.mul, ⟨1, 6⟩, .int 4 ⟨1, 7⟩)]
    (.bin .sub ⟨1, 4⟩ (.bin .sub ⟨1, 2⟩ (.int 1 ⟨1, 1⟩) (.int 2 ⟨1, 3⟩)) (.bin .mul ⟨1, 6⟩ (.int 3 ⟨1, 5⟩) (.int 4 ⟨1, 7⟩))) :=
  .split (xs := [(.sub, ⟨1, 2⟩, .int 2 ⟨1, 3⟩)]) .sub ⟨1, 4⟩ (.split (xs := []) .sub ⟨1, 2⟩ (.one _) (.one _) (by simp) (by simp))
    (.split (xs := []) .mul ⟨1, 6⟩ (.one _) (.one _) (by simp) (by simp)) (by decide) (by decide)

/-- C27: parentheses that follow the grouping change nothing but positions. -/
theorem C27_redundant_parens (T : TextOps) (t t' : Tree) (hc : t.Canonical) (hp : Parens t t') (rest : List TokSpan) (E : LineCol)
    (hr : Ends rest) :
    ∃ e e', parseExpr T none ⟨t.toks ++ rest, E, false⟩ = (.ok (some e), ⟨rest, E, false⟩) ∧
      parseExpr T none ⟨t'.toks ++ rest, E, false⟩ = (.ok (some e'), ⟨rest, E, false⟩) ∧ noPos e' = noPos e := by
  obtain ⟨h1, h2⟩ := parens_canonical hp hc
  exact ⟨t.expr, t'.expr, C27_tree T t hc rest E hr, C27_tree T t' h1 rest E hr, h2⟩

/-- `1 + 2 * 3` and `(1) + ((2 * 3))`. -/
example : ∃ t t' : Tree, t.Canonical ∧ Parens t t' ∧ t.toks.map TokSpan.tok = [.integer 1, .plus, .integer 2, .multiply, .integer 3] ∧
    t'.toks.map TokSpan.tok = [.leftParen, .integer 1, .rightParen, .plus, .leftParen, .leftParen, .integer 2, .multiply, .integer 3,
      .rightParen, .rightParen] := by
  refine ⟨.bin .add ⟨1, 3⟩ (.int 1 ⟨1, 1⟩) (.bin .mul ⟨1, 7⟩ (.int 2 ⟨1, 5⟩) (.int 3 ⟨1, 9⟩)),
    .bin .add ⟨1, 5⟩ (.paren ⟨1, 1⟩ (.int 1 ⟨1, 2⟩) ⟨1, 3⟩)
      (.paren ⟨1, 7⟩ (.paren ⟨1, 8⟩ (.bin .mul ⟨1, 11⟩ (.int 2 ⟨1, 9⟩) (.int 3 ⟨1, 13⟩)) ⟨1, 14⟩) ⟨1, 15⟩), ?_, ?_, rfl, rfl⟩
  · simp [Tree.Canonical, Tree.leftEdge, Tree.rightEdge, strength, levels, List.findIdx_cons]
  · exact .bin _ _ _ (.around _ _ (.int _ _ _)) (.around _ _ (.around _ _ (.bin _ _ _ (.int _ _ _) (.int _ _ _))))

/-- C27: the grouping is determined by the tokens alone. -/
theorem C27_unambiguous (t t' : Tree) (hc : t.Canonical) (hc' : t'.Canonical) (h : t.toks = t'.toks) : t.expr = t'.expr := by
  let T : TextOps := ⟨fun _ => false, fun _ => false, fun c => [c], fun _ => 0, fun _ => []⟩
  have h1 := C27_tree T t hc [] ⟨1, 1⟩ (by intro x hx; cases hx)
  have h2 := C27_tree T t' hc' [] ⟨1, 1⟩ (by intro x hx; cases hx)
  rw [h, h2] at h1
  injection h1 with h1 _
  injection h1 with h1
  injection h1 with h1
  exact h1.symm

/-! ## C28 -/

/-- C28: every expression of the grammar is accepted, whatever its operators, and the parser takes
exactly its tokens. -/
theorem C28_accepted (T : TextOps) (t : Tree) (rest : List TokSpan) (E : LineCol) (hr : Ends rest) :
    ∃ e, parseExpr T none ⟨t.toks ++ rest, E, false⟩ = (.ok (some e), ⟨rest, E, false⟩) := by
  obtain ⟨t', h1, h2⟩ := exists_canonical t
  exact ⟨t'.expr, by rw [← h2]; exact C27_tree T t' h1 rest E hr⟩

/-- C28 (partial): apart from the three kinds of malformed sequences named in `Regular`, the
accepted sequences of tokens are exactly those of the grammar, followed by the end of the text or
a token that ends expressions; the result stands for all the tokens.  Missing: the sequences that
are not `Regular`, for which the claim is false (`C28_not_after_operand`, `C28_empty_parens`,
`C28_paren_call`). -/
theorem C28_exact_partial (T : TextOps) (used rest : List TokSpan) (E : LineCol) (e : Expr) (hreg : Regular .eof .eof used) :
    parseExpr T none ⟨used ++ rest, E, false⟩ = (.ok (some e), ⟨rest, E, false⟩) ↔
      Ends rest ∧ ∃ t : Tree, t.toks = used ∧ t.Canonical ∧ t.expr = e := by
  constructor
  · intro h
    refine ⟨(exprLoop_ends T _ _ _ _ _ _ _ h).1, ?_⟩
    rcases parseExpr_sound T used rest E false _ h hreg with ⟨_, h⟩ | ⟨t, h1, h2, h3⟩
    · cases h
    · exact ⟨t, h3, h1, by injection h2 with h2; exact h2.symm⟩
  · rintro ⟨hr, t, rfl, h1, rfl⟩
    exact C27_tree T t h1 rest E hr

/-- The hypothesis holds of ordinary expressions, here `f() + (NOT b)`. -/
example : Regular .eof .eof [⟨.symbol ⟨['f'], none⟩, ⟨1, 1⟩⟩, ⟨.leftParen, ⟨1, 2⟩⟩, ⟨.rightParen, ⟨1, 3⟩⟩, ⟨.plus, ⟨1, 5⟩⟩,
    ⟨.leftParen, ⟨1, 7⟩⟩, ⟨.not, ⟨1, 8⟩⟩, ⟨.symbol ⟨['b'], none⟩, ⟨1, 12⟩⟩, ⟨.rightParen, ⟨1, 13⟩⟩] := by
  decide

/-- C28 (partial): a missing operand is an error: no tokens that are not an expression are taken,
except the empty sequence, which is reported as such.  Missing: as in `C28_exact_partial`. -/
theorem C28_rejected_partial (T : TextOps) (used rest : List TokSpan) (E : LineCol) (io : Bool) (r : Option Expr)
    (hreg : Regular .eof .eof used) (hne : ¬ ∃ t : Tree, t.toks = used) :
    parseExpr T none ⟨used ++ rest, E, io⟩ = (.ok r, ⟨rest, E, io⟩) → used = [] ∧ r = none := by
  intro h
  rcases parseExpr_sound T used rest E io r h hreg with h | ⟨t, _, _, h3⟩
  · exact h
  · exact absurd ⟨t, h3⟩ hne

/-- `1 +` meets the hypotheses. -/
example : Regular .eof .eof [⟨.integer 1, ⟨1, 1⟩⟩, ⟨.plus, ⟨1, 3⟩⟩] ∧
    ¬ ∃ t : Tree, t.toks = [⟨.integer 1, ⟨1, 1⟩⟩, ⟨.plus, ⟨1, 3⟩⟩] := by
  refine ⟨by decide, ?_⟩
  rintro ⟨t, ht⟩
  obtain ⟨u, x, h1, h2⟩ := toks_last t
  rw [ht, show [(⟨.integer 1, ⟨1, 1⟩⟩ : TokSpan), ⟨.plus, ⟨1, 3⟩⟩] = [⟨.integer 1, ⟨1, 1⟩⟩] ++ [⟨.plus, ⟨1, 3⟩⟩] from rfl] at h1
  have := (List.append_inj' h1 rfl).2
  injection this with this _
  subst this
  cases h2

/-- C28: parentheses are balanced in whatever is accepted, for all sequences of tokens. -/
theorem C28_balanced (T : TextOps) (used rest : List TokSpan) (E : LineCol) (io : Bool) (r : Option Expr)
    (h : parseExpr T none ⟨used ++ rest, E, io⟩ = (.ok r, ⟨rest, E, io⟩)) : depthAfter 0 used = some 0 :=
  (balanced_all T _).1 _ _ _ _ _ _ _ h rfl

/-- C28: two operands in a row are never accepted, for all sequences of tokens. -/
theorem C28_two_operands (T : TextOps) (used rest : List TokSpan) (E : LineCol) (io : Bool) (r : Option Expr)
    (h : parseExpr T none ⟨used ++ rest, E, io⟩ = (.ok r, ⟨rest, E, io⟩)) : NoTwoOperands .eof used :=
  (noTwo_all T _).1 _ _ _ _ _ _ _ .eof h rfl (fun h => by cases h)

/-- C28: the parser always ends, and leaves the end of the tokens that it was given. -/
theorem C28_ends (T : TextOps) (toks : List TokSpan) (E : LineCol) (io : Bool) :
    (parseExpr T none ⟨toks, E, io⟩).1 ≠ .error .fuel ∧
      ∃ used rest, toks = used ++ rest ∧ (parseExpr T none ⟨toks, E, io⟩).2 = ⟨rest, E, io⟩ := by
  obtain ⟨h1, h2⟩ := (runs_expr T (2 * toks.length + 2)).1 [] [] true ⟨toks, E, io⟩
  refine ⟨h2 (by simp only; omega), ?_⟩
  obtain ⟨u, hu⟩ := h1
  have e : parseExpr T none ⟨toks, E, io⟩ = exprLoop T (2 * toks.length + 2) [] [] true ⟨toks, E, io⟩ := rfl
  rw [e]
  generalize exprLoop T (2 * toks.length + 2) [] [] true ⟨toks, E, io⟩ = X at hu ⊢
  obtain ⟨r, rest, E', io'⟩ := X
  simp only [TokStream.mk.injEq] at hu ⊢
  exact ⟨u, rest, hu.1, rfl, hu.2.1.symm, hu.2.2.symm⟩

/-- C28 fails: `1 NOT 2` is accepted as `NOT 2` and the first operand is dropped. -/
theorem C28_not_after_operand (T : TextOps) :
    parseExpr T none ⟨[⟨.integer 1, ⟨1, 1⟩⟩, ⟨.not, ⟨1, 3⟩⟩, ⟨.integer 2, ⟨1, 7⟩⟩], ⟨1, 8⟩, false⟩ =
      (.ok (some (.un .not (.int 2 ⟨1, 7⟩) ⟨1, 3⟩)), ⟨[], ⟨1, 8⟩, false⟩) := rfl

/-- C28 fails: `f(())` is accepted as `f()`. -/
theorem C28_empty_parens (T : TextOps) :
    parseExpr T none ⟨[⟨.symbol ⟨['f'], none⟩, ⟨1, 1⟩⟩, ⟨.leftParen, ⟨1, 2⟩⟩, ⟨.leftParen, ⟨1, 3⟩⟩, ⟨.rightParen, ⟨1, 4⟩⟩,
        ⟨.rightParen, ⟨1, 5⟩⟩], ⟨1, 6⟩, false⟩ =
      (.ok (some (.call ⟨['f'], none⟩ ⟨1, 1⟩ .nil)), ⟨[], ⟨1, 6⟩, false⟩) := rfl

/-- C28 fails: `(f)(1)` is accepted as `f(1)`. -/
theorem C28_paren_call (T : TextOps) :
    parseExpr T none ⟨[⟨.leftParen, ⟨1, 1⟩⟩, ⟨.symbol ⟨['f'], none⟩, ⟨1, 2⟩⟩, ⟨.rightParen, ⟨1, 3⟩⟩, ⟨.leftParen, ⟨1, 4⟩⟩,
        ⟨.integer 1, ⟨1, 5⟩⟩, ⟨.rightParen, ⟨1, 6⟩⟩], ⟨1, 7⟩, false⟩ =
      (.ok (some (.call ⟨['f'], none⟩ ⟨1, 2⟩ (.cons (.int 1 ⟨1, 5⟩) .end ⟨1, 6⟩ .nil))), ⟨[], ⟨1, 7⟩, false⟩) := rfl

end EB
