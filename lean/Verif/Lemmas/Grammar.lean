import Verif.Spec.Grammar
import Verif.Lemmas.ParserExpr
/-!
# The parser takes the statements of the grammar

Simple statements and the parts of compound ones.
-/

namespace EB
open Spec

variable {α β : Type}

/-! ## Running parsers -/

theorem bind_run {x : PM α} {f : α → PM β} {s s' : TokStream} {a : α} (h : x s = (.ok a, s')) : (x >>= f) s = f a s' := by
  show PM.bind x f s = _
  simp only [PM.bind, h]

/-- The token that is seen next. -/
def seen (rest : List TokSpan) (E : LineCol) : TokSpan := rest.headD ⟨.eof, E⟩

theorem peek_run (rest : List TokSpan) (E : LineCol) : peekT ⟨rest, E, false⟩ = (.ok (seen rest E), ⟨rest, E, false⟩) := by
  cases rest <;> rfl

theorem peek_cons (t : TokSpan) (ts : List TokSpan) (E : LineCol) : peekT ⟨t :: ts, E, false⟩ = (.ok t, ⟨t :: ts, E, false⟩) := rfl

theorem consume_cons (t : TokSpan) (ts : List TokSpan) (E : LineCol) : consumeT ⟨t :: ts, E, false⟩ = (.ok (), ⟨ts, E, false⟩) := rfl

theorem read_cons (t : TokSpan) (ts : List TokSpan) (E : LineCol) : readT ⟨t :: ts, E, false⟩ = (.ok t, ⟨ts, E, false⟩) := rfl

theorem expect_cons (t : Tok) (p : LineCol) (msg : String) (ts : List TokSpan) (E : LineCol) :
    expectT t msg ⟨⟨t, p⟩ :: ts, E, false⟩ = (.ok ⟨t, p⟩, ⟨ts, E, false⟩) := by
  unfold expectT
  rw [bind_run (peek_cons ..), if_neg (by simp), bind_run (consume_cons ..)]
  rfl

theorem expectAt_cons (t : Tok) (p pos : LineCol) (msg : Str) (ts : List TokSpan) (E : LineCol) :
    expectAt t pos msg ⟨⟨t, p⟩ :: ts, E, false⟩ = (.ok (), ⟨ts, E, false⟩) := by
  unfold expectAt
  rw [bind_run (peek_cons ..), if_neg (by simp)]
  rfl

/-! ## Expressions -/

theorem ends_of {rest : List TokSpan} {E : LineCol} (h : (seen rest E).tok ∈ endTokens) : Ends rest := by
  intro t ht
  cases rest with
  | nil => simp at ht
  | cons a b =>
    simp only [List.head?_cons, Option.some.injEq] at ht
    subst ht
    exact h

theorem ends_cons {t : TokSpan} {ts : List TokSpan} (h : t.tok ∈ endTokens) : Ends (t :: ts) := by
  intro u hu
  simp only [List.head?_cons, Option.some.injEq] at hu
  subst hu
  exact h

/-- The statement ends here. -/
abbrev StmtEnd (rest : List TokSpan) (E : LineCol) : Prop := (seen rest E).tok.endsSimple = true

/-- The line ends here. -/
abbrev LineEnd (rest : List TokSpan) (E : LineCol) : Prop := (seen rest E).tok.endsLine = true

theorem LineEnd.stmt {rest : List TokSpan} {E : LineCol} (h : LineEnd rest E) : StmtEnd rest E := by
  unfold LineEnd at h
  unfold StmtEnd
  cases ht : (seen rest E).tok <;> rw [ht] at h <;> simp_all [Tok.endsLine, Tok.endsSimple]

theorem StmtEnd.ends {rest : List TokSpan} {E : LineCol} (h : StmtEnd rest E) : Ends rest := by
  refine ends_of (E := E) ?_
  unfold StmtEnd at h
  cases ht : (seen rest E).tok <;> rw [ht] at h <;> simp_all [Tok.endsSimple, endTokens]

theorem expr_run (T : TextOps) {te : List TokSpan} {e : Expr} (h : IsExpr te e) {rest : List TokSpan} (hr : Ends rest) (E : LineCol) :
    parseExpr T none ⟨te ++ rest, E, false⟩ = (.ok (some e), ⟨rest, E, false⟩) := by
  obtain ⟨t, hc, rfl, rfl⟩ := h
  exact parseExpr_complete T t hc rest E false hr (fun _ => rfl)

theorem required_run (T : TextOps) (msg : String) {te : List TokSpan} {e : Expr} (h : IsExpr te e) {rest : List TokSpan}
    (hr : Ends rest) (E : LineCol) : parseRequired T msg ⟨te ++ rest, E, false⟩ = (.ok e, ⟨rest, E, false⟩) := by
  unfold parseRequired
  rw [bind_run (peek_run ..), bind_run (expr_run T h hr E)]
  rfl

/-- No expression before a token that ends one. -/
theorem noExpr_run (T : TextOps) {rest : List TokSpan} {E : LineCol} (h : (seen rest E).tok.endsExpr = true) :
    parseExpr T none ⟨rest, E, false⟩ = (.ok none, ⟨rest, E, false⟩) := by
  show exprLoop T (2 * rest.length + 1 + 1) [] [] true _ = _
  cases rest with
  | nil => rfl
  | cons t ts => rw [exprLoop_cons, if_pos (show stopsAt t [] from Or.inl h)]; rfl

theorem exprs_eq : (a : TreeArgs) → a.args.exprs = a.exprs
  | .last t _ => rfl
  | .more t _ r => by simp only [TreeArgs.args, Args.exprs, TreeArgs.exprs, exprs_eq r]

theorem commaExprs_run (T : TextOps) (a : TreeArgs) (h : a.Canonical) (rest : List TokSpan) (E : LineCol) :
    parseCommaExprs T ⟨a.toks ++ rest, E, false⟩ = (.ok a.args, ⟨rest, E, false⟩) := by
  show commaExprs T (2 * (a.toks ++ rest).length + 1 + 1) _ = _
  rw [commaExprs_succ]
  exact args_parse T E false a h _ rest true (by omega)

/-- The tokens that begin an expression. -/
def Tok.startsExpr : Tok → Bool
  | .boolean _ | .double _ | .integer _ | .text _ | .symbol _ | .leftParen | .not | .minus => true
  | _ => false

theorem tree_starts : (t : Tree) → ∃ x xs, t.toks = x :: xs ∧ x.tok.startsExpr = true
  | .bool .. | .dbl .. | .int .. | .text .. | .sym .. | .call0 .. | .call .. | .paren .. => ⟨_, _, rfl, rfl⟩
  | .un op p t => ⟨_, _, rfl, by cases op <;> rfl⟩
  | .bin op p l r => by
    obtain ⟨x, xs, h, hs⟩ := tree_starts l
    exact ⟨x, xs ++ ⟨binTok op, p⟩ :: r.toks, by simp [Tree.toks, h], hs⟩

theorem expr_starts {te : List TokSpan} {e : Expr} (h : IsExpr te e) : ∃ x xs, te = x :: xs ∧ x.tok.startsExpr = true := by
  obtain ⟨t, _, rfl, _⟩ := h
  exact tree_starts t

/-- An expression that begins with a parenthesis can be taken up after the closing one. -/
theorem tree_resume (T : TextOps) (E : LineCol) (io : Bool) (lp : LineCol) : (t : Tree) → t.Canonical →
    (∃ xs, t.toks = ⟨.leftParen, lp⟩ :: xs) →
    ∃ (t0 : Tree) (rp : LineCol) (tl : List TokSpan), t0.Canonical ∧ t.toks = ⟨.leftParen, lp⟩ :: (t0.toks ++ ⟨.rightParen, rp⟩ :: tl) ∧
      ∀ n es ops ts, Fits ops t.leftEdge → 2 * (tl ++ ts).length + 1 ≤ n →
        ∃ n', 2 * ts.length + 1 ≤ n' ∧ exprLoop T n (t0.expr :: es) ops false ⟨tl ++ ts, E, io⟩ =
          exprLoop T n' ((atom t).expr :: (esOf (spine t) ++ es)) (opsOf (spine t) ++ ops) false ⟨ts, E, io⟩
  | .bool .., _, h | .dbl .., _, h | .int .., _, h | .text .., _, h | .sym .., _, h | .call0 .., _, h | .call .., _, h => by
    obtain ⟨xs, h⟩ := h
    simp [Tree.toks] at h
  | .un op _ _, _, h => by
    obtain ⟨xs, h⟩ := h
    cases op <;> simp [Tree.toks, unTok] at h
  | .paren lp' t rp, hc, h => by
    obtain ⟨xs, h⟩ := h
    simp only [Tree.toks, List.cons.injEq, TokSpan.mk.injEq, true_and] at h
    obtain ⟨rfl, -⟩ := h
    exact ⟨t, rp, [], hc, rfl, fun n es ops ts _ hn => ⟨n, hn, rfl⟩⟩
  | .bin op pos l r, hc, h => by
    obtain ⟨c1, c2, c3, c4⟩ := hc
    obtain ⟨xs, h⟩ := h
    obtain ⟨x, ys, hl, -⟩ := tree_starts l
    have hx : l.toks = ⟨.leftParen, lp⟩ :: ys := by
      simp only [Tree.toks, hl, List.cons_append, List.cons.injEq] at h
      rw [hl, h.1]
    obtain ⟨t0, rp, tl, hc0, ht, hrun⟩ := tree_resume T E io lp l c1 ⟨ys, hx⟩
    refine ⟨t0, rp, tl ++ ⟨binTok op, pos⟩ :: r.toks, hc0, by simp [Tree.toks, ht], ?_⟩
    intro n es ops ts hf hn
    simp only [List.append_assoc, List.cons_append] at hn ⊢
    obtain ⟨n', h1, h2⟩ := hrun n es ops (⟨binTok op, pos⟩ :: (r.toks ++ ts))
      (by intro k hk; exact hf k (by simp [Tree.leftEdge, hk])) hn
    rw [h2]
    simp only [List.length_cons] at h1
    obtain ⟨m, rfl⟩ : ∃ m, n' = m + 1 := ⟨n' - 1, by omega⟩
    rw [exprLoop_cons, if_neg (binTok_facts _ _ _).1, tokStep_bin]
    rw [reduceFor_spine op.priority l (by intro k hk; have := c3 k hk; rw [strength_eq] at this; exact this)]
    rw [reduceFor_stop (by
      intro k hk o os ho
      simp only [List.mem_singleton] at hk
      have := hf (strength op) (by simp [Tree.leftEdge]) o os ho
      rw [hk, ← strength_eq]; exact this)]
    show ∃ n', _ ∧ exprLoop T m (l.expr :: es) (⟨.bin op, pos⟩ :: ops) true _ = _
    obtain ⟨n'', g1, g2⟩ := tree_parse T E io r c2 m (l.expr :: es) (⟨.bin op, pos⟩ :: ops) ts
      (by intro k hk o os ho; simp only [List.cons.injEq] at ho; right; rw [← ho.1]
          have := c4 k hk; rw [strength_eq] at this; exact this) (by omega)
    refine ⟨n'', g1, ?_⟩
    rw [g2]
    simp [spine, atom, opsOf, esOf, PFrame.op, PFrame.left]

/-- Taking up an expression after its first parentheses. -/
theorem resume_run (T : TextOps) {lp : LineCol} {xs : List TokSpan} {e : Expr} (h : IsExpr (⟨.leftParen, lp⟩ :: xs) e) :
    ∃ (t0 : Tree) (rp : LineCol) (tl : List TokSpan), t0.Canonical ∧ xs = t0.toks ++ ⟨.rightParen, rp⟩ :: tl ∧
      ∀ rest E, Ends rest → parseExpr T (some t0.expr) ⟨tl ++ rest, E, false⟩ = (.ok (some e), ⟨rest, E, false⟩) := by
  obtain ⟨t, hc, ht, rfl⟩ := h
  have key := fun E => tree_resume T E false lp t hc ⟨xs, ht⟩
  obtain ⟨t0, rp, tl, hc0, h0, -⟩ := key ⟨0, 0⟩
  refine ⟨t0, rp, tl, hc0, by rw [ht] at h0; exact (List.cons.inj h0).2, ?_⟩
  intro rest E hr
  obtain ⟨t0', rp', tl', hc0', h0', hrun⟩ := key E
  -- both decompositions are the same
  have same : t0'.expr = t0.expr ∧ tl' = tl := by
    rw [h0] at h0'
    have h1 := (List.cons.inj h0').2
    have a := commaExprs_run T (.last t0 rp) hc0 tl ⟨0, 0⟩
    have b := commaExprs_run T (.last t0' rp') hc0' tl' ⟨0, 0⟩
    simp only [TreeArgs.toks, List.append_assoc, List.cons_append, List.nil_append] at a b
    rw [h1, b] at a
    simp only [Prod.mk.injEq, Except.ok.injEq, TreeArgs.args, Args.cons.injEq, TokStream.mk.injEq] at a
    exact ⟨a.1.1, a.2.1⟩
  rw [← same.1, ← same.2]
  obtain ⟨n', h1, h2⟩ := hrun (2 * (tl' ++ rest).length + 2) [] [] rest (by intro k _ o os ho; simp at ho) (by omega)
  show exprLoop T (2 * (tl' ++ rest).length + 2) [t0'.expr] [] false _ = _
  rw [h2]
  obtain ⟨m, rfl⟩ : ∃ m, n' = m + 1 := ⟨n' - 1, by omega⟩
  cases rest with
  | nil => rw [exprLoop_nil, reduceAll_spine]; rfl
  | cons d ts =>
    have hd : stopsAt d (opsOf (spine t) ++ []) := by
      have := hr d rfl
      simp only [endTokens, List.mem_cons, List.not_mem_nil, or_false] at this
      rcases this with h | h | h | h | h | h | h | h | h | h
      all_goals first
        | (left; rw [h]; rfl)
        | (right; refine ⟨h, ?_⟩; rw [List.append_nil, spine_no_paren]; simp)
    rw [exprLoop_cons, if_pos hd, reduceAll_spine]; rfl

/-! ## Assignments and commands -/

theorem assignment_run (T : TextOps) (v : VarRef) (pos : LineCol) {te : List TokSpan} {e : Expr} (h : IsExpr te e)
    {rest : List TokSpan} {E : LineCol} (hr : StmtEnd rest E) :
    parseAssignment T v pos ⟨te ++ rest, E, false⟩ = (.ok (.assign v pos e), ⟨rest, E, false⟩) := by
  unfold parseAssignment
  rw [bind_run (required_run T _ h hr.ends E), bind_run (peek_run ..), if_pos hr]
  rfl

theorem arrayAssignment_run (T : TextOps) (v : VarRef) (pos : LineCol) (subs : List Expr) {te : List TokSpan} {e : Expr}
    (h : IsExpr te e) {rest : List TokSpan} {E : LineCol} (hr : StmtEnd rest E) :
    parseArrayAssignment T v pos subs ⟨te ++ rest, E, false⟩ = (.ok (.arrayAssign v pos subs e), ⟨rest, E, false⟩) := by
  unfold parseArrayAssignment
  rw [bind_run (required_run T _ h hr.ends E), bind_run (peek_run ..), if_pos hr]
  rfl

theorem sep_facts {t : Tok} {sep : ArgSep} (h : IsSep t sep) :
    t.argSep = some sep ∧ t.endsSimple = false ∧ t.endsExpr = true ∧ t ∈ endTokens := by
  cases h <;> exact ⟨rfl, rfl, rfl, by simp [endTokens]⟩

theorem simple_endsExpr {t : Tok} (h : t.endsSimple = true) : t.endsExpr = true := by
  cases t <;> simp_all [Tok.endsSimple, Tok.endsExpr]

/-- The last argument. -/
theorem builtin_last (T : TextOps) (n : Nat) {first : Option Expr} {isFirst : Bool} {s : TokStream} {rest : List TokSpan} {E : LineCol}
    {e : Option Expr} (h : parseExpr T first s = (.ok e, ⟨rest, E, false⟩)) (hr : StmtEnd rest E) (hf : e ≠ none ∨ isFirst = false) :
    builtinLoop T (n + 1) first isFirst s = (.ok (Args.push e .end (seen rest E).pos .nil), ⟨rest, E, false⟩) := by
  unfold builtinLoop
  rw [bind_run h, bind_run (peek_run ..), if_pos hr]
  cases e with
  | some e => rfl
  | none =>
    rcases hf with hf | hf
    · exact absurd rfl hf
    · rw [hf]; rfl

/-- An argument before others. -/
theorem builtin_more (T : TextOps) (n : Nat) {first : Option Expr} {isFirst : Bool} {s : TokStream} {rest rest' : List TokSpan} {E : LineCol}
    {e : Option Expr} {t : Tok} {sep : ArgSep} {p : LineCol} {a : Args} (h : parseExpr T first s = (.ok e, ⟨⟨t, p⟩ :: rest, E, false⟩))
    (hs : IsSep t sep) (ha : builtinLoop T n none false ⟨rest, E, false⟩ = (.ok a, ⟨rest', E, false⟩)) :
    builtinLoop T (n + 1) first isFirst s = (.ok (Args.push e sep p a), ⟨rest', E, false⟩) := by
  obtain ⟨h1, h2, -, -⟩ := sep_facts hs
  unfold builtinLoop
  rw [bind_run h, bind_run (peek_cons ..), if_neg (by simp [h2])]
  simp only [h1]
  rw [bind_run (consume_cons ..), bind_run ha]
  rfl

theorem commandArgs_run (T : TextOps) {after : LineCol} {ta : List TokSpan} {a : Args} (h : CommandArgs after ta a) :
    ∀ (n : Nat) (isFirst : Bool) {rest : List TokSpan} {E : LineCol}, ta.length + 1 ≤ n → StmtEnd rest E → (seen rest E).pos = after →
      (ta ≠ [] ∨ isFirst = false) →
      builtinLoop T n none isFirst ⟨ta ++ rest, E, false⟩ = (.ok a, ⟨rest, E, false⟩) := by
  induction h with
  | one he =>
    intro n isFirst rest E hn hr hp hf
    obtain ⟨m, rfl⟩ : ∃ m, n = m + 1 := ⟨n - 1, by omega⟩
    rw [builtin_last T m (expr_run T he hr.ends E) hr (Or.inl (by simp)), hp]
    rfl
  | none =>
    intro n isFirst rest E hn hr hp hf
    obtain ⟨m, rfl⟩ : ∃ m, n = m + 1 := ⟨n - 1, by omega⟩
    have := noExpr_run T (simple_endsExpr hr)
    rw [List.nil_append, builtin_last T m this hr (by simpa using hf), hp]
    rfl
  | more he hs _ ih =>
    intro n isFirst rest E hn hr hp hf
    obtain ⟨m, rfl⟩ : ∃ m, n = m + 1 := ⟨n - 1, by omega⟩
    simp only [List.append_assoc, List.cons_append]
    exact builtin_more T m (expr_run T he (ends_cons (sep_facts hs).2.2.2) E) hs
      (ih m false (by simp at hn; omega) hr hp (Or.inr rfl))
  | skip hs _ ih =>
    intro n isFirst rest E hn hr hp hf
    obtain ⟨m, rfl⟩ : ∃ m, n = m + 1 := ⟨n - 1, by omega⟩
    exact builtin_more T m (noExpr_run T (sep_facts hs).2.2.1) hs (ih m false (by simp at hn; omega) hr hp (Or.inr rfl))

/-- Arguments that begin with a parenthesis, taken up after the closing one. -/
theorem commandArgs_resume (T : TextOps) {after : LineCol} {lp : LineCol} {xs : List TokSpan} {a : Args}
    (h : CommandArgs after (⟨.leftParen, lp⟩ :: xs) a) :
    ∃ (t0 : Tree) (rp : LineCol) (tl : List TokSpan), t0.Canonical ∧ xs = t0.toks ++ ⟨.rightParen, rp⟩ :: tl ∧
      ∀ n rest E, tl.length + 1 ≤ n → StmtEnd rest E → (seen rest E).pos = after →
        builtinLoop T n (some t0.expr) true ⟨tl ++ rest, E, false⟩ = (.ok a, ⟨rest, E, false⟩) := by
  generalize hg : (⟨Tok.leftParen, lp⟩ :: xs : List TokSpan) = ta at h
  cases h with
  | one he =>
    subst hg
    obtain ⟨t0, rp, tl, hc, hx, hrun⟩ := resume_run T he
    refine ⟨t0, rp, tl, hc, hx, ?_⟩
    intro n rest E hn hr hp
    obtain ⟨m, rfl⟩ : ∃ m, n = m + 1 := ⟨n - 1, by omega⟩
    rw [builtin_last T m (hrun rest E hr.ends) hr (Or.inl (by simp)), hp]
    rfl
  | none => simp at hg
  | @more te e t sep p ts a he hs ha =>
    obtain ⟨x, ys, hx, -⟩ := expr_starts he
    subst hx
    simp only [List.cons_append, List.cons.injEq] at hg
    obtain ⟨rfl, rfl⟩ := hg
    obtain ⟨t0, rp, tl, hc, hx, hrun⟩ := resume_run T he
    refine ⟨t0, rp, tl ++ ⟨t, p⟩ :: ts, hc, by rw [hx]; simp, ?_⟩
    intro n rest E hn hr hp
    obtain ⟨m, rfl⟩ : ∃ m, n = m + 1 := ⟨n - 1, by omega⟩
    simp only [List.append_assoc, List.cons_append]
    exact builtin_more T m (hrun _ E (ends_cons (sep_facts hs).2.2.2)) hs
      (commandArgs_run T ha m false (by simp at hn; omega) hr hp (Or.inr rfl))
  | skip hs ha =>
    simp only [List.cons.injEq, TokSpan.mk.injEq] at hg
    obtain ⟨⟨rfl, -⟩, -⟩ := hg
    cases hs

theorem unannotated_run (name : Str) (pos : LineCol) (s : TokStream) : unannotated ⟨name, none⟩ pos s = (.ok name, s) := rfl

theorem builtinCall_run (T : TextOps) (name : Str) (pos : LineCol) (first : Option Expr) {s s' : TokStream} {a : Args}
    (h : builtinLoop T (s.toks.length + 1) first true s = (.ok a, s')) :
    parseBuiltinCall T ⟨name, none⟩ pos first s = (.ok (.call ⟨name.map asciiUpper, none⟩ pos a), s') := by
  unfold parseBuiltinCall
  rw [bind_run (unannotated_run name pos s), bind_run (x := fun s => builtinLoop T (s.toks.length + 1) first true s) h]
  rfl

theorem simple_ne {t : Tok} (h : t.endsSimple = true) : t ≠ .leftParen ∧ t ≠ .equal := by
  cases t <;> simp_all [Tok.endsSimple]

theorem command_run (T : TextOps) (name : Str) (pos : LineCol) {rest : List TokSpan} {E : LineCol} (hr : StmtEnd rest E) :
    parseSymbolStmt T ⟨name, none⟩ pos ⟨rest, E, false⟩ = (.ok (.call ⟨name.map asciiUpper, none⟩ pos .nil), ⟨rest, E, false⟩) := by
  unfold parseSymbolStmt
  rw [bind_run (peek_run ..), if_neg (simple_ne hr).2]
  unfold parseArrayOrBuiltin
  rw [bind_run (peek_run ..), if_neg (simple_ne hr).1]
  apply builtinCall_run
  unfold builtinLoop
  rw [bind_run (noExpr_run T (simple_endsExpr hr)), bind_run (peek_run ..), if_pos hr]
  rfl

theorem commandArgs_starts {after : LineCol} {ta : List TokSpan} {a : Args} (h : CommandArgs after ta a) (hne : ta ≠ []) :
    ∃ x xs, ta = x :: xs ∧ x.tok ≠ .equal := by
  have key : ∀ {te e} (ts : List TokSpan), IsExpr te e → ∃ x xs, te ++ ts = x :: xs ∧ x.tok ≠ .equal := by
    intro te e ts he
    obtain ⟨x, xs, rfl, hx⟩ := expr_starts he
    refine ⟨x, xs ++ ts, rfl, fun hq => ?_⟩
    rw [hq] at hx
    cases hx
  cases h with
  | one he => have := key [] he; rwa [List.append_nil] at this
  | none => exact absurd rfl hne
  | more he _ _ => exact key _ he
  | skip hs _ => exact ⟨_, _, rfl, by cases hs <;> simp⟩

theorem commandWith_run (T : TextOps) (name : Str) (pos : LineCol) {after : LineCol} {ta : List TokSpan} {a : Args}
    (h : CommandArgs after ta a) (hne : ta ≠ []) (hl : ¬ LikeElement ta) {rest : List TokSpan} {E : LineCol} (hr : StmtEnd rest E)
    (hp : (seen rest E).pos = after) :
    parseSymbolStmt T ⟨name, none⟩ pos ⟨ta ++ rest, E, false⟩ = (.ok (.call ⟨name.map asciiUpper, none⟩ pos a), ⟨rest, E, false⟩) := by
  obtain ⟨⟨t, lp⟩, xs, rfl, hx⟩ := commandArgs_starts h hne
  unfold parseSymbolStmt
  rw [List.cons_append, bind_run (peek_cons ..), if_neg hx]
  unfold parseArrayOrBuiltin
  rw [bind_run (peek_cons ..)]
  by_cases ht : t = .leftParen
  · subst ht
    rw [if_pos rfl, bind_run (consume_cons ..)]
    obtain ⟨t0, rp, tl, hc, rfl, hrun⟩ := commandArgs_resume T h
    have hx := commaExprs_run T (.last t0 rp) hc (tl ++ rest) E
    simp only [TreeArgs.toks, List.append_assoc, List.cons_append, List.nil_append] at hx ⊢
    rw [bind_run hx, bind_run (peek_run ..)]
    have hq : (seen (tl ++ rest) E).tok ≠ .equal := by
      cases tl with
      | nil => exact (simple_ne hr).2
      | cons q tl =>
        obtain ⟨q, qp⟩ := q
        intro he
        have he : q = .equal := he
        subst he
        exact hl ⟨lp, .last t0 rp, qp, tl, by simp [TreeArgs.toks]⟩
    rw [if_neg hq]
    simp only [TreeArgs.args, Args.exprs]
    exact builtinCall_run T name pos _ (hrun _ rest E (by simp) hr hp)
  · rw [if_neg ht]
    exact builtinCall_run T name pos none (commandArgs_run T h _ true (by simp) hr hp (Or.inl hne))

/-! ## Other simple statements -/

theorem negI32_run {i : I32} (h : i ≠ BitVec.intMin 32) (s : TokStream) : negI32 i s = (.ok (-i), s) := by
  unfold negI32
  rw [if_neg h]
  rfl

theorem datum_run (T : TextOps) (F : FloatOps) {td : List TokSpan} {e : Expr} (h : IsDatum F td e) (rest : List TokSpan) (E : LineCol) :
    parseDatum T F ⟨td ++ rest, E, false⟩ = (.ok (some e), ⟨rest, E, false⟩) := by
  cases h with
  | negInt i p q hi =>
    unfold parseDatum
    rw [List.cons_append, bind_run (read_cons ..)]
    have : parseNegDatum F p ⟨[⟨.integer i, q⟩] ++ rest, E, false⟩ = (.ok (.int (-i) p), ⟨rest, E, false⟩) := by
      unfold parseNegDatum
      rw [List.cons_append, bind_run (read_cons ..)]
      simp only
      rw [bind_run (negI32_run hi _)]
      rfl
    simp only
    rw [bind_run this]
    rfl
  | _ => rfl

theorem datum_starts {F : FloatOps} {td : List TokSpan} {e : Expr} (h : IsDatum F td e) (rest : List TokSpan) (E : LineCol) :
    (seen (td ++ rest) E).tok.endsSimple = false := by
  cases h <;> rfl

theorem data_run (T : TextOps) (F : FloatOps) {td : List TokSpan} {vs : List (Option Expr)} (h : IsData F td vs) :
    ∀ (n : Nat) {rest : List TokSpan} {E : LineCol}, td.length + 1 ≤ n → StmtEnd rest E →
      dataLoop T F n ⟨td ++ rest, E, false⟩ = (.ok vs, ⟨rest, E, false⟩) := by
  induction h with
  | one hd =>
    intro n rest E hn hr
    obtain ⟨m, rfl⟩ : ∃ m, n = m + 1 := ⟨n - 1, by omega⟩
    unfold dataLoop
    rw [bind_run (peek_run ..), if_neg (by rw [datum_starts hd]; simp), bind_run (datum_run T F hd rest E)]
    simp only
    rw [bind_run (peek_run ..), if_pos hr]
    rfl
  | none =>
    intro n rest E hn hr
    obtain ⟨m, rfl⟩ : ∃ m, n = m + 1 := ⟨n - 1, by omega⟩
    unfold dataLoop
    rw [List.nil_append, bind_run (peek_run ..), if_pos hr]
    rfl
  | more hd _ ih =>
    intro n rest E hn hr
    obtain ⟨m, rfl⟩ : ∃ m, n = m + 1 := ⟨n - 1, by omega⟩
    simp only [List.append_assoc, List.cons_append]
    unfold dataLoop
    rw [bind_run (peek_run ..), if_neg (by rw [datum_starts hd]; simp), bind_run (datum_run T F hd _ E)]
    simp only
    rw [bind_run (peek_cons ..), if_neg (by simp [Tok.endsSimple]), if_pos rfl, bind_run (consume_cons ..),
      bind_run (ih m (by simp at hn; omega) hr)]
    rfl
  | @skip p ts vs hd ih =>
    intro n rest E hn hr
    obtain ⟨m, rfl⟩ : ∃ m, n = m + 1 := ⟨n - 1, by omega⟩
    unfold dataLoop
    rw [List.cons_append, bind_run (peek_cons ..), if_neg (by simp [Tok.endsSimple]),
      bind_run (x := parseDatum T F) (a := none) (s' := ⟨ts ++ rest, E, false⟩) rfl]
    simp only
    rw [bind_run (ih m (by simp at hn; omega) hr)]
    rfl

theorem parseData_run (T : TextOps) (F : FloatOps) {td : List TokSpan} {vs : List (Option Expr)} (h : IsData F td vs)
    {rest : List TokSpan} {E : LineCol} (hr : StmtEnd rest E) :
    parseData T F ⟨td ++ rest, E, false⟩ = (.ok (.data vs), ⟨rest, E, false⟩) := by
  unfold parseData
  rw [bind_run (x := fun s => dataLoop T F (s.toks.length + 1) s) (data_run T F h _ (by simp) hr)]
  rfl

theorem label_facts {t : Tok} {l : Str} (h : IsLabel t l) : t.labelName = some l := by cases h <;> rfl

/-- What `END` makes of the code after it. -/
theorem maybeEnd_run (T : TextOps) (pos : LineCol) {ts rest : List TokSpan} {E : LineCol} {e : Option Expr}
    (h : parseExpr T none ⟨ts, E, false⟩ = (.ok e, ⟨rest, E, false⟩))
    (hs : (seen ts E).tok.startsExpr = true ∨ (seen ts E).tok.endsSimple = true) :
    maybeParseEnd T pos ⟨ts, E, false⟩ = (.ok (.inl (.end e pos)), ⟨rest, E, false⟩) := by
  unfold maybeParseEnd
  rw [bind_run (peek_run ..)]
  generalize (seen ts E).tok = t at hs
  cases t <;> first
    | (simp only; rw [bind_run h]; rfl)
    | (rcases hs with hs | hs <;> cases hs)

/-- The statements after the first token, as `parse_uniline` and `parse_one` continue. -/
theorem simple_run (T : TextOps) (F : FloatOps) {after : LineCol} {ts : List TokSpan} {s : Stmt} (h : IsSimple F after ts s)
    {rest : List TokSpan} {E : LineCol} (hr : StmtEnd rest E) (hp : (seen rest E).pos = after) :
    ∃ t ts', ts = t :: ts' ∧
      parseUniline T F ⟨ts ++ rest, E, false⟩ = (.ok (some s), ⟨rest, E, false⟩) ∧
      (∀ n, parseBody T F (n + 1) t ⟨ts' ++ rest, E, false⟩ = (.ok s, ⟨rest, E, false⟩)) ∧
      (t.tok = .end → maybeParseEnd T t.pos ⟨ts' ++ rest, E, false⟩ = (.ok (.inl s), ⟨rest, E, false⟩)) := by
  -- the statement after the first token
  have mk : ∀ (x : PM Stmt) (t : TokSpan) (ts' : List TokSpan), x ⟨ts' ++ rest, E, false⟩ = (.ok s, ⟨rest, E, false⟩) →
      ts = t :: ts' → t.tok ≠ .end →
      (parseUniline T F ⟨ts ++ rest, E, false⟩ = (x >>= fun s => pure (some s)) ⟨ts' ++ rest, E, false⟩) →
      (∀ n, parseBody T F (n + 1) t = x) →
      ∃ t ts', ts = t :: ts' ∧ parseUniline T F ⟨ts ++ rest, E, false⟩ = (.ok (some s), ⟨rest, E, false⟩) ∧
        (∀ n, parseBody T F (n + 1) t ⟨ts' ++ rest, E, false⟩ = (.ok s, ⟨rest, E, false⟩)) ∧
        (t.tok = .end → maybeParseEnd T t.pos ⟨ts' ++ rest, E, false⟩ = (.ok (.inl s), ⟨rest, E, false⟩)) := by
    intro x t ts' h1 h2 h3 h4 h5
    refine ⟨t, ts', h2, ?_, fun n => by rw [h5]; exact h1, fun h => absurd h h3⟩
    rw [h4, bind_run h1]
    rfl
  have fin : ∀ (p : LineCol) (ts' : List TokSpan), ts = ⟨.end, p⟩ :: ts' →
      maybeParseEnd T p ⟨ts' ++ rest, E, false⟩ = (.ok (.inl s), ⟨rest, E, false⟩) →
      ∃ t ts', ts = t :: ts' ∧ parseUniline T F ⟨ts ++ rest, E, false⟩ = (.ok (some s), ⟨rest, E, false⟩) ∧
        (∀ n, parseBody T F (n + 1) t ⟨ts' ++ rest, E, false⟩ = (.ok s, ⟨rest, E, false⟩)) ∧
        (t.tok = .end → maybeParseEnd T t.pos ⟨ts' ++ rest, E, false⟩ = (.ok (.inl s), ⟨rest, E, false⟩)) := by
    intro p ts' h1 h2
    have h3 : parseEnd T p ⟨ts' ++ rest, E, false⟩ = (.ok s, ⟨rest, E, false⟩) := by
      unfold parseEnd
      rw [bind_run h2]
      rfl
    refine ⟨_, ts', h1, ?_, fun n => h3, fun _ => h2⟩
    subst h1
    unfold parseUniline
    rw [List.cons_append, bind_run (read_cons ..)]
    simp only
    rw [bind_run h3]
    rfl
  cases h with
  | assign he =>
    refine mk (parseSymbolStmt T _ _) _ _ ?_ rfl (by simp) rfl (fun n => rfl)
    unfold parseSymbolStmt
    rw [List.cons_append, bind_run (peek_cons ..), if_pos rfl, bind_run (consume_cons ..)]
    exact assignment_run T _ _ he hr
  | arrayAssign a ha he =>
    refine mk (parseSymbolStmt T _ _) _ _ ?_ rfl (by simp) rfl (fun n => rfl)
    unfold parseSymbolStmt
    rw [List.cons_append, bind_run (peek_cons ..), if_neg (by simp)]
    unfold parseArrayOrBuiltin
    rw [bind_run (peek_cons ..), if_pos rfl, bind_run (consume_cons ..), List.append_assoc, bind_run (commaExprs_run T a ha _ E),
      List.cons_append, bind_run (peek_cons ..), if_pos rfl, bind_run (consume_cons ..), exprs_eq]
    exact arrayAssignment_run T _ _ _ he hr
  | command => exact mk (parseSymbolStmt T _ _) _ _ (command_run T _ _ hr) rfl (by simp) rfl (fun n => rfl)
  | commandArgs ha hne hl => exact mk (parseSymbolStmt T _ _) _ _ (commandWith_run T _ _ ha hne hl hr hp) rfl (by simp) rfl (fun n => rfl)
  | data hd => exact mk (parseData T F) _ _ (parseData_run T F hd hr) rfl (by simp) rfl (fun n => rfl)
  | «end» => exact fin _ [] rfl (maybeEnd_run T _ (noExpr_run T (simple_endsExpr hr)) (Or.inr hr))
  | endCode he =>
    refine fin _ _ rfl (maybeEnd_run T _ (expr_run T he hr.ends E) (Or.inl ?_))
    obtain ⟨x, xs, rfl, hx⟩ := expr_starts he
    exact hx
  | exitDo => exact mk (parseExit _) _ _ rfl rfl (by simp) rfl (fun n => rfl)
  | exitFor => exact mk (parseExit _) _ _ rfl rfl (by simp) rfl (fun n => rfl)
  | exitFunction => exact mk (parseExit _) _ _ rfl rfl (by simp) rfl (fun n => rfl)
  | exitSub => exact mk (parseExit _) _ _ rfl rfl (by simp) rfl (fun n => rfl)
  | gosub hl => cases hl <;> exact mk parseGosub _ _ rfl rfl (by simp) rfl (fun n => rfl)
  | goto hl => cases hl <;> exact mk parseGoto _ _ rfl rfl (by simp) rfl (fun n => rfl)
  | @onErrorGoto p q r t l u hl h0 =>
    refine mk (parseOn p) _ _ ?_ rfl (by simp) rfl (fun n => rfl)
    unfold parseOn
    rw [List.cons_append, bind_run (expect_cons ..), List.cons_append, bind_run (read_cons ..)]
    simp only
    rw [List.cons_append, bind_run (read_cons ..), if_neg h0]
    simp only [label_facts hl]
    rfl
  | onErrorReset => exact mk (parseOn _) _ _ rfl rfl (by simp) rfl (fun n => rfl)
  | onErrorResume => exact mk (parseOn _) _ _ rfl rfl (by simp) rfl (fun n => rfl)
  | «return» => exact mk (pure (.ret _)) _ [] rfl rfl (by simp) rfl (fun n => rfl)

/-! ## Declarations -/

theorem type_facts {t : Tok} {ty : ExprType} (h : IsType t ty) : t.typeName = some ty := by cases h <;> rfl

theorem asType_run (T : TextOps) {t : Tok} {ty : ExprType} (h : IsType t ty) (p : LineCol) (rest : List TokSpan) (E : LineCol) :
    parseAsType T ⟨⟨t, p⟩ :: rest, E, false⟩ = (.ok ty, ⟨rest, E, false⟩) := by
  cases h <;> rfl

theorem dimAs_run (T : TextOps) {tt : List TokSpan} {ty : ExprType} (h : IsDimType tt ty) {rest : List TokSpan} {E : LineCol}
    (hr : LineEnd rest E) : parseDimAs T ⟨tt ++ rest, E, false⟩ = (.ok ty, ⟨rest, E, false⟩) := by
  cases h with
  | default =>
    unfold parseDimAs
    rw [List.nil_append, bind_run (peek_run ..), if_pos hr,
      bind_run (x := pure ExprType.integer) (s := ⟨rest, E, false⟩) (s' := ⟨rest, E, false⟩) rfl, bind_run (peek_run ..), if_pos hr]
    rfl
  | @as p t ty q ht =>
    unfold parseDimAs
    rw [List.cons_append, bind_run (peek_cons ..), if_neg (by simp [Tok.endsLine]), if_pos rfl]
    have : (do consumeT; parseAsType T : PM ExprType) ⟨⟨.as, p⟩ :: ([⟨t, q⟩] ++ rest), E, false⟩ = (.ok ty, ⟨rest, E, false⟩) := by
      rw [bind_run (consume_cons ..)]
      exact asType_run T ht q rest E
    rw [bind_run this, bind_run (peek_run ..), if_pos hr]
    rfl

theorem line_ne_paren {rest : List TokSpan} {E : LineCol} (hr : LineEnd rest E) : (seen rest E).tok ≠ .leftParen :=
  (simple_ne (LineEnd.stmt hr)).1

theorem dimType_ne_paren {tt : List TokSpan} {ty : ExprType} (h : IsDimType tt ty) {rest : List TokSpan} {E : LineCol}
    (hr : LineEnd rest E) : (seen (tt ++ rest) E).tok ≠ .leftParen := by
  cases h with
  | default => exact line_ne_paren hr
  | as _ => simp [seen]

/-- `parse_dim` after the optional `SHARED`. -/
def dimRest (T : TextOps) (shared : Bool) : PM Stmt := do
  let t ← readT
  match t.tok with
  | .symbol v => do
    let name ← unannotated v t.pos
    let q ← peekT
    if q.tok = .leftParen then do
      consumeT
      let dims ← parseCommaExprs T
      match dims with
      | .nil => PM.bad q.pos "Arrays require at least one dimension".toList
      | dims => do
        let ty ← parseDimAs T
        pure (.dimArray name t.pos shared dims.exprs ty)
    else do
      let ty ← parseDimAs T
      pure (.dim name t.pos shared ty)
  | _ => PM.bad t.pos "Expected variable name after DIM".toList

theorem dim_shared (T : TextOps) {tsh : List TokSpan} {sh : Bool} (h : IsShared tsh sh) (v : VarRef) (q : LineCol) (ts : List TokSpan) (E : LineCol) :
    parseDim T ⟨tsh ++ ⟨.symbol v, q⟩ :: ts, E, false⟩ = dimRest T sh ⟨⟨.symbol v, q⟩ :: ts, E, false⟩ := by
  cases h <;> rfl

theorem dim_run (T : TextOps) {tsh : List TokSpan} {sh : Bool} (h : IsShared tsh sh) (name : Str) (q : LineCol) {tt : List TokSpan}
    {ty : ExprType} (ht : IsDimType tt ty) {rest : List TokSpan} {E : LineCol} (hr : LineEnd rest E) :
    parseDim T ⟨tsh ++ ⟨.symbol ⟨name, none⟩, q⟩ :: (tt ++ rest), E, false⟩ = (.ok (.dim name q sh ty), ⟨rest, E, false⟩) := by
  rw [dim_shared T h]
  unfold dimRest
  rw [bind_run (read_cons ..)]
  simp only
  rw [bind_run (unannotated_run ..), bind_run (peek_run ..), if_neg (dimType_ne_paren ht hr), bind_run (dimAs_run T ht hr)]
  rfl

theorem dimArray_run (T : TextOps) {tsh : List TokSpan} {sh : Bool} (h : IsShared tsh sh) (name : Str) (q lp : LineCol) (a : TreeArgs)
    (ha : a.Canonical) {tt : List TokSpan} {ty : ExprType} (ht : IsDimType tt ty) {rest : List TokSpan} {E : LineCol} (hr : LineEnd rest E) :
    parseDim T ⟨tsh ++ ⟨.symbol ⟨name, none⟩, q⟩ :: ⟨.leftParen, lp⟩ :: (a.toks ++ (tt ++ rest)), E, false⟩ =
      (.ok (.dimArray name q sh a.exprs ty), ⟨rest, E, false⟩) := by
  rw [dim_shared T h]
  unfold dimRest
  rw [bind_run (read_cons ..)]
  simp only
  rw [bind_run (unannotated_run ..), bind_run (peek_cons ..), if_pos rfl, bind_run (consume_cons ..), bind_run (commaExprs_run T a ha _ E),
    ← exprs_eq]
  cases a <;> (simp only [TreeArgs.args]; rw [bind_run (dimAs_run T ht hr)]; rfl)

/-! ## Signatures -/

/-- `paramLoop` after one parameter. -/
def paramRest (T : TextOps) (n : Nat) (v : VarRef) : PM (List VarRef) := do
  let u ← readT
  match u.tok with
  | .comma => do
    let rest ← paramLoop T n
    pure (v :: rest)
  | .rightParen => pure [v]
  | _ => PM.bad u.pos "Expected comma, AS, or end of parameters list".toList

theorem param_run (T : TextOps) (n : Nat) {tp : List TokSpan} {v : VarRef} (h : IsParam tp v) (d : TokSpan) (hd : d.tok ≠ .as)
    (ts : List TokSpan) (E : LineCol) :
    paramLoop T (n + 1) ⟨tp ++ d :: ts, E, false⟩ = paramRest T n v ⟨d :: ts, E, false⟩ := by
  cases h with
  | name v p =>
    unfold paramLoop
    rw [List.cons_append, bind_run (read_cons ..)]
    simp only
    rw [List.nil_append, bind_run (peek_cons ..), if_neg hd, bind_run (x := pure v) (s := ⟨d :: ts, E, false⟩) (s' := ⟨d :: ts, E, false⟩) rfl]
    rfl
  | @as name p q t ty r ht =>
    unfold paramLoop
    rw [List.cons_append, bind_run (read_cons ..)]
    simp only
    rw [List.cons_append, bind_run (peek_cons ..), if_pos rfl]
    have : (do consumeT
               let name ← unannotated ⟨name, none⟩ p
               let ty ← parseAsType T
               pure (⟨name, some ty⟩ : VarRef) : PM VarRef) ⟨⟨.as, q⟩ :: ([⟨t, r⟩] ++ d :: ts), E, false⟩ = (.ok ⟨name, some ty⟩, ⟨d :: ts, E, false⟩) := by
      rw [bind_run (consume_cons ..), bind_run (unannotated_run ..), List.cons_append, bind_run (asType_run T ht ..)]
      rfl
    rw [bind_run this]
    rfl

theorem params_run (T : TextOps) {tp : List TokSpan} {vs : List VarRef} (h : IsParams tp vs) :
    ∀ (n : Nat) (rest : List TokSpan) (E : LineCol), tp.length + 1 ≤ n →
      paramLoop T n ⟨tp ++ rest, E, false⟩ = (.ok vs, ⟨rest, E, false⟩) := by
  induction h with
  | last hp =>
    intro n rest E hn
    obtain ⟨m, rfl⟩ : ∃ m, n = m + 1 := ⟨n - 1, by omega⟩
    rw [List.append_assoc, List.cons_append, param_run T m hp _ (by simp)]
    rfl
  | more hp _ ih =>
    intro n rest E hn
    obtain ⟨m, rfl⟩ : ∃ m, n = m + 1 := ⟨n - 1, by omega⟩
    rw [List.append_assoc, List.cons_append, param_run T m hp _ (by simp)]
    unfold paramRest
    rw [bind_run (read_cons ..)]
    simp only
    rw [bind_run (ih m rest E (by simp at hn; omega))]
    rfl

theorem paramList_run (T : TextOps) {tp : List TokSpan} {vs : List VarRef} (h : IsParamList tp vs) {rest : List TokSpan} {E : LineCol}
    (hr : (seen rest E).tok ≠ .leftParen) : parseCallableArgs T ⟨tp ++ rest, E, false⟩ = (.ok vs, ⟨rest, E, false⟩) := by
  unfold parseCallableArgs
  cases h with
  | none => rw [List.nil_append, bind_run (peek_run ..), if_neg hr]; rfl
  | @some p ts vs hp =>
    rw [List.cons_append, bind_run (peek_cons ..), if_pos rfl]
    exact params_run T hp ((ts ++ rest).length + 1) rest E (by simp)

/-- The keyword is the one of a function. -/
theorem callable_facts {kw : Tok} {v name : VarRef} (h : IsCallable kw v name) : kw = .function ∨ kw = .sub := by
  cases h <;> simp

theorem signature_run (T : TextOps) (isDeclare : Bool) {kw : Tok} {v name : VarRef} (h : IsCallable kw v name) (p : LineCol)
    {tp : List TokSpan} {vs : List VarRef} (ht : IsParamList tp vs) {rest : List TokSpan} {E : LineCol}
    (hr : (seen rest E).tok = .eol ∨ ((seen rest E).tok = .eof ∧ isDeclare)) :
    parseSignature T isDeclare (decide (kw = .function)) ⟨⟨.symbol v, p⟩ :: (tp ++ rest), E, false⟩ = (.ok (name, p, vs), ⟨rest, E, false⟩) := by
  have hl : (seen rest E).tok ≠ .leftParen := by
    rcases hr with h | ⟨h, -⟩ <;> rw [h] <;> simp
  have key := paramList_run T ht hl
  cases h with
  | function n t =>
    unfold parseSignature
    rw [bind_run (read_cons ..)]
    simp only [decide_true]
    rw [bind_run (x := pure (⟨n, some t⟩ : VarRef)) (s := ⟨tp ++ rest, E, false⟩) (s' := ⟨tp ++ rest, E, false⟩) rfl, bind_run key,
      bind_run (peek_run ..), if_pos hr]
    rfl
  | functionInt n =>
    unfold parseSignature
    rw [bind_run (read_cons ..)]
    simp only [decide_true]
    rw [bind_run (x := pure (⟨n, some .integer⟩ : VarRef)) (s := ⟨tp ++ rest, E, false⟩) (s' := ⟨tp ++ rest, E, false⟩) rfl, bind_run key,
      bind_run (peek_run ..), if_pos hr]
    rfl
  | sub n =>
    unfold parseSignature
    rw [bind_run (read_cons ..)]
    have : decide (Tok.sub = Tok.function) = false := by simp
    simp only [this]
    rw [bind_run (x := pure (⟨n, none⟩ : VarRef)) (s := ⟨tp ++ rest, E, false⟩) (s' := ⟨tp ++ rest, E, false⟩) rfl, bind_run key,
      bind_run (peek_run ..), if_pos hr]
    rfl

theorem declare_run (T : TextOps) {kw : Tok} {v name : VarRef} (h : IsCallable kw v name) (q p : LineCol)
    {tp : List TokSpan} {vs : List VarRef} (ht : IsParamList tp vs) {rest : List TokSpan} {E : LineCol} (hr : LineEnd rest E) :
    parseDeclare T ⟨⟨kw, q⟩ :: ⟨.symbol v, p⟩ :: (tp ++ rest), E, false⟩ = (.ok (.declare name p vs), ⟨rest, E, false⟩) := by
  have hr' : (seen rest E).tok = .eol ∨ ((seen rest E).tok = .eof ∧ (true : Bool)) := by
    cases hk : (seen rest E).tok <;> unfold LineEnd at hr <;> rw [hk] at hr <;> simp_all [Tok.endsLine]
  have key := signature_run T true h p ht hr'
  unfold parseDeclare
  rw [bind_run (read_cons ..)]
  rcases callable_facts h with hk | hk
  all_goals
    subst hk
    simp only
    rw [bind_run (by simpa using key)]
    rfl

/-! ## Parts of compound statements -/

theorem guard_none (T : TextOps) (part : String) {rest : List TokSpan} {E : LineCol} (hr : LineEnd rest E) :
    parseDoGuard T part ⟨rest, E, false⟩ = (.ok none, ⟨rest, E, false⟩) := by
  unfold parseDoGuard
  rw [bind_run (peek_run ..)]
  cases hk : (seen rest E).tok <;> unfold LineEnd at hr <;> rw [hk] at hr <;> first | rfl | cases hr

theorem guard_until (T : TextOps) (part : String) (p : LineCol) {te : List TokSpan} {e : Expr} (h : IsExpr te e) {rest : List TokSpan}
    {E : LineCol} (hr : LineEnd rest E) :
    parseDoGuard T part ⟨⟨.until, p⟩ :: (te ++ rest), E, false⟩ = (.ok (some (e, true)), ⟨rest, E, false⟩) := by
  unfold parseDoGuard
  rw [bind_run (peek_cons ..)]
  simp only
  rw [bind_run (consume_cons ..), bind_run (required_run T _ h (LineEnd.stmt hr).ends E)]
  rfl

theorem guard_while (T : TextOps) (part : String) (p : LineCol) {te : List TokSpan} {e : Expr} (h : IsExpr te e) {rest : List TokSpan}
    {E : LineCol} (hr : LineEnd rest E) :
    parseDoGuard T part ⟨⟨.while, p⟩ :: (te ++ rest), E, false⟩ = (.ok (some (e, false)), ⟨rest, E, false⟩) := by
  unfold parseDoGuard
  rw [bind_run (peek_cons ..)]
  simp only
  rw [bind_run (consume_cons ..), bind_run (required_run T _ h (LineEnd.stmt hr).ends E)]
  rfl

theorem compare_up {i : Int} (h : 0 < i) : compare i 0 = .gt := by
  show compareOfLessAndEq i 0 = _
  unfold compareOfLessAndEq
  rw [if_neg (by omega), if_neg (by omega)]

theorem compare_down {i : Int} (h : i < 0) : compare i 0 = .lt := by
  show compareOfLessAndEq i 0 = _
  unfold compareOfLessAndEq
  rw [if_pos h]

theorem step_run (F : FloatOps) (pos : LineCol) {tst : List TokSpan} {step : Expr} {up dbl : Bool} (h : IsStep F pos tst step up dbl)
    (p : LineCol) (rest : List TokSpan) (E : LineCol) :
    parseStep F pos ⟨tst ++ ⟨.eol, p⟩ :: rest, E, false⟩ = (.ok ⟨step, if up then .gt else .lt, dbl⟩, ⟨⟨.eol, p⟩ :: rest, E, false⟩) := by
  cases h with
  | none => rfl
  | @int a i q hi =>
    have : compare i.toInt 0 = if decide (0 < i.toInt) then Ordering.gt else Ordering.lt := by
      by_cases hlt : 0 < i.toInt
      · simp only [hlt, decide_true, if_true]; exact compare_up hlt
      · simp only [hlt, decide_false]; exact compare_down (by omega)
    rw [← this]; rfl
  | @negInt a r i q hi hm =>
    have hneg : (-i).toInt = -i.toInt := by
      rw [BitVec.toInt_neg_of_ne_intMin hm]
    have : compare (-i).toInt 0 = if decide (i.toInt < 0) then Ordering.gt else Ordering.lt := by
      rw [hneg]
      by_cases hlt : i.toInt < 0
      · simp only [hlt, decide_true, if_true]; exact compare_up (by omega)
      · simp only [hlt, decide_false]; exact compare_down (by omega)
    unfold parseStep
    rw [List.cons_append, bind_run (peek_cons ..), if_neg (by simp), bind_run (consume_cons ..), List.cons_append, bind_run (peek_cons ..)]
    simp only
    rw [bind_run (consume_cons ..), List.cons_append, bind_run (peek_cons ..)]
    simp only
    rw [bind_run (consume_cons ..), bind_run (negI32_run hm _), ← this]
    rfl
  | dbl hd =>
    show (Except.ok (StepInfo.mk _ (if F.eq _ 0 then _ else _) _), _) = _
    rw [hd]; rfl
  | negDbl hd =>
    show (Except.ok (StepInfo.mk _ (if F.eq _ 0 then _ else _) _), _) = _
    rw [hd]; rfl

theorem step_ends {F : FloatOps} {pos : LineCol} {tst : List TokSpan} {step : Expr} {up dbl : Bool} (h : IsStep F pos tst step up dbl)
    (p : LineCol) (rest : List TokSpan) : Ends (tst ++ ⟨.eol, p⟩ :: rest) := by
  cases h <;> exact ends_cons (by simp [endTokens])

theorem forHead_run (T : TextOps) (F : FloatOps) (pos : LineCol) {v : VarRef} (hv : v.ty = none ∨ v.ty = some .double ∨ v.ty = some .integer)
    {ip q to p : LineCol} {ts te tst : List TokSpan} {start stop step : Expr} {up dbl : Bool} (hs : IsExpr ts start) (he : IsExpr te stop)
    (hst : IsStep F pos tst step up dbl) (rest : List TokSpan) (E : LineCol) :
    parseForHead T F pos ⟨⟨.symbol v, ip⟩ :: ⟨.equal, q⟩ :: (ts ++ ⟨.to, to⟩ :: (te ++ (tst ++ ⟨.eol, p⟩ :: rest))), E, false⟩ =
      (.ok (.forLoop v ip dbl start (.bin (if up then .le else .ge) (.sym v ip) stop to) (.bin .add (.sym v ip) step to)), ⟨rest, E, false⟩) := by
  have hit : parseForIter ⟨⟨.symbol v, ip⟩ :: ⟨.equal, q⟩ :: (ts ++ ⟨.to, to⟩ :: (te ++ (tst ++ ⟨.eol, p⟩ :: rest))), E, false⟩ =
      (.ok (v, ip), ⟨⟨.equal, q⟩ :: (ts ++ ⟨.to, to⟩ :: (te ++ (tst ++ ⟨.eol, p⟩ :: rest))), E, false⟩) := by
    unfold parseForIter
    rw [bind_run (read_cons ..)]
    simp only
    rw [if_pos hv]
    rfl
  unfold parseForHead
  rw [bind_run hit]
  simp only
  rw [bind_run (expect_cons ..), bind_run (required_run T _ hs (ends_cons (by simp [endTokens])) E), bind_run (expect_cons ..),
    bind_run (required_run T _ he (step_ends hst p rest) E), bind_run (step_run F pos hst p rest E)]
  cases up
  all_goals
    simp only [if_true, Bool.false_eq_true, if_false]
    rw [bind_run (x := pure _) (s := ⟨⟨.eol, p⟩ :: rest, E, false⟩) (s' := ⟨⟨.eol, p⟩ :: rest, E, false⟩) rfl, bind_run (expect_cons ..)]
    rfl

theorem rel_facts {t : Tok} {op : CaseRelOp} (h : IsCaseRel t op) : t.caseRelOp = some op := by cases h <;> rfl

/-- What follows a guard. -/
def GuardEnd (t : TokSpan) : Prop := t.tok = .eol ∨ t.tok = .comma

theorem GuardEnd.ends {t : TokSpan} (h : GuardEnd t) (ts : List TokSpan) : Ends (t :: ts) := by
  rcases h with h | h <;> exact ends_cons (by rw [h]; simp [endTokens])

theorem guard_starts {tg : List TokSpan} {g : CaseGuard} (h : IsGuard tg g) : ∃ x xs, tg = x :: xs ∧ x.tok ≠ .else := by
  have key : ∀ {te e} (ts : List TokSpan), IsExpr te e → ∃ x xs, te ++ ts = x :: xs ∧ x.tok ≠ .else := by
    intro te e ts he
    obtain ⟨x, xs, rfl, hx⟩ := expr_starts he
    refine ⟨x, xs ++ ts, rfl, fun hq => ?_⟩
    rw [hq] at hx
    cases hx
  cases h with
  | is => exact ⟨_, _, rfl, by simp⟩
  | eq he => have := key [] he; rwa [List.append_nil] at this
  | to he _ => exact key _ he

theorem caseGuard_run (T : TextOps) {tg : List TokSpan} {g : CaseGuard} (h : IsGuard tg g) {d : TokSpan} (hd : GuardEnd d)
    (ts : List TokSpan) (E : LineCol) : parseCaseGuard T ⟨tg ++ d :: ts, E, false⟩ = (.ok g, ⟨d :: ts, E, false⟩) := by
  have first : ∀ {te e} (ts : List TokSpan), IsExpr te e → (seen (te ++ ts) E).tok ≠ .is := by
    intro te e ts he hq
    obtain ⟨x, xs, rfl, hx⟩ := expr_starts he
    have hq : x.tok = .is := hq
    rw [hq] at hx
    cases hx
  unfold parseCaseGuard
  cases h with
  | is ht he =>
    rw [List.cons_append, bind_run (peek_cons ..), if_pos rfl, bind_run (consume_cons ..), List.cons_append, bind_run (read_cons ..)]
    simp only [rel_facts ht]
    rw [bind_run (required_run T _ he (hd.ends ts) E)]
    rfl
  | eq he =>
    rw [bind_run (peek_run ..), if_neg (first _ he), bind_run (required_run T _ he (hd.ends ts) E), bind_run (peek_cons ..)]
    obtain ⟨d, p⟩ := d
    rcases hd with hd | hd <;> (have hd : d = _ := hd; subst hd; rfl)
  | to he hf =>
    rw [List.append_assoc, bind_run (peek_run ..), if_neg (first _ he), List.cons_append,
      bind_run (required_run T _ he (ends_cons (by simp [endTokens])) E), bind_run (peek_cons ..)]
    simp only
    rw [bind_run (consume_cons ..), bind_run (required_run T _ hf (hd.ends ts) E)]
    rfl

theorem caseGuards_run (T : TextOps) {tg : List TokSpan} {gs : List CaseGuard} (h : IsGuards tg gs) :
    ∀ (n : Nat) (isFirst : Bool) (p : LineCol) (rest : List TokSpan) (E : LineCol), tg.length + 1 ≤ n →
      caseGuardLoop T n isFirst ⟨tg ++ ⟨.eol, p⟩ :: rest, E, false⟩ = (.ok gs, ⟨⟨.eol, p⟩ :: rest, E, false⟩) := by
  have first : ∀ {tg g} (ts : List TokSpan) (E : LineCol), IsGuard tg g → (seen (tg ++ ts) E).tok ≠ .else := by
    intro tg g ts E hg hq
    obtain ⟨x, xs, rfl, hx⟩ := guard_starts hg
    exact hx hq
  induction h with
  | one hg =>
    intro n isFirst p rest E hn
    obtain ⟨m, rfl⟩ : ∃ m, n = m + 1 := ⟨n - 1, by omega⟩
    unfold caseGuardLoop
    rw [bind_run (peek_run ..), if_neg (first _ E hg), bind_run (caseGuard_run T hg (Or.inl rfl) rest E), bind_run (peek_cons ..)]
    rfl
  | more hg _ ih =>
    intro n isFirst p rest E hn
    obtain ⟨m, rfl⟩ : ∃ m, n = m + 1 := ⟨n - 1, by omega⟩
    unfold caseGuardLoop
    rw [List.append_assoc, List.cons_append, bind_run (peek_run ..), if_neg (first _ E hg), bind_run (caseGuard_run T hg (Or.inr rfl) _ E),
      bind_run (peek_cons ..)]
    simp only
    rw [bind_run (consume_cons ..), bind_run (ih m false p rest E (by simp at hn; omega))]
    rfl

theorem guards_ne {tg : List TokSpan} {gs : List CaseGuard} (h : IsGuards tg gs) : gs.isEmpty = false := by
  cases h <;> rfl

end EB
