import Verif.Model.Parser
import Verif.Spec.Expr
/-!
# Lemmas about the parser of expressions
-/

namespace EB
open Spec

/-! ## One step of the loop -/

/-- The rest of the loop after a token has been taken. -/
def tokStep (T : TextOps) (n : Nat) (es : List Expr) (ops : List OpSpan) (need : Bool) (t : TokSpan) : PM (Option Expr) :=
  match t.operand with
  | some e =>
    if need then exprLoop T n (e :: es) ops false
    else PM.bad t.pos "Unexpected value in expression".toList
  | none =>
    match t.tok with
    | .leftParen =>
      match es with
      | .sym v p :: es' =>
        if need then exprLoop T n (.sym v p :: es') (⟨.leftParen, t.pos⟩ :: ops) true
        else do
          let args ← commaExprs T n
          exprLoop T n (.call v p args :: es') ops false
      | es =>
        if need then exprLoop T n es (⟨.leftParen, t.pos⟩ :: ops) true
        else PM.bad t.pos "Unexpected ( in expression".toList
    | .rightParen => do
      let (ops', es') ← PM.lift (reduceParen ops es)
      exprLoop T n es' ops' false
    | .not => exprLoop T n es (⟨.un .not, t.pos⟩ :: ops) true
    | .minus =>
      if need then exprLoop T n es (⟨.un .neg, t.pos⟩ :: ops) true
      else do
        let (ops', es') ← PM.lift (reduceFor (SrcBin.priority .sub) ops es)
        exprLoop T n es' (⟨.bin .sub, t.pos⟩ :: ops') true
    | .bad msg => PM.bad t.pos msg
    | tok =>
      match tok.binOp with
      | some o => do
        let (ops', es') ← PM.lift (reduceFor o.priority ops es)
        exprLoop T n es' (⟨.bin o, t.pos⟩ :: ops') true
      | none => PM.bad t.pos "Unexpected keyword in expression".toList

/-- The condition to stop at a token. -/
def stopsAt (t : TokSpan) (ops : List OpSpan) : Prop :=
  t.tok.endsExpr ∨ (t.tok = .rightParen ∧ ¬ ops.any (fun o => o.op = .leftParen))

instance (t : TokSpan) (ops : List OpSpan) : Decidable (stopsAt t ops) := by unfold stopsAt; infer_instance

theorem exprLoop_nil (T : TextOps) (n : Nat) (es : List Expr) (ops : List OpSpan) (need : Bool) (E : LineCol) (io : Bool) :
    exprLoop T (n + 1) es ops need ⟨[], E, io⟩ =
      (if io then .error (.io E) else reduceAll ops es, ⟨[], E, io⟩) := by
  cases io <;> rfl

theorem exprLoop_cons (T : TextOps) (n : Nat) (es : List Expr) (ops : List OpSpan) (need : Bool) (t : TokSpan)
    (ts : List TokSpan) (E : LineCol) (io : Bool) :
    exprLoop T (n + 1) es ops need ⟨t :: ts, E, io⟩ =
      if stopsAt t ops then (reduceAll ops es, ⟨t :: ts, E, io⟩) else tokStep T n es ops need t ⟨ts, E, io⟩ := by
  by_cases h : stopsAt t ops
  · rw [if_pos h]
    unfold exprLoop
    show PM.bind peekT _ _ = _
    simp only [PM.bind, peekT]
    unfold stopsAt at h
    rw [if_pos h]; rfl
  · rw [if_neg h]
    unfold exprLoop
    show PM.bind peekT _ _ = _
    simp only [PM.bind, peekT]
    unfold stopsAt at h
    rw [if_neg h]; rfl

theorem commaExprs_succ (T : TextOps) (n : Nat) (s : TokStream) :
    commaExprs T (n + 1) s = PM.bind (exprLoop T n [] [] true) (fun prev => commaLoop T n prev true) s := rfl

/-- The rest of the loop over arguments after a token has been seen. -/
def commaStep (T : TextOps) (n : Nat) (prev : Option Expr) (isFirst : Bool) (t : TokSpan) : PM Args :=
  match t.tok with
  | .rightParen => do
    consumeT
    match prev with
    | some e => pure (.cons e .end t.pos .nil)
    | none => if isFirst then pure .nil else PM.bad t.pos "Missing expression".toList
  | .comma => do
    consumeT
    match prev with
    | some e => do
      let prev' ← exprLoop T n [] [] true
      let rest ← commaLoop T n prev' false
      pure (.cons e .long t.pos rest)
    | none => PM.bad t.pos "Missing expression".toList
  | tok => PM.bad t.pos ("Unexpected ".toList ++ tok.show T)

theorem commaLoop_cons (T : TextOps) (n : Nat) (prev : Option Expr) (isFirst : Bool) (t : TokSpan)
    (ts : List TokSpan) (E : LineCol) (io : Bool) :
    commaLoop T (n + 1) prev isFirst ⟨t :: ts, E, io⟩ = commaStep T n prev isFirst t ⟨t :: ts, E, io⟩ := by
  unfold commaLoop
  show PM.bind peekT _ _ = _
  simp only [PM.bind, peekT]
  rfl

theorem commaLoop_nil (T : TextOps) (n : Nat) (prev : Option Expr) (isFirst : Bool) (E : LineCol) (io : Bool) :
    ∃ e, commaLoop T (n + 1) prev isFirst ⟨[], E, io⟩ = (.error e, ⟨[], E, io⟩) ∧ e ≠ .fuel := by
  unfold commaLoop
  show ∃ e, PM.bind peekT _ _ = _ ∧ _
  cases io
  · exact ⟨_, rfl, by simp⟩
  · exact ⟨_, rfl, by simp⟩

/-! ## Spines -/

/-- What a stack holds for an operator: the operator with its left operand, if it has one. -/
inductive PFrame where
  | bin (l : Tree) (op : SrcBin) (pos : LineCol)
  | un (op : SrcUn) (pos : LineCol)
  | par (pos : LineCol)

def PFrame.op : PFrame → OpSpan
  | .bin _ op p => ⟨.bin op, p⟩
  | .un op p => ⟨.un op, p⟩
  | .par p => ⟨.leftParen, p⟩

def PFrame.left : PFrame → Option Expr
  | .bin l _ _ => some l.expr
  | _ => none

def PFrame.toks : PFrame → List TokSpan
  | .bin l op p => l.toks ++ [⟨binTok op, p⟩]
  | .un op p => [⟨unTok op, p⟩]
  | .par p => [⟨.leftParen, p⟩]

abbrev opsOf (fs : List PFrame) : List OpSpan := fs.map PFrame.op
abbrev esOf (fs : List PFrame) : List Expr := fs.filterMap PFrame.left

def toksOf : List PFrame → List TokSpan
  | [] => []
  | f :: fs => toksOf fs ++ f.toks

/-- The operators that are open at the right edge of a tree. -/
def spine : Tree → List PFrame
  | .bin op p l r => spine r ++ [.bin l op p]
  | .un op p t => spine t ++ [.un op p]
  | _ => []

/-- The last operand of a tree. -/
def atom : Tree → Tree
  | .bin _ _ _ r => atom r
  | .un _ _ t => atom t
  | t => t

theorem strength_eq (op : SrcBin) : strength op = op.priority := by cases op <;> decide

theorem reduceFor_spine (p : Nat) (t : Tree) (h : ∀ k ∈ t.rightEdge, p ≤ k) (ops : List OpSpan) (es : List Expr) :
    reduceFor p (opsOf (spine t) ++ ops) ((atom t).expr :: (esOf (spine t) ++ es)) = reduceFor p ops (t.expr :: es) := by
  induction t using Tree.rec (motive_2 := fun _ => True) generalizing ops es with
  | bin op pos l r ihl ihr =>
    simp only [Tree.rightEdge, List.mem_cons, forall_eq_or_imp] at h
    have := ihr h.2 (⟨.bin op, pos⟩ :: ops) (l.expr :: es)
    simp only [spine, atom, opsOf, esOf, List.map_append, List.filterMap_append, List.map_cons, List.map_nil,
      List.filterMap_cons, List.filterMap_nil, PFrame.op, PFrame.left, List.append_assoc, List.cons_append, List.nil_append] at this ⊢
    rw [this, reduceFor]
    have hp : ¬ op.priority < p := by have := h.1; rw [strength_eq] at this; omega
    simp [ExprOp.priority, hp, OpSpan.apply, Tree.expr]
  | un op pos t iht =>
    simp only [Tree.rightEdge, List.mem_cons, forall_eq_or_imp] at h
    have := iht h.2 (⟨.un op, pos⟩ :: ops) es
    simp only [spine, atom, opsOf, esOf, List.map_append, List.filterMap_append, List.map_cons, List.map_nil,
      List.filterMap_cons, List.filterMap_nil, PFrame.op, PFrame.left, List.append_assoc, List.cons_append, List.nil_append] at this ⊢
    rw [this, reduceFor]
    have hp : ¬ 5 < p := by have := h.1; simp only [prefixStrength] at this; omega
    simp [ExprOp.priority, hp, OpSpan.apply, Tree.expr]
  | last => trivial
  | more => trivial
  | _ => rfl

theorem reduceParen_spine (t : Tree) (ops : List OpSpan) (es : List Expr) :
    reduceParen (opsOf (spine t) ++ ops) ((atom t).expr :: (esOf (spine t) ++ es)) = reduceParen ops (t.expr :: es) := by
  induction t using Tree.rec (motive_2 := fun _ => True) generalizing ops es with
  | bin op pos l r ihl ihr =>
    have := ihr (⟨.bin op, pos⟩ :: ops) (l.expr :: es)
    simp only [spine, atom, opsOf, esOf, List.map_append, List.filterMap_append, List.map_cons, List.map_nil,
      List.filterMap_cons, List.filterMap_nil, PFrame.op, PFrame.left, List.append_assoc, List.cons_append, List.nil_append] at this ⊢
    rw [this, reduceParen]
    simp [OpSpan.apply, Tree.expr]
  | un op pos t iht =>
    have := iht (⟨.un op, pos⟩ :: ops) es
    simp only [spine, atom, opsOf, esOf, List.map_append, List.filterMap_append, List.map_cons, List.map_nil,
      List.filterMap_cons, List.filterMap_nil, PFrame.op, PFrame.left, List.append_assoc, List.cons_append, List.nil_append] at this ⊢
    rw [this, reduceParen]
    simp [OpSpan.apply, Tree.expr]
  | last => trivial
  | more => trivial
  | _ => rfl

theorem reduceAll_spine (t : Tree) (ops : List OpSpan) (es : List Expr) :
    reduceAll (opsOf (spine t) ++ ops) ((atom t).expr :: (esOf (spine t) ++ es)) = reduceAll ops (t.expr :: es) := by
  induction t using Tree.rec (motive_2 := fun _ => True) generalizing ops es with
  | bin op pos l r ihl ihr =>
    have := ihr (⟨.bin op, pos⟩ :: ops) (l.expr :: es)
    simp only [spine, atom, opsOf, esOf, List.map_append, List.filterMap_append, List.map_cons, List.map_nil,
      List.filterMap_cons, List.filterMap_nil, PFrame.op, PFrame.left, List.append_assoc, List.cons_append, List.nil_append] at this ⊢
    rw [this, reduceAll]
    simp [OpSpan.apply, Tree.expr]
  | un op pos t iht =>
    have := iht (⟨.un op, pos⟩ :: ops) es
    simp only [spine, atom, opsOf, esOf, List.map_append, List.filterMap_append, List.map_cons, List.map_nil,
      List.filterMap_cons, List.filterMap_nil, PFrame.op, PFrame.left, List.append_assoc, List.cons_append, List.nil_append] at this ⊢
    rw [this, reduceAll]
    simp [OpSpan.apply, Tree.expr]
  | last => trivial
  | more => trivial
  | _ => rfl

theorem spine_no_paren (t : Tree) : (opsOf (spine t)).any (fun o => o.op = .leftParen) = false := by
  induction t using Tree.rec (motive_2 := fun _ => True) with
  | bin op pos l r ihl ihr =>
    simp only [spine, opsOf, List.map_append, List.any_append, List.map_cons, List.map_nil, List.any_cons, List.any_nil,
      PFrame.op] at ihr ⊢
    simp [ihr]
  | un op pos t iht =>
    simp only [spine, opsOf, List.map_append, List.any_append, List.map_cons, List.map_nil, List.any_cons, List.any_nil,
      PFrame.op] at iht ⊢
    simp [iht]
  | last => trivial
  | more => trivial
  | _ => rfl

/-! ## Canonical trees are parsed -/

/-- The operators open at the left edge of the tree bind tighter than the top of the stack. -/
def Fits (ops : List OpSpan) (edge : List Nat) : Prop :=
  ∀ k ∈ edge, ∀ o os, ops = o :: os → o.op = .leftParen ∨ o.op.priority < k

theorem reduceFor_stop {p : Nat} {ops : List OpSpan} (h : Fits ops [p]) (es : List Expr) :
    reduceFor p ops es = .ok (ops, es) := by
  cases ops with
  | nil => rfl
  | cons o os => rw [reduceFor, if_pos (h p (by simp) o os rfl)]

theorem binTok_facts (op : SrcBin) (pos : LineCol) (ops : List OpSpan) :
    ¬ stopsAt ⟨binTok op, pos⟩ ops ∧ TokSpan.operand ⟨binTok op, pos⟩ = none := by
  cases op <;> exact ⟨by simp [stopsAt, binTok, Tok.endsExpr], rfl⟩

theorem tokStep_bin (T : TextOps) (n : Nat) (es : List Expr) (ops : List OpSpan) (op : SrcBin) (pos : LineCol) (s : TokStream) :
    tokStep T n es ops false ⟨binTok op, pos⟩ s =
      PM.bind (PM.lift (reduceFor op.priority ops es)) (fun x => exprLoop T n x.2 (⟨.bin op, pos⟩ :: x.1) true) s := by
  cases op <;> rfl

theorem tokStep_un (T : TextOps) (n : Nat) (es : List Expr) (ops : List OpSpan) (op : SrcUn) (pos : LineCol) (s : TokStream) :
    tokStep T n es ops true ⟨unTok op, pos⟩ s = exprLoop T n es (⟨.un op, pos⟩ :: ops) true s := by
  cases op <;> rfl

theorem unTok_facts (op : SrcUn) (pos : LineCol) (ops : List OpSpan) : ¬ stopsAt ⟨unTok op, pos⟩ ops := by
  cases op <;> simp [stopsAt, unTok, Tok.endsExpr]

theorem exprLoop_lp (T : TextOps) (n : Nat) (es : List Expr) (ops : List OpSpan) (pos : LineCol) (ts : List TokSpan) (E : LineCol) (io : Bool) :
    exprLoop T (n + 1) es ops true ⟨⟨.leftParen, pos⟩ :: ts, E, io⟩ =
      exprLoop T n es (⟨.leftParen, pos⟩ :: ops) true ⟨ts, E, io⟩ := by
  rw [exprLoop_cons, if_neg (by simp [stopsAt, Tok.endsExpr])]
  unfold tokStep
  simp only [TokSpan.operand]
  split
  · rfl
  · rfl

theorem exprLoop_operand (T : TextOps) (n : Nat) (es : List Expr) (ops : List OpSpan) (t : TokSpan) (ts : List TokSpan) (E : LineCol) (io : Bool)
    (e : Expr) (ht : t.operand = some e) :
    exprLoop T (n + 1) es ops true ⟨t :: ts, E, io⟩ = exprLoop T n (e :: es) ops false ⟨ts, E, io⟩ := by
  have : ¬ stopsAt t ops := by
    obtain ⟨tok, p⟩ := t
    cases tok <;> first | (simp [TokSpan.operand] at ht; done) | simp [stopsAt, Tok.endsExpr]
  rw [exprLoop_cons, if_neg this]
  unfold tokStep
  simp only [ht, if_true]

theorem tokStep_call (T : TextOps) (n : Nat) (v : VarRef) (p lp : LineCol) (es : List Expr) (ops : List OpSpan) (s : TokStream) :
    tokStep T n (.sym v p :: es) ops false ⟨.leftParen, lp⟩ s =
      PM.bind (commaExprs T n) (fun args => exprLoop T n (.call v p args :: es) ops false) s := rfl

/-- What is needed to run `commaExprs` on arguments. -/
def ArgsParse (T : TextOps) (E : LineCol) (io : Bool) (a : TreeArgs) : Prop :=
  ∀ n ts isFirst, 2 * (a.toks ++ ts).length + 1 ≤ n →
    PM.bind (exprLoop T n [] [] true) (fun prev => commaLoop T n prev isFirst) ⟨a.toks ++ ts, E, io⟩ = (.ok a.args, ⟨ts, E, io⟩)

def TreeParse (T : TextOps) (E : LineCol) (io : Bool) (t : Tree) : Prop :=
  ∀ n es ops ts, Fits ops t.leftEdge → 2 * (t.toks ++ ts).length + 1 ≤ n →
    ∃ n', 2 * ts.length + 1 ≤ n' ∧ exprLoop T n es ops true ⟨t.toks ++ ts, E, io⟩ =
      exprLoop T n' ((atom t).expr :: (esOf (spine t) ++ es)) (opsOf (spine t) ++ ops) false ⟨ts, E, io⟩

theorem argsParse_aux {T : TextOps} {E : LineCol} {io : Bool} {t : Tree} (h : TreeParse T E io t)
    (n : Nat) (d : TokSpan) (hd : d.tok = .comma ∨ d.tok = .rightParen) (ts : List TokSpan)
    (hn : 2 * (t.toks ++ d :: ts).length + 1 ≤ n) :
    exprLoop T n [] [] true ⟨t.toks ++ d :: ts, E, io⟩ = (.ok (some t.expr), ⟨d :: ts, E, io⟩) := by
  obtain ⟨n', h1, h2⟩ := h n [] [] (d :: ts) (by intro k _ o os ho; simp at ho) hn
  rw [h2]
  obtain ⟨m, rfl⟩ : ∃ m, n' = m + 1 := ⟨n' - 1, by simp at h1; omega⟩
  have hst : stopsAt d (opsOf (spine t) ++ []) := by
    rcases hd with hd | hd
    · left; rw [hd]; rfl
    · right
      refine ⟨hd, ?_⟩
      rw [List.append_nil, spine_no_paren]; simp
  rw [exprLoop_cons, if_pos hst, reduceAll_spine]
  rfl

mutual
theorem tree_parse (T : TextOps) (E : LineCol) (io : Bool) : (t : Tree) → t.Canonical → TreeParse T E io t
  | .bool v p, _ | .dbl v p, _ | .int v p, _ | .text v p, _ | .sym v p, _ => by
    intro n es ops ts _ hn
    simp only [Tree.toks, List.cons_append, List.nil_append, List.length_cons] at hn ⊢
    obtain ⟨m, rfl⟩ : ∃ m, n = m + 1 := ⟨n - 1, by omega⟩
    exact ⟨m, by omega, exprLoop_operand T m es ops _ ts E io _ rfl⟩
  | .call0 v p lp rp, _ => by
    intro n es ops ts _ hn
    simp only [Tree.toks, List.cons_append, List.nil_append, List.length_cons] at hn ⊢
    obtain ⟨m, rfl⟩ : ∃ m, n = m + 4 := ⟨n - 4, by omega⟩
    refine ⟨m + 2, by omega, ?_⟩
    rw [exprLoop_operand T (m + 3) es ops _ _ E io _ rfl, exprLoop_cons, if_neg (by simp [stopsAt, Tok.endsExpr])]
    have h1 : commaExprs T (m + 2) ⟨⟨.rightParen, rp⟩ :: ts, E, io⟩ = (.ok .nil, ⟨ts, E, io⟩) := by
      rw [commaExprs_succ]
      have h0 : exprLoop T (m + 1) [] [] true ⟨⟨.rightParen, rp⟩ :: ts, E, io⟩ = (.ok none, ⟨⟨.rightParen, rp⟩ :: ts, E, io⟩) := by
        rw [exprLoop_cons, if_pos (by right; exact ⟨rfl, by simp⟩)]; rfl
      simp only [PM.bind, h0, commaLoop_cons]
      rfl
    rw [tokStep_call]
    simp only [PM.bind, h1]
    rfl
  | .call v p lp args, hc => by
    intro n es ops ts _ hn
    simp only [Tree.toks, List.cons_append, List.length_cons] at hn ⊢
    obtain ⟨m, rfl⟩ : ∃ m, n = m + 3 := ⟨n - 3, by omega⟩
    refine ⟨m + 1, by simp at hn; omega, ?_⟩
    rw [exprLoop_operand T (m + 2) es ops _ _ E io _ rfl, exprLoop_cons, if_neg (by simp [stopsAt, Tok.endsExpr])]
    have h1 : commaExprs T (m + 1) ⟨args.toks ++ ts, E, io⟩ = (.ok args.args, ⟨ts, E, io⟩) := by
      rw [commaExprs_succ]
      exact args_parse T E io args hc m ts true (by omega)
    rw [tokStep_call]
    simp only [PM.bind, h1]
    rfl
  | .paren lp t rp, hc => by
    intro n es ops ts _ hn
    simp only [Tree.toks, List.cons_append, List.length_cons, List.append_assoc] at hn ⊢
    obtain ⟨m, rfl⟩ : ∃ m, n = m + 1 := ⟨n - 1, by omega⟩
    rw [exprLoop_lp]
    obtain ⟨n', h1, h2⟩ := tree_parse T E io t hc m es (⟨.leftParen, lp⟩ :: ops) ([⟨.rightParen, rp⟩] ++ ts)
      (by intro k _ o os ho; simp only [List.cons.injEq] at ho; left; rw [← ho.1]) (by simp at hn ⊢; omega)
    simp only [List.cons_append, List.nil_append] at h2 ⊢
    rw [h2]
    simp only [List.cons_append, List.nil_append, List.length_cons] at h1
    obtain ⟨k, rfl⟩ : ∃ k, n' = k + 1 := ⟨n' - 1, by omega⟩
    refine ⟨k, by omega, ?_⟩
    rw [exprLoop_cons, if_neg (by
      rintro (h | ⟨-, h⟩)
      · simp [Tok.endsExpr] at h
      · exact h (by simp))]
    show PM.bind (PM.lift (reduceParen _ _)) _ _ = _
    rw [reduceParen_spine]
    rfl
  | .un op pos t, hc => by
    intro n es ops ts _ hn
    simp only [Tree.toks, List.cons_append, List.length_cons] at hn ⊢
    obtain ⟨m, rfl⟩ : ∃ m, n = m + 1 := ⟨n - 1, by omega⟩
    rw [exprLoop_cons, if_neg (unTok_facts _ _ _), tokStep_un]
    obtain ⟨n', h1, h2⟩ := tree_parse T E io t hc.1 m es (⟨.un op, pos⟩ :: ops) ts
      (by intro k hk o os ho; simp only [List.cons.injEq] at ho; right; rw [← ho.1]; exact hc.2 k hk) (by omega)
    refine ⟨n', h1, ?_⟩
    rw [h2]
    simp [spine, atom, opsOf, esOf, PFrame.op, PFrame.left, List.filterMap_cons]
  | .bin op pos l r, hc => by
    intro n es ops ts hf hn
    obtain ⟨c1, c2, c3, c4⟩ := hc
    simp only [Tree.toks, List.append_assoc, List.cons_append] at hn ⊢
    obtain ⟨n', h1, h2⟩ := tree_parse T E io l c1 n es ops (⟨binTok op, pos⟩ :: (r.toks ++ ts))
      (by intro k hk; exact hf k (by simp [Tree.leftEdge, hk])) hn
    rw [h2]
    simp only [List.length_cons] at h1
    obtain ⟨m, rfl⟩ : ∃ m, n' = m + 1 := ⟨n' - 1, by omega⟩
    rw [exprLoop_cons, if_neg (binTok_facts _ _ _).1, tokStep_bin]
    rw [reduceFor_spine op.priority l (by intro k hk; have := c3 k hk; rw [strength_eq] at this; exact this)]
    rw [reduceFor_stop (by
      intro k hk o os ho
      simp only [List.mem_singleton] at hk
      have := hf (strength op) (by simp [Tree.leftEdge]) o os ho
      rw [hk, ← strength_eq]; exact this)]
    show ∃ n', _ ∧ exprLoop T m (l.expr :: es) (⟨.bin op, pos⟩ :: ops) true _ = _
    obtain ⟨n'', g1, g2⟩ := tree_parse T E io r c2 m (l.expr :: es) (⟨.bin op, pos⟩ :: ops) ts
      (by intro k hk o os ho; simp only [List.cons.injEq] at ho; right; rw [← ho.1]
          have := c4 k hk; rw [strength_eq] at this; exact this) (by omega)
    refine ⟨n'', g1, ?_⟩
    rw [g2]
    simp [spine, atom, opsOf, esOf, PFrame.op, PFrame.left]
termination_by structural t => t

theorem args_parse (T : TextOps) (E : LineCol) (io : Bool) : (a : TreeArgs) → a.Canonical → ArgsParse T E io a
  | .last t rp, hc => by
    intro n ts isFirst hn
    simp only [TreeArgs.toks, List.append_assoc, List.cons_append, List.nil_append] at hn ⊢
    have := argsParse_aux (tree_parse T E io t hc) n ⟨.rightParen, rp⟩ (Or.inr rfl) ts hn
    simp only [PM.bind, this]
    obtain ⟨m, rfl⟩ : ∃ m, n = m + 1 := ⟨n - 1, by omega⟩
    rw [commaLoop_cons]
    rfl
  | .more t c rest, hc => by
    intro n ts isFirst hn
    simp only [TreeArgs.toks, List.append_assoc, List.cons_append] at hn ⊢
    have := argsParse_aux (tree_parse T E io t hc.1) n ⟨.comma, c⟩ (Or.inl rfl) (rest.toks ++ ts) hn
    simp only [PM.bind, this]
    obtain ⟨m, rfl⟩ : ∃ m, n = m + 1 := ⟨n - 1, by omega⟩
    rw [commaLoop_cons]
    have ih := args_parse T E io rest hc.2 m ts false (by simp at hn ⊢; omega)
    show PM.bind (exprLoop T m [] [] true) (fun prev' => PM.bind (commaLoop T m prev' false) (fun r => PM.pure (Args.cons t.expr .long c r)))
      ⟨rest.toks ++ ts, E, io⟩ = _
    simp only [PM.bind] at ih ⊢
    revert ih
    cases h : exprLoop T m [] [] true ⟨rest.toks ++ ts, E, io⟩ with
    | mk a s =>
      cases a with
      | error e => intro ih; simp at ih
      | ok a => intro ih; simp only at ih ⊢; rw [ih]; rfl
termination_by structural a => a
end

/-- A canonical tree that is followed by a token that ends an expression is parsed. -/
theorem parseExpr_complete (T : TextOps) (t : Tree) (hc : t.Canonical) (rest : List TokSpan) (E : LineCol) (io : Bool)
    (hr : Ends rest) (hio : rest = [] → io = false) :
    parseExpr T none ⟨t.toks ++ rest, E, io⟩ = (.ok (some t.expr), ⟨rest, E, io⟩) := by
  obtain ⟨n', h1, h2⟩ := tree_parse T E io t hc (2 * (t.toks ++ rest).length + 2) [] [] rest
    (by intro k _ o os ho; simp at ho) (by omega)
  show exprLoop T (2 * (t.toks ++ rest).length + 2) [] [] true _ = _
  rw [h2]
  obtain ⟨m, rfl⟩ : ∃ m, n' = m + 1 := ⟨n' - 1, by omega⟩
  cases rest with
  | nil =>
    rw [exprLoop_nil, hio rfl, reduceAll_spine]; rfl
  | cons d ts =>
    have hd : stopsAt d (opsOf (spine t) ++ []) := by
      have := hr d rfl
      simp only [endTokens, List.mem_cons, List.not_mem_nil, or_false] at this
      rcases this with h | h | h | h | h | h | h | h | h | h
      all_goals first
        | (left; rw [h]; rfl)
        | (right; refine ⟨h, ?_⟩; rw [List.append_nil, spine_no_paren]; simp)
    rw [exprLoop_cons, if_pos hd, reduceAll_spine]; rfl

/-! ## What the loop does with a token -/

theorem apply_ne_fuel (o : OpSpan) (es : List Expr) : o.apply es ≠ .error .fuel := by
  unfold OpSpan.apply notEnough
  split
  · simp
  · split <;> simp
  · split <;> simp

theorem reduceFor_ne_fuel (p : Nat) (ops : List OpSpan) : ∀ es, reduceFor p ops es ≠ .error .fuel := by
  induction ops with
  | nil => intro es; simp [reduceFor]
  | cons o os ih =>
    intro es
    rw [reduceFor]
    split
    · simp
    · cases h : o.apply es with
      | error e => simp only; intro he; injection he with he; subst he; exact apply_ne_fuel o es h
      | ok es' => exact ih es'

theorem reduceParen_ne_fuel (ops : List OpSpan) : ∀ es, reduceParen ops es ≠ .error .fuel := by
  induction ops with
  | nil => intro es; simp [reduceParen]
  | cons o os ih =>
    intro es
    rw [reduceParen]
    cases h : o.apply es with
    | error e => simp only; intro he; injection he with he; subst he; exact apply_ne_fuel o es h
    | ok es' =>
      simp only
      split
      · simp
      · exact ih es'

theorem reduceAll_ne_fuel (ops : List OpSpan) : ∀ es, reduceAll ops es ≠ .error .fuel := by
  induction ops with
  | nil => intro es; simp [reduceAll]
  | cons o os ih =>
    intro es
    rw [reduceAll]
    split
    · simp
    · cases h : o.apply es with
      | error e => simp only; intro he; injection he with he; subst he; exact apply_ne_fuel o es h
      | ok es' => exact ih es'

/-- All that can happen with a token that does not end the expression. -/
inductive TokCase (T : TextOps) (n : Nat) (es : List Expr) (ops : List OpSpan) (need : Bool) (t : TokSpan) (s : TokStream)
    (X : Except PErr (Option Expr) × TokStream) : Prop
  | fail (err : PErr) (hf : err ≠ .fuel) (h : X = (.error err, s))
  | operand (e : Expr) (he : t.operand = some e) (hn : need = true) (h : X = exprLoop T n (e :: es) ops false s)
  | lparen (ht : t.tok = .leftParen) (hn : need = true) (h : X = exprLoop T n es (⟨.leftParen, t.pos⟩ :: ops) true s)
  | call (ht : t.tok = .leftParen) (hn : need = false) (v : VarRef) (p : LineCol) (es' : List Expr) (he : es = .sym v p :: es')
      (h : X = PM.bind (commaExprs T n) (fun args => exprLoop T n (.call v p args :: es') ops false) s)
  | rparen (ht : t.tok = .rightParen) (ops' : List OpSpan) (es' : List Expr) (hr : reduceParen ops es = .ok (ops', es'))
      (h : X = exprLoop T n es' ops' false s)
  | un (u : SrcUn) (ht : t.tok = unTok u) (hn : u = .not ∨ need = true) (h : X = exprLoop T n es (⟨.un u, t.pos⟩ :: ops) true s)
  | bin (op : SrcBin) (ht : t.tok = binTok op) (hn : op = .sub → need = false) (ops' : List OpSpan) (es' : List Expr)
      (hr : reduceFor op.priority ops es = .ok (ops', es')) (h : X = exprLoop T n es' (⟨.bin op, t.pos⟩ :: ops') true s)

theorem tokStep_cases (T : TextOps) (n : Nat) (es : List Expr) (ops : List OpSpan) (need : Bool) (t : TokSpan) (s : TokStream) :
    TokCase T n es ops need t s (tokStep T n es ops need t s) := by
  have hbin : ∀ op : SrcBin, t.tok = binTok op → (op = .sub → need = false) →
      tokStep T n es ops need t s =
        PM.bind (PM.lift (reduceFor op.priority ops es)) (fun x => exprLoop T n x.2 (⟨.bin op, t.pos⟩ :: x.1) true) s →
      TokCase T n es ops need t s (tokStep T n es ops need t s) := by
    intro op ht hn h
    rw [h]
    cases hr : reduceFor op.priority ops es with
    | error e => exact .fail e (fun he => reduceFor_ne_fuel _ _ _ (he ▸ hr)) rfl
    | ok x => exact .bin op ht hn x.1 x.2 hr rfl
  obtain ⟨tok, pos⟩ := t
  cases tok
  case boolean b => cases need with
    | true => exact .operand _ rfl rfl rfl
    | false => exact .fail (.bad pos _) (by simp) rfl
  case double b => cases need with
    | true => exact .operand _ rfl rfl rfl
    | false => exact .fail (.bad pos _) (by simp) rfl
  case integer b => cases need with
    | true => exact .operand _ rfl rfl rfl
    | false => exact .fail (.bad pos _) (by simp) rfl
  case text b => cases need with
    | true => exact .operand _ rfl rfl rfl
    | false => exact .fail (.bad pos _) (by simp) rfl
  case symbol b => cases need with
    | true => exact .operand _ rfl rfl rfl
    | false => exact .fail (.bad pos _) (by simp) rfl
  case leftParen =>
    cases need with
    | true =>
      refine .lparen rfl rfl ?_
      unfold tokStep
      simp only [TokSpan.operand]
      split <;> rfl
    | false =>
      cases es with
      | nil => exact .fail (.bad pos _) (by simp) rfl
      | cons e es =>
        cases e with
        | sym v p => exact .call rfl rfl v p es rfl rfl
        | _ => exact .fail (.bad pos _) (by simp) rfl
  case rightParen =>
    have h : tokStep T n es ops need ⟨.rightParen, pos⟩ s =
        PM.bind (PM.lift (reduceParen ops es)) (fun x => exprLoop T n x.2 x.1 false) s := rfl
    rw [h]
    cases hr : reduceParen ops es with
    | error e => exact .fail e (fun he => reduceParen_ne_fuel _ _ (he ▸ hr)) rfl
    | ok x => exact .rparen rfl x.1 x.2 hr rfl
  case not => exact .un .not rfl (Or.inl rfl) rfl
  case minus =>
    cases need with
    | true => exact .un .neg rfl (Or.inr rfl) rfl
    | false => exact hbin .sub rfl (fun _ => rfl) rfl
  case plus => exact hbin .add rfl (fun h => by simp at h) rfl
  case multiply => exact hbin .mul rfl (fun h => by simp at h) rfl
  case divide => exact hbin .div rfl (fun h => by simp at h) rfl
  case modulo => exact hbin .mod rfl (fun h => by simp at h) rfl
  case exponent => exact hbin .pow rfl (fun h => by simp at h) rfl
  case equal => exact hbin .eq rfl (fun h => by simp at h) rfl
  case notEqual => exact hbin .ne rfl (fun h => by simp at h) rfl
  case less => exact hbin .lt rfl (fun h => by simp at h) rfl
  case lessEqual => exact hbin .le rfl (fun h => by simp at h) rfl
  case greater => exact hbin .gt rfl (fun h => by simp at h) rfl
  case greaterEqual => exact hbin .ge rfl (fun h => by simp at h) rfl
  case and => exact hbin .and rfl (fun h => by simp at h) rfl
  case or => exact hbin .or rfl (fun h => by simp at h) rfl
  case xor => exact hbin .xor rfl (fun h => by simp at h) rfl
  case shiftLeft => exact hbin .shl rfl (fun h => by simp at h) rfl
  case shiftRight => exact hbin .shr rfl (fun h => by simp at h) rfl
  all_goals exact .fail (.bad pos _) (by simp) rfl

/-! ## The stream and the bound -/

/-- `s'` is what is left of `s` after some tokens. -/
def Later (s s' : TokStream) : Prop := ∃ used, s = ⟨used ++ s'.toks, s'.eofPos, s'.io⟩

theorem Later.refl (s : TokStream) : Later s s := ⟨[], rfl⟩

theorem Later.trans {a b c : TokStream} (h : Later a b) (h' : Later b c) : Later a c := by
  obtain ⟨u, rfl⟩ := h
  obtain ⟨v, rfl⟩ := h'
  exact ⟨u ++ v, by simp⟩

theorem Later.cons (t : TokSpan) (ts : List TokSpan) (E : LineCol) (io : Bool) : Later ⟨t :: ts, E, io⟩ ⟨ts, E, io⟩ := ⟨[t], rfl⟩

theorem Later.length {a b : TokStream} (h : Later a b) : b.toks.length ≤ a.toks.length := by
  obtain ⟨u, rfl⟩ := h; simp

/-- All that can happen with the token after an argument. -/
inductive CommaCase (T : TextOps) (n : Nat) (prev : Option Expr) (isFirst : Bool) (t : TokSpan) (ts : List TokSpan)
    (E : LineCol) (io : Bool) (X : Except PErr Args × TokStream) : Prop
  | fail (err : PErr) (s' : TokStream) (hl : Later ⟨t :: ts, E, io⟩ s') (hf : err ≠ .fuel) (h : X = (.error err, s'))
  | last (e : Expr) (ht : t.tok = .rightParen) (hp : prev = some e) (h : X = (.ok (.cons e .end t.pos .nil), ⟨ts, E, io⟩))
  | empty (ht : t.tok = .rightParen) (hp : prev = none) (hi : isFirst = true) (h : X = (.ok .nil, ⟨ts, E, io⟩))
  | more (e : Expr) (ht : t.tok = .comma) (hp : prev = some e)
      (h : X = PM.bind (exprLoop T n [] [] true) (fun prev' => PM.bind (commaLoop T n prev' false)
        (fun r => PM.pure (Args.cons e .long t.pos r))) ⟨ts, E, io⟩)

theorem commaStep_cases (T : TextOps) (n : Nat) (prev : Option Expr) (isFirst : Bool) (t : TokSpan) (ts : List TokSpan)
    (E : LineCol) (io : Bool) :
    CommaCase T n prev isFirst t ts E io (commaStep T n prev isFirst t ⟨t :: ts, E, io⟩) := by
  obtain ⟨tok, pos⟩ := t
  cases prev with
  | some e =>
    cases tok
    case rightParen => exact .last e rfl rfl rfl
    case comma => exact .more e rfl rfl rfl
    all_goals exact .fail _ _ (Later.refl _) (by simp) rfl
  | none =>
    cases tok
    case rightParen =>
      cases isFirst with
      | true => exact .empty rfl rfl rfl rfl
      | false => exact .fail _ _ (Later.cons _ _ _ _) (by simp) rfl
    case comma => exact .fail _ _ (Later.cons _ _ _ _) (by simp) rfl
    all_goals exact .fail _ _ (Later.refl _) (by simp) rfl

/-- The stream goes forward, and the bound is not reached if it is above `need`. -/
def Runs {α : Type} (bound : Nat) (n : Nat) (s : TokStream) (X : Except PErr α × TokStream) : Prop :=
  Later s X.2 ∧ (bound ≤ n → X.1 ≠ .error .fuel)

theorem runs_expr (T : TextOps) (n : Nat) :
    (∀ es ops need s, Runs (2 * s.toks.length + 1) n s (exprLoop T n es ops need s)) ∧
    (∀ s, Runs (2 * s.toks.length + 2) n s (commaExprs T n s)) ∧
    (∀ prev isFirst s, Runs (2 * s.toks.length + 1) n s (commaLoop T n prev isFirst s)) := by
  induction n with
  | zero =>
    refine ⟨fun es ops need s => ⟨Later.refl _, fun h => by omega⟩, fun s => ⟨Later.refl _, fun h => by omega⟩,
      fun p f s => ⟨Later.refl _, fun h => by omega⟩⟩
  | succ n ih =>
    obtain ⟨ih1, ih2, ih3⟩ := ih
    refine ⟨?_, ?_, ?_⟩
    · rintro es ops need ⟨toks, E, io⟩
      cases toks with
      | nil =>
        rw [exprLoop_nil]
        refine ⟨Later.refl _, fun _ => ?_⟩
        cases io
        · exact reduceAll_ne_fuel _ _
        · simp
      | cons t ts =>
        rw [exprLoop_cons]
        split
        · exact ⟨Later.refl _, fun _ => reduceAll_ne_fuel _ _⟩
        · have step : ∀ es ops need, Runs (2 * (t :: ts).length + 1) (n + 1) ⟨t :: ts, E, io⟩ (exprLoop T n es ops need ⟨ts, E, io⟩) := by
            intro es ops need
            obtain ⟨h1, h2⟩ := ih1 es ops need ⟨ts, E, io⟩
            exact ⟨(Later.cons t ts E io).trans h1, fun h => h2 (by simp at h ⊢; omega)⟩
          cases tokStep_cases T n es ops need t ⟨ts, E, io⟩ with
          | fail err hf h => rw [h]; exact ⟨Later.cons _ _ _ _, fun _ he => hf (by injection he)⟩
          | operand e he hn h => rw [h]; exact step _ _ _
          | lparen ht hn h => rw [h]; exact step _ _ _
          | rparen ht ops' es' hr h => rw [h]; exact step _ _ _
          | un u ht hn h => rw [h]; exact step _ _ _
          | bin op ht hn ops' es' hr h => rw [h]; exact step _ _ _
          | call ht hn v p es' he h =>
            rw [h]
            obtain ⟨h1, h2⟩ := ih2 ⟨ts, E, io⟩
            simp only [PM.bind]
            revert h1 h2
            cases hc : commaExprs T n ⟨ts, E, io⟩ with
            | mk r s' =>
              intro h1 h2
              cases r with
              | error e =>
                exact ⟨(Later.cons t ts E io).trans h1, fun hb he => by
                  injection he with he; subst he; exact h2 (by simp at hb ⊢; omega) rfl⟩
              | ok a =>
                obtain ⟨g1, g2⟩ := ih1 (.call v p a :: es') ops false s'
                have hl := h1.length
                exact ⟨(Later.cons t ts E io).trans (h1.trans g1), fun hb => g2 (by simp at hb hl ⊢; omega)⟩
    · intro s
      rw [commaExprs_succ]
      obtain ⟨h1, h2⟩ := ih1 [] [] true s
      simp only [PM.bind]
      revert h1 h2
      cases hc : exprLoop T n [] [] true s with
      | mk r s' =>
        intro h1 h2
        cases r with
        | error e => exact ⟨h1, fun hb he => by injection he with he; subst he; exact h2 (by omega) rfl⟩
        | ok a =>
          obtain ⟨g1, g2⟩ := ih3 a true s'
          have hl := h1.length
          exact ⟨h1.trans g1, fun hb => g2 (by simp only at hl; omega)⟩
    · rintro prev isFirst ⟨toks, E, io⟩
      cases toks with
      | nil =>
        obtain ⟨e, h1, h2⟩ := commaLoop_nil T n prev isFirst E io
        rw [h1]
        exact ⟨Later.refl _, fun _ he => h2 (by injection he)⟩
      | cons t ts =>
        rw [commaLoop_cons]
        cases commaStep_cases T n prev isFirst t ts E io with
        | fail err s' hl hf h => rw [h]; exact ⟨hl, fun _ he => hf (by injection he)⟩
        | last e ht hp h => rw [h]; exact ⟨Later.cons _ _ _ _, fun _ he => by cases he⟩
        | empty ht hp hi h => rw [h]; exact ⟨Later.cons _ _ _ _, fun _ he => by cases he⟩
        | more e ht hp h =>
            rw [h]
            obtain ⟨h1, h2⟩ := ih1 [] [] true ⟨ts, E, io⟩
            simp only [PM.bind]
            revert h1 h2
            cases hc : exprLoop T n [] [] true ⟨ts, E, io⟩ with
            | mk r s' =>
              intro h1 h2
              cases r with
              | error e => exact ⟨(Later.cons t ts E io).trans h1, fun hb he => by
                  injection he with he; subst he; exact h2 (by simp at hb ⊢; omega) rfl⟩
              | ok a =>
                obtain ⟨g1, g2⟩ := ih3 a false s'
                have hl := h1.length
                simp only
                revert g1 g2
                cases hd : commaLoop T n a false s' with
                | mk r' s'' =>
                  intro g1 g2
                  cases r' with
                  | error e =>
                    exact ⟨(Later.cons t ts E io).trans (h1.trans g1), fun hb he => by
                      injection he with he; subst he; exact g2 (by simp at hb hl ⊢; omega) rfl⟩
                  | ok b => exact ⟨(Later.cons t ts E io).trans (h1.trans g1), fun hb he => by cases he⟩

end EB
