import Verif.Spec.Valid
/-!
# Programs that may crash the compiler

`Tidy`: the shape of the syntax trees that the parser builds.
-/

namespace EB.Spec

/-- No argument is left out. -/
def NoSkip : Args → Prop
  | .nil => True
  | .cons _ _ _ rest => NoSkip rest
  | .skip .. => False

mutual
/-- Calls in expressions leave no argument out. -/
def TidyExpr : Expr → Prop
  | .bool .. | .dbl .. | .int .. | .text .. | .sym .. => True
  | .un _ e _ => TidyExpr e
  | .bin _ l r _ => TidyExpr l ∧ TidyExpr r
  | .call _ _ args => NoSkip args ∧ TidyArgs args
def TidyArgs : Args → Prop
  | .nil => True
  | .cons e _ _ rest => TidyExpr e ∧ TidyArgs rest
  | .skip _ _ rest => TidyArgs rest
end

/-- … in the guard of a `DO`. -/
def TidyGuard : DoGuard → Prop
  | .infinite => True
  | .preUntil e | .preWhile e | .postUntil e | .postWhile e => TidyExpr e

/-- … in a guard of a `CASE`. -/
def TidyCase : CaseGuard → Prop
  | .is _ e => TidyExpr e
  | .to a b => TidyExpr a ∧ TidyExpr b

mutual
/-- `DATA` has literals only, and arrays have dimensions. -/
def TidyStmt : Stmt → Prop
  | .arrayAssign _ _ subs e => (∀ x ∈ subs, TidyExpr x) ∧ TidyExpr e
  | .assign _ _ e => TidyExpr e
  | .call _ _ args => TidyArgs args
  | .callable _ _ _ body _ => TidyStmts body
  | .data values => ∀ e, some e ∈ values → IsLiteral e
  | .dimArray _ _ _ dims _ => dims ≠ [] ∧ ∀ x ∈ dims, TidyExpr x
  | .doLoop g body => TidyGuard g ∧ TidyStmts body
  | .end code _ => ∀ e, code = some e → TidyExpr e
  | .forLoop _ _ _ a b c body => TidyExpr a ∧ TidyExpr b ∧ TidyExpr c ∧ TidyStmts body
  | .ifs bs => TidyBranches bs
  | .select e cs _ => TidyExpr e ∧ TidyCases cs
  | .whileLoop e body => TidyExpr e ∧ TidyStmts body
  | .declare .. | .dim .. | .exitDo _ | .exitFor _ | .exitFunction _ | .exitSub _ | .gosub .. | .goto .. | .label .. | .ret _
  | .onError _ => True
def TidyStmts : Stmts → Prop
  | .nil => True
  | .cons s rest => TidyStmt s ∧ TidyStmts rest
def TidyBranches : Branches → Prop
  | .nil => True
  | .cons e body rest => TidyExpr e ∧ TidyStmts body ∧ TidyBranches rest
def TidyCases : Cases → Prop
  | .nil => True
  | .cons gs body rest => (∀ g ∈ gs, TidyCase g) ∧ TidyStmts body ∧ TidyCases rest
end

/-- The variables that a call of the callable creates: its result, if it is a function, and its parameters. -/
def callVars (name : VarRef) (params : List VarRef) : List Str :=
  (if name.ty.isSome then [symKey name.name] else []) ++ params.map fun p => symKey p.name

mutual
/-- These variables have different names, for all callables that are defined. -/
def DistinctStmt : Stmt → Prop
  | .callable name _ params body _ => (callVars name params).Nodup ∧ DistinctStmts body
  | .doLoop _ body | .forLoop _ _ _ _ _ _ body | .whileLoop _ body => DistinctStmts body
  | .ifs bs => DistinctBranches bs
  | .select _ cs _ => DistinctCases cs
  | .arrayAssign .. | .assign .. | .call .. | .data .. | .dimArray .. | .end .. | .declare .. | .dim .. | .exitDo _ | .exitFor _
  | .exitFunction _ | .exitSub _ | .gosub .. | .goto .. | .label .. | .ret _ | .onError _ => True
def DistinctStmts : Stmts → Prop
  | .nil => True
  | .cons s rest => DistinctStmt s ∧ DistinctStmts rest
def DistinctBranches : Branches → Prop
  | .nil => True
  | .cons _ body rest => DistinctStmts body ∧ DistinctBranches rest
def DistinctCases : Cases → Prop
  | .nil => True
  | .cons _ body rest => DistinctStmts body ∧ DistinctCases rest
end

/-- The function does not define variables by itself: only commands may. -/
def NoOutputs (syn : Syntax) : Prop :=
  (∀ s ∈ syn.singular, ∀ name array sep, s ≠ .reqRef name array true sep) ∧ ∀ r, syn.repeated = some r → r.typeSyn ≠ .varRef

/-- … for all functions. -/
def FunsOk (md : Str → Option Md) : Prop :=
  ∀ k m, md k = some m → m.returnType.isSome → ∀ syn ∈ m.syntaxes, NoOutputs syn

end EB.Spec
