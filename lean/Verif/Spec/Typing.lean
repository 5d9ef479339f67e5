import Verif.Spec.Valid
import Verif.Spec.Blame
/-!
# The expressions of a program, and its variables after a run
-/

namespace EB.Spec

/-- The arguments of a call that are values, not variables that are passed. -/
def argValues (rep : Option RepSyn) : List SingSyn → Args → List Expr
  | _, .nil => []
  | .reqRef .. :: syns, .cons _ _ _ rest => argValues rep syns rest
  | _ :: syns, .cons e _ _ rest => e :: argValues rep syns rest
  | _ :: syns, .skip _ _ rest => argValues rep syns rest
  | [], .cons e _ _ rest => if repIsRef rep then argValues rep [] rest else e :: argValues rep [] rest
  | [], .skip _ _ rest => argValues rep [] rest

/-- The expressions in a guard of a `CASE`. -/
def guardExprs : CaseGuard → List Expr
  | .is _ e => [e]
  | .to lo hi => [lo, hi]

/-- … in the guards of all cases. -/
def guardsExprs : Cases → List Expr
  | .nil => []
  | .cons gs _ rest => gs.flatMap guardExprs ++ guardsExprs rest

mutual
/-- The expressions in a statement, each with the variables and callables that are known where it is evaluated. -/
def exprsStmt (Γ : Env) : Stmt → List (Env × Expr)
  | .assign v _ e => [(assignEnv Γ v, e)]
  | .arrayAssign _ _ subs e => (e :: subs).map (Γ, ·)
  | .call v pos args =>
    match (Γ.md (symKey v.name)).bind fun md => md.findSyntax args.length with
    | some syn => (argValues syn.repeated syn.singular args).map (afterStmt Γ (.call v pos args), ·)
    | none => []
  | .callable name _ params body _ => exprsStmts ((Γ.declare name params).body name params) body
  | .dimArray name pos shared dims ty => dims.map (afterStmt Γ (.dimArray name pos shared dims ty), ·)
  | .doLoop guard body =>
    (match guard with
      | .preUntil e | .preWhile e => [(Γ, e)]
      | .postUntil e | .postWhile e => [(afterStmts Γ body, e)]
      | .infinite => []) ++ exprsStmts Γ body
  | .end code _ => code.toList.map (Γ, ·)
  | .forLoop iter _ double start stop next body =>
    let Γ1 := forVar Γ iter double
    let Γ2 := afterAssign Γ1 iter start
    (assignEnv Γ1 iter, start) :: (Γ2, stop) :: (assignEnv (afterStmts Γ2 body) iter, next) :: exprsStmts Γ2 body
  | .ifs branches => exprsBranches Γ branches
  | .select e cases _ => ((e :: guardsExprs cases).map (Γ, ·)) ++ exprsCases Γ cases
  | .whileLoop e body => (Γ, e) :: exprsStmts Γ body
  | .data .. | .declare .. | .dim .. | .exitDo .. | .exitFor .. | .exitFunction .. | .exitSub .. | .gosub .. | .goto .. | .label ..
  | .onError .. | .ret .. => []

/-- … in some statements. -/
def exprsStmts (Γ : Env) : Stmts → List (Env × Expr)
  | .nil => []
  | .cons s rest => exprsStmt Γ s ++ exprsStmts (afterStmt Γ s) rest

/-- … in the branches of an `IF`. -/
def exprsBranches (Γ : Env) : Branches → List (Env × Expr)
  | .nil => []
  | .cons guard body rest => (Γ, guard) :: (exprsStmts Γ body ++ exprsBranches (afterStmts Γ body) rest)

/-- … in the bodies of the cases of a `SELECT`. -/
def exprsCases (Γ : Env) : Cases → List (Env × Expr)
  | .nil => []
  | .cons _ body rest => exprsStmts Γ body ++ exprsCases (afterStmts Γ body) rest
end

/-- The variables when statements end in some way. -/
def Res.world : Res → Option World
  | .done w | .exitDo w | .exitFor w | .leave w | .jump _ w | .back w | .ended _ w | .err _ _ w => some w
  | .going _ | .stuck => none

/-- … when an evaluation ends in some way. -/
def Out.world {α : Type} : Out α → Option World
  | .ok _ w | .ended _ w | .err _ _ w => some w
  | .going _ | .stuck => none

/-- What is declared at a place of the program, but with all shared variables of the program. -/
def Env.withShared (Γ fin : Env) : Env := { Γ with shared := fin.shared }

/-- The functions and subroutines of the program, as many nested calls as that. -/
def callsOf (F : FloatOps) (n d : Nat) (lib : Lib) (Γ : Env) (ss : Stmts) : Calls :=
  callsAt F n lib (fun k => findDef k (defsStmts Γ ss)) d false Γ ss

end EB.Spec
