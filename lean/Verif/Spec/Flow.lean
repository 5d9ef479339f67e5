import Verif.Spec.Exec
/-!
# Control flow in words

What "the first true guard", "exactly while the guard holds" and "the first matching case" mean, for the statements
and values of `Spec.Exec`.
-/

namespace EB.Spec

/-- An `IF` with these guards and bodies; `ELSE` is a branch with the guard `TRUE`. -/
def ifBranches : List (Expr × Stmts) → Branches
  | [] => .nil
  | (guard, body) :: rest => .cons guard body (ifBranches rest)

/-- A `SELECT` with these guards and bodies; `CASE ELSE` has no guards. -/
def selectCases : List (List CaseGuard × Stmts) → Cases
  | [] => .nil
  | (guards, body) :: rest => .cons guards body (selectCases rest)

section
variable (F : FloatOps) (cl : Calls)

/-- The guards of the branches are evaluated in order and are all false.  The evaluation starts with the
declarations `Γ` and in the state `w`, and ends with those at the end of the text of the branches, in `w'`. -/
inductive AllFalse : Env → List (Expr × Stmts) → World → Env → World → Prop
  | nil (Γ : Env) (w : World) : AllFalse Γ [] w Γ w
  | cons {Γ Γ' : Env} {guard : Expr} {body : Stmts} {rest : List (Expr × Stmts)} {w w1 w' : World} :
      evalAs F cl Γ guard .boolean w = .ok (.bool false) w1 → AllFalse (afterStmts Γ body) rest w1 Γ' w' →
      AllFalse Γ ((guard, body) :: rest) w Γ' w'

/-- The cases are tried in order and the value satisfies no guard of them. -/
inductive NoneMatch (Γ : Env) (x : Val) : List (List CaseGuard × Stmts) → World → World → Prop
  | nil (w : World) : NoneMatch Γ x [] w w
  | cons {g : CaseGuard} {gs : List CaseGuard} {body : Stmts} {rest : List (List CaseGuard × Stmts)} {w w1 w' : World} :
      anyHolds F cl Γ x (g :: gs) w = .ok false w1 → NoneMatch Γ x rest w1 w' →
      NoneMatch Γ x ((g :: gs, body) :: rest) w w'

end

/-- The statements came to an end: they were not still going on after the rounds that were watched. -/
def Res.Final : Res → Prop
  | .going _ | .stuck => False
  | _ => True

section
variable (stop : Bool) (guard : World → Out Val) (body : World → Res)

/-- `k` whole rounds of a loop that looks at its guard first. -/
inductive Rounds : Nat → World → World → Prop
  | zero (w : World) : Rounds 0 w w
  | succ {k : Nat} {w w1 w2 w' : World} : guard w = .ok (.bool (!stop)) w1 → body w1 = .done w2 → Rounds k w2 w' →
      Rounds (k + 1) w w'

/-- The end of such a loop: the guard says so, the guard fails, or the body does not end normally. -/
inductive LastRound (w : World) : Res → Prop
  | stops {w' : World} : guard w = .ok (.bool stop) w' → LastRound w (.done w')
  | err {pos : LineCol} {e : RtErr} {w' : World} : guard w = .err pos e w' → LastRound w (.err pos e w')
  | ended {code : Nat} {w' : World} : guard w = .ended code w' → LastRound w (.ended code w')
  | going {l : Log} : guard w = .going l → LastRound w (.going l)
  | leaves {w' : World} {r : Res} : guard w = .ok (.bool (!stop)) w' → body w' = r → (∀ w, r ≠ .done w) → LastRound w r

/-- `k` whole rounds of a loop that looks at its guard last. -/
inductive RoundsB : Nat → World → World → Prop
  | zero (w : World) : RoundsB 0 w w
  | succ {k : Nat} {w w1 w2 w' : World} : body w = .done w1 → guard w1 = .ok (.bool (!stop)) w2 → RoundsB k w2 w' →
      RoundsB (k + 1) w w'

/-- The end of such a loop. -/
inductive LastRoundB (w : World) : Res → Prop
  | stops {w1 w' : World} : body w = .done w1 → guard w1 = .ok (.bool stop) w' → LastRoundB w (.done w')
  | err {pos : LineCol} {e : RtErr} {w1 w' : World} : body w = .done w1 → guard w1 = .err pos e w' →
      LastRoundB w (.err pos e w')
  | ended {code : Nat} {w1 w' : World} : body w = .done w1 → guard w1 = .ended code w' → LastRoundB w (.ended code w')
  | going {w1 : World} {l : Log} : body w = .done w1 → guard w1 = .going l → LastRoundB w (.going l)
  | leaves {r : Res} : body w = r → (∀ w, r ≠ .done w) → LastRoundB w r

/-- `k` whole rounds of a loop without guard. -/
inductive RoundsF : Nat → World → World → Prop
  | zero (w : World) : RoundsF 0 w w
  | succ {k : Nat} {w w1 w' : World} : body w = .done w1 → RoundsF k w1 w' → RoundsF (k + 1) w w'

end

end EB.Spec
