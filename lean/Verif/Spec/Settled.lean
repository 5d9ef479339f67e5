import Verif.Spec.Valid
/-!
# Programs that never need the value of a variable that is not known

The interpreter of `Spec.Exec` gives no meaning (`stuck`) to a program that needs a variable whose value is not known, and
to some constructs that are left out.  Here is a class of programs for which that cannot happen.  It is decided by the
text alone: each piece of the text is passed the list of the variables that are known there in any case.

Left out of the class: `GOTO`, `GOSUB`, error handlers, and variables that only some of the ways to a place set.
-/

namespace EB.Spec

/-- What is relied on: calls of built-in callables with that many arguments, and shared variables that are known
whenever a callable of the program is called. -/
structure Sure where
  calls : Str → Nat → Bool
  shared : List Place

/-- A separator is behind each argument but the last one. -/
def ends : Args → Bool
  | .nil => true
  | .skip sep _ rest => decide (sep = .end ↔ rest.length = 0) && ends rest
  | .cons _ sep _ rest => decide (sep = .end ↔ rest.length = 0) && ends rest

/-- No value that must be there is left out.  (The compiler does not check all of this: finding F41.) -/
def given : List SingSyn → Args → Bool
  | .anyValue _ false _ :: _, .skip .. => false
  | _ :: syns, .skip _ _ rest | _ :: syns, .cons _ _ _ rest => given syns rest
  | [], _ | _, .nil => true

section
variable (U : Sure) (Γ : Env) (K : List Place)

/-- A built-in callable is called in a way that is relied on. -/
def passable (k : Str) (args : Args) : Bool :=
  U.calls k args.length && ends args &&
    match Γ.syn k args.length with
    | some syn => given syn.singular args
    | none => false

/-- A callable of the program can be called. -/
def callsUser : Bool := U.shared.all fun p => decide (p ∈ K)

mutual
/-- All variables that the expression needs are known. -/
def reads : Expr → Bool
  | .bool .. | .dbl .. | .int .. | .text .. => true
  | .sym v _ =>
    match nameRef Γ.locals Γ.shared v with
    | .var p _ => decide (p ∈ K)
    | .wrongType => false
    | .undefined => if Γ.isUser (symKey v.name) then callsUser U K else U.calls (symKey v.name) 0
  | .un _ e _ => reads e
  | .bin _ l r _ => reads l && reads r
  | .call v _ args =>
    readsArgs args &&
      match Γ.callable (symKey v.name) with
      | some (.user ..) => callsUser U K
      | some (.builtin _) => passable U Γ (symKey v.name) args
      | none =>
        match nameRef Γ.locals Γ.shared v with
        | .var p _ => decide (p ∈ K)
        | _ => false

/-- … in the arguments. -/
def readsArgs : Args → Bool
  | .nil => true
  | .skip _ _ rest => readsArgs rest
  | .cons e _ _ rest => reads e && readsArgs rest
end

/-- The value of an assignment can be computed.  If it does not mention the variable then it is computed in its place. -/
def assignable (v : VarRef) (e : Expr) : Bool :=
  match nameRef Γ.locals Γ.shared v with
  | .var p _ =>
    if mentions (symKey v.name) e then reads U Γ K e else decide (Direct Γ p e) && reads U Γ (K.filter fun q => decide (q ≠ p)) e
  | .undefined =>
    let Γ' := Γ.addLocal (symKey v.name) (.scalar (v.ty.getD .integer))
    decide (Direct Γ' (.local Γ.locals.length) e) && reads U Γ' K e
  | .wrongType => false

/-- All guards of a `CASE`. -/
def readsGuards : List CaseGuard → Bool
  | [] => true
  | .is _ e :: gs => reads U Γ K e && readsGuards gs
  | .to lo hi :: gs => reads U Γ K lo && reads U Γ K hi && readsGuards gs

/-- … of a `SELECT`. -/
def readsCases : Cases → Bool
  | .nil => true
  | .cons gs _ rest => readsGuards U Γ K gs && readsCases rest
end

/-- The place of a variable that has one. -/
def placeOf (Γ : Env) (v : VarRef) : List Place :=
  match nameRef Γ.locals Γ.shared v with
  | .var p _ => [p]
  | _ => []

/-- What is known after an assignment. -/
def knownAssign (Γ : Env) (K : List Place) (v : VarRef) (e : Expr) : List Place := placeOf (afterAssign Γ v e) v ++ K

/-- The variables that are declared in `Γ'` and not in `Γ`. -/
def newLocals (Γ Γ' : Env) : List Place :=
  ((List.range Γ'.locals.length).filter fun n => decide (Γ.locals.length ≤ n)).map .local

/-- What is known at the start of a callable: the shared variables that are relied on, the parameters, and the result
unless it is a double. -/
def knownStart (U : Sure) (name : VarRef) (Γ0 : Env) : List Place :=
  U.shared ++ ((List.range Γ0.locals.length).filter fun n => decide (¬ (n = 0 ∧ name.ty = some .double))).map .local

mutual
/-- What is known after a statement. -/
def known (Γ : Env) (K : List Place) : Stmt → List Place
  | .assign v _ e => knownAssign Γ K v e
  | .call v pos args => newLocals Γ (afterStmt Γ (.call v pos args)) ++ K
  | .dim _ _ shared _ | .dimArray _ _ shared _ _ => Γ.next shared :: K
  | .ifs branches => knownBranches Γ K branches
  | .forLoop iter _ double start _ _ _ => knownAssign (forVar Γ iter double) K iter start
  | .callable .. | .declare .. | .doLoop .. | .select .. | .whileLoop .. | .arrayAssign .. | .data .. | .end .. | .exitDo ..
  | .exitFor .. | .exitFunction .. | .exitSub .. | .gosub .. | .goto .. | .label .. | .onError .. | .ret .. => K

/-- … after some statements. -/
def knowns (Γ : Env) (K : List Place) : Stmts → List Place
  | .nil => K
  | .cons s rest => knowns (afterStmt Γ s) (known Γ K s) rest

/-- … after an `IF`: what is known after each of the branches. -/
def knownBranches (Γ : Env) (K : List Place) : Branches → List Place
  | .nil => K
  | .cons guard body rest =>
    match guard with
    | .bool true _ => knowns Γ K body
    | _ => (knowns Γ K body).filter fun p => decide (p ∈ knownBranches (afterStmts Γ body) K rest)
end

/-- What a statement is in: loops, and a function, whose result must be known when it is left. -/
structure Surround where
  inDo : Bool
  inFor : Bool
  result : Bool

/-- A callable can be left. -/
def canLeave (C : Surround) (K : List Place) : Bool := !C.result || decide (.local 0 ∈ K)

/-- The array is not too large: it has one dimension, or the dimensions are literals with a product below 2^60. -/
def smallArray (dims : List Expr) : Bool :=
  decide (dims.length ≤ 1) ||
    match dims.mapM fun d => match d with
      | .int i _ => some i.toInt.toNat
      | _ => none with
    | some ds => decide (size ds < 2 ^ 60)
    | none => false

section
variable (U : Sure)

mutual
/-- The statement only needs what is known, and has no construct that is left out. -/
def settled (C : Surround) (Γ : Env) (K : List Place) : Stmt → Bool
  | .assign v _ e => assignable U Γ K v e
  | .arrayAssign v _ subs e => reads U Γ K e && subs.all (reads U Γ K) && (placeOf Γ v).all fun p => decide (p ∈ K)
  | .call v pos args =>
    let Γ' := afterStmt Γ (.call v pos args)
    readsArgs U Γ' (newLocals Γ Γ' ++ K) args &&
      match Γ.callable (symKey v.name) with
      | some (.user ..) => callsUser U K
      | some (.builtin _) => passable U Γ (symKey v.name) args
      | none => false
  | .callable name _ params body _ =>
    let Γ0 := (Γ.declare name params).body name params
    let K0 := knownStart U name Γ0
    let C0 : Surround := ⟨false, false, name.ty.isSome⟩
    settleds C0 Γ0 K0 body && canLeave C0 (knowns Γ0 K0 body)
  | .dimArray name _ shared dims ty =>
    smallArray dims && dims.all (reads U (Γ.add shared (symKey name) (.array ty dims.length)) K)
  | .doLoop guard body =>
    (match guard with
      | .preUntil e | .preWhile e => reads U Γ K e
      | .postUntil e | .postWhile e => reads U (afterStmts Γ body) (knowns Γ K body) e
      | .infinite => true) && settleds { C with inDo := true } Γ K body
  | .end code _ => match code with
    | some e => reads U Γ K e
    | none => true
  | .exitDo _ => C.inDo
  | .exitFor _ => C.inFor
  | .exitFunction _ | .exitSub _ | .ret _ => canLeave C K
  | .forLoop iter _ double start stop next body =>
    let Γ1 := forVar Γ iter double
    let Γ2 := afterAssign Γ1 iter start
    let K2 := knownAssign Γ1 K iter start
    assignable U Γ1 K iter start && reads U Γ2 K2 stop && settleds { C with inFor := true } Γ2 K2 body &&
      assignable U (afterStmts Γ2 body) (knowns Γ2 K2 body) iter next
  | .ifs branches => settledBranches C Γ K branches
  | .select e cases _ => reads U Γ K e && readsCases U Γ K cases && settledCases C Γ K cases
  | .whileLoop e body => reads U Γ K e && settleds C Γ K body
  | .onError o => match o with
    | .reset _ => true
    | _ => false
  | .gosub .. | .goto .. => false
  | .data .. | .declare .. | .dim .. | .label .. => true

/-- … some statements … -/
def settleds (C : Surround) (Γ : Env) (K : List Place) : Stmts → Bool
  | .nil => true
  | .cons s rest => settled C Γ K s && settleds C (afterStmt Γ s) (known Γ K s) rest

/-- … the branches of an `IF` … -/
def settledBranches (C : Surround) (Γ : Env) (K : List Place) : Branches → Bool
  | .nil => true
  | .cons guard body rest => reads U Γ K guard && settleds C Γ K body && settledBranches C (afterStmts Γ body) K rest

/-- … the cases of a `SELECT`. -/
def settledCases (C : Surround) (Γ : Env) (K : List Place) : Cases → Bool
  | .nil => true
  | .cons _ body rest => settleds C Γ K body && settledCases C (afterStmts Γ body) K rest
end
end

/-- The place is one of a shared variable. -/
def Place.isShared : Place → Bool
  | .shared _ => true
  | .local _ => false

/-- The program is in the class. -/
def Settled (U : Sure) (up : FMap Str Md) (ss : Stmts) : Bool :=
  U.shared.all Place.isShared && settleds U ⟨false, false, false⟩ (builtins up) [] ss

/-! ## Built-in callables that always answer -/

/-- The content of a variable is one that its declaration allows; arrays have dimensions, none of which is empty. -/
def Cell.Fits (c : Cell) (q : Proto) : Prop := c.Of q ∧ ∀ t dims elem, c = .arr t dims elem → dims ≠ [] ∧ ∀ d ∈ dims, 0 < d

/-- The separator behind an argument says whether it is the last one. -/
def Last (sep : ArgSep) (rest : List (Arg × LineCol)) : Prop := sep = .end ↔ rest = []

/-- Arguments by the syntax of the callable, as they are passed.  `noneYet` holds until there is a repeated one. -/
inductive Sent (rep : Option RepSyn) : Bool → List SingSyn → List (Arg × LineCol) → Prop
  | done {noneYet} : (∀ r, rep = some r → (r.plain = true ∧ r.requireOne = false) ∨ noneYet = false) → Sent rep noneYet [] []
  | nothing {r pos} : rep = some r → r.plain = false → r.requireOne = false → Sent rep true [] [(.missing .end, pos)]
  | value {noneYet name t s syns v pos rest} : v.ty = t → Sent rep noneYet syns rest →
      Sent rep noneYet (.reqValue name t s :: syns) ((.val v, pos) :: rest)
  | ref {noneYet name array define s syns q p pos rest} : Proto.isArray q = array → Sent rep noneYet syns rest →
      Sent rep noneYet (.reqRef name array define s :: syns) ((.ref q p, pos) :: rest)
  | optional {noneYet name t s syns sep v pos rest} : v.ty = t → SepFits s (syns = []) sep → Sent rep noneYet syns rest →
      Sent rep noneYet (.optValue name t s :: syns) ((.opt sep v, pos) :: rest)
  | omitted {noneYet name t s syns sep pos rest} : SepFits s (syns = []) sep → Sent rep noneYet syns rest →
      Sent rep noneYet (.optValue name t s :: syns) ((.missing sep, pos) :: rest)
  | any {noneYet name missing s syns sep v pos rest} : Sent rep noneYet syns rest →
      Sent rep noneYet (.anyValue name missing s :: syns) ((.opt sep v, pos) :: rest)
  | anyOmitted {noneYet name s syns sep pos rest} : Sent rep noneYet syns rest →
      Sent rep noneYet (.anyValue name true s :: syns) ((.missing sep, pos) :: rest)
  | more {noneYet r sep v pos rest} : rep = some r → r.typeSyn = .anyValue → SepFits r.sep True sep → Last sep rest →
      Sent rep false [] rest → Sent rep noneYet [] ((.opt sep v, pos) :: rest)
  | moreValue {noneYet r t sep v pos rest} : rep = some r → r.typeSyn = .typed t → v.ty = t → SepFits r.sep True sep → Last sep rest →
      Sent rep false [] rest → Sent rep noneYet [] ((if r.plain then .val v else .opt sep v, pos) :: rest)
  | moreRef {noneYet r t sep p pos rest} : rep = some r → r.typeSyn = .varRef → SepFits r.sep True sep → Last sep rest →
      Sent rep false [] rest → Sent rep noneYet [] ((.optRef sep (.scalar t) p, pos) :: rest)
  | moreOmitted {noneYet r sep pos rest} : rep = some r → r.allowMissing = true → SepFits r.sep True sep → Last sep rest →
      Sent rep false [] rest → Sent rep noneYet [] ((.missing sep, pos) :: rest)

/-- What was declared about the variable that is passed. -/
def Arg.proto : Arg → Option Proto
  | .ref q _ | .optRef _ q _ => some q
  | _ => none

/-- A request that is as the callable declares it: the arguments are those of a syntax for `n` arguments, and the
variables that are passed are known. -/
structure Request.Proper (q : Request) (md : Md) (n : Nat) : Prop where
  ret : q.ret = md.returnType
  vars : q.vars.length = q.args.length
  args : (n = 0 ∧ NoArgs md ∧ q.args = []) ∨ ∃ syn, SyntaxFor md.syntaxes n syn ∧ Sent syn.repeated true syn.singular q.args
  known : ∀ (j : Nat) a p, q.args[j]? = some a → a.1.place = some p →
    ∃ c pr, q.vars[j]? = some (some c) ∧ a.1.proto = some pr ∧ c.Fits pr

/-- The built-in callables answer all calls that are as declared, if they are called with a number of arguments that is
relied on. -/
def Replies (up : FMap Str Md) (U : Sure) (lib : Lib) : Prop :=
  ∀ k md n l room q, up.get? k = some md → U.calls k n = true → q.name = k → Request.Proper q md n →
    (lib l room q).fits q.args q.ret room = true

end EB.Spec
