import Verif.Spec.Eval
/-!
# What statements mean

A direct interpreter for statements: no code, no addresses, no registers.  `after…` says which variables and callables
are declared after a piece of the program text, `exec` what running it does, `from` what running it from a label on does.

Left out, with the result `stuck`: jumps from a callable to a label elsewhere, the end of the program or callable or
its `EXIT` inside of a `GOSUB`, and `ON ERROR RESUME NEXT` after errors other than in a statement that is followed by
another one.  `stuck` is also the result where the value of a variable that is not known is needed.  Some of the
"not known" are findings about the code and are marked as such.
-/

namespace EB.Spec

/-! ## Declarations -/

/-- A new variable of the current callable or program. -/
def Env.addLocal (Γ : Env) (k : Str) (p : Proto) : Env := { Γ with locals := Γ.locals ++ [(k, p)] }

/-- A new variable, shared or not. -/
def Env.add (Γ : Env) (shared : Bool) (k : Str) (p : Proto) : Env :=
  if shared then { Γ with shared := Γ.shared ++ [(k, p)] } else Γ.addLocal k p

/-- The place that the next new variable gets. -/
def Env.next (Γ : Env) (shared : Bool) : Place := if shared then .shared Γ.shared.length else .local Γ.locals.length

/-- Parameters are required values, with commas in between. -/
def paramValues : List VarRef → List SingSyn
  | [] => []
  | [p] => [.reqValue p.name (p.ty.getD .integer) .end]
  | p :: ps => .reqValue p.name (p.ty.getD .integer) (.exactly .long) :: paramValues ps

/-- How a callable of the program is called. -/
def declared (name : VarRef) (params : List VarRef) : Md :=
  ⟨symKey name.name, name.ty, false, [⟨paramValues params, none⟩], true⟩

/-- A callable of the program is declared. -/
def Env.declare (Γ : Env) (name : VarRef) (params : List VarRef) : Env :=
  { Γ with
    callable := fun k => if k = symKey name.name then some (.user (params.map fun p => p.ty.getD .integer) name.ty) else Γ.callable k
    outs := fun k args => if k = symKey name.name then [] else Γ.outs k args
    md := fun k => if k = symKey name.name then some (declared name params) else Γ.md k }

/-- The variables at the start of a callable: the result of a function has its name, then the parameters. -/
def Env.body (Γ : Env) (name : VarRef) (params : List VarRef) : Env :=
  { Γ with
    locals := (match name.ty with
        | some t => [(symKey name.name, .scalar t)]
        | none => []) ++ params.map fun p => (symKey p.name, .scalar (p.ty.getD .integer)) }

/-- The type of an expression that has one. -/
def typeOf (Γ : Env) : Expr → ExprType
  | .bool .. => .boolean
  | .dbl .. => .double
  | .int .. => .integer
  | .text .. => .text
  | .sym v _ =>
    match nameRef Γ.locals Γ.shared v with
    | .var _ p => p.ty
    | _ => ((Γ.callable (symKey v.name)).bind Sig.ret).getD .integer
  | .un op e _ => (unType op (typeOf Γ e)).getD .integer
  | .bin op l r _ => (binType op (typeOf Γ l) (typeOf Γ r)).getD .integer
  | .call v _ _ =>
    match Γ.callable (symKey v.name) with
    | some sig => sig.ret.getD .integer
    | none =>
      match nameRef Γ.locals Γ.shared v with
      | .var _ p => p.ty
      | _ => .integer

/-- The type of a variable whose first assignment has the value `e`: the annotation, or the type of the value. -/
def newType (Γ : Env) (v : VarRef) (e : Expr) : ExprType :=
  v.ty.getD (typeOf (Γ.addLocal (symKey v.name) (.scalar .integer)) e)

/-- An assignment declares a variable that does not exist yet. -/
def afterAssign (Γ : Env) (v : VarRef) (e : Expr) : Env :=
  if nameRef Γ.locals Γ.shared v = .undefined then Γ.addLocal (symKey v.name) (.scalar (newType Γ v e)) else Γ

/-- A call of a built-in command can declare the variables that it is to assign to. -/
def defineOut (Γ : Env) (v : VarRef) : Env :=
  if nameRef Γ.locals Γ.shared v = .undefined ∧ Γ.callable (symKey v.name) = none then
    Γ.addLocal (symKey v.name) (.scalar (v.ty.getD .integer))
  else Γ

/-- The variables that a call with this syntax can declare: those that stand where the syntax says so. -/
def outVars (rep : Option RepSyn) : List SingSyn → Args → List VarRef
  | _, .nil => []
  | .reqRef _ _ true _ :: syns, .cons (.sym v _) _ _ rest => v :: outVars rep syns rest
  | _ :: syns, .cons _ _ _ rest => outVars rep syns rest
  | _ :: syns, .skip _ _ rest => outVars rep syns rest
  | [], .cons (.sym v _) _ _ rest => if repIsRef rep then v :: outVars rep [] rest else outVars rep [] rest
  | [], .cons _ _ _ rest => outVars rep [] rest
  | [], .skip _ _ rest => outVars rep [] rest

/-- The variable of a `FOR` with a step that is not an integer is a double unless it exists or says otherwise. -/
def forVar (Γ : Env) (v : VarRef) (double : Bool) : Env :=
  if double ∧ v.ty = none ∧ nameRef Γ.locals Γ.shared v = .undefined then Γ.addLocal (symKey v.name) (.scalar .double) else Γ

mutual
/-- What is declared after a statement of the text. -/
def afterStmt (Γ : Env) : Stmt → Env
  | .assign v _ e => afterAssign Γ v e
  | .call v _ args => (Γ.outs (symKey v.name) args).foldl defineOut Γ
  | .callable name _ params body _ =>
    { afterStmts ((Γ.declare name params).body name params) body with locals := Γ.locals }
  | .declare name _ params => Γ.declare name params
  | .dim name _ shared ty => Γ.add shared (symKey name) (.scalar ty)
  | .dimArray name _ shared dims ty => Γ.add shared (symKey name) (.array ty dims.length)
  | .doLoop _ body => afterStmts Γ body
  | .forLoop iter _ double start _ next body =>
    afterAssign (afterStmts (afterAssign (forVar Γ iter double) iter start) body) iter next
  | .ifs branches => afterBranches Γ branches
  | .select _ cases _ => afterCases Γ cases
  | .whileLoop _ body => afterStmts Γ body
  | .arrayAssign .. | .data .. | .end .. | .exitDo .. | .exitFor .. | .exitFunction .. | .exitSub .. | .gosub ..
  | .goto .. | .label .. | .onError .. | .ret .. => Γ

/-- … after some statements. -/
def afterStmts (Γ : Env) : Stmts → Env
  | .nil => Γ
  | .cons s rest => afterStmts (afterStmt Γ s) rest

/-- … after the branches of an `IF`. -/
def afterBranches (Γ : Env) : Branches → Env
  | .nil => Γ
  | .cons _ body rest => afterBranches (afterStmts Γ body) rest

/-- … after the cases of a `SELECT`. -/
def afterCases (Γ : Env) : Cases → Env
  | .nil => Γ
  | .cons _ body rest => afterCases (afterStmts Γ body) rest
end

/-! ## Results -/

/-- How statements end: normally, by an `EXIT` that is still to be caught, with a jump to a label, with `RETURN`,
with `END`, or with a run-time error; or they have not come to an end yet. -/
inductive Res where
  | done (w : World)
  | exitDo (w : World)
  | exitFor (w : World)
  | leave (w : World)
  | jump (label : Str) (w : World)
  | back (w : World)
  | ended (code : Nat) (w : World)
  | err (pos : LineCol) (e : RtErr) (w : World)
  | going (l : Log)
  | stuck

/-- First one, then, if it ended normally, the other. -/
def Res.bind : Res → (World → Res) → Res
  | .done w, f => f w
  | r, _ => r

/-- First evaluate, then do. -/
def Out.then {α : Type} : Out α → (α → World → Res) → Res
  | .ok a w, f => f a w
  | .err pos e w, _ => .err pos e w
  | .ended code w, _ => .ended code w
  | .going l, _ => .going l
  | .stuck, _ => .stuck

/-- `DO` loops catch `EXIT DO`. -/
def catchDo : Res → Res
  | .exitDo w => .done w
  | r => r

/-- `FOR` loops catch `EXIT FOR`. -/
def catchFor : Res → Res
  | .exitFor w => .done w
  | r => r

/-- A guard decides. -/
def test (x : Out Val) (f : Bool → World → Res) : Res :=
  x.then fun v w =>
    match v with
    | .bool b => f b w
    | _ => .stuck

/-- A loop that looks at its guard before each round, and stops when it is `stop`.  It is watched for that many
rounds. -/
def before (stop : Bool) (guard : World → Out Val) (body : World → Res) : Nat → World → Res
  | 0, w => .going w.log
  | n + 1, w => test (guard w) fun b w => if b = stop then .done w else (body w).bind (before stop guard body n)

/-- A loop that looks at its guard after each round. -/
def behind (stop : Bool) (guard : World → Out Val) (body : World → Res) : Nat → World → Res
  | 0, w => .going w.log
  | n + 1, w => (body w).bind fun w => test (guard w) fun b w => if b = stop then .done w else behind stop guard body n w

/-- A loop without guard. -/
def forever (body : World → Res) : Nat → World → Res
  | 0, w => .going w.log
  | n + 1, w => (body w).bind (forever body n)

/-! ## Statements -/

/-- The value of a variable that was declared with `DIM`. -/
def defaultVal : ExprType → Val
  | .boolean => .bool false
  | .integer => .int 0
  | .double => .dbl 0
  | .text => .text []

/-- At the start of each round of a loop, the variables whose declaration is inside of the loop have no known value:
evaluating the guard may overwrite them (a finding, see `C09_counterexample`).  The same holds at a label for the
variables whose declaration is further down. -/
def forget (Γ : Env) (w : World) : World :=
  { w with
    mem := fun p =>
      match p with
      | .local n => if n < Γ.locals.length then w.mem (.local n) else none
      | .shared n => w.mem (.shared n) }

/-- The same when something has been done. -/
def Out.forget {α : Type} (Γ : Env) : Out α → Out α
  | .ok a w => .ok a (Spec.forget Γ w)
  | .err pos e w => .err pos e (Spec.forget Γ w)
  | .ended code w => .ended code (Spec.forget Γ w)
  | .going l => .going l
  | .stuck => .stuck

mutual
/-- The name occurs in the expression as a variable (or a function without arguments). -/
def mentions (k : Str) : Expr → Bool
  | .bool .. | .dbl .. | .int .. | .text .. => false
  | .sym v _ => symKey v.name == k
  | .un _ e _ => mentions k e
  | .bin _ l r _ => mentions k l || mentions k r
  | .call _ _ args => mentionsArgs k args

/-- … in the arguments of a call. -/
def mentionsArgs (k : Str) : Args → Bool
  | .nil => false
  | .cons e _ _ rest => mentions k e || mentionsArgs k rest
  | .skip _ _ rest => mentionsArgs k rest
end

/-- A function or subroutine of the program. -/
def Env.isUser (Γ : Env) (k : Str) : Bool :=
  match Γ.callable k with
  | some (.user ..) => true
  | _ => false

/-- The leftmost operand is a call, without arguments, of a function of the program. -/
def LeftCall (Γ : Env) : Expr → Prop
  | .sym v _ => nameRef Γ.locals Γ.shared v = .undefined ∧ Γ.isUser (symKey v.name) = true
  | .un _ e _ => LeftCall Γ e
  | .bin _ l _ _ => LeftCall Γ l
  | _ => False

instance decLeftCall (Γ : Env) : (e : Expr) → Decidable (LeftCall Γ e)
  | .sym v _ => inferInstanceAs (Decidable (_ ∧ _))
  | .un _ e _ => decLeftCall Γ e
  | .bin _ l _ _ => decLeftCall Γ l
  | .bool .. | .dbl .. | .int .. | .text .. | .call .. => isFalse id

theorem isUser_eq (Γ : Env) (k : Str) : Γ.isUser k = false ↔ ∀ params r, Γ.callable k ≠ some (.user params r) := by
  unfold Env.isUser
  split
  next h => simp [h]
  next h => simpa using h

instance (Γ : Env) (k : Str) : Decidable (∀ params r, Γ.callable k ≠ some (.user params r)) :=
  decidable_of_iff _ (isUser_eq Γ k)

mutual
instance decUserFree (Γ : Env) : (e : Expr) → Decidable (UserFree Γ e)
  | .bool .. | .dbl .. | .int .. | .text .. => isTrue trivial
  | .sym v _ => inferInstanceAs (Decidable (_ ∨ _))
  | .un _ e _ => decUserFree Γ e
  | .bin _ l r _ =>
    have := decUserFree Γ l
    have := decUserFree Γ r
    inferInstanceAs (Decidable (UserFree Γ l ∧ UserFree Γ r))
  | .call v _ args =>
    have := decUserFreeArgs Γ args
    inferInstanceAs (Decidable (_ ∧ UserFreeArgs Γ args))

instance decUserFreeArgs (Γ : Env) : (args : Args) → Decidable (UserFreeArgs Γ args)
  | .nil => isTrue trivial
  | .skip _ _ rest => decUserFreeArgs Γ rest
  | .cons e _ _ rest =>
    have := decUserFree Γ e
    have := decUserFreeArgs Γ rest
    inferInstanceAs (Decidable (UserFree Γ e ∧ UserFreeArgs Γ rest))
end

/-- Where the code of the value may use the register of the variable for intermediate results.  Elsewhere it goes
wrong (a finding): the frame of a function may overlap with variables, and functions see a shared variable change. -/
def Direct (Γ : Env) (p : Place) (e : Expr) : Prop :=
  match p with
  | .shared _ => UserFree Γ e
  | .local n => LeftCall Γ e → n + 1 = Γ.locals.length

instance (Γ : Env) (p : Place) (e : Expr) : Decidable (Direct Γ p e) :=
  match p with
  | .shared _ => decUserFree Γ e
  | .local n => inferInstanceAs (Decidable (_ → _))

/-- The operator of a guard of a `CASE`. -/
def caseOp : CaseRelOp → SrcBin
  | .eq => .eq
  | .ne => .ne
  | .lt => .lt
  | .le => .le
  | .gt => .gt
  | .ge => .ge

/-- The variables that a call of a built-in command declares start with the value that `DIM` gives them. -/
def initOuts (Γ : Env) : List VarRef → World → World
  | [], w => w
  | v :: vs, w =>
    initOuts (defineOut Γ v) vs
      (if nameRef Γ.locals Γ.shared v = .undefined ∧ Γ.callable (symKey v.name) = none then
        w.set (.local Γ.locals.length) (some (.scalar (defaultVal (v.ty.getD .integer))))
      else w)

/-- What is to happen after errors from now on. -/
def trapOf : OnError → Trap
  | .goto label .. => .jump (symKey label) false
  | .reset _ => .stop
  | .resumeNext _ => .resume

/-- The statements that are not made of other statements. -/
def Stmt.plain : Stmt → Bool
  | .arrayAssign .. | .assign .. | .call .. | .data .. | .declare .. | .dim .. | .dimArray .. | .end .. | .label ..
  | .onError .. | .goto .. | .gosub .. | .ret .. => true
  | _ => false

/-- There is a statement to go on with. -/
def Stmts.continues : Stmts → Bool
  | .nil => false
  | .cons s rest =>
    match s with
    | .label .. | .data .. | .declare .. => Stmts.continues rest
    | .callable .. => false
    | .ifs .nil => false
    | _ => true

/-- An error has been handled: from now on it is the last one, and if the program is to go on at a label, the next
error stops it. -/
def World.handled (w : World) (pos : LineCol) (e : RtErr) : World :=
  { w with
    trap := (match w.trap with
      | .jump k _ => .jump k true
      | t => t)
    log := { w.log with lastError := some (pos, e) } }

/-- After an error in a statement `s` with the statements `rest` behind it.  When the next statement is to be run
after errors it is run if `s` is not made of other statements.  Otherwise the code goes on with what comes next in
the text, whatever that is; this is left out. -/
def recover (s : Stmt) (rest : Stmts) (f : World → Res) : Res → Res
  | .done w => f w
  | .err pos e w =>
    match w.trap with
    | .stop => .err pos e w
    | .resume => if Stmt.plain s && Stmts.continues rest then f (w.handled pos e) else .stuck
    | .jump k active => if active then .err pos e w else .jump k (w.handled pos e)
  | r => r

/-- The first dimension that is not positive. -/
def badDim : Nat → List Int → Option Nat
  | _, [] => none
  | i, d :: ds => if d ≤ 0 then some i else badDim (i + 1) ds

section
variable (F : FloatOps) (n : Nat) (cl : Calls)

/-- An assignment to a variable.  A value that does not mention the variable is computed in its place, so that the
variable has no known value if that fails (a finding, see `C51_counterexample`). -/
def assign (Γ : Env) (v : VarRef) (e : Expr) (w : World) : Res :=
  match nameRef Γ.locals Γ.shared v with
  | .var p (.scalar t) =>
    if mentions (symKey v.name) e then
      (evalAs F cl Γ e t w).then fun x w => .done (w.set p (some (.scalar x)))
    else if Direct Γ p e then
      (evalAs F cl Γ e t (w.set p none)).then fun x w => .done (w.set p (some (.scalar x)))
    else .stuck
  | .undefined =>
    let Γ' := Γ.addLocal (symKey v.name) (.scalar (v.ty.getD .integer))
    let p := Place.local Γ.locals.length
    if Direct Γ' p e then
      (evalAs F cl Γ' e (newType Γ v e) (w.set p none)).then fun x w => .done (w.set p (some (.scalar x)))
    else .stuck
  | _ => .stuck

/-- Whether a value satisfies a guard of a `CASE`. -/
def guardHolds (Γ : Env) (x : Val) : CaseGuard → World → Out Val
  | .is op e, w => (eval F cl Γ e w).bind fun y w => binVal F (caseOp op) x y e.startPos w
  | .to lo hi, w =>
    (eval F cl Γ lo w).bind fun y w => (binVal F .ge x y lo.startPos w).bind fun a w =>
      (eval F cl Γ hi w).bind fun z w => (binVal F .le x z lo.startPos w).bind fun b w =>
        match a, b with
        | .bool a, .bool b => .ok (.bool (a && b)) w
        | _, _ => .stuck

/-- Whether a value satisfies one of the guards, from left to right. -/
def anyHolds (Γ : Env) (x : Val) : List CaseGuard → World → Out Bool
  | [], w => .ok false w
  | g :: gs, w =>
    (guardHolds F cl Γ x g w).bind fun b w =>
      match b with
      | .bool true => .ok true w
      | .bool false => anyHolds Γ x gs w
      | _ => .stuck

/-- The number of the first case with a guard that the value satisfies, or without guards. -/
def choose (Γ : Env) (x : Val) : Cases → World → Out (Option Nat)
  | .nil, w => .ok none w
  | .cons [] _ _, w => .ok (some 0) w
  | .cons (g :: gs) _ rest, w =>
    (anyHolds F cl Γ x (g :: gs) w).bind fun b w =>
      if b then .ok (some 0) w else (choose Γ x rest w).bind fun k w => .ok (k.map (· + 1)) w

/-- A new array. -/
def allocate (p : Place) (ty : ExprType) (pos : LineCol) (dims : List Int) (w : World) : Res :=
  match badDim 0 dims with
  | some i => .err pos (.badDimension i) w
  | none =>
    if 2 ^ 60 ≤ size (dims.map Int.toNat) then .stuck
    else if w.room = 0 then .err pos .outOfHeap w
    else .done ({ w with room := w.room - 1 }.set p (some (.arr ty (dims.map Int.toNat) fun _ => defaultVal ty)))

/-- An element of an array gets a value. -/
def store (p : Place) (pos : LineCol) (x : Val) (subs : List Int) (w : World) : Res :=
  match w.mem p with
  | some (.arr ty dims elem) =>
    match badSubscript dims subs with
    | some e => .err pos (.subscript e) w
    | none => .done (w.set p (some (.arr ty dims fun s => if s = subs then x else elem s)))
  | _ => .stuck

/-- `END` with an exit code. -/
def finish (pos : LineCol) (x : Val) (w : World) : Res :=
  match x with
  | .int i => if 0 ≤ i.toInt ∧ i.toInt < 128 then .ended i.toInt.toNat w else .err pos .badExitCode w
  | _ => .stuck

mutual
/-- What a statement does. -/
def execStmt (Γ : Env) : Stmt → World → Res
  | .assign v _ e, w => assign F cl Γ v e w
  | .arrayAssign v pos subs e, w =>
    match nameRef Γ.locals Γ.shared v with
    | .var p (.array t _) =>
      (evalAs F cl Γ e t w).then fun x w => (evalSubs F cl Γ (Args.ofList subs) w).then fun is w =>
        store p pos x is w
    | _ => .stuck
  | .call v pos args, w =>
    match Γ.callable (symKey v.name) with
    | some (.user params none) =>
      (evalArgs F cl Γ params args w).then fun vs w => (cl.sub (symKey v.name) vs pos w).then fun _ w => .done w
    | some (.builtin none) =>
      match Γ.syn (symKey v.name) args.length with
      | some syn =>
        let outs := Γ.outs (symKey v.name) args
        (evalBuiltin F cl (outs.foldl defineOut Γ) syn.repeated true syn.singular args pos (initOuts Γ outs w)).then fun as w =>
          (w.request cl.lib (symKey v.name) as none pos).then fun _ w => .done w
      | none => .stuck
    | _ => .stuck
  | .dim _ _ shared ty, w => .done (w.set (Γ.next shared) (some (.scalar (defaultVal ty))))
  | .dimArray name pos shared dims ty, w =>
    (evalSubs F cl (Γ.add shared (symKey name) (.array ty dims.length)) (Args.ofList dims) w).then fun is w =>
      allocate (Γ.next shared) ty pos is w
  | .end none _, w => .ended 0 w
  | .end (some e) pos, w => (evalAs F cl Γ e .integer w).then fun x w => finish pos x w
  | .exitDo _, w => .exitDo w
  | .exitFor _, w => .exitFor w
  | .exitFunction _, w => .leave w
  | .exitSub _, w => .leave w
  | .ifs branches, w => execBranches Γ branches w
  | .select e cases _, w =>
    (eval F cl Γ e w).then fun x w => (choose F cl Γ x cases w).then fun k w =>
      match k with
      | some k => execCases Γ cases k w
      | none => .done w
  | .whileLoop e body, w =>
    before false (fun w => evalAs F cl Γ e .boolean (forget Γ w)) (fun w => execStmts Γ body w) n w
  | .doLoop .infinite body, w => catchDo (forever (fun w => execStmts Γ body (forget Γ w)) n w)
  | .doLoop (.preWhile e) body, w =>
    catchDo (before false (fun w => evalAs F cl Γ e .boolean (forget Γ w)) (fun w => execStmts Γ body w) n w)
  | .doLoop (.preUntil e) body, w =>
    catchDo (before true (fun w => evalAs F cl Γ e .boolean (forget Γ w)) (fun w => execStmts Γ body w) n w)
  | .doLoop (.postWhile e) body, w =>
    catchDo (behind false (fun w => evalAs F cl (afterStmts Γ body) e .boolean w)
      (fun w => execStmts Γ body (forget Γ w)) n w)
  | .doLoop (.postUntil e) body, w =>
    catchDo (behind true (fun w => evalAs F cl (afterStmts Γ body) e .boolean w)
      (fun w => execStmts Γ body (forget Γ w)) n w)
  | .forLoop iter _ double start stop next body, w =>
    (assign F cl (forVar Γ iter double) iter start w).bind fun w =>
      let Γ' := afterAssign (forVar Γ iter double) iter start
      catchFor (before false (fun w => evalAs F cl Γ' stop .boolean (forget Γ' w))
        (fun w => (execStmts Γ' body w).bind (assign F cl (afterStmts Γ' body) iter next)) n w)
  | .data _, w | .declare .., w | .callable .., w | .label .., w => .done w
  | .onError o, w => .done { w with trap := trapOf o }
  | .goto label _, w => .jump (symKey label) w
  | .gosub label pos, w => ((cl.gosub (symKey label) pos w).forget Γ).then fun _ w => .done w
  | .ret pos, w => if cl.canReturn then .back w else .err pos .returnWithoutGosub w

/-- Statements run one after the other. -/
def execStmts (Γ : Env) : Stmts → World → Res
  | .nil, w => .done w
  | .cons s rest, w => recover s rest (execStmts (afterStmt Γ s) rest) (execStmt Γ s w)

/-- The first branch whose guard is true is run, and nothing else. -/
def execBranches (Γ : Env) : Branches → World → Res
  | .nil, w => .done w
  | .cons guard body rest, w =>
    test (evalAs F cl Γ guard .boolean w) fun b w =>
      if b then execStmts Γ body w else execBranches (afterStmts Γ body) rest w

/-- The body of case number `k` is run. -/
def execCases (Γ : Env) : Cases → Nat → World → Res
  | .nil, _, _ => .stuck
  | .cons _ body _, 0, w => execStmts Γ body w
  | .cons _ body rest, k + 1, w => execCases (afterStmts Γ body) rest k w
end

/-! ## Labels -/

mutual
/-- The label is in the statement, but not in the body of a callable. -/
def hasLabel (k : Str) : Stmt → Bool
  | .label name _ => symKey name == k
  | .doLoop _ body => hasLabels k body
  | .forLoop _ _ _ _ _ _ body => hasLabels k body
  | .ifs branches => hasLabelBranches k branches
  | .select _ cases _ => hasLabelCases k cases
  | .whileLoop _ body => hasLabels k body
  | _ => false

/-- … in one of the statements. -/
def hasLabels (k : Str) : Stmts → Bool
  | .nil => false
  | .cons s rest => hasLabel k s || hasLabels k rest

/-- … in one of the branches of an `IF`. -/
def hasLabelBranches (k : Str) : Branches → Bool
  | .nil => false
  | .cons _ body rest => hasLabels k body || hasLabelBranches k rest

/-- … in one of the cases of a `SELECT`. -/
def hasLabelCases (k : Str) : Cases → Bool
  | .nil => false
  | .cons _ body rest => hasLabels k body || hasLabelCases k rest
end

mutual
/-- What a statement does from a label inside of it on: the rest of the body with the label, and then what follows
after that body, that is the next rounds of a loop or nothing. -/
def fromStmt (Γ : Env) (k : Str) : Stmt → World → Res
  | .label .., w => .done (forget Γ w)
  | .ifs branches, w => fromBranches Γ k branches w
  | .select _ cases _, w => fromCases Γ k cases w
  | .whileLoop e body, w =>
    (fromStmts Γ k body w).bind
      (before false (fun w => evalAs F cl Γ e .boolean (forget Γ w)) (fun w => execStmts F n cl Γ body w) n)
  | .doLoop .infinite body, w =>
    catchDo ((fromStmts Γ k body w).bind (forever (fun w => execStmts F n cl Γ body (forget Γ w)) n))
  | .doLoop (.preWhile e) body, w =>
    catchDo ((fromStmts Γ k body w).bind
      (before false (fun w => evalAs F cl Γ e .boolean (forget Γ w)) (fun w => execStmts F n cl Γ body w) n))
  | .doLoop (.preUntil e) body, w =>
    catchDo ((fromStmts Γ k body w).bind
      (before true (fun w => evalAs F cl Γ e .boolean (forget Γ w)) (fun w => execStmts F n cl Γ body w) n))
  | .doLoop (.postWhile e) body, w =>
    catchDo ((fromStmts Γ k body w).bind fun w => test (evalAs F cl (afterStmts Γ body) e .boolean w) fun b w =>
      if b = false then .done w
      else behind false (fun w => evalAs F cl (afterStmts Γ body) e .boolean w)
        (fun w => execStmts F n cl Γ body (forget Γ w)) n w)
  | .doLoop (.postUntil e) body, w =>
    catchDo ((fromStmts Γ k body w).bind fun w => test (evalAs F cl (afterStmts Γ body) e .boolean w) fun b w =>
      if b = true then .done w
      else behind true (fun w => evalAs F cl (afterStmts Γ body) e .boolean w)
        (fun w => execStmts F n cl Γ body (forget Γ w)) n w)
  | .forLoop iter _ double start stop next body, w =>
    let Γ' := afterAssign (forVar Γ iter double) iter start
    catchFor (((fromStmts Γ' k body w).bind (assign F cl (afterStmts Γ' body) iter next)).bind
      (before false (fun w => evalAs F cl Γ' stop .boolean (forget Γ' w))
        (fun w => (execStmts F n cl Γ' body w).bind (assign F cl (afterStmts Γ' body) iter next)) n))
  | _, _ => .stuck

/-- What statements do from a label on. -/
def fromStmts (Γ : Env) (k : Str) : Stmts → World → Res
  | .nil, _ => .stuck
  | .cons s rest, w =>
    if hasLabel k s then recover s rest (execStmts F n cl (afterStmt Γ s) rest) (fromStmt Γ k s w)
    else fromStmts (afterStmt Γ s) k rest w

/-- What an `IF` does from a label in one of its branches on. -/
def fromBranches (Γ : Env) (k : Str) : Branches → World → Res
  | .nil, _ => .stuck
  | .cons _ body rest, w =>
    if hasLabels k body then fromStmts Γ k body w else fromBranches (afterStmts Γ body) k rest w

/-- What a `SELECT` does from a label in one of its cases on. -/
def fromCases (Γ : Env) (k : Str) : Cases → World → Res
  | .nil, _ => .stuck
  | .cons _ body rest, w =>
    if hasLabels k body then fromStmts Γ k body w else fromCases (afterStmts Γ body) k rest w
end

/-- A program or the body of a callable: jumps to its labels are made, as many as can be watched. -/
def follow (Γ : Env) (ss : Stmts) : Nat → Res → Res
  | 0, .jump _ w => .going w.log
  | m + 1, .jump k w => follow Γ ss m (fromStmts F n cl Γ k ss w)
  | _, r => r

end

/-! ## Functions and subroutines -/

/-- A definition: its result type, what is declared at the start of its body, and the body. -/
structure Def where
  ret : Option ExprType
  env : Env
  body : Stmts

mutual
/-- The definitions in a piece of the program text. -/
def defsStmt (Γ : Env) : Stmt → List (Str × Def)
  | .callable name _ params body _ => [(symKey name.name, ⟨name.ty, (Γ.declare name params).body name params, body⟩)]
  | .doLoop _ body => defsStmts Γ body
  | .forLoop iter _ double start _ _ body => defsStmts (afterAssign (forVar Γ iter double) iter start) body
  | .ifs branches => defsBranches Γ branches
  | .select _ cases _ => defsCases Γ cases
  | .whileLoop _ body => defsStmts Γ body
  | .assign .. | .call .. | .declare .. | .dim .. | .dimArray .. | .arrayAssign .. | .data .. | .end .. | .exitDo ..
  | .exitFor .. | .exitFunction .. | .exitSub .. | .gosub .. | .goto .. | .label .. | .onError .. | .ret .. => []

/-- … in some statements. -/
def defsStmts (Γ : Env) : Stmts → List (Str × Def)
  | .nil => []
  | .cons s rest => defsStmt Γ s ++ defsStmts (afterStmt Γ s) rest

/-- … in the branches of an `IF`. -/
def defsBranches (Γ : Env) : Branches → List (Str × Def)
  | .nil => []
  | .cons _ body rest => defsStmts Γ body ++ defsBranches (afterStmts Γ body) rest

/-- … in the cases of a `SELECT`. -/
def defsCases (Γ : Env) : Cases → List (Str × Def)
  | .nil => []
  | .cons _ body rest => defsStmts Γ body ++ defsCases (afterStmts Γ body) rest
end

/-- The result of a function that does not assign one.  For a double it is not known (a finding, see
`C14_counterexample`). -/
def defaultResult : ExprType → Option Val
  | .double => none
  | t => some (defaultVal t)

/-- The variables at the start of a callable. -/
def enter (ret : Option ExprType) (vs : List Val) (w : World) : World :=
  { w with
    mem := fun p =>
      match p with
      | .shared n => w.mem (.shared n)
      | .local n =>
        (((match ret with
          | some t => [defaultResult t]
          | none => []) ++ vs.map some)[n]?.join).map .scalar }

/-- After the call: the variables of the caller, and the shared ones. -/
def goBack (w w1 : World) : World :=
  { w1 with
    mem := fun p =>
      match p with
      | .local n => w.mem (.local n)
      | .shared n => w1.mem (.shared n) }

/-- What was not known before is not known. -/
def limit (w w1 : World) : World := { w1 with mem := fun p => if (w.mem p).isSome then w1.mem p else none }

/-- The end of a function: its result is the variable that has its name. -/
def fnResult (w : World) : Res → Out Val
  | .done w1 | .leave w1 | .back w1 =>
    match w1.mem (.local 0) with
    | some (.scalar x) => .ok x (limit w (goBack w w1))
    | _ => .stuck
  | .err pos e w1 => .err pos e (limit w (goBack w w1))
  | .ended code w1 => .ended code (limit w (goBack w w1))
  | .going l => .going l
  | .exitDo _ | .exitFor _ | .jump .. | .stuck => .stuck

/-- The end of a subroutine. -/
def subResult (w : World) : Res → Out Unit
  | .done w1 | .leave w1 | .back w1 => .ok () (goBack w w1)
  | .err pos e w1 => .err pos e (goBack w w1)
  | .ended code w1 => .ended code (goBack w w1)
  | .going l => .going l
  | .exitDo _ | .exitFor _ | .jump .. | .stuck => .stuck

/-- The end of a `GOSUB`: `RETURN`. -/
def gosubResult : Res → Out Unit
  | .back w => .ok () w
  | .err pos e w => .err pos e w
  | .ended code w => .ended code w
  | .going l => .going l
  | .done _ | .leave _ | .exitDo _ | .exitFor _ | .jump .. | .stuck => .stuck

/-- The program or the body of a callable, from its start or from a label on. -/
def unit (F : FloatOps) (n : Nat) (cl : Calls) (Γ : Env) (ss : Stmts) (start : Option Str) (w : World) : Res :=
  follow F n cl Γ ss n
    (match start with
    | none => execStmts F n cl Γ ss w
    | some k => fromStmts F n cl Γ k ss w)

/-- Calls when that many more can be nested, from a program or the body of a callable `ss` with the declarations `Γ`
at its start. -/
def callsAt (F : FloatOps) (n : Nat) (lib : Lib) (defs : Str → Option Def) : Nat → Bool → Env → Stmts → Calls
  | 0, canReturn, _, _ =>
    ⟨fun _ _ pos w => .err pos .outOfCallStack w, fun _ _ pos w => .err pos .outOfCallStack w, lib,
     fun _ pos w => .err pos .outOfCallStack w, canReturn⟩
  | d + 1, canReturn, Γ, ss =>
    ⟨fun k vs _ w =>
      match defs k with
      | some f => fnResult w (unit F n (callsAt F n lib defs d true f.env f.body) f.env f.body none (enter f.ret vs w))
      | none => .stuck,
     fun k vs _ w =>
      match defs k with
      | some f => subResult w (unit F n (callsAt F n lib defs d true f.env f.body) f.env f.body none (enter f.ret vs w))
      | none => .stuck,
     lib,
     fun k _ w => gosubResult (unit F n (callsAt F n lib defs d true Γ ss) Γ ss (some k) w),
     canReturn⟩

/-- The definition of a name. -/
def findDef (k : Str) : List (Str × Def) → Option Def
  | [] => none
  | (k', f) :: rest => if k' = k then some f else findDef k rest

/-- A program that starts with the declarations `Γ`, at most `d` nested calls and the built-in
callables `lib`; each loop is watched for `n` rounds, and `n` jumps are watched. -/
def run (F : FloatOps) (n d : Nat) (lib : Lib) (Γ : Env) (ss : Stmts) (w : World) : Res :=
  unit F n (callsAt F n lib (fun k => findDef k (defsStmts Γ ss)) d false Γ ss) Γ ss none w

end EB.Spec
