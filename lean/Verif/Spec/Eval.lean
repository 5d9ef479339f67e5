import Verif.Spec.Compiler
import Verif.Spec.Ops
import Verif.Spec.Mem
import Verif.Props.ArithOps
/-!
# What expressions mean

Values, variables and a direct evaluator for expressions: no registers, no code, no heap indices.
The language is typed at compile time; here the types of the values decide, and `typeOf` gives the static
rules separately.  Doubles are the 64-bit patterns and operations of `FloatOps`, as everywhere.
-/

namespace EB.Spec

/-- A value. -/
inductive Val where
  | bool (b : Bool)
  | int (i : I32)
  | dbl (d : BitVec 64)
  | text (s : Str)
  deriving DecidableEq, Repr

/-- Its type. -/
def Val.ty : Val → ExprType
  | .bool _ => .boolean
  | .int _ => .integer
  | .dbl _ => .double
  | .text _ => .text

/-- What a variable holds: a value, or an array with its dimensions and an element for all subscripts that are
within bounds. -/
inductive Cell where
  | scalar (v : Val)
  | arr (ty : ExprType) (dims : List Nat) (elem : List Int → Val)

/-! ## The host

Built-in callables belong to the host.  What a program does to its surroundings is the list of the calls of
built-in callables that it makes, with the arguments that they see and the answers that they give. -/

/-- An argument as a built-in callable sees it: a value; a value, or none, where the syntax allows to leave it
out; or a variable, which it can look at and (if it is a scalar) assign to.  Some of them come with the
separator that follows. -/
inductive Arg where
  | val (v : Val)
  | opt (sep : ArgSep) (v : Val)
  | missing (sep : ArgSep)
  | ref (q : Proto) (p : Place)
  | optRef (sep : ArgSep) (q : Proto) (p : Place)

/-- The variable that is passed. -/
def Arg.place : Arg → Option Place
  | .ref _ p | .optRef _ _ p => some p
  | _ => none

/-- The variable that can be assigned to, with its type. -/
def Arg.target : Arg → Option (Place × ExprType)
  | .ref (.scalar t) p | .optRef _ (.scalar t) p => some (p, t)
  | _ => none

/-- A call of a built-in callable: its name, the type of the result if it is a function, the arguments with their
positions in the source, and what is known about the variables that are passed. -/
structure Request where
  name : Str
  ret : Option ExprType
  args : List (Arg × LineCol)
  vars : List (Option Cell)

/-- The answer: a result (of functions) or an error, what was assigned to variables, and how many strings were
created. -/
structure Reply where
  result : Except (Option LineCol × Str) (Option Val)
  writes : List (Place × Val)
  used : Nat

/-- What has happened so far: the calls of built-in callables, and the last error that was handled. -/
structure Log where
  events : List (Request × Reply)
  lastError : Option (LineCol × RtErr)

/-- The built-in callables: the answer to a call depends on what has happened before, on how many strings can
be created, and on the call. -/
abbrev Lib := Log → Nat → Request → Reply

/-- What is to happen after an error: the program stops, goes on with the next statement, or goes on at a label.
In the last case errors stop the program once that has happened (`active`). -/
inductive Trap where
  | stop
  | resume
  | jump (label : Str) (active : Bool)
  deriving DecidableEq, Repr

/-- The program does not stop after an error. -/
def Trap.goesOn : Trap → Bool
  | .stop => false
  | .resume => true
  | .jump _ active => !active

/-- The variables that have a known value, how many more strings or arrays can be created, what is to happen
after an error, and what has happened.
Variables that were declared but that no statement has given a value are not known. -/
structure World where
  mem : Place → Option Cell
  room : Nat
  trap : Trap
  log : Log

/-- A variable gets a new content, or becomes unknown. -/
def World.set (w : World) (p : Place) (c : Option Cell) : World :=
  { w with mem := fun q => if q = p then c else w.mem q }

/-- How an evaluation ends: with a value, with a run-time error at a position, or unspecified
(a variable without a known value, or a construct that this specification leaves out).  A function that is
called can also end the program, with an exit code, or not have come to an end yet. -/
inductive Out (α : Type) where
  | ok (a : α) (w : World)
  | err (pos : LineCol) (e : RtErr) (w : World)
  | ended (code : Nat) (w : World)
  | going (l : Log)
  | stuck

/-- First one, then the other. -/
def Out.bind {α β : Type} : Out α → (α → World → Out β) → Out β
  | .ok a w, f => f a w
  | .err pos e w, _ => .err pos e w
  | .ended code w, _ => .ended code w
  | .going l, _ => .going l
  | .stuck, _ => .stuck

/-- What a callable is known as. -/
inductive Sig where
  | user (params : List ExprType) (ret : Option ExprType)
  | builtin (ret : Option ExprType)
  deriving DecidableEq, Repr

/-- Its result type. -/
def Sig.ret : Sig → Option ExprType
  | .user _ r => r
  | .builtin r => r

/-- What names stand for; `outs` are the variables that a call of a built-in command assigns to, and `syn` is
the syntax of a built-in callable for that many arguments; `md` is all that is known about how a callable is
called. -/
structure Env where
  locals : Decls
  shared : Decls
  callable : Str → Option Sig
  outs : Str → Args → List VarRef := fun _ _ => []
  syn : Str → Nat → Option Syntax := fun _ _ => none
  md : Str → Option Md := fun _ => none

instance (l r : Str) : Decidable (TextLt l r) := decidable_of_iff _ (strLt_iff l r)

/-! ## Operators -/

/-- Operators on doubles that give a double. -/
def dblArith (F : FloatOps) : SrcBin → BitVec 64 → BitVec 64 → Option (BitVec 64)
  | .add, l, r => some (F.add l r)
  | .sub, l, r => some (F.sub l r)
  | .mul, l, r => some (F.mul l r)
  | .div, l, r => some (F.div l r)
  | .mod, l, r => some (F.rem l r)
  | .pow, l, r => some (F.pow l r)
  | _, _, _ => none

/-- Comparisons of doubles. -/
def dblRel (F : FloatOps) : SrcBin → BitVec 64 → BitVec 64 → Option Bool
  | .eq, l, r => some (F.eq l r)
  | .ne, l, r => some (!F.eq l r)
  | .lt, l, r => some (F.lt l r)
  | .le, l, r => some (F.le l r)
  | .gt, l, r => some (F.lt r l)
  | .ge, l, r => some (F.le r l)
  | _, _, _ => none

/-- Comparisons of strings. -/
def textRel : SrcBin → Str → Str → Option Bool
  | .eq, l, r => some (decide (l = r))
  | .ne, l, r => some (decide (l ≠ r))
  | .lt, l, r => some (decide (TextLt l r))
  | .le, l, r => some (decide (¬ TextLt r l))
  | .gt, l, r => some (decide (TextLt r l))
  | .ge, l, r => some (decide (¬ TextLt l r))
  | _, _, _ => none

/-- Operators on truth values. -/
def boolOp : SrcBin → Bool → Bool → Option Bool
  | .and, l, r => some (l && r)
  | .or, l, r => some (l || r)
  | .xor, l, r => some (xor l r)
  | .eq, l, r => some (l == r)
  | .ne, l, r => some (l != r)
  | _, _, _ => none

/-- A string that was computed: the empty one is free, others take room. -/
def newText (s : Str) (pos : LineCol) (w : World) : Out Val :=
  if s = [] then .ok (.text s) w
  else if w.room = 0 then .err pos .outOfHeap w
  else .ok (.text s) { w with room := w.room - 1 }

/-- Two doubles. -/
def dblBin (F : FloatOps) (op : SrcBin) (l r : BitVec 64) (w : World) : Out Val :=
  match dblArith F op l r, dblRel F op l r with
  | some d, _ => .ok (.dbl d) w
  | none, some b => .ok (.bool b) w
  | none, none => .stuck

/-- Two integers. -/
def intBin (op : SrcBin) (l r : I32) (pos : LineCol) (w : World) : Out Val :=
  match intArith op l.toInt r.toInt, intRel op l.toInt r.toInt with
  | some (.ok x), _ => .ok (.int (BitVec.ofInt 32 x)) w
  | some (.error e), _ => .err pos e w
  | none, some b => .ok (.bool b) w
  | none, none => .stuck

/-- Two strings. -/
def textBin (op : SrcBin) (l r : Str) (pos : LineCol) (w : World) : Out Val :=
  match op, textRel op l r with
  | .add, _ => newText (l ++ r) pos w
  | _, some b => .ok (.bool b) w
  | _, none => .stuck

/-- A binary operator on two values: an integer next to a double becomes a double first. -/
def binVal (F : FloatOps) (op : SrcBin) (l r : Val) (pos : LineCol) (w : World) : Out Val :=
  match l, r with
  | .int a, .int b => intBin op a b pos w
  | .dbl a, .dbl b => dblBin F op a b w
  | .int a, .dbl b => dblBin F op (F.ofInt a) b w
  | .dbl a, .int b => dblBin F op a (F.ofInt b) w
  | .bool a, .bool b =>
    match boolOp op a b with
    | some c => .ok (.bool c) w
    | none => .stuck
  | .text a, .text b => textBin op a b pos w
  | _, _ => .stuck

/-- A unary operator. -/
def unVal (F : FloatOps) (op : SrcUn) (v : Val) (pos : LineCol) (w : World) : Out Val :=
  match op, v with
  | .neg, .int a =>
    match exact (-a.toInt) .integerOverflow with
    | .ok x => .ok (.int (BitVec.ofInt 32 x)) w
    | .error e => .err pos e w
  | .neg, .dbl d => .ok (.dbl (F.neg d)) w
  | .not, .int a => .ok (.int (~~~a)) w
  | .not, .bool b => .ok (.bool (!b)) w
  | _, _ => .stuck

/-- Conversion to the type that is wanted: numbers only; a double is rounded. -/
def castVal (F : FloatOps) (t : ExprType) (v : Val) (pos : LineCol) (w : World) : Out Val :=
  match t, v with
  | .boolean, .bool _ => .ok v w
  | .integer, .int _ => .ok v w
  | .double, .dbl _ => .ok v w
  | .text, .text _ => .ok v w
  | .double, .int i => .ok (.dbl (F.ofInt i)) w
  | .integer, .dbl d =>
    match F.toInt d with
    | some i => .ok (.int i) w
    | none => .err pos (.castOverflow d) w
  | _, _ => .stuck

/-- What is wrong with the first subscript that is out of bounds. -/
def badSubscript : List Nat → List Int → Option SubscriptError
  | d :: ds, s :: ss =>
    if s < 0 then some (.negative s) else if (d : Int) ≤ s then some (.exceeds s.toNat d) else badSubscript ds ss
  | _, _ => none

/-! ## Calls of built-in callables -/

/-- The answer is one that a callable can give: only functions have a result, it has the right type, only
commands assign, only to scalar variables that are passed and only values of their type, and there is room. -/
def Reply.fits (r : Reply) (args : List (Arg × LineCol)) (ret : Option ExprType) (room : Nat) : Bool :=
  decide (r.used ≤ room) &&
  (match r.result with
    | .ok v => decide (v.map Val.ty = ret)
    | .error _ => true) &&
  (ret.isNone || r.writes.isEmpty) &&
  r.writes.all fun x => args.any fun a => decide (a.1.target = some (x.1, x.2.ty))

/-- Some assignments. -/
def assigned (mem : Place → Option Cell) : List (Place × Val) → Place → Option Cell
  | [] => mem
  | (p, v) :: rest => assigned (fun q => if q = p then some (.scalar v) else mem q) rest

/-- A built-in callable is called. -/
def World.request (lib : Lib) (k : Str) (args : List (Arg × LineCol)) (ret : Option ExprType) (pos : LineCol)
    (w : World) : Out (Option Val) :=
  let q : Request := ⟨k, ret, args, args.map fun a => a.1.place.bind w.mem⟩
  let r := lib w.log w.room q
  let w' : World :=
    { w with
      mem := assigned w.mem r.writes
      room := w.room - r.used
      log := { w.log with events := w.log.events ++ [(q, r)] } }
  if r.fits args ret w.room then
    match r.result with
    | .ok v => .ok v w'
    | .error (p, msg) => .err (p.getD pos) (.upcall msg) w'
  else .stuck

/-- A result that is there. -/
def valued : Option Val → World → Out Val
  | some v, w => .ok v w
  | none, _ => .stuck

/-- The arguments that a built-in callable sees when no more are written. -/
def unwritten (rep : Option RepSyn) (noneYet : Bool) (pos : LineCol) : List SingSyn → List (Arg × LineCol)
  | [] =>
    match rep with
    | some r => if r.plain || !noneYet then [] else [(.missing .end, pos)]
    | none => []
  | _ :: syns => (.missing .end, pos) :: unwritten rep noneYet pos syns

/-- What the rest of the program is to a piece of it: the functions and subroutines of the program, the
built-in callables, the statements from a label up to `RETURN`, and whether there is something to return to. -/
structure Calls where
  fn : Str → List Val → LineCol → World → Out Val
  sub : Str → List Val → LineCol → World → Out Unit
  lib : Lib
  gosub : Str → LineCol → World → Out Unit
  canReturn : Bool

/-- Only built-in callables. -/
def onlyLib (lib : Lib) : Calls := ⟨fun _ _ _ _ => .stuck, fun _ _ _ _ => .stuck, lib, fun _ _ _ => .stuck, false⟩

/-! ## Expressions -/

section
variable (F : FloatOps) (cl : Calls) (Γ : Env)

/-- The variable that an expression names, as an argument. -/
def varArg (mk : Proto → Place → Arg) (v : VarRef) (pos : LineCol) (w : World) : Out (Arg × LineCol) :=
  match nameRef Γ.locals Γ.shared v with
  | .var p q => .ok (mk q p, pos) w
  | _ => .stuck

mutual
/-- The value of an expression: operands from left to right. -/
def eval : Expr → World → Out Val
  | .bool b _, w => .ok (.bool b) w
  | .dbl d _, w => .ok (.dbl d) w
  | .int i _, w => .ok (.int i) w
  | .text s _, w => .ok (.text s) w
  | .sym v pos, w =>
    match nameRef Γ.locals Γ.shared v with
    | .var place _ =>
      match w.mem place with
      | some (.scalar x) => .ok x w
      | _ => .stuck
    | .wrongType => .stuck
    | .undefined =>
      match Γ.callable (symKey v.name) with
      | some (.user [] _) => cl.fn (symKey v.name) [] pos w
      | some (.builtin (some t)) => (w.request cl.lib (symKey v.name) [] (some t) pos).bind valued
      | _ => .stuck
  | .un op e pos, w => (eval e w).bind fun x w => unVal F op x pos w
  | .bin op l r pos, w => (eval l w).bind fun x w => (eval r w).bind fun y w => binVal F op x y pos w
  | .call v pos args, w =>
    match Γ.callable (symKey v.name) with
    | some (.user params _) => (evalArgs params args w).bind fun vs w => cl.fn (symKey v.name) vs pos w
    | some (.builtin (some t)) =>
      match Γ.syn (symKey v.name) args.length with
      | some syn =>
        (evalBuiltin syn.repeated true syn.singular args pos w).bind fun as w =>
          (w.request cl.lib (symKey v.name) as (some t) pos).bind valued
      | none => .stuck
    | some (.builtin none) => .stuck
    | none =>
      match nameRef Γ.locals Γ.shared v with
      | .var place _ =>
        (evalSubs args w).bind fun subs w =>
          match w.mem place with
          | some (.arr _ dims elem) =>
            match badSubscript dims subs with
            | some e => .err pos (.subscript e) w
            | none => .ok (elem subs) w
          | _ => .stuck
      | _ => .stuck

/-- Subscripts: each one is converted to an integer. -/
def evalSubs : Args → World → Out (List Int)
  | .nil, w => .ok [] w
  | .skip .., _ => .stuck
  | .cons e _ _ rest, w =>
    (eval e w).bind fun x w => (castVal F .integer x e.startPos w).bind fun x w =>
      match x with
      | .int i => (evalSubs rest w).bind fun is w => .ok (i.toInt :: is) w
      | _ => .stuck

/-- Arguments of a user-defined callable: each one is converted to the type of its parameter. -/
def evalArgs : List ExprType → Args → World → Out (List Val)
  | [], .nil, w => .ok [] w
  | t :: ts, .cons e _ _ rest, w =>
    (eval e w).bind fun x w => (castVal F t x e.startPos w).bind fun x w =>
      (evalArgs ts rest w).bind fun xs w => .ok (x :: xs) w
  | _, _, _ => .stuck

/-- Arguments of a built-in callable, by its syntax: first the singular ones, then the repeated ones.  `noneYet`
holds until there is a repeated one. -/
def evalBuiltin (rep : Option RepSyn) (noneYet : Bool) :
    List SingSyn → Args → LineCol → World → Out (List (Arg × LineCol))
  | syns, .nil, pos, w => .ok (unwritten rep noneYet pos syns) w
  | [], .skip sep sepPos rest, pos, w =>
    (evalBuiltin rep false [] rest pos w).bind fun as w => .ok ((.missing sep, sepPos) :: as) w
  | _ :: syns, .skip sep sepPos rest, pos, w =>
    (evalBuiltin rep noneYet syns rest pos w).bind fun as w => .ok ((.missing sep, sepPos) :: as) w
  | .reqValue _ t _ :: syns, .cons e _ _ rest, pos, w =>
    (eval e w).bind fun x w => (castVal F t x e.startPos w).bind fun x w =>
      (evalBuiltin rep noneYet syns rest pos w).bind fun as w => .ok ((.val x, e.startPos) :: as) w
  | .reqRef .. :: syns, .cons (.sym v vpos) _ _ rest, pos, w =>
    (varArg Γ .ref v vpos w).bind fun a w =>
      (evalBuiltin rep noneYet syns rest pos w).bind fun as w => .ok (a :: as) w
  | .optValue _ t _ :: syns, .cons e sep _ rest, pos, w =>
    (eval e w).bind fun x w => (castVal F t x e.startPos w).bind fun x w =>
      (evalBuiltin rep noneYet syns rest pos w).bind fun as w => .ok ((.opt sep x, e.startPos) :: as) w
  | .anyValue .. :: syns, .cons e sep _ rest, pos, w =>
    (eval e w).bind fun x w =>
      (evalBuiltin rep noneYet syns rest pos w).bind fun as w => .ok ((.opt sep x, e.startPos) :: as) w
  | [], .cons e sep _ rest, pos, w =>
    match rep with
    | none => .stuck
    | some r =>
      match r.typeSyn with
      | .anyValue =>
        (eval e w).bind fun x w =>
          (evalBuiltin rep false [] rest pos w).bind fun as w => .ok ((.opt sep x, e.startPos) :: as) w
      | .typed t =>
        (eval e w).bind fun x w => (castVal F t x e.startPos w).bind fun x w =>
          (evalBuiltin rep false [] rest pos w).bind fun as w =>
            .ok ((if r.plain then .val x else .opt sep x, e.startPos) :: as) w
      | .varRef =>
        match e with
        | .sym v vpos =>
          (varArg Γ (.optRef sep) v vpos w).bind fun a w =>
            (evalBuiltin rep false [] rest pos w).bind fun as w => .ok (a :: as) w
        | _ => .stuck
  | .reqRef .. :: _, .cons _ _ _ _, _, _ => .stuck
end

/-- An expression where a value of type `t` is wanted. -/
def evalAs (e : Expr) (t : ExprType) (w : World) : Out Val :=
  (eval F cl Γ e w).bind fun x w => castVal F t x e.startPos w

end

/-! ## Static types -/

/-- The operators that compare. -/
def isComparison : SrcBin → Bool
  | .eq | .ne | .lt | .le | .gt | .ge => true
  | _ => false

/-- The operators on bits. -/
def isBits : SrcBin → Bool
  | .and | .or | .xor | .shl | .shr => true
  | _ => false

/-- The type of the result of a binary operator, if it can be applied at all. -/
def binType (op : SrcBin) (l r : ExprType) : Option ExprType :=
  match l, r with
  | .boolean, .boolean =>
    if op = .and ∨ op = .or ∨ op = .xor ∨ op = .eq ∨ op = .ne then some .boolean else none
  | .text, .text => if isComparison op then some .boolean else if op = .add then some .text else none
  | .integer, .integer => if isComparison op then some .boolean else some .integer
  | .integer, .double | .double, .integer | .double, .double =>
    if isComparison op then some .boolean else if isBits op then none else some .double
  | _, _ => none

/-- The type of the result of a unary operator. -/
def unType (op : SrcUn) (t : ExprType) : Option ExprType :=
  match op, t with
  | .neg, .integer => some .integer
  | .neg, .double => some .double
  | .not, .integer => some .integer
  | .not, .boolean => some .boolean
  | _, _ => none

/-- An integer may stand where a double is wanted and the other way round. -/
def Converts (t want : ExprType) : Prop :=
  t = want ∨ (t = .integer ∧ want = .double) ∨ (t = .double ∧ want = .integer)

instance (t want : ExprType) : Decidable (Converts t want) := inferInstanceAs (Decidable (_ ∨ _))

mutual
/-- The type rules.  Arguments of built-in functions are checked against the syntax of the function, which is
not stated here. -/
inductive HasType (Γ : Env) : Expr → ExprType → Prop
  | bool (b pos) : HasType Γ (.bool b pos) .boolean
  | dbl (d pos) : HasType Γ (.dbl d pos) .double
  | int (i pos) : HasType Γ (.int i pos) .integer
  | text (s pos) : HasType Γ (.text s pos) .text
  | var {v pos place t} : nameRef Γ.locals Γ.shared v = .var place (.scalar t) → HasType Γ (.sym v pos) t
  | argless {v pos sig t} : nameRef Γ.locals Γ.shared v = .undefined → Γ.callable (symKey v.name) = some sig →
      sig.ret = some t → (v.ty = none ∨ v.ty = some t) → (∀ params r, sig = .user params r → params = []) →
      HasType Γ (.sym v pos) t
  | un {op e pos t t'} : HasType Γ e t → unType op t = some t' → HasType Γ (.un op e pos) t'
  | bin {op l r pos lt rt t} : HasType Γ l lt → HasType Γ r rt → binType op lt rt = some t →
      HasType Γ (.bin op l r pos) t
  | builtin {v pos args t} : Γ.callable (symKey v.name) = some (.builtin (some t)) →
      (v.ty = none ∨ v.ty = some t) → HasType Γ (.call v pos args) t
  | user {v pos args params t} : Γ.callable (symKey v.name) = some (.user params (some t)) →
      (v.ty = none ∨ v.ty = some t) → ArgsOk Γ args params → HasType Γ (.call v pos args) t
  | elem {v pos args place t n} : Γ.callable (symKey v.name) = none →
      nameRef Γ.locals Γ.shared v = .var place (.array t n) → ArgsOk Γ args (List.replicate n .integer) →
      HasType Γ (.call v pos args) t

/-- Each argument can be converted to the type that is wanted, and there are as many as that. -/
inductive ArgsOk (Γ : Env) : Args → List ExprType → Prop
  | nil : ArgsOk Γ .nil []
  | cons {e sep pos rest t want ts} : HasType Γ e t → Converts t want → ArgsOk Γ rest ts →
      ArgsOk Γ (.cons e sep pos rest) (want :: ts)
end

mutual
/-- No function is called. -/
def CallFree (Γ : Env) : Expr → Prop
  | .bool .. | .dbl .. | .int .. | .text .. => True
  | .sym v _ => nameRef Γ.locals Γ.shared v ≠ .undefined ∨ Γ.callable (symKey v.name) = none
  | .un _ e _ => CallFree Γ e
  | .bin _ l r _ => CallFree Γ l ∧ CallFree Γ r
  | .call v _ args => Γ.callable (symKey v.name) = none ∧ CallFreeArgs Γ args

/-- No function is called in the arguments. -/
def CallFreeArgs (Γ : Env) : Args → Prop
  | .nil => True
  | .skip _ _ rest => CallFreeArgs Γ rest
  | .cons e _ _ rest => CallFree Γ e ∧ CallFreeArgs Γ rest
end

mutual
/-- No function of the program is called. -/
def UserFree (Γ : Env) : Expr → Prop
  | .bool .. | .dbl .. | .int .. | .text .. => True
  | .sym v _ => nameRef Γ.locals Γ.shared v ≠ .undefined ∨ ∀ params r, Γ.callable (symKey v.name) ≠ some (.user params r)
  | .un _ e _ => UserFree Γ e
  | .bin _ l r _ => UserFree Γ l ∧ UserFree Γ r
  | .call v _ args => (∀ params r, Γ.callable (symKey v.name) ≠ some (.user params r)) ∧ UserFreeArgs Γ args

/-- No function of the program is called in the arguments. -/
def UserFreeArgs (Γ : Env) : Args → Prop
  | .nil => True
  | .skip _ _ rest => UserFreeArgs Γ rest
  | .cons e _ _ rest => UserFree Γ e ∧ UserFreeArgs Γ rest
end

mutual
/-- What is wrong with an expression that cannot be typed: the first problem from left to right, with the error
that tells it. -/
inductive Faulty (Γ : Env) : Expr → CErr → Prop
  | undefined {v pos} : nameRef Γ.locals Γ.shared v = .undefined → Γ.callable (symKey v.name) = none →
      Faulty Γ (.sym v pos) (.undefinedSymbol pos v)
  | annotation {v pos} : nameRef Γ.locals Γ.shared v = .wrongType → Faulty Γ (.sym v pos) (.incompatibleAnnotation pos v)
  | array {v pos place t n} : nameRef Γ.locals Γ.shared v = .var place (.array t n) →
      Faulty Γ (.sym v pos) (.arrayUsedAsScalar pos v)
  | neg {e pos t} : HasType Γ e t → unType .neg t = none → Faulty Γ (.un .neg e pos) (.notANumber pos t)
  | not {e pos t} : HasType Γ e t → unType .not t = none → Faulty Γ (.un .not e pos) (.typeMismatch pos t .integer)
  | bin {op l r pos lt rt} : HasType Γ l lt → HasType Γ r rt → binType op lt rt = none →
      Faulty Γ (.bin op l r pos) (.binaryOpType pos op.name lt rt)
  | operand {op e pos err} : Faulty Γ e err → Faulty Γ (.un op e pos) err
  | left {op l r pos err} : Faulty Γ l err → Faulty Γ (.bin op l r pos) err
  | right {op l r pos lt err} : HasType Γ l lt → Faulty Γ r err → Faulty Γ (.bin op l r pos) err
  | noArray {v pos args} : Γ.callable (symKey v.name) = none → nameRef Γ.locals Γ.shared v = .undefined →
      Faulty Γ (.call v pos args) (.undefinedSymbol pos v)
  | arrayType {v pos args} : Γ.callable (symKey v.name) = none → nameRef Γ.locals Γ.shared v = .wrongType →
      Faulty Γ (.call v pos args) (.incompatibleAnnotation pos v)
  | scalar {v pos args place t} : Γ.callable (symKey v.name) = none →
      nameRef Γ.locals Γ.shared v = .var place (.scalar t) → Faulty Γ (.call v pos args) (.notAFunction pos v)
  | dimensions {v pos args place t n} : Γ.callable (symKey v.name) = none →
      nameRef Γ.locals Γ.shared v = .var place (.array t n) → args.length ≠ n →
      Faulty Γ (.call v pos args) (.wrongSubscripts pos n args.length)
  | subscript {v pos args place t n err} : Γ.callable (symKey v.name) = none →
      nameRef Γ.locals Γ.shared v = .var place (.array t n) → args.length = n → FaultySubs Γ args err →
      Faulty Γ (.call v pos args) err

/-- What is wrong with a list of subscripts. -/
inductive FaultySubs (Γ : Env) : Args → CErr → Prop
  | expr {e sep pos rest err} : Faulty Γ e err → FaultySubs Γ (.cons e sep pos rest) err
  | type {e sep pos rest t} : HasType Γ e t → ¬ Converts t .integer →
      FaultySubs Γ (.cons e sep pos rest) (.notANumber e.startPos t)
  | rest {e sep pos rest t err} : HasType Γ e t → Converts t .integer → FaultySubs Γ rest err →
      FaultySubs Γ (.cons e sep pos rest) err
end

mutual
/-- No argument is left out.  The parser only allows that in the arguments of a call statement, so all
expressions are full. -/
def Full : Expr → Prop
  | .bool .. | .dbl .. | .int .. | .text .. | .sym .. => True
  | .un _ e _ => Full e
  | .bin _ l r _ => Full l ∧ Full r
  | .call _ _ args => FullArgs args

/-- No argument is left out of a list. -/
def FullArgs : Args → Prop
  | .nil => True
  | .skip .. => False
  | .cons e _ _ rest => Full e ∧ FullArgs rest
end

mutual
/-- The variable at that place occurs in the expression. -/
def Uses (Γ : Env) (place : Place) : Expr → Prop
  | .bool .. | .dbl .. | .int .. | .text .. => False
  | .sym v _ => ∃ p, nameRef Γ.locals Γ.shared v = .var place p
  | .un _ e _ => Uses Γ place e
  | .bin _ l r _ => Uses Γ place l ∨ Uses Γ place r
  | .call v _ args => (∃ p, nameRef Γ.locals Γ.shared v = .var place p) ∨ UsesArgs Γ place args

/-- It occurs in the arguments. -/
def UsesArgs (Γ : Env) (place : Place) : Args → Prop
  | .nil => False
  | .skip _ _ rest => UsesArgs Γ place rest
  | .cons e _ _ rest => Uses Γ place e ∨ UsesArgs Γ place rest
end

end EB.Spec
