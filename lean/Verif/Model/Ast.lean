import Verif.Model.Mem
import Verif.Model.Arith
/-!
# Abstract syntax

Models core/src/ast.rs.  Boxed span structures are constructor arguments here.
-/

namespace EB

/-- `VarRef` (core/src/ast.rs 259-269). -/
structure VarRef where
  name : Str
  ty : Option ExprType
  deriving DecidableEq, Repr

/-- `VarRef::accepts` (core/src/ast.rs 278-283). -/
def VarRef.accepts (v : VarRef) (other : ExprType) : Bool :=
  match v.ty with
  | none => true
  | some t => t == other

/-- `VarRef::accepts_callable` (core/src/ast.rs 286-294). -/
def VarRef.acceptsCallable (v : VarRef) (other : Option ExprType) : Bool :=
  match v.ty with
  | none => true
  | some t => match other with
    | some o => t == o
    | none => false

/-- The binary operators of `Expr` (core/src/ast.rs 96-154). -/
inductive SrcBin where
  | add | sub | mul | div | mod | pow
  | eq | ne | lt | le | gt | ge
  | and | or | xor | shl | shr
  deriving DecidableEq, Repr

/-- The unary operators of `Expr` (core/src/ast.rs 96-154). -/
inductive SrcUn where
  | neg | not
  deriving DecidableEq, Repr

mutual
/-- `Expr` (core/src/ast.rs 96-155).  Doubles are 64-bit patterns. -/
inductive Expr where
  | bool (v : Bool) (pos : LineCol)
  | dbl (bits : BitVec 64) (pos : LineCol)
  | int (v : I32) (pos : LineCol)
  | text (s : Str) (pos : LineCol)
  | sym (vref : VarRef) (pos : LineCol)
  | un (op : SrcUn) (e : Expr) (pos : LineCol)
  | bin (op : SrcBin) (l r : Expr) (pos : LineCol)
  | call (vref : VarRef) (pos : LineCol) (args : Args)

/-- `Vec<ArgSpan>` (core/src/ast.rs 395-409): `cons` is an argument with an expression, `skip` one
without. -/
inductive Args where
  | nil
  | cons (e : Expr) (sep : ArgSep) (sepPos : LineCol) (rest : Args)
  | skip (sep : ArgSep) (sepPos : LineCol) (rest : Args)
end

/-- `args.len()`. -/
def Args.length : Args → Nat
  | .nil => 0
  | .cons _ _ _ r => r.length + 1
  | .skip _ _ r => r.length + 1

/-- `Expr::start_pos` (core/src/ast.rs 158-194). -/
def Expr.startPos : Expr → LineCol
  | .bool _ p => p
  | .dbl _ p => p
  | .int _ p => p
  | .text _ p => p
  | .sym _ p => p
  | .un _ _ p => p
  | .bin _ l _ _ => l.startPos
  | .call _ p _ => p

/-- `DoGuard` (core/src/ast.rs 514-533). -/
inductive DoGuard where
  | infinite
  | preUntil (e : Expr)
  | preWhile (e : Expr)
  | postUntil (e : Expr)
  | postWhile (e : Expr)

/-- `CaseRelOp` (core/src/ast.rs 656-676). -/
inductive CaseRelOp where
  | eq | ne | lt | le | gt | ge
  deriving DecidableEq, Repr

/-- `CaseGuardSpan` (core/src/ast.rs 678-686). -/
inductive CaseGuard where
  | is (op : CaseRelOp) (e : Expr)
  | to (lo hi : Expr)

/-- `OnErrorSpan` (core/src/ast.rs 636-648). -/
inductive OnError where
  | goto (label : Str) (labelPos : LineCol) (pos : LineCol)
  | reset (pos : LineCol)
  | resumeNext (pos : LineCol)

mutual
/-- `Statement` (core/src/ast.rs 722-795) with the fields of its spans. -/
inductive Stmt where
  | arrayAssign (vref : VarRef) (pos : LineCol) (subs : List Expr) (e : Expr)
  | assign (vref : VarRef) (pos : LineCol) (e : Expr)
  | call (vref : VarRef) (pos : LineCol) (args : Args)
  | callable (name : VarRef) (namePos : LineCol) (params : List VarRef) (body : Stmts) (endPos : LineCol)
  | data (values : List (Option Expr))
  | declare (name : VarRef) (namePos : LineCol) (params : List VarRef)
  | dim (name : Str) (namePos : LineCol) (shared : Bool) (ty : ExprType)
  | dimArray (name : Str) (namePos : LineCol) (shared : Bool) (dims : List Expr) (ty : ExprType)
  | doLoop (guard : DoGuard) (body : Stmts)
  | «end» (code : Option Expr) (pos : LineCol)
  | exitDo (pos : LineCol)
  | exitFor (pos : LineCol)
  | exitFunction (pos : LineCol)
  | exitSub (pos : LineCol)
  | forLoop (iter : VarRef) (iterPos : LineCol) (iterDouble : Bool) (start stop next : Expr) (body : Stmts)
  | gosub (label : Str) (pos : LineCol)
  | goto (label : Str) (pos : LineCol)
  | ifs (branches : Branches)
  | label (name : Str) (pos : LineCol)
  | onError (o : OnError)
  | ret (pos : LineCol)
  | select (e : Expr) (cases : Cases) (endPos : LineCol)
  | whileLoop (e : Expr) (body : Stmts)

/-- `Vec<Statement>`. -/
inductive Stmts where
  | nil
  | cons (s : Stmt) (rest : Stmts)

/-- `Vec<IfBranchSpan>` (core/src/ast.rs 561-569). -/
inductive Branches where
  | nil
  | cons (guard : Expr) (body : Stmts) (rest : Branches)

/-- `Vec<CaseSpan>` (core/src/ast.rs 688-696). -/
inductive Cases where
  | nil
  | cons (guards : List CaseGuard) (body : Stmts) (rest : Cases)
end

/-- `branches.is_empty()`. -/
def Branches.isNil : Branches → Bool
  | .nil => true
  | .cons .. => false

/-- `cases.is_empty()`. -/
def Cases.isNil : Cases → Bool
  | .nil => true
  | .cons .. => false

/-- The statements as a list. -/
def Stmts.ofList : List Stmt → Stmts
  | [] => .nil
  | s :: ss => .cons s (Stmts.ofList ss)

/-- Subscripts as a list of arguments. -/
def Args.ofList : List Expr → Args
  | [] => .nil
  | e :: es => .cons e .long e.startPos (Args.ofList es)

end EB
