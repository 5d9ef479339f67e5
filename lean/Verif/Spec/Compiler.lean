import Verif.Model.CompStmt
import Mathlib.Data.List.Forall2
/-!
# Vocabulary for the properties of the compiler

What instructions refer to, the histories of a session, and where statements occur in a program.
-/

namespace EB

/-- The addresses an instruction may continue at, other than the next one. -/
def Instr.targets : Instr → List Nat
  | .call _ t => [t.toNat]
  | .gosub t => [t.toNat]
  | .jump t => [t.toNat]
  | .jumpIfFalse _ t => [t.toNat]
  | .setErrorHandler .jump t => [t.toNat]
  | _ => []

/-- The index of the constant that an instruction loads. -/
def Instr.constRefs : Instr → List Nat
  | .loadConst _ k => [k.toNat]
  | _ => []

/-- The index of the builtin that an instruction calls. -/
def Instr.upcallRefs : Instr → List Nat
  | .upcall k _ => [k.toNat]
  | .upcallAsync k _ => [k.toNat]
  | _ => []

namespace Spec

/-- One more chunk, accepted or not. -/
def After (src : Source) (s s' : Ctx × Image) : Prop := ∃ r, compileMore src s.1 s.2 = (r, s'.1, s'.2)

/-- Any number of later chunks. -/
inductive Later : Ctx × Image → Ctx × Image → Prop
  | refl (s : Ctx × Image) : Later s s
  | more {s s' s'' : Ctx × Image} {src : Source} : Later s s' → After src s' s'' → Later s s''

/-- The states of a session: a new compiler with any builtins and any predefined globals and an empty
image, and then any chunks of code, whether they compile or not. -/
def Reached (c : Ctx) (img : Image) : Prop :=
  ∃ upcalls defs c0, Compiler.new upcalls defs = .ok c0 ∧ Later (c0, .default) (c, img)

/-- Was the chunk accepted? -/
def accepted (src : Source) (s : Ctx × Image) : Bool :=
  match compileMore src s.1 s.2 with
  | (.ok _, _, _) => true
  | (.error _, _, _) => false

/-- A whole session. -/
def session : List Source → Ctx × Image → Ctx × Image
  | [], s => s
  | src :: srcs, s => session srcs (compileMore src s.1 s.2).2

/-- The chunks of a session that were accepted. -/
def acceptedChunks : List Source → Ctx × Image → List Source
  | [], _ => []
  | src :: srcs, s =>
    let rest := acceptedChunks srcs (compileMore src s.1 s.2).2
    if accepted src s then src :: rest else rest

/-- The bodies of the branches. -/
def branchBodies : Branches → List Stmts
  | .nil => []
  | .cons _ body rest => body :: branchBodies rest

/-- The bodies of the cases. -/
def caseBodies : Cases → List Stmts
  | .nil => []
  | .cons _ body rest => body :: caseBodies rest

/-- The blocks of a statement. -/
def blocks : Stmt → List Stmts
  | .callable _ _ _ body _ => [body]
  | .doLoop _ body => [body]
  | .forLoop _ _ _ _ _ _ body => [body]
  | .ifs bs => branchBodies bs
  | .select _ cs _ => caseBodies cs
  | .whileLoop _ body => [body]
  | _ => []

/-- `sub` is found in `ss`: it is `ss` from some statement on, or so inside of a block of `ss`. -/
inductive Sub (sub : Stmts) : Stmts → Prop
  | here : Sub sub sub
  | later {s : Stmt} {rest : Stmts} : Sub sub rest → Sub sub (.cons s rest)
  | inside {s : Stmt} {rest block : Stmts} : block ∈ blocks s → Sub sub block → Sub sub (.cons s rest)

/-- A jump out of a loop or a callable that is still to be filled in. -/
def Opened (c : Ctx) (i : Nat) : Prop :=
  (∃ l ∈ c.doExit, ∃ p ∈ l, p.1 = i) ∨ (∃ l ∈ c.forExit, ∃ p ∈ l, p.1 = i) ∨ ∃ p ∈ c.calExits, p.1 = i

/-- A placeholder that is still to be filled in. -/
def Pending (c : Ctx) (i : Nat) : Prop := Opened c i ∨ c.cg.fixups.get? i ≠ none

/-- The code of the statements `ss` is in the image from address `start` on: at every address the image has the
position that the compiler noted and, unless it is a placeholder that is filled in later, the instruction that it
emitted. -/
def Placed (ss : Stmts) (img : Image) (start : Nat) : Prop :=
  ∃ c1 c2 u, compileStmts ss c1 = .ok (u, c2) ∧ c1.cg.code.length = start ∧ c2.cg.code.length < img.code.length ∧
    ∀ i, start ≤ i → i < c2.cg.code.length →
      (img.instrs[i]?).map (·.linecol) = (c2.cg.instrs[i]?).map (·.linecol) ∧
      (¬ Pending c2 i → img.code[i]? = c2.cg.code[i]?)

/-! ## Names and scopes -/

/-- The two letters are the same, or the upper and lower case of one of the 26 letters. -/
def SameLetter (x y : Char) : Prop :=
  x = y ∨ ∃ n < 26, (x = Char.ofNat (65 + n) ∧ y = Char.ofNat (97 + n)) ∨ (x = Char.ofNat (97 + n) ∧ y = Char.ofNat (65 + n))

/-- Two spellings of a name. -/
def SameName (a b : Str) : Prop := List.Forall₂ SameLetter a b

/-- The declarations of a scope, in order. -/
abbrev Decls := List (Str × Proto)

/-- The declaration of a name: its position and what was declared. -/
def position (k : Str) : Decls → Option (Proto × Nat)
  | [] => none
  | (k', p) :: ds => if k' = k then some (p, 0) else (position k ds).map fun (p, n) => (p, n + 1)

/-- The table knows exactly these declarations, none of them twice. -/
structure Represents (t : IdMap Str Proto) (ds : Decls) : Prop where
  len : t.len = ds.length
  once : (ds.map (·.1)).Nodup
  get : ∀ k, t.get? k = position k ds

/-- Where a variable is kept: shared variables have registers 0 to 63, those of the current callable or
program have registers from 64 on. -/
inductive Place where
  | «local» (n : Nat)
  | shared (n : Nat)
  deriving DecidableEq, Repr

/-- The number of the register. -/
def Place.reg : Place → Nat
  | .local n => n + 64
  | .shared n => n

/-- What a name stands for. -/
inductive Resolved where
  | var (place : Place) (p : Proto)
  | wrongType
  | undefined
  deriving DecidableEq, Repr

/-- An annotation agrees with a type. -/
def Agrees (v : VarRef) (p : Proto) : Prop := v.ty = none ∨ v.ty = some p.ty

instance (v : VarRef) (p : Proto) : Decidable (Agrees v p) := inferInstanceAs (Decidable (_ ∨ _))

/-- The local scope first, then the shared variables. -/
def nameRef (locals shared : Decls) (v : VarRef) : Resolved :=
  match position (symKey v.name) locals with
  | some (p, n) => if Agrees v p then .var (.local n) p else .wrongType
  | none =>
    match position (symKey v.name) shared with
    | some (p, n) => if Agrees v p then .var (.shared n) p else .wrongType
    | none => .undefined

/-- What the specification says about a reference, as the result of a lookup. -/
def lookup (locals shared : Decls) (v : VarRef) : Except SymErr (Reg × Proto) :=
  match nameRef locals shared v with
  | .var place p => .ok (BitVec.ofNat 8 place.reg, p)
  | .wrongType => .error (.incompatibleAnnotation v)
  | .undefined => .error (.undefinedSymbol v)

/-- What may happen to the symbol tables of a scope. -/
inductive SymOp where
  | «local» (name : Str) (p : Proto)
  | shared (name : Str) (p : Proto)
  | retype (v : VarRef) (t : ExprType)

/-- One of them. -/
def SymOp.run (s : Syms) : SymOp → Except SymErr Syms
  | .local name p => (s.putLocal (symKey name) p).map (·.2)
  | .shared name p => (s.putGlobal (symKey name) p).map (·.2)
  | .retype v t => s.fixupLocalType v t

/-- A sequence of them. -/
def SymOp.runAll : List SymOp → Syms → Except SymErr Syms
  | [], s => .ok s
  | op :: ops, s => match op.run s with
    | .ok s' => runAll ops s'
    | .error e => .error e

end Spec
end EB
