import Verif.Model.Ast
import Verif.Model.Vm
import Verif.Model.Storage
/-!
# The code generator and the symbol tables

Models core/src/compiler/{ids,codegen,syms}.rs and the parts of core/src/callable.rs that describe
the syntax of a callable.
-/

namespace EB

/-! ## Errors -/

/-- `RegisterScope` (core/src/bytecode.rs, `enum RegisterScope`). -/
inductive RegScope where
  | «global» | «local» | temp
  deriving DecidableEq, Repr

/-- `compiler::Error` (core/src/compiler/mod.rs 44-144).  `callableSyntax` carries the name of the
callable instead of all its metadata; `panic` is a failed `expect`, `unwrap` or `unreachable!`. -/
inductive CErr where
  | alreadyDefined (pos : LineCol) (v : VarRef)
  | arrayUsedAsScalar (pos : LineCol) (v : VarRef)
  | binaryOpType (pos : LineCol) (op : String) (l r : ExprType)
  | callableSyntax (pos : LineCol) (name : Str)
  | cannotNest (pos : LineCol)
  | duplicateLabel (pos : LineCol) (name : Str)
  | incompatibleAnnotation (pos : LineCol) (v : VarRef)
  | incompatibleTypes (pos : LineCol) (actual expected : ExprType)
  | invalidEndCode (pos : LineCol)
  | io (pos : LineCol)
  | notAFunction (pos : LineCol) (v : VarRef)
  | misplacedExit (pos : LineCol) (what : String)
  | notAnArray (pos : LineCol) (v : VarRef)
  | notANumber (pos : LineCol) (t : ExprType)
  | outOfConstants (pos : LineCol)
  | outOfRegisters (pos : LineCol) (scope : RegScope)
  | outOfUpcalls (pos : LineCol)
  | parse (pos : LineCol) (msg : Str)
  | targetTooFar (pos : LineCol) (target : Nat)
  | tooManyDims (pos : LineCol) (n : Nat)
  | typeMismatch (pos : LineCol) (actual expected : ExprType)
  | undefinedSymbol (pos : LineCol) (v : VarRef)
  | unknownLabel (pos : LineCol) (name : Str)
  | wrongSubscripts (pos : LineCol) (expected actual : Nat)
  | panic
  deriving DecidableEq, Repr

/-! ## Sequencing -/

/-- A compiler function: `&mut σ` in, result or error and the new state out. -/
def CM (σ α : Type) := σ → Except CErr (α × σ)

namespace CM
variable {σ α β : Type}

/-- Rust sequencing with `?`. -/
def bind (x : CM σ α) (f : α → CM σ β) : CM σ β := fun s =>
  match x s with
  | .ok (a, s') => f a s'
  | .error e => .error e

/-- `Ok(a)` without effects. -/
def pure (a : α) : CM σ α := fun s => .ok (a, s)

instance : Monad (CM σ) where
  pure := CM.pure
  bind := CM.bind

/-- `return Err(e)`. -/
def throw (e : CErr) : CM σ α := fun _ => .error e

/-- `&mut self` read access. -/
def get : CM σ σ := fun s => .ok (s, s)

/-- An update of the state that cannot fail. -/
def modify (f : σ → σ) : CM σ Unit := fun s => .ok ((), f s)

/-- `x?` for a plain result. -/
def lift (x : Except CErr α) : CM σ α := fun s =>
  match x with
  | .ok a => .ok (a, s)
  | .error e => .error e

end CM

/-! ## Maps with identifiers -/

/-- `HashMapWithIds` (core/src/compiler/ids.rs 26-29).  The identifier type is given by its number
of values where it matters (`insert`). -/
structure IdMap (K V : Type) where
  map : FMap K (V × Nat)
  deriving DecidableEq, Repr

namespace IdMap
variable {K V : Type} [DecidableEq K]

/-- `HashMapWithIds::default` (core/src/compiler/ids.rs 31-35). -/
def empty : IdMap K V := ⟨[]⟩

/-- `HashMapWithIds::get` (core/src/compiler/ids.rs 46-48). -/
def get? (m : IdMap K V) (k : K) : Option (V × Nat) := m.map.get? k

/-- `HashMapWithIds::len` (core/src/compiler/ids.rs 84-86). -/
def len (m : IdMap K V) : Nat := m.map.length

/-- `HashMapWithIds::insert` (core/src/compiler/ids.rs 66-81); `limit` is the number of values of
the identifier type.  Returns the previous value, the identifier and the new map. -/
def insert (limit : Nat) (m : IdMap K V) (k : K) (v : V) : Option ((Option V × Nat) × IdMap K V) :=
  match m.map.get? k with
  | some (old, id) => some ((some old, id), ⟨m.map.insert k (v, id)⟩)
  | none => if m.map.length < limit then some ((none, m.map.length), ⟨m.map.insert k (v, m.map.length)⟩)
            else none

/-- `get_mut` followed by an assignment of the value (core/src/compiler/ids.rs 53-55). -/
def update (m : IdMap K V) (k : K) (v : V) : IdMap K V :=
  match m.map.get? k with
  | some (_, id) => ⟨m.map.insert k (v, id)⟩
  | none => m

/-- Insertion into a list sorted by identifier. -/
def insertById (e : K × V × Nat) : List (K × V × Nat) → List (K × V × Nat)
  | [] => [e]
  | f :: fs => if e.2.2 ≤ f.2.2 then e :: f :: fs else f :: insertById e fs

/-- `sort_by_key` on the identifiers (core/src/compiler/ids.rs 96).  The identifiers are distinct,
so the result does not depend on the sorting algorithm nor on the order of iteration. -/
def sortById (l : List (K × V × Nat)) : List (K × V × Nat) := l.foldr insertById []

/-- `keys_to_vec` (core/src/compiler/ids.rs 94-98). -/
def keys (m : IdMap K V) : List K := (sortById m.map).map (·.1)

/-- `keys_to_vec_from` (core/src/compiler/ids.rs 101-103). -/
def keysFrom (m : IdMap K V) (start : Nat) : List K := m.keys.drop start

end IdMap

/-! ## Callable metadata -/

/-- `ArgSepSyntax` (core/src/callable.rs 252-261). -/
inductive SepSyn where
  | exactly (sep : ArgSep)
  | oneOf (seps : List ArgSep)
  | «end»
  deriving DecidableEq, Repr

/-- `SingularArgSyntax` with its details structures (core/src/callable.rs 128-167, 241-248,
299-311). -/
inductive SingSyn where
  | reqValue (name : Str) (vtype : ExprType) (sep : SepSyn)
  | reqRef (name : Str) (requireArray defineUndefined : Bool) (sep : SepSyn)
  | optValue (name : Str) (vtype : ExprType) (sep : SepSyn)
  | anyValue (name : Str) (allowMissing : Bool) (sep : SepSyn)
  deriving DecidableEq, Repr

/-- `RepeatedTypeSyntax` (core/src/callable.rs 167-177). -/
inductive RepType where
  | anyValue
  | typed (vtype : ExprType)
  | varRef
  deriving DecidableEq, Repr

/-- `RepeatedSyntax` (core/src/callable.rs 183-199). -/
structure RepSyn where
  name : Str
  typeSyn : RepType
  sep : SepSyn
  requireOne : Bool
  allowMissing : Bool
  deriving DecidableEq, Repr

/-- `CallableSyntax` (core/src/callable.rs 321-327). -/
structure Syntax where
  singular : List SingSyn
  repeated : Option RepSyn
  deriving DecidableEq, Repr

/-- `CallableMetadata` (core/src/callable.rs 573-591).  The category only matters for being
"User defined"; descriptions are left out. -/
structure Md where
  name : Str
  returnType : Option ExprType
  isAsync : Bool
  syntaxes : List Syntax
  userDefined : Bool
  deriving DecidableEq, Repr

/-- `CallableSyntax::expected_nargs(..).contains(n)` (core/src/callable.rs 350-362). -/
def Syntax.accepts (s : Syntax) (n : Nat) : Bool :=
  match s.repeated with
  | none => n == s.singular.length
  | some r => decide (s.singular.length + (if r.requireOne then 1 else 0) ≤ n)

/-- `CallableMetadata::find_syntax` (core/src/callable.rs 673-686).  That more than one syntax
matches fails a debug assertion; here the first one is taken. -/
def Md.findSyntax (md : Md) (n : Nat) : Option Syntax := md.syntaxes.find? (·.accepts n)

/-- `CallableMetadata::is_argless` (core/src/callable.rs 704-706, 365-367). -/
def Md.isArgless (md : Md) : Bool :=
  match md.syntaxes with
  | [] => true
  | [s] => s.singular.isEmpty && s.repeated.isNone
  | _ => false

/-! ## Code generation -/

/-- `Fixup` (core/src/compiler/codegen.rs 34-46). -/
inductive Fixup where
  | call (reg : Reg) (key : Str)
  | gosub (label : Str)
  | goto (label : Str)
  | onErrorGoto (label : Str)
  deriving DecidableEq, Repr

/-- `Codegen` (core/src/compiler/codegen.rs 49-72).  Code is kept decoded. -/
structure Codegen where
  code : List Instr
  constants : IdMap ConstantDatum ExprType
  fixups : FMap Nat Fixup
  instrs : List InstrMeta
  labels : FMap Str Nat
  callables : FMap Str (Nat × Nat)
  upcalls : IdMap Str (Option ExprType)
  deriving DecidableEq, Repr

/-- `Codegen::default`. -/
def Codegen.empty : Codegen := ⟨[], .empty, [], [], [], [], .empty⟩

/-- `SymbolKey::from` (core/src/compiler/syms.rs 77-81). -/
def symKey (s : Str) : Str := s.map asciiUpper

/-- `u16::try_from(target)` with `Error::TargetTooFar` (core/src/compiler/codegen.rs 193-198 and the
same conversion throughout core/src/compiler/top.rs). -/
def mkTarget (target : Nat) (pos : LineCol) : Except CErr U16 :=
  if target < 65536 then .ok (BitVec.ofNat 16 target) else .error (.targetTooFar pos target)

namespace Codegen

/-- `Codegen::next_pc` (core/src/compiler/codegen.rs 76-78). -/
def nextPc (g : Codegen) : Nat := g.code.length

/-- The state change of `Codegen::emit` (core/src/compiler/codegen.rs 81-89). -/
def push (g : Codegen) (i : Instr) (pos : LineCol) : Codegen :=
  { g with code := g.code ++ [i], instrs := g.instrs ++ [⟨pos, false, []⟩] }

/-- `Codegen::mark_statement_start` (core/src/compiler/codegen.rs 92-94). -/
def markStmt (g : Codegen) (addr : Nat) : Codegen :=
  { g with instrs := g.instrs.modify addr fun m => { m with isStmtStart := true } }

/-- `Codegen::set_arg_linecols` (core/src/compiler/codegen.rs 101-103). -/
def setArgs (g : Codegen) (addr : Nat) (lcs : List LineCol) : Codegen :=
  { g with instrs := g.instrs.modify addr fun m => { m with argLinecols := lcs } }

/-- `Codegen::pop_eof` (core/src/compiler/codegen.rs 106-111). -/
def popEof (g : Codegen) : Codegen :=
  { g with code := g.code.dropLast, instrs := g.instrs.dropLast }

/-- `Codegen::patch` (core/src/compiler/codegen.rs 158-160). -/
def patch (g : Codegen) (addr : Nat) (i : Instr) : Codegen := { g with code := g.code.set addr i }

/-- `Codegen::add_fixup` (core/src/compiler/codegen.rs 163-166). -/
def addFixup (g : Codegen) (addr : Nat) (f : Fixup) : Codegen :=
  { g with fixups := g.fixups.insert addr f }

/-- `Codegen::define_user_callable` (core/src/compiler/codegen.rs 183-185). -/
def defineCallable (g : Codegen) (key : Str) (start stop : Nat) : Codegen :=
  { g with callables := g.callables.insert key (start, stop) }

/-- One step of `Codegen::apply_fixups` (core/src/compiler/codegen.rs 202-236): the instruction that
replaces the placeholder. -/
def fixupInstr (g : Codegen) (pos : LineCol) : Fixup → Except CErr Instr
  | .call reg key =>
    match g.callables.get? key with
    | none => .error .panic
    | some (target, _) =>
      match mkTarget target pos with
      | .ok t => .ok (.call reg t)
      | .error e => .error e
  | .gosub label =>
    match g.labels.get? (symKey label) with
    | none => .error (.unknownLabel pos label)
    | some target =>
      match mkTarget target pos with
      | .ok t => .ok (.gosub t)
      | .error e => .error e
  | .goto label =>
    match g.labels.get? (symKey label) with
    | none => .error (.unknownLabel pos label)
    | some target =>
      match mkTarget target pos with
      | .ok t => .ok (.jump t)
      | .error e => .error e
  | .onErrorGoto label =>
    match g.labels.get? (symKey label) with
    | none => .error (.unknownLabel pos label)
    | some target =>
      match mkTarget target pos with
      | .ok t => .ok (.setErrorHandler .jump t)
      | .error e => .error e

/-- `Codegen::apply_fixups` (core/src/compiler/codegen.rs 201-239).  The order of iteration over the
hash map only decides which error is reported if there are several. -/
def applyFixups (g : Codegen) : FMap Nat Fixup → Except CErr (List Instr)
  | [] => .ok g.code
  | (addr, f) :: fs =>
    match g.instrs[addr]? with
    | none => .error .panic
    | some m =>
      match g.fixupInstr m.linecol f with
      | .error e => .error e
      | .ok i =>
        match g.applyFixups fs with
        | .error e => .error e
        | .ok code => .ok (code.set addr i)

end Codegen

/-- Functions that emit code. -/
abbrev CG := CM Codegen

/-- `Codegen::emit` (core/src/compiler/codegen.rs 81-89): returns the address. -/
def emit (i : Instr) (pos : LineCol) : CG Nat := fun g => .ok (g.code.length, g.push i pos)

/-- `Codegen::get_constant` (core/src/compiler/codegen.rs 169-180). -/
def getConstant (c : ConstantDatum) (pos : LineCol) : CG U16 := fun g =>
  match g.constants.get? c with
  | some (_, id) => .ok (BitVec.ofNat 16 id, g)
  | none =>
    match g.constants.insert 65536 c c.etype with
    | some ((_, id), m) => .ok (BitVec.ofNat 16 id, { g with constants := m })
    | none => .error (.outOfConstants pos)

/-- `Codegen::get_upcall` (core/src/compiler/codegen.rs 242-254). -/
def getUpcall (key : Str) (ret : Option ExprType) (pos : LineCol) : CG U16 := fun g =>
  match g.upcalls.get? key with
  | some (_, id) => .ok (BitVec.ofNat 16 id, g)
  | none =>
    match g.upcalls.insert 65536 key ret with
    | some ((_, id), m) => .ok (BitVec.ofNat 16 id, { g with upcalls := m })
    | none => .error (.outOfUpcalls pos)

/-- `Codegen::emit_default` (core/src/compiler/codegen.rs 114-122). -/
def emitDefault (reg : Reg) (vtype : ExprType) (pos : LineCol) : CG Unit := do
  let _ ← match vtype with
    | .text => emit (.alloc reg .text) pos
    | _ => emit (.loadInt reg 0#16) pos

/-- `Codegen::emit_value` (core/src/compiler/codegen.rs 125-157). -/
def emitValue (reg : Reg) (d : ConstantDatum) (pos : LineCol) : CG Unit :=
  match d with
  | .boolean b => do let _ ← emit (.loadInt reg (if b then 1#16 else 0#16)) pos
  | .integer i =>
    if 0 ≤ i.toInt ∧ i.toInt < 65536 then do
      let _ ← emit (.loadInt reg (BitVec.ofInt 16 i.toInt)) pos
    else do
      let idx ← getConstant (.integer i) pos
      let _ ← emit (.loadConst reg idx) pos
  | .double b => do
    let idx ← getConstant (.double b) pos
    let _ ← emit (.loadConst reg idx) pos
  | .text s => do
    let idx ← getConstant (.text s) pos
    let _ ← emit (.loadInt reg idx) pos

/-! ## Symbol tables -/

/-- `SymbolPrototype` with `ArrayInfo` (core/src/compiler/syms.rs 33-49). -/
inductive Proto where
  | array (subtype : ExprType) (ndims : Nat)
  | scalar (ty : ExprType)
  deriving DecidableEq, Repr

/-- The element type of a prototype. -/
def Proto.ty : Proto → ExprType
  | .array t _ => t
  | .scalar t => t

/-- `syms::Error` (core/src/compiler/syms.rs 54-66). -/
inductive SymErr where
  | alreadyDefined (v : VarRef)
  | incompatibleAnnotation (v : VarRef)
  | outOfRegisters (scope : RegScope)
  | undefinedSymbol (v : VarRef)
  | panic
  deriving DecidableEq, Repr

/-- `Error::from_syms` (core/src/compiler/mod.rs 188-197). -/
def SymErr.at (e : SymErr) (pos : LineCol) : CErr :=
  match e with
  | .alreadyDefined v => .alreadyDefined pos v
  | .incompatibleAnnotation v => .incompatibleAnnotation pos v
  | .outOfRegisters s => .outOfRegisters pos s
  | .undefinedSymbol v => .undefinedSymbol pos v
  | .panic => .panic

/-- `GlobalSymtable` together with the locals of a `LocalSymtable`
(core/src/compiler/syms.rs 151-162, 241-256).  `count_temps` is never read by the compiler and is
left out; `active_temps` is 0 outside of `with_reserved_temp` and is a parameter where it matters. -/
structure Syms where
  globals : IdMap Str Proto
  upcalls : FMap Str Md
  user : FMap Str Md
  locals : IdMap Str Proto
  deriving DecidableEq, Repr

/-- `Register::local` on a number (core/src/bytecode.rs 184-189), including the conversion to `u8`. -/
def mkLocal (n : Nat) : Option Reg := if n < 256 then regLocal (BitVec.ofNat 8 n) else none

/-- `Register::global` on a number (core/src/bytecode.rs 178-180), including the conversion to
`u8`. -/
def mkGlobal (n : Nat) : Option Reg := if n < 256 then regGlobal (BitVec.ofNat 8 n) else none

/-- `get_var` (core/src/compiler/syms.rs 90-121). -/
def getVar (v : VarRef) (t : IdMap Str Proto) (mk : Nat → Option Reg) (scope : RegScope) :
    Except SymErr (Reg × Proto) :=
  match t.get? (symKey v.name) with
  | some (p, id) =>
    if !v.accepts p.ty then .error (.incompatibleAnnotation v)
    else match mk id with
      | some r => .ok (r, p)
      | none => .error (.outOfRegisters scope)
  | none => .error (.undefinedSymbol v)

/-- `put_var` (core/src/compiler/syms.rs 126-147). -/
def putVar (key : Str) (p : Proto) (t : IdMap Str Proto) (mk : Nat → Option Reg) (scope : RegScope) :
    Except SymErr (Reg × IdMap Str Proto) :=
  match t.insert 256 key p with
  | some ((none, id), t') =>
    match mk id with
    | some r => .ok (r, t')
    | none => .error (.outOfRegisters scope)
  | some ((some _, _), _) => .error .panic
  | none => .error (.outOfRegisters scope)

namespace Syms

/-- `get_local_or_global` (core/src/compiler/syms.rs 361-367, 175-177). -/
def getVar (s : Syms) (v : VarRef) : Except SymErr (Reg × Proto) :=
  match EB.getVar v s.locals mkLocal .local with
  | .ok r => .ok r
  | .error (.undefinedSymbol _) => EB.getVar v s.globals mkGlobal .global
  | .error e => .error e

/-- `put_local` (core/src/compiler/syms.rs 375-377). -/
def putLocal (s : Syms) (key : Str) (p : Proto) : Except SymErr (Reg × Syms) :=
  match putVar key p s.locals mkLocal .local with
  | .ok (r, t) => .ok (r, { s with locals := t })
  | .error e => .error e

/-- `put_global` (core/src/compiler/syms.rs 180-186). -/
def putGlobal (s : Syms) (key : Str) (p : Proto) : Except SymErr (Reg × Syms) :=
  match putVar key p s.globals mkGlobal .global with
  | .ok (r, t) => .ok (r, { s with globals := t })
  | .error e => .error e

/-- `get_callable` (core/src/compiler/syms.rs 218-220). -/
def getCallable (s : Syms) (key : Str) : Option Md :=
  match s.user.get? key with
  | some md => some md
  | none => s.upcalls.get? key

/-- `declare_user_callable` (core/src/compiler/syms.rs 201-215). -/
def declareCallable (s : Syms) (v : VarRef) (md : Md) : Except SymErr Syms :=
  if (s.globals.get? (symKey v.name)).isSome then .error (.alreadyDefined v)
  else match s.user.get? (symKey v.name) with
    | some prev =>
      if prev ≠ md then .error (.alreadyDefined v)
      else .ok { s with user := s.user.insert (symKey v.name) md }
    | none => .ok { s with user := s.user.insert (symKey v.name) md }

/-- `fixup_local_type` (core/src/compiler/syms.rs 407-420). -/
def fixupLocalType (s : Syms) (v : VarRef) (ty : ExprType) : Except SymErr Syms :=
  match s.locals.get? (symKey v.name) with
  | some (.scalar _, _) => .ok { s with locals := s.locals.update (symKey v.name) (.scalar ty) }
  | _ => .error (.undefinedSymbol v)

/-- The number of locals. -/
def nlocals (s : Syms) : Nat := s.locals.len

end Syms

/-- `TempScope::alloc` (core/src/compiler/syms.rs 520-548): the register of temporary number `temp`.
The caller keeps the count: the next temporary is `temp + 1`. -/
def allocTemp (s : Syms) (temp : Nat) (pos : LineCol) : Except CErr Reg :=
  if temp < 255 then
    match mkLocal (s.nlocals + temp) with
    | some r => .ok r
    | none => .error (.outOfRegisters pos .temp)
  else .error (.outOfRegisters pos .temp)

/-- `TempScope::first` (core/src/compiler/syms.rs 513-517). -/
def firstTemp (s : Syms) (base : Nat) (pos : LineCol) : Except CErr Reg :=
  match mkLocal (s.nlocals + base) with
  | some r => .ok r
  | none => .error (.outOfRegisters pos .temp)

end EB
