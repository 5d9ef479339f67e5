import Verif.Model.CompExpr
/-!
# Compilation of statements and programs

Models core/src/compiler/top.rs, core/src/compiler/mod.rs and `Image::append`
(core/src/image.rs 237-254).
-/

namespace EB

/-- `CallableKind` (core/src/compiler/top.rs 46-54). -/
inductive CallableKind where
  | function | sub
  deriving DecidableEq, Repr

/-- `Context` (core/src/compiler/top.rs 60-82) together with the symbol table that the compilation
functions receive beside it.  The exit stacks have the innermost loop first. -/
structure Ctx where
  cg : Codegen
  data : List (Option ConstantDatum)
  doExit : List (List (Nat × LineCol))
  forExit : List (List (Nat × LineCol))
  cur : Option CallableKind
  defined : List Str
  calExits : List (Nat × LineCol)
  sy : Syms
  deriving DecidableEq, Repr

/-- Functions that compile statements. -/
abbrev CS := CM Ctx

/-- Runs a code generation function on `ctx.codegen`. -/
def onCg {α : Type} (x : CG α) : CS α := fun c =>
  match x c.cg with
  | .ok (a, g) => .ok (a, { c with cg := g })
  | .error e => .error e

/-- `ctx.codegen.next_pc()`. -/
def pcNow : CS Nat := fun c => .ok (c.cg.code.length, c)

/-- `ctx.codegen.patch(addr, op)`. -/
def patchS (addr : Nat) (i : Instr) : CS Unit := CM.modify fun c => { c with cg := c.cg.patch addr i }

/-- Patches placeholder `addr` with a jump to `target` (core/src/compiler/top.rs, throughout). -/
def patchJump (addr target : Nat) (pos : LineCol) : CS Unit := do
  let t ← CM.lift (mkTarget target pos)
  patchS addr (.jump t)

/-- Patches placeholder `addr` with a conditional jump to `target`. -/
def patchJumpIfFalse (addr : Nat) (cond : Reg) (target : Nat) (pos : LineCol) : CS Unit := do
  let t ← CM.lift (mkTarget target pos)
  patchS addr (.jumpIfFalse cond t)

/-- `emit(make_jump(target))`. -/
def emitJump (target : Nat) (pos : LineCol) : CS Unit := do
  let t ← CM.lift (mkTarget target pos)
  let _ ← onCg (emit (.jump t) pos)

/-- Patches a list of placeholders with jumps to `target`. -/
def patchJumps (target : Nat) : List (Nat × LineCol) → CS Unit
  | [] => pure ()
  | (addr, pos) :: rest => do
    patchJump addr target pos
    patchJumps target rest

/-- `symtable.put_local(..)` with the error at `pos`. -/
def putLocalS (key : Str) (p : Proto) (pos : LineCol) : CS Reg := fun c =>
  match c.sy.putLocal key p with
  | .ok (r, sy) => .ok (r, { c with sy := sy })
  | .error e => .error (e.at pos)

/-- `symtable.put_global(..)` with the error at `pos`. -/
def putGlobalS (key : Str) (p : Proto) (pos : LineCol) : CS Reg := fun c =>
  match c.sy.putGlobal key p with
  | .ok (r, sy) => .ok (r, { c with sy := sy })
  | .error e => .error (e.at pos)

/-- Runs a code generation function that reads the symbol table. -/
def withSyms {α : Type} (f : Syms → CG α) : CS α := fun c =>
  match f c.sy c.cg with
  | .ok (a, g) => .ok (a, { c with cg := g })
  | .error e => .error e

/-- `data_expr_to_constant` (core/src/compiler/top.rs 85-93). -/
def dataConst : Expr → Except CErr ConstantDatum
  | .bool b _ => .ok (.boolean b)
  | .dbl b _ => .ok (.double b)
  | .int i _ => .ok (.integer i)
  | .text s _ => .ok (.text s)
  | _ => .error .panic

/-- The values of a `DATA` statement (core/src/compiler/top.rs 857-859). -/
def dataConsts : List (Option Expr) → Except CErr (List (Option ConstantDatum))
  | [] => .ok []
  | none :: rest => match dataConsts rest with
    | .ok ds => .ok (none :: ds)
    | .error e => .error e
  | some e :: rest => match dataConst e with
    | .error e => .error e
    | .ok d => match dataConsts rest with
      | .ok ds => .ok (some d :: ds)
      | .error e => .error e

/-- `static_end_code` (core/src/compiler/top.rs 96-107). -/
def staticEndCode : Expr → Option (I32 × LineCol)
  | .int v pos => some (v, pos)
  | .un .neg (.int v _) pos =>
    match checkedNeg v with
    | .ok n => some (n, pos)
    | .error _ => none
  | _ => none

mutual
/-- `expr_references_symbol` (core/src/compiler/top.rs 110-157); the order of the explicit stack does
not matter for the result. -/
def refersTo (key : Str) : Expr → Bool
  | .bool .. | .dbl .. | .int .. | .text .. => false
  | .sym v _ => symKey v.name == key
  | .un _ e _ => refersTo key e
  | .bin _ l r _ => refersTo key l || refersTo key r
  | .call _ _ args => refersToArgs key args

/-- `expr_references_symbol` on the arguments of a call (core/src/compiler/top.rs 126-132). -/
def refersToArgs (key : Str) : Args → Bool
  | .nil => false
  | .cons e _ _ rest => refersTo key e || refersToArgs key rest
  | .skip _ _ rest => refersToArgs key rest
end

/-- The destination of an assignment (core/src/compiler/top.rs 167-192): its register, its type if it
is known, and whether it was defined before. -/
def assignDest (v : VarRef) (pos : LineCol) : CS (Reg × Option ExprType × Bool) := fun c =>
  match c.sy.getVar v with
  | .ok (_, .array ..) => .error (.arrayUsedAsScalar pos v)
  | .ok (reg, .scalar t) => .ok ((reg, some t, true), c)
  | .error (.undefinedSymbol _) =>
    match c.sy.getCallable (symKey v.name) with
    | some _ => .error (.alreadyDefined pos v)
    | none =>
      match c.sy.putLocal (symKey v.name) (.scalar (v.ty.getD .integer)) with
      | .ok (reg, sy) => .ok ((reg, v.ty, false), { c with sy := sy })
      | .error e => .error (e.at pos)
  | .error e => .error (e.at pos)

/-- The change of a type mismatch into an assignment error (core/src/compiler/top.rs 211-216). -/
def assignErr {α : Type} (x : CS α) : CS α := fun c =>
  match x c with
  | .error (.typeMismatch pos a e) => .error (.incompatibleTypes pos a e)
  | r => r

/-- `fixup_local_type` with the error at `pos`. -/
def fixupTypeS (v : VarRef) (t : ExprType) (pos : LineCol) : CS Unit := fun c =>
  match c.sy.fixupLocalType v t with
  | .ok sy => .ok ((), { c with sy := sy })
  | .error e => .error (e.at pos)

/-- `compile_assignment` (core/src/compiler/top.rs 160-224). -/
def compileAssign (v : VarRef) (pos : LineCol) (e : Expr) : CS Unit := do
  let (reg, etype, wasDefined) ← assignDest v pos
  match etype with
  | some t =>
    if wasDefined && refersTo (symKey v.name) e then
      assignErr (withSyms fun sy => do
        let temp ← CM.lift (allocTemp sy 0 pos)
        compileExprAs sy e 1 temp t
        let _ ← emit (.move reg temp) pos)
    else assignErr (withSyms fun sy => compileExprAs sy e 0 reg t)
  | none =>
    let t ← withSyms fun sy => compileExpr sy e 0 reg
    fixupTypeS v t pos

/-- `case_relop_name` (core/src/compiler/top.rs 227-236). -/
def CaseRelOp.name : CaseRelOp → String
  | .eq => "=" | .ne => "<>" | .lt => "<" | .le => "<=" | .gt => ">" | .ge => ">="

/-- `case_relop_instr` (core/src/compiler/top.rs 239-279). -/
def CaseRelOp.instr : CaseRelOp → ExprType → Option BinOp
  | .eq, .boolean => some .eqB
  | .ne, .boolean => some .neB
  | _, .boolean => none
  | .eq, .double => some .eqD | .ne, .double => some .neD | .lt, .double => some .ltD
  | .le, .double => some .leD | .gt, .double => some .gtD | .ge, .double => some .geD
  | .eq, .integer => some .eqI | .ne, .integer => some .neI | .lt, .integer => some .ltI
  | .le, .integer => some .leI | .gt, .integer => some .gtI | .ge, .integer => some .geI
  | .eq, .text => some .eqS | .ne, .text => some .neS | .lt, .text => some .ltS
  | .le, .text => some .leS | .gt, .text => some .gtS | .ge, .text => some .geS

/-- `compile_case_relop` (core/src/compiler/top.rs 282-316). -/
def compileCaseRelop (pos : LineCol) (test : Reg) (testTy : ExprType) (rhs : Reg) (rhsTy : ExprType)
    (op : CaseRelOp) (dest : Reg) : CG Unit := do
  let opcode ← match testTy, rhsTy with
    | .double, .integer => do
      let _ ← emit (.un .itod rhs) pos
      pure (op.instr .double)
    | .integer, .double => do
      let _ ← emit (.un .itod test) pos
      pure (op.instr .double)
    | l, r => pure (if l = r then op.instr l else none)
  match opcode with
  | some o => do let _ ← emit (.bin o dest test rhs) pos
  | none => CM.throw (.binaryOpType pos op.name testTy rhsTy)

/-- `compile_case_guard` (core/src/compiler/top.rs 319-389); `nt` is the first free temporary. -/
def compileGuard (sy : Syms) (nt : Nat) (test : Reg) (testTy : ExprType) : CaseGuard → CG (Reg × LineCol)
  | .is op e => do
    let pos := e.startPos
    let lhs ← CM.lift (allocTemp sy nt pos)
    let rhs ← CM.lift (allocTemp sy (nt + 1) pos)
    let cond ← CM.lift (allocTemp sy (nt + 2) pos)
    let _ ← emit (.move lhs test) pos
    let rhsTy ← compileExpr sy e (nt + 3) rhs
    compileCaseRelop pos lhs testTy rhs rhsTy op cond
    pure (cond, pos)
  | .to lo hi => do
    let pos := lo.startPos
    let lhsFrom ← CM.lift (allocTemp sy nt pos)
    let rhsFrom ← CM.lift (allocTemp sy (nt + 1) pos)
    let condFrom ← CM.lift (allocTemp sy (nt + 2) pos)
    let lhsTo ← CM.lift (allocTemp sy (nt + 3) pos)
    let rhsTo ← CM.lift (allocTemp sy (nt + 4) pos)
    let condTo ← CM.lift (allocTemp sy (nt + 5) pos)
    let cond ← CM.lift (allocTemp sy (nt + 6) pos)
    let _ ← emit (.move lhsFrom test) pos
    let fromTy ← compileExpr sy lo (nt + 7) rhsFrom
    compileCaseRelop pos lhsFrom testTy rhsFrom fromTy .ge condFrom
    let _ ← emit (.move lhsTo test) pos
    let toTy ← compileExpr sy hi (nt + 7) rhsTo
    compileCaseRelop pos lhsTo testTy rhsTo toTy .le condTo
    let _ ← emit (.bin .bitAnd cond condFrom condTo) pos
    pure (cond, pos)

/-- The guards of one `CASE` (core/src/compiler/top.rs 435-449): each one jumps to the body, whose
address is patched later, or goes on with the next guard. -/
def compileGuards (test : Reg) (testTy : ExprType) : List CaseGuard → CS (List (Nat × LineCol))
  | [] => pure []
  | g :: gs => do
    let (cond, pos) ← withSyms fun sy => compileGuard sy 1 test testTy g
    let next ← onCg (emit .nop pos)
    let body ← onCg (emit .nop pos)
    let here ← pcNow
    patchJumpIfFalse next cond here pos
    let rest ← compileGuards test testTy gs
    pure ((body, pos) :: rest)

/-- The dispatch part of `compile_select` (core/src/compiler/top.rs 418-460): the jumps to each body
and the pending jump to the next case. -/
def compileDispatch (test : Reg) (testTy : ExprType) (endPos : LineCol) :
    Cases → Option Nat → CS (List (List (Nat × LineCol)) × Option Nat)
  | .nil, pending => pure ([], pending)
  | .cons guards _ rest, pending => do
    let here ← pcNow
    match pending with
    | some p => patchJump p here endPos
    | none => pure ()
    match guards with
    | [] =>
      let body ← onCg (emit .nop endPos)
      let (jumps, pending') ← compileDispatch test testTy endPos rest none
      pure ([(body, endPos)] :: jumps, pending')
    | guards =>
      let body ← compileGuards test testTy guards
      let next ← onCg (emit .nop endPos)
      let (jumps, pending') ← compileDispatch test testTy endPos rest (some next)
      pure (body :: jumps, pending')

/-- `compile_guard` of `compile_do`, and the guards of `WHILE`, `IF` and `FOR`
(core/src/compiler/top.rs 497-509, 636-643, 687-699, 736-743). -/
def compileCond (e : Expr) : CS Reg :=
  withSyms fun sy => do
    let reg ← CM.lift (allocTemp sy 0 e.startPos)
    compileExprAs sy e 1 reg .boolean
    pure reg

/-- The syntax that `declare_callable` builds for parameters (core/src/compiler/top.rs 1091-1105). -/
def paramSyntax : List VarRef → List SingSyn
  | [] => []
  | [p] => [.reqValue p.name (p.ty.getD .integer) .end]
  | p :: ps => .reqValue p.name (p.ty.getD .integer) (.exactly .long) :: paramSyntax ps

/-- The metadata that `declare_callable` builds (core/src/compiler/top.rs 1091-1111,
core/src/callable.rs 466-475). -/
def userMd (name : VarRef) (params : List VarRef) : Md :=
  ⟨symKey name.name, name.ty, false, [⟨paramSyntax params, none⟩], true⟩

/-- `declare_callable` (core/src/compiler/top.rs 1085-1114). -/
def declareCallable (name : VarRef) (pos : LineCol) (params : List VarRef) : CS Unit := fun c =>
  match c.sy.declareCallable name (userMd name params) with
  | .ok sy => .ok ((), { c with sy := sy })
  | .error e => .error (e.at pos)

/-- `put_local` for each parameter (core/src/compiler/top.rs 1160-1168). -/
def putParams (pos : LineCol) : List VarRef → CS Unit
  | [] => pure ()
  | p :: ps => do
    let _ ← putLocalS (symKey p.name) (.scalar (p.ty.getD .integer)) pos
    putParams pos ps

/-- `define_new_arg` (core/src/compiler/args.rs 98-111). -/
def defineNewArg (v : VarRef) (pos : LineCol) : CS Unit := do
  let t := v.ty.getD .integer
  let reg ← putLocalS (symKey v.name) (.scalar t) pos
  onCg (emitDefault reg t pos)

/-- Defines the variable of an output argument unless it exists already
(core/src/compiler/args.rs 135-147, 162-178). -/
def defineIfNew (v : VarRef) (pos : LineCol) : CS Unit := fun c =>
  match c.sy.getVar v with
  | .error (.undefinedSymbol _) =>
    match c.sy.getCallable (symKey v.name) with
    | some _ => .ok ((), c)
    | none => defineNewArg v pos c
  | _ => .ok ((), c)

/-- Whether the repeated arguments are references (core/src/compiler/args.rs 158). -/
def repIsRef : Option RepSyn → Bool
  | some r => r.typeSyn == .varRef
  | none => false

/-- `define_new_args` (core/src/compiler/args.rs 114-182) from the singular arguments `syns` on. -/
def defineNewArgs (rep : Option RepSyn) : List SingSyn → Args → CS Unit
  | .reqValue .. :: _, .nil => CM.throw .panic
  | .reqRef .. :: _, .nil => CM.throw .panic
  | _, .nil => pure ()
  | .reqRef _ _ true _ :: syns, .cons (.sym v pos) _ _ rest => do
    defineIfNew v pos
    defineNewArgs rep syns rest
  | _ :: syns, .cons _ _ _ rest => defineNewArgs rep syns rest
  | _ :: syns, .skip _ _ rest => defineNewArgs rep syns rest
  | [], .cons (.sym v pos) _ _ rest => do
    if repIsRef rep then defineIfNew v pos else pure ()
    defineNewArgs rep [] rest
  | [], .cons _ _ _ rest => defineNewArgs rep [] rest
  | [], .skip _ _ rest => defineNewArgs rep [] rest

/-- A command call (core/src/compiler/top.rs 806-840). -/
def compileCallStmt (v : VarRef) (pos : LineCol) (args : Args) : CS Unit := fun c =>
  match c.sy.getCallable (symKey v.name) with
  | none => .error (.undefinedSymbol pos v)
  | some md =>
    if md.returnType.isSome then .error (.notAFunction pos v)
    else match md.findSyntax args.length with
      | none => .error (.callableSyntax pos md.name)
      | some syn =>
        (do
          defineNewArgs syn.repeated syn.singular args
          withSyms fun sy => do
            let (first, lcs) ← compileArgs sy md pos args 0
            emitCall md (symKey v.name) none first lcs pos : CS Unit) c

/-- `DIM` of a scalar or an array up to the register
(core/src/compiler/top.rs 870-897, 904-931). -/
def dimVar (name : Str) (pos : LineCol) (shared : Bool) (p : Proto) : CS Reg := fun c =>
  match c.sy.getCallable (symKey name) with
  | some _ => .error (.alreadyDefined pos ⟨name, none⟩)
  | none =>
    if shared then
      match c.sy.globals.get? (symKey name) with
      | some _ => .error (.alreadyDefined pos ⟨name, none⟩)
      | none => putGlobalS (symKey name) p pos c
    else
      match c.sy.locals.get? (symKey name) with
      | some _ => .error (.alreadyDefined pos ⟨name, none⟩)
      | none => putLocalS (symKey name) p pos c

/-- An array assignment (core/src/compiler/top.rs 769-800). -/
def compileArrayAssign (v : VarRef) (pos : LineCol) (subs : List Expr) (e : Expr) : CS Unit :=
  withSyms fun sy =>
    match sy.getVar v with
    | .ok (arr, .array subtype ndims) => do
      if subs.length ≠ ndims then CM.throw (.wrongSubscripts pos ndims subs.length)
      else
        let val ← CM.lift (allocTemp sy 0 pos)
        compileExprAs sy e 1 val subtype
        compileSubs sy (Args.ofList subs) 1 pos
        let first ← CM.lift (firstTemp sy 1 pos)
        let _ ← emit (.storeArray arr val first) pos
    | .ok (_, .scalar _) => CM.throw (.notAnArray pos v)
    | .error (.undefinedSymbol _) => CM.throw (.notAnArray pos v)
    | .error e => CM.throw (e.at pos)

/-- `DIM` of an array (core/src/compiler/top.rs 900-948). -/
def compileDimArray (name : Str) (pos : LineCol) (shared : Bool) (dims : List Expr) (ty : ExprType) :
    CS Unit := do
  let reg ← dimVar name pos shared (.array ty dims.length)
  withSyms fun sy => do
    compileSubs sy (Args.ofList dims) 0 pos
    let first ← CM.lift (firstTemp sy 0 pos)
    match dims, PackedArrayType.new ty dims.length with
    | [], _ => CM.throw .panic
    | _, some packed => do let _ ← emit (.allocArray reg packed first) pos
    | _, none => CM.throw (.tooManyDims pos dims.length)

/-- `END` (core/src/compiler/top.rs 954-983). -/
def compileEnd (code : Option Expr) (pos : LineCol) : CS Unit := do
  match code.bind staticEndCode with
  | some (v, vpos) =>
    if (exitCodeTryNew v.toInt).isNone then CM.throw (.invalidEndCode vpos) else pure ()
  | none => pure ()
  withSyms fun sy => do
    let reg ← CM.lift (allocTemp sy 0 pos)
    match code with
    | some e => compileExprAs sy e 1 reg .integer
    | none => do let _ ← emit (.loadInt reg 0#16) pos
    let _ ← emit (.end reg) pos

/-- The implicit definition of a `FOR` iterator of type double (core/src/compiler/top.rs 607-629). -/
def forIter (v : VarRef) (pos : LineCol) (double : Bool) : CS Unit := fun c =>
  if double && v.ty.isNone then
    match c.sy.getVar v with
    | .ok _ => .ok ((), c)
    | .error (.undefinedSymbol _) =>
      match c.sy.getCallable (symKey v.name) with
      | some _ => .error (.alreadyDefined pos v)
      | none => (do let _ ← putLocalS (symKey v.name) (.scalar .double) pos : CS Unit) c
    | .error e => .error (e.at pos)
  else .ok ((), c)

/-- A jump whose target is a label (core/src/compiler/top.rs 1026-1033, 1052-1055). -/
def emitFixup (pos : LineCol) (f : Fixup) : CS Unit := do
  let addr ← onCg (emit .nop pos)
  CM.modify fun c => { c with cg := c.cg.addFixup addr f }

/-- `EXIT DO` (core/src/compiler/top.rs 986-992). -/
def compileExitDo (pos : LineCol) : CS Unit := fun c =>
  match c.doExit with
  | [] => .error (.misplacedExit pos "DO")
  | top :: rest =>
    .ok ((), { c with cg := c.cg.push .nop pos, doExit := (top ++ [(c.cg.code.length, pos)]) :: rest })

/-- `EXIT FOR` (core/src/compiler/top.rs 994-1000). -/
def compileExitFor (pos : LineCol) : CS Unit := fun c =>
  match c.forExit with
  | [] => .error (.misplacedExit pos "FOR")
  | top :: rest =>
    .ok ((), { c with cg := c.cg.push .nop pos, forExit := (top ++ [(c.cg.code.length, pos)]) :: rest })

/-- `EXIT FUNCTION` and `EXIT SUB` (core/src/compiler/top.rs 1002-1018). -/
def compileExitCallable (kind : CallableKind) (what : String) (pos : LineCol) : CS Unit := fun c =>
  if c.cur ≠ some kind then .error (.misplacedExit pos what)
  else .ok ((), { c with cg := c.cg.push .nop pos, calExits := c.calExits ++ [(c.cg.code.length, pos)] })

/-- `do_exit_stack.pop()` and the patching of its jumps (core/src/compiler/top.rs 596-600). -/
def closeDo (endAddr : Nat) : CS Unit := fun c =>
  match c.doExit with
  | [] => .error .panic
  | top :: rest => patchJumps endAddr top { c with doExit := rest }

/-- `for_exit_stack.pop()` and the patching of its jumps (core/src/compiler/top.rs 669-673). -/
def closeFor (endAddr : Nat) : CS Unit := fun c =>
  match c.forExit with
  | [] => .error .panic
  | top :: rest => patchJumps endAddr top { c with forExit := rest }

/-- Marks the start of a statement if it produced code (core/src/compiler/top.rs 1075-1077). -/
def markIf (mark : Bool) (start : Nat) : CS Unit := fun c =>
  if mark && decide (start ≠ c.cg.code.length) then .ok ((), { c with cg := c.cg.markStmt start })
  else .ok ((), c)

/-- `mark_start` (core/src/compiler/top.rs 766, 843, 862, 1036). -/
def Stmt.marks : Stmt → Bool
  | .callable .. | .declare .. | .label .. => false
  | _ => true

/-- The new symbol table and the kind of callable (core/src/compiler/top.rs 1137-1145). -/
def enterScope (name : VarRef) (c : Ctx) : Ctx :=
  { c with cur := some (if name.ty.isSome then .function else .sub), sy := { c.sy with locals := .empty } }

/-- The result variable of a function and the parameters (core/src/compiler/top.rs 1146-1168). -/
def prologBody (name : VarRef) (pos : LineCol) (params : List VarRef) : CS Unit := do
  match name.ty with
  | none => pure ()
  | some t =>
    let reg ← putLocalS (symKey name.name) (.scalar t) pos
    let value ← match t with
      | .boolean | .integer => pure 0#16
      | .double => onCg (getConstant (.double 0#64) pos)
      | .text => onCg (getConstant (.text []) pos)
    let _ ← onCg (emit (.loadInt reg value) pos)
  putParams pos params

/-- The start of `compile_user_callable` up to the body (core/src/compiler/top.rs 1122-1168): the
address of the jump over the callable and of its first instruction. -/
def callableProlog (name : VarRef) (pos : LineCol) (params : List VarRef) : CS (Nat × Nat) := do
  let skip ← onCg (emit .nop pos)
  let start ← pcNow
  CM.modify (enterScope name)
  prologBody name pos params
  pure (skip, start)

/-- The end of `compile_user_callable` (core/src/compiler/top.rs 1174-1189); `saved` are the locals
of the program, which the code keeps in its own symbol table. -/
def callableEpilog (key : Str) (skip start : Nat) (endPos : LineCol) (saved : IdMap Str Proto) :
    CS Unit := do
  let retAddr ← onCg (emit .ret endPos)
  let c ← CM.get
  patchJumps retAddr c.calExits
  let skipAddr ← pcNow
  CM.modify fun c =>
    { c with calExits := [], cur := none, cg := c.cg.defineCallable key start skipAddr }
  patchJump skip skipAddr endPos
  CM.modify fun c => { c with sy := { c.sy with locals := saved }, defined := key :: c.defined }

mutual
/-- The body of `compile_stmt` without the statement mark (core/src/compiler/top.rs 760-1074). -/
def compileStmtBody (s : Stmt) : CS Unit :=
  match s with
  | .arrayAssign v pos subs e => compileArrayAssign v pos subs e
  | .assign v pos e => compileAssign v pos e
  | .call v pos args => compileCallStmt v pos args
  | .callable name pos params body endPos => do
    declareCallable name pos params
    let c ← CM.get
    if c.defined.contains (symKey name.name) then CM.throw (.alreadyDefined pos name)
    else if c.cur.isSome then CM.throw (.cannotNest pos)
    else
      let (skip, start) ← callableProlog name pos params
      compileStmts body
      callableEpilog (symKey name.name) skip start endPos c.sy.locals
  | .data values => do
    let ds ← CM.lift (dataConsts values)
    CM.modify fun c => { c with data := c.data ++ ds }
  | .declare name pos params => do
    let c ← CM.get
    if c.cur.isSome then CM.throw (.cannotNest pos)
    else declareCallable name pos params
  | .dim name pos shared ty => do
    let reg ← dimVar name pos shared (.scalar ty)
    onCg (emitDefault reg ty pos)
  | .dimArray name pos shared dims ty => compileDimArray name pos shared dims ty
  | .doLoop guard body => do
    CM.modify fun c => { c with doExit := [] :: c.doExit }
    match guard with
    | .infinite =>
      let start ← pcNow
      compileStmts body
      emitJump start ⟨0, 0⟩
      let stop ← pcNow
      closeDo stop
    | .preUntil e =>
      let start ← pcNow
      let cond ← compileCond e
      let toBody ← onCg (emit .nop e.startPos)
      let toEnd ← onCg (emit .nop e.startPos)
      let here ← pcNow
      patchJumpIfFalse toBody cond here e.startPos
      compileStmts body
      emitJump start e.startPos
      let stop ← pcNow
      patchJump toEnd stop e.startPos
      closeDo stop
    | .preWhile e =>
      let start ← pcNow
      let cond ← compileCond e
      let toEnd ← onCg (emit .nop e.startPos)
      compileStmts body
      emitJump start e.startPos
      let stop ← pcNow
      patchJumpIfFalse toEnd cond stop e.startPos
      closeDo stop
    | .postUntil e =>
      let start ← pcNow
      compileStmts body
      let cond ← compileCond e
      let t ← CM.lift (mkTarget start e.startPos)
      let _ ← onCg (emit (.jumpIfFalse cond t) e.startPos)
      let stop ← pcNow
      closeDo stop
    | .postWhile e =>
      let start ← pcNow
      compileStmts body
      let cond ← compileCond e
      let toEnd ← onCg (emit .nop e.startPos)
      emitJump start e.startPos
      let stop ← pcNow
      patchJumpIfFalse toEnd cond stop e.startPos
      closeDo stop
  | .end code pos => compileEnd code pos
  | .exitDo pos => compileExitDo pos
  | .exitFor pos => compileExitFor pos
  | .exitFunction pos => compileExitCallable .function "FUNCTION" pos
  | .exitSub pos => compileExitCallable .sub "SUB" pos
  | .forLoop iter iterPos double start stop next body => do
    forIter iter iterPos double
    compileAssign iter iterPos start
    let startPc ← pcNow
    let cond ← compileCond stop
    let toEnd ← onCg (emit .nop stop.startPos)
    CM.modify fun c =>
      { c with cg := c.cg.markStmt startPc, forExit := [] :: c.forExit }
    compileStmts body
    compileAssign iter iterPos next
    emitJump startPc stop.startPos
    let endAddr ← pcNow
    patchJumpIfFalse toEnd cond endAddr stop.startPos
    closeFor endAddr
  | .gosub label pos => emitFixup pos (.gosub label)
  | .goto label pos => emitFixup pos (.goto label)
  | .ifs branches => do
    let ends ← compileBranches branches
    let stop ← pcNow
    patchJumps stop (ends.map fun a => (a, ⟨0, 0⟩))
  | .label name pos => fun c =>
    match c.cg.labels.get? (symKey name) with
    | some _ => .error (.duplicateLabel pos name)
    | none =>
      .ok ((), { c with cg := { c.cg with labels := c.cg.labels.insert (symKey name) c.cg.code.length } })
  | .onError (.goto label _ pos) => emitFixup pos (.onErrorGoto label)
  | .onError (.reset pos) => do let _ ← onCg (emit (.setErrorHandler .none 0#16) pos)
  | .onError (.resumeNext pos) => do let _ ← onCg (emit (.setErrorHandler .resumeNext 0#16) pos)
  | .ret pos => do let _ ← onCg (emit .ret pos)
  | .select e cases endPos => do
    let test ← withSyms fun sy => CM.lift (allocTemp sy 0 e.startPos)
    let testTy ← withSyms fun sy => compileExpr sy e 1 test
    let (jumps, pending) ← compileDispatch test testTy endPos cases none
    let toEnd ← onCg (emit .nop endPos)
    match pending with
    | some p => patchJump p toEnd endPos
    | none => pure ()
    let ends ← compileBodies cases jumps endPos
    let stop ← pcNow
    patchJump toEnd stop endPos
    patchJumps stop (ends.map fun a => (a, endPos))
  | .whileLoop e body => do
    let start ← pcNow
    let cond ← compileCond e
    let toEnd ← onCg (emit .nop e.startPos)
    compileStmts body
    emitJump start e.startPos
    let stop ← pcNow
    patchJumpIfFalse toEnd cond stop e.startPos

/-- Several `compile_stmt` (core/src/compiler/top.rs 760-1079) in a row, each one with its statement
mark. -/
def compileStmts (ss : Stmts) : CS Unit :=
  match ss with
  | .nil => pure ()
  | .cons s rest => do
    let start ← pcNow
    compileStmtBody s
    markIf s.marks start
    compileStmts rest

/-- The branches of `compile_if` (core/src/compiler/top.rs 683-714): the jumps to the end. -/
def compileBranches (bs : Branches) : CS (List Nat) :=
  match bs with
  | .nil => pure []
  | .cons guard body rest => do
    let cond ← compileCond guard
    let toNext ← onCg (emit .nop guard.startPos)
    compileStmts body
    if rest.isNil then
      let next ← pcNow
      patchJumpIfFalse toNext cond next guard.startPos
      pure []
    else
      let toEnd ← onCg (emit .nop guard.startPos)
      let next ← pcNow
      patchJumpIfFalse toNext cond next guard.startPos
      let ends ← compileBranches rest
      pure (toEnd :: ends)

/-- The bodies of `compile_select` (core/src/compiler/top.rs 469-484): the jumps to the end. -/
def compileBodies (cs : Cases) (jumps : List (List (Nat × LineCol))) (endPos : LineCol) : CS (List Nat) :=
  match cs, jumps with
  | .nil, _ => pure []
  | .cons .., [] => CM.throw .panic
  | .cons _ body rest, js :: jumps => do
    let here ← pcNow
    patchJumps here js
    compileStmts body
    if rest.isNil then pure []
    else
      let toEnd ← onCg (emit .nop endPos)
      let ends ← compileBodies rest jumps endPos
      pure (toEnd :: ends)
end

/-- `compile_stmt` (core/src/compiler/top.rs 760-1079). -/
def compileStmt (s : Stmt) : CS Unit := compileStmts (.cons s .nil)

/-! ## Programs -/

/-- `Image::default` (core/src/image.rs 197-220). -/
def Image.default : Image :=
  ⟨[.eof], [], [], [], [⟨⟨0, 0⟩, true, []⟩], [], [], []⟩

/-- `GlobalVarInfo` of each variable (core/src/compiler/top.rs 1337-1356). -/
def varInfos (t : IdMap Str Proto) : List (Str × VarInfo) :=
  t.map.map fun (k, p, id) =>
    (k, match p with
      | .array t n => ⟨id, t, n⟩
      | .scalar t => ⟨id, t, 0⟩)

/-- `ImageDelta` (core/src/image.rs, `struct ImageDelta`). -/
structure ImageDelta where
  code : List Instr
  upcalls : List Str
  constants : List ConstantDatum
  data : List (Option ConstantDatum)
  instrs : List InstrMeta
  callables : List (Nat × Str × Bool)
  globalVars : List (Str × VarInfo)
  programVars : List (Str × VarInfo)
  deriving DecidableEq, Repr

/-- `build_image_delta` (core/src/compiler/codegen.rs 258-309); its debug assertions are left out, they
are theorem `C20_prefix`. -/
def buildDelta (img : Image) (c : Ctx) : Except CErr (ImageDelta × Ctx) :=
  match c.cg.applyFixups c.cg.fixups with
  | .error e => .error e
  | .ok code =>
    .ok (⟨code.drop (img.code.length - 1), c.cg.upcalls.keysFrom img.upcalls.length,
      c.cg.constants.keysFrom img.constants.length, c.data.drop img.data.length,
      c.cg.instrs.drop (img.instrs.length - 1),
      c.cg.callables.flatMap fun (k, s, e) => [(s, k, true), (e, k, false)],
      varInfos c.sy.globals, varInfos c.sy.locals⟩,
     { c with cg := { c.cg with code := code, fixups := [] } })

/-- `Image::append` (core/src/image.rs 237-254). -/
def Image.append (img : Image) (d : ImageDelta) : Image :=
  ⟨img.code.dropLast ++ d.code, img.upcalls ++ d.upcalls, img.constants ++ d.constants,
   img.data ++ d.data, img.instrs.dropLast ++ d.instrs, d.callables, d.globalVars, d.programVars⟩

/-- What the parser delivers (`parser::parse`, used in core/src/compiler/top.rs 1331-1333): statements,
possibly cut short by an error. -/
structure Source where
  stmts : Stmts
  err : Option CErr

/-- `top::compile` (core/src/compiler/top.rs 1323-1359). -/
def compileTop (src : Source) (img : Image) : Ctx → Except CErr (ImageDelta × Ctx) := fun c =>
  match compileStmts src.stmts { c with cg := c.cg.popEof } with
  | .error e => .error e
  | .ok (_, c) =>
    match src.err with
    | some e => .error e
    | none => buildDelta img { c with cg := c.cg.push .eof ⟨0, 0⟩ }

/-- `GlobalDefKind` and `GlobalDef` (core/src/compiler/top.rs 1204-1237). -/
inductive GlobalDef where
  | scalar (name : Str) (ty : ExprType) (init : Option ConstantDatum)
  | array (name : Str) (ty : ExprType) (dims : List Nat)

/-- The first loop of `prepare_globals` (core/src/compiler/top.rs 1257-1287): returns the arrays. -/
def prepareScalars : List GlobalDef → CS (List (Reg × ExprType × List Nat))
  | [] => pure []
  | .scalar name ty init :: rest => do
    let reg ← putGlobalS (symKey name) (.scalar ty) ⟨0, 0⟩
    match init with
    | some d =>
      if d.etype ≠ ty then CM.throw (.typeMismatch ⟨0, 0⟩ d.etype ty)
      else onCg (emitValue reg d ⟨0, 0⟩)
    | none => onCg (emitDefault reg ty ⟨0, 0⟩)
    prepareScalars rest
  | .array name ty dims :: rest => do
    if dims.length ≥ 256 then CM.throw .panic
    else
      let reg ← putGlobalS (symKey name) (.array ty dims.length) ⟨0, 0⟩
      let arrays ← prepareScalars rest
      pure ((reg, ty, dims) :: arrays)

/-- The loads of the dimensions of one array (core/src/compiler/top.rs 1302-1309). -/
def prepareDims : Nat → List Nat → CS Unit
  | _, [] => pure ()
  | i, d :: ds => do
    match mkLocal i with
    | none => CM.throw .panic
    | some r =>
      if d < 65536 then
        let _ ← onCg (emit (.loadInt r (BitVec.ofNat 16 d)) ⟨0, 0⟩)
        prepareDims (i + 1) ds
      else CM.throw .panic

/-- The second loop of `prepare_globals` (core/src/compiler/top.rs 1296-1315). -/
def prepareArrays : List (Reg × ExprType × List Nat) → CS Unit
  | [] => pure ()
  | (reg, ty, dims) :: rest => do
    prepareDims 0 dims
    match mkLocal 0, PackedArrayType.new ty dims.length with
    | some first, some packed => do let _ ← onCg (emit (.allocArray reg packed first) ⟨0, 0⟩)
    | _, none => CM.throw (.tooManyDims ⟨0, 0⟩ dims.length)
    | none, _ => CM.throw .panic
    prepareArrays rest

/-- `Compiler::new` with `prepare_globals` (core/src/compiler/mod.rs 228-246,
core/src/compiler/top.rs 1247-1320). -/
def Compiler.new (upcalls : FMap Str Md) (defs : List GlobalDef) : Except CErr Ctx :=
  let init : Ctx := ⟨.empty, [], [], [], none, [], [], ⟨.empty, upcalls, [], .empty⟩⟩
  match (do
    let arrays ← prepareScalars defs
    prepareArrays arrays
    let _ ← onCg (emit .eof ⟨0, 0⟩) : CS Unit) init with
  | .ok (_, c) => .ok c
  | .error e => .error e

/-- `Compiler::compile_more` (core/src/compiler/mod.rs 256-267): everything is done on clones, which
replace the compiler and extend the image only on success. -/
def compileMore (src : Source) (c : Ctx) (img : Image) : Except CErr Unit × Ctx × Image :=
  match compileTop src img c with
  | .error e => (.error e, c, img)
  | .ok (d, c') => (.ok (), c', img.append d)

/-- `Compiler::compile` (core/src/compiler/mod.rs 249-253). -/
def compileProgram (upcalls : FMap Str Md) (defs : List GlobalDef) (src : Source) : Except CErr Image :=
  match Compiler.new upcalls defs with
  | .error e => .error e
  | .ok c =>
    match compileMore src c .default with
    | (.ok (), _, img) => .ok img
    | (.error e, _, _) => .error e

end EB
