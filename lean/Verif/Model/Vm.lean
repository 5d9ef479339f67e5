import Verif.Model.Bytecode
import Verif.Model.Arith
/-!
# The virtual machine

Models core/src/vm/context.rs and core/src/vm/mod.rs.  The image holds decoded instructions
(`Instr`) instead of 32-bit words: `C01_decode_encode` shows that nothing is lost.
-/

namespace EB

/-- IEEE-754 double operations on bit patterns, as used by the VM (`f64` arithmetic of Rust).  All
theorems about the VM hold for every choice of these operations. -/
structure FloatOps where
  add : BitVec 64 → BitVec 64 → BitVec 64
  sub : BitVec 64 → BitVec 64 → BitVec 64
  mul : BitVec 64 → BitVec 64 → BitVec 64
  div : BitVec 64 → BitVec 64 → BitVec 64
  rem : BitVec 64 → BitVec 64 → BitVec 64
  pow : BitVec 64 → BitVec 64 → BitVec 64
  neg : BitVec 64 → BitVec 64
  eq : BitVec 64 → BitVec 64 → Bool
  lt : BitVec 64 → BitVec 64 → Bool
  le : BitVec 64 → BitVec 64 → Bool
  /-- `i32 as f64` -/
  ofInt : I32 → BitVec 64
  /-- `f64::round` followed by the checked conversion to `i32` -/
  toInt : BitVec 64 → Option I32

/-- `InstrMetadata` (core/src/image.rs, `struct InstrMetadata`). -/
structure InstrMeta where
  linecol : LineCol
  isStmtStart : Bool
  argLinecols : List LineCol
  deriving DecidableEq, Repr

/-- `GlobalVarInfo` (core/src/image.rs, `struct GlobalVarInfo`). -/
structure VarInfo where
  reg : Nat
  subtype : ExprType
  ndims : Nat
  deriving DecidableEq, Repr

/-- `Image` with its `DebugInfo` (core/src/image.rs, `struct Image` and `struct DebugInfo`).
`callables` only serves the disassembler. -/
structure Image where
  code : List Instr
  upcalls : List Str
  constants : List ConstantDatum
  data : List (Option ConstantDatum)
  instrs : List InstrMeta
  callables : List (Nat × Str × Bool)
  globalVars : List (Str × VarInfo)
  programVars : List (Str × VarInfo)
  deriving DecidableEq, Repr

/-- `ErrorHandler` (core/src/vm/context.rs 62-75). -/
inductive ErrorHandler where
  | none
  | jump (active : Bool) (addr : Nat)
  | resumeNext
  deriving DecidableEq, Repr

/-- `Frame` (core/src/vm/context.rs 78-87). -/
structure Frame where
  oldPc : Nat
  oldFp : Nat
  retReg : Option Reg
  deriving DecidableEq, Repr

/-- `Context` (core/src/vm/context.rs 168-194) together with the heap it runs on.

The register file is a total function: `get_reg` returns 0 beyond the end of the vector and
`set_reg` grows it with zeros (232-246), so the vector is observationally a function that is 0
almost everywhere.  `stack` has the most recent frame first.  The `stop` field is the result of
a step. -/
structure Mach where
  pc : Nat
  fp : Nat
  handler : ErrorHandler
  regs : Nat → BitVec 64
  stack : List Frame
  maxStack : Nat
  yieldPending : Bool
  heap : Heap

/-- `Context::new` (core/src/vm/context.rs 204-215) with a new heap. -/
def Mach.new (maxStack maxHeap : Nat) : Mach :=
  { pc := 0, fp := maxGlobal, handler := .none, regs := fun _ => 0#64, stack := [],
    maxStack := maxStack, yieldPending := false, heap := Heap.new maxHeap }

/-- `InternalStopReason` (core/src/vm/context.rs 38-58). -/
inductive Stop where
  | «end» (code : BitVec 8)
  | eof
  | exception (pc : Nat) (e : RtErr)
  | upcall (idx : U16) (first : Reg) (pc : Nat)
  | upcallAsync (idx : U16) (first : Reg) (pc : Nat)
  | yield
  deriving DecidableEq, Repr

/-- Result of one iteration of the execution loop. -/
inductive Step where
  | cont (m : Mach)
  | stop (r : Stop) (m : Mach)
  | panic

/-- `Context::reg_index` (core/src/vm/context.rs 220-227). -/
def Mach.regIndex (m : Mach) (r : Reg) : Nat :=
  if r.toNat < maxGlobal then r.toNat else r.toNat - maxGlobal + m.fp

/-- `Context::get_reg` (core/src/vm/context.rs 232-235). -/
def Mach.get (m : Mach) (r : Reg) : BitVec 64 := m.regs (m.regIndex r)

/-- Replaces the register with absolute index `i`. -/
def setAt (regs : Nat → BitVec 64) (i : Nat) (v : BitVec 64) : Nat → BitVec 64 :=
  fun j => if j = i then v else regs j

/-- `Context::set_reg` (core/src/vm/context.rs 240-246). -/
def Mach.set (m : Mach) (r : Reg) (v : BitVec 64) : Mach :=
  { m with regs := setAt m.regs (m.regIndex r) v }

/-- `self.pc += 1`. -/
def Mach.next (m : Mach) : Mach := { m with pc := m.pc + 1 }

/-- `Context::set_exception` (core/src/vm/context.rs 335-337). -/
def Mach.raise (m : Mach) (e : RtErr) : Step := .stop (.exception m.pc e) m

/-- `Context::deref_string` (core/src/vm/context.rs 272-280); `none` is a panic. -/
def Mach.derefString (m : Mach) (r : Reg) (constants : List ConstantDatum) : Option Str :=
  (DatumPtr.ofU64 (m.get r)).bind fun p => p.resolveString constants m.heap

/-- `str` comparison `<` of Rust: lexicographic on UTF-8 bytes, which is lexicographic on code
points. -/
def strLt : Str → Str → Bool
  | _, [] => false
  | [], _ :: _ => true
  | a :: as, b :: bs => if a.toNat < b.toNat then true else if b.toNat < a.toNat then false else strLt as bs

/-- Registers `first, first+1, ...` read as locals (`Register::local(first_idx + i).unwrap()`,
core/src/vm/context.rs 317-320 and 623-625); `none` is the panic when the register does not exist. -/
def Mach.readLocals (m : Mach) (first : Reg) : Nat → Nat → Option (List I32)
  | _, 0 => some []
  | i, n + 1 =>
    let idx := (regToParts first).2 + i
    if idx + maxGlobal < 256 then
      (m.readLocals first (i + 1) n).map fun rest => toI32 (m.regs (idx + m.fp)) :: rest
    else none

/-- `Context::resolve_array_index` up to the subscripts (core/src/vm/context.rs 301-320): the heap
index, the array and the subscripts; `none` is a panic. -/
def Mach.arrayAccess (m : Mach) (arr first : Reg) : Option (Nat × ArrayData × List Int) := do
  let p ← DatumPtr.ofU64 (m.get arr)
  let i ← p.heapIndex
  match m.heap.data[i]? with
  | some (.array a) =>
    let subs ← m.readLocals first 0 a.dimensions.length
    pure (i, a, subs.map BitVec.toInt)
  | _ => none

/-- The dimensions loop of `do_alloc_array` (core/src/vm/context.rs 623-634): the first
non-positive dimension is an error. -/
def checkDims : Nat → List Int → Except RtErr (List Nat)
  | _, [] => .ok []
  | i, d :: ds =>
    if d ≤ 0 then .error (.badDimension i)
    else match checkDims (i + 1) ds with
      | .error e => .error e
      | .ok rest => .ok (d.toNat :: rest)

/-- `do_alloc_array` (core/src/vm/context.rs 615-652).  The element count is computed without
overflow checks by the code; from 2^60 elements on the allocation itself panics. -/
def doAllocArray (m : Mach) (dst : Reg) (packed : PackedArrayType) (first : Reg) : Step :=
  match packed.subtype with
  | none => .panic
  | some ty =>
    match m.readLocals first 0 packed.ndims with
    | none => .panic
    | some ds =>
      match checkDims 0 (ds.map BitVec.toInt) with
      | .error e => m.raise e
      | .ok dims =>
        if dims.foldl (· * ·) 1 ≥ 2 ^ 60 then .panic
        else match m.heap.push (.array (newArray ty dims)) with
          | none => m.raise .outOfHeap
          | some (p, h) => .cont ({ m with heap := h }.set dst p).next

/-- `do_load_array` (core/src/vm/context.rs 897-908). -/
def doLoadArray (m : Mach) (dst arr first : Reg) : Step :=
  match m.arrayAccess arr first with
  | none => .panic
  | some (_, a, subs) =>
    match a.load subs with
    | none => .panic
    | some (.error e) => m.raise (.subscript e)
    | some (.ok v) => .cont (m.set dst v).next

/-- `do_store_array` (core/src/vm/context.rs 1097-1109). -/
def doStoreArray (m : Mach) (arr val first : Reg) : Step :=
  let value := m.get val
  match m.arrayAccess arr first with
  | none => .panic
  | some (i, a, subs) =>
    match a.store subs value with
    | none => .panic
    | some (.error e) => m.raise (.subscript e)
    | some (.ok a') => .cont { m with heap := { m.heap with data := m.heap.data.set i (.array a') } }.next

/-- `if b { 1 } else { 0 }`. -/
def ofBool (b : Bool) : BitVec 64 := if b then 1#64 else 0#64

/-- What a binary opcode computes from the raw operands (core/src/vm/context.rs 484-594 and the
`do_*` functions that call them), for the operators that do not touch strings. -/
def binEval (F : FloatOps) (op : BinOp) (l r : BitVec 64) : Except RtErr (BitVec 64) :=
  let int (f : I32 → I32 → Except RtErr I32) : Except RtErr (BitVec 64) :=
    match f (toI32 l) (toI32 r) with
    | .ok v => .ok (ofI32 v)
    | .error e => .error e
  let cmp (f : Int → Int → Bool) : Except RtErr (BitVec 64) :=
    .ok (ofBool (f (toI32 l).toInt (toI32 r).toInt))
  match op with
  | .addD => .ok (F.add l r)
  | .subD => .ok (F.sub l r)
  | .mulD => .ok (F.mul l r)
  | .divD => .ok (F.div l r)
  | .modD => .ok (F.rem l r)
  | .powD => .ok (F.pow l r)
  | .eqD => .ok (ofBool (F.eq l r))
  | .neD => .ok (ofBool (!F.eq l r))
  | .ltD => .ok (ofBool (F.lt l r))
  | .leD => .ok (ofBool (F.le l r))
  | .gtD => .ok (ofBool (F.lt r l))
  | .geD => .ok (ofBool (F.le r l))
  | .addI => int checkedAdd
  | .subI => int checkedSub
  | .mulI => int checkedMul
  | .divI => int checkedDiv
  | .modI => int checkedMod
  | .powI => int checkedPow
  | .bitAnd => int checkedAnd
  | .bitOr => int checkedOr
  | .bitXor => int checkedXor
  | .shl => int checkedShl
  | .shr => int checkedShr
  | .eqI => cmp (· == ·)
  | .neI => cmp (· != ·)
  | .ltI => cmp (· < ·)
  | .leI => cmp (· ≤ ·)
  | .gtI => cmp (· > ·)
  | .geI => cmp (· ≥ ·)
  | .eqB => .ok (ofBool ((l != 0) == (r != 0)))
  | .neB => .ok (ofBool ((l != 0) != (r != 0)))
  | .eqS | .neS | .ltS | .leS | .gtS | .geS | .concat => .ok 0#64 -- handled by `textEval`/`concat`

/-- Text predicates (core/src/vm/context.rs 579-594 and callers). -/
def textEval (op : BinOp) (l r : Str) : Option Bool :=
  match op with
  | .eqS => some (l == r)
  | .neS => some (l != r)
  | .ltS => some (strLt l r)
  | .leS => some (!strLt r l)
  | .gtS => some (strLt r l)
  | .geS => some (!strLt l r)
  | _ => none

/-- Binary opcodes (core/src/vm/context.rs 484-594, 690-704, 1029-1049). -/
def doBin (F : FloatOps) (constants : List ConstantDatum) (m : Mach) (op : BinOp) (d l r : Reg) : Step :=
  match op with
  | .concat =>
    match m.derefString l constants, m.derefString r constants with
    | some a, some b =>
      match m.heap.push (.text (a ++ b)) with
      | none => m.raise .outOfHeap
      | some (p, h) => .cont ({ m with heap := h }.set d p).next
    | _, _ => .panic
  | .eqS | .neS | .ltS | .leS | .gtS | .geS =>
    match m.derefString l constants, m.derefString r constants with
    | some a, some b => .cont (m.set d (ofBool ((textEval op a b).getD false))).next
    | _, _ => .panic
  | _ =>
    match binEval F op (m.get l) (m.get r) with
    | .ok v => .cont (m.set d v).next
    | .error e => m.raise e

/-- What an in-place unary opcode computes (core/src/vm/context.rs 660-665, 717-727, 826-831,
966-986). -/
def unEval (F : FloatOps) (op : UnOp) (v : BitVec 64) : Except RtErr (BitVec 64) :=
  match op with
  | .bitNot => .ok (ofI32 (~~~(toI32 v)))
  | .dtoi => match F.toInt v with
    | some i => .ok (ofI32 i)
    | none => .error (.castOverflow v)
  | .itod => .ok (F.ofInt (toI32 v))
  | .negD => .ok (F.neg v)
  | .negI => match checkedNeg (toI32 v) with
    | .ok i => .ok (ofI32 i)
    | .error e => .error e

/-- `push_frame` (core/src/vm/context.rs 339-347). -/
def Mach.pushFrame (m : Mach) (f : Frame) : Option Mach :=
  if m.stack.length ≥ m.maxStack then none else some { m with stack := f :: m.stack }

/-- `do_call` (core/src/vm/context.rs 678-687); a global result register fails a debug assertion. -/
def doCall (m : Mach) (ret : Reg) (target : U16) : Step :=
  match m.pushFrame { oldPc := m.pc, oldFp := m.fp, retReg := some ret } with
  | none => m.raise .outOfCallStack
  | some m' =>
    if ret.toNat < maxGlobal then .panic
    else .cont { m' with pc := target.toNat, fp := m.fp + (ret.toNat - maxGlobal) }

/-- `do_gosub` (core/src/vm/context.rs 770-776). -/
def doGosub (m : Mach) (target : U16) : Step :=
  match m.pushFrame { oldPc := m.pc, oldFp := m.fp, retReg := none } with
  | none => m.raise .outOfCallStack
  | some m' => .cont { m' with pc := target.toNat }

/-- `do_jump` (core/src/vm/context.rs 834-841). -/
def doJump (m : Mach) (target : Nat) : Mach :=
  { m with pc := target, yieldPending := m.yieldPending || decide (target ≤ m.pc) }

/-- `do_return` (core/src/vm/context.rs 1052-1071). -/
def doReturn (m : Mach) : Step :=
  match m.stack with
  | [] => m.raise .returnWithoutGosub
  | f :: rest =>
    match f.retReg with
    | some r =>
      let v := m.regs m.fp
      .cont ({ m with stack := rest, pc := f.oldPc + 1, fp := f.oldFp }.set r v)
    | none => .cont { m with stack := rest, pc := f.oldPc + 1, fp := f.oldFp, yieldPending := true }

/-- `do_load_constant` (core/src/vm/context.rs 911-920). -/
def doLoadConst (m : Mach) (constants : List ConstantDatum) (dst : Reg) (idx : U16) : Step :=
  match constants[idx.toNat]? with
  | some (.double d) => .cont (m.set dst d).next
  | some (.integer i) => .cont (m.set dst (ofI32 i)).next
  | _ => .panic

/-- `do_end` (core/src/vm/context.rs 750-761). -/
def doEnd (m : Mach) (r : Reg) : Step :=
  match exitCodeTryNew (toI32 (m.get r)).toInt with
  | some c => .stop (.end c) m
  | none => m.raise .badExitCode

/-- Execution of one instruction: the dispatch of `Context::exec`
(core/src/vm/context.rs 410-477). -/
def execInstr (F : FloatOps) (constants : List ConstantDatum) (m : Mach) : Instr → Step
  | .bin op d l r => doBin F constants m op d l r
  | .un op r =>
    match unEval F op (m.get r) with
    | .ok v => .cont (m.set r v).next
    | .error e => m.raise e
  | .alloc d ty => if ty = .text then .cont (m.set d m.heap.emptyTextPtr).next else .panic
  | .allocArray d p f => doAllocArray m d p f
  | .call r t => doCall m r t
  | .gosub t => doGosub m t
  | .jump t => .cont (doJump m t.toNat)
  | .jumpIfFalse r t =>
    if m.get r ≠ 0#64 then .cont m.next else .cont (doJump m t.toNat)
  | .loadArray d a f => doLoadArray m d a f
  | .loadConst d i => doLoadConst m constants d i
  | .loadInt d i => .cont (m.set d (i.setWidth 64)).next
  | .loadRegPtr d ty s =>
    match taggedRegNew s m.fp ty with
    | some v => .cont (m.set d v).next
    | none => .panic
  | .move d s => .cont (m.set d (m.get s)).next
  | .nop => .cont m.next
  | .ret => doReturn m
  | .setErrorHandler mode t =>
    .cont { m with handler := (match mode with
      | .none => .none
      | .jump => .jump false t.toNat
      | .resumeNext => .resumeNext) }.next
  | .storeArray a v f => doStoreArray m a v f
  | .«end» r => doEnd m r
  | .upcall i r => .stop (.upcall i r m.pc) m.next
  | .upcallAsync i r => .stop (.upcallAsync i r m.pc) m.next
  | .eof => .stop .eof m

/-- One iteration of the loop of `Context::exec` (core/src/vm/context.rs 403-478).  Reading beyond
the code or its metadata panics. -/
def step (F : FloatOps) (img : Image) (m : Mach) : Step :=
  match img.instrs[m.pc]? with
  | none => .panic
  | some meta' =>
    if m.yieldPending && meta'.isStmtStart then .stop .yield { m with yieldPending := false }
    else match img.code[m.pc]? with
      | none => .panic
      | some i => execInstr F img.constants m i

/-! ## The `Vm` around the processor -/

/-- What the host provides: the built-in callables.  `exec idx first poss regs heap lastError img st` runs
upcall `idx` with its argument area at absolute register `first` and the positions `poss` of its arguments
(core/src/vm/context.rs 355-379, core/src/callable.rs `Scope`).  It may change registers and the
heap and has its own state; it may fail with a message and an optional position. -/
structure Host (H : Type) where
  exec : U16 → Nat → List LineCol → (Nat → BitVec 64) → Heap → Option (LineCol × RtErr) → Image → H →
    H × (Nat → BitVec 64) × Heap × Except (Option LineCol × Str) Unit

/-- `Vm` (core/src/vm/mod.rs 122-146) without the name caches, plus the state of the host. -/
structure Vm (H : Type) where
  mach : Mach
  lastError : Option (LineCol × RtErr)
  pending : Option (U16 × Reg × Nat)
  host : H

/-- `StopReason` (core/src/vm/mod.rs 104-119). -/
inductive StopReason where
  | «end» (code : BitVec 8)
  | eof
  | exception (pos : LineCol) (e : RtErr)
  | upcallAsync
  | yield
  deriving DecidableEq, Repr

/-- Result of one iteration of `Vm::exec`. -/
inductive VmStep (H : Type) where
  | cont (vm : Vm H)
  | stop (r : StopReason) (vm : Vm H)
  | panic

/-- `Vm::park_at_eof` (core/src/vm/mod.rs 299-302). -/
def Mach.park (m : Mach) (img : Image) : Mach := { m with pc := img.code.length - 1 }

/-- The search of `handle_exception` for the next statement start after `pc`
(core/src/vm/mod.rs 353-359). -/
def nextStmtStart (img : Image) (pc : Nat) : Nat :=
  match (img.instrs.drop (pc + 1)).findIdx? (·.isStmtStart) with
  | some i => pc + 1 + i
  | none => img.code.length

/-- `Vm::handle_exception` (core/src/vm/mod.rs 335-364): the machine to continue with if the error
was handled. -/
def handleException (img : Image) (m : Mach) (pc : Nat) : Option Mach :=
  match m.handler with
  | .none => none
  | .jump true _ => none
  | .jump false addr => some { m with handler := .jump true addr, pc := addr }
  | .resumeNext => some { m with pc := nextStmtStart img pc }

/-- The positions of the arguments of the upcall at `pc`: `Scope::arg_linecols`
(core/src/vm/context.rs 355-379).  An address outside of the table is an index panic there; here it gives no
positions, as `step` already fails on such an address. -/
def Image.argPositions (img : Image) (pc : Nat) : List LineCol :=
  match img.instrs[pc]? with
  | some meta' => meta'.argLinecols
  | none => []

/-- Runs an upcall (`prepare_upcall`, `Callable::exec` and `handle_upcall_result`,
core/src/vm/mod.rs 150-186).  On an error that is not handled the VM parks at the end.
A global first register fails an assertion (core/src/vm/context.rs 366). -/
def runUpcall {H : Type} (host : Host H) (img : Image) (vm : Vm H) (idx : U16) (first : Reg) (pc : Nat) :
    VmStep H :=
  if first.toNat < maxGlobal then .panic
  else
    let m := vm.mach
    let (h', regs', heap', res) :=
      host.exec idx (m.fp + (first.toNat - maxGlobal)) (img.argPositions pc) m.regs m.heap vm.lastError img vm.host
    let m := { m with regs := regs', heap := heap' }
    match res with
    | .ok () => .cont { vm with mach := m, host := h' }
    | .error (pos, msg) =>
      match img.instrs[pc]? with
      | none => .panic
      | some meta' =>
        let pos := pos.getD meta'.linecol
        let vm := { vm with mach := m, host := h', lastError := some (pos, .upcall msg) }
        match handleException img m pc with
        | some m' => .cont { vm with mach := m' }
        | none => .stop (.exception pos (.upcall msg)) { vm with mach := m.park img }

/-- One iteration of `Vm::exec` (core/src/vm/mod.rs 443-482), at the granularity of one instruction
of `Context::exec`.  `sync_upcalls` (281-296) only fills name caches. -/
def vmStep {H : Type} (F : FloatOps) (host : Host H) (img : Image) (vm : Vm H) : VmStep H :=
  match vm.pending with
  | some _ => .stop .upcallAsync vm
  | none =>
    match step F img vm.mach with
    | .panic => .panic
    | .cont m => .cont { vm with mach := m }
    | .stop (.end c) m => .stop (.end c) { vm with mach := m.park img }
    | .stop .eof m => .stop .eof { vm with mach := m }
    | .stop (.exception pc e) m =>
      match img.instrs[pc]? with
      | none => .panic
      | some meta' =>
        let vm := { vm with lastError := some (meta'.linecol, e) }
        match handleException img m pc with
        | some m' => .cont { vm with mach := m' }
        | none => .stop (.exception meta'.linecol e) { vm with mach := m.park img }
    | .stop (.upcall idx first pc) m => runUpcall host img { vm with mach := m } idx first pc
    | .stop (.upcallAsync idx first pc) m =>
      .stop .upcallAsync { vm with mach := m, pending := some (idx, first, pc) }
    | .stop .yield m => .stop .yield { vm with mach := m }

/-- `UpcallHandler::invoke` (core/src/vm/mod.rs 84-100): runs the pending upcall. -/
def invokePending {H : Type} (host : Host H) (img : Image) (vm : Vm H) : VmStep H :=
  match vm.pending with
  | none => .panic
  | some (idx, first, pc) => runUpcall host img { vm with pending := none } idx first pc

/-- `Vm::interrupt` (core/src/vm/mod.rs 488-491). -/
def Vm.interrupt {H : Type} (vm : Vm H) (img : Image) : Vm H :=
  { vm with pending := none, mach := vm.mach.park img }

/-- `Vm::clear` with `Context::clear_runtime_state` (core/src/vm/mod.rs 268-273,
core/src/vm/context.rs 387-395). -/
def Vm.clear {H : Type} (vm : Vm H) : Vm H :=
  { vm with
    mach := Mach.new vm.mach.maxStack vm.mach.heap.maxEntries
    lastError := none
    pending := none }

/-- `Vm::clear_error_handler` (core/src/vm/mod.rs 276-278). -/
def Vm.clearErrorHandler {H : Type} (vm : Vm H) : Vm H :=
  { vm with mach := { vm.mach with handler := .none } }

end EB
