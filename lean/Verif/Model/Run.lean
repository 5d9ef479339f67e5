import Verif.Model.Vm
import Verif.Spec.Vm
/-!
# Executions

Sequences of steps of the machine as its users drive it: `Vm::exec` is called again after a yield,
and pending asynchronous upcalls are invoked (std/src/lib.rs `Machine::resume`,
core/src/vm/mod.rs 84-100 and 443-482).
-/

namespace EB
open Spec (Ev)

/-- The error that the next step of the machine raises, with its position, if it raises one:
instruction errors (core/src/vm/mod.rs 457-463) and failing upcalls (163-186). -/
def upcallError {H : Type} (host : Host H) (img : Image) (vm : Vm H) (idx : U16) (first : Reg) (pc : Nat) :
    Option (LineCol × RtErr) :=
  match (host.exec idx (vm.mach.fp + (first.toNat - maxGlobal)) (img.argPositions pc) vm.mach.regs vm.mach.heap vm.lastError
      img vm.host).2.2.2, img.instrs[pc]? with
  | .error (pos, msg), some meta' => some (pos.getD meta'.linecol, .upcall msg)
  | _, _ => none

/-- The error raised by the next iteration of `Vm::exec`, if any. -/
def nextError {H : Type} (F : FloatOps) (host : Host H) (img : Image) (vm : Vm H) :
    Option (LineCol × RtErr) :=
  match vm.pending with
  | some _ => none
  | none =>
    match step F img vm.mach with
    | .stop (.exception pc e) _ => (img.instrs[pc]?).map fun i => (i.linecol, e)
    | .stop (.upcall idx first pc) m => upcallError host img { vm with mach := m } idx first pc
    | _ => none

/-- The event of the next iteration of `Vm::exec`. -/
def vmEvent {H : Type} (F : FloatOps) (host : Host H) (img : Image) (vm : Vm H) : Ev :=
  match nextError F host img vm with
  | some _ => .error
  | none =>
    match img.code[vm.mach.pc]? with
    | some (.call ..) => .enter
    | some (.gosub _) => .enter
    | some .ret => .leave
    | some (.setErrorHandler mode t) => .arm mode t.toNat
    | _ => .other

/-- The event of invoking the pending upcall. -/
def pendingEvent {H : Type} (host : Host H) (img : Image) (vm : Vm H) : Ev :=
  match vm.pending with
  | some (idx, first, pc) =>
    match upcallError host img { vm with pending := none } idx first pc with
    | some _ => .error
    | none => .other
  | none => .other

/-- The state of the processor after at most `n` iterations of the loop of `Context::exec`
(core/src/vm/context.rs 403-478), called again after every yield; it stays at the instruction where
it stops for another reason. -/
def Mach.drive (F : FloatOps) (img : Image) : Nat → Mach → Mach
  | 0, m => m
  | n + 1, m =>
    match step F img m with
    | .cont m' => m'.drive F img n
    | .stop .yield m' => m'.drive F img n
    | _ => m

/-- `VmRun F host img P vm l vm'`: driving the machine takes `vm` to `vm'` with events `l`, and `P`
holds in every state from which a step is taken. -/
inductive VmRun {H : Type} (F : FloatOps) (host : Host H) (img : Image) (P : Vm H → Prop) :
    Vm H → List Ev → Vm H → Prop where
  | refl (vm : Vm H) : VmRun F host img P vm [] vm
  | step {vm vm1 vm2 : Vm H} {l : List Ev} : P vm → vmStep F host img vm = .cont vm1 →
      VmRun F host img P vm1 l vm2 → VmRun F host img P vm (vmEvent F host img vm :: l) vm2
  | yield {vm vm1 vm2 : Vm H} {l : List Ev} : P vm → vmStep F host img vm = .stop .yield vm1 →
      VmRun F host img P vm1 l vm2 → VmRun F host img P vm l vm2
  | async {vm vm1 vm2 vm3 : Vm H} {l : List Ev} : P vm →
      vmStep F host img vm = .stop .upcallAsync vm1 → P vm1 → invokePending host img vm1 = .cont vm2 →
      VmRun F host img P vm2 l vm3 → VmRun F host img P vm (pendingEvent host img vm1 :: l) vm3

end EB
