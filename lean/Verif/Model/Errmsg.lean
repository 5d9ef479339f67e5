import Verif.Model.Run
import Verif.Model.Lexer
/-!
# ERRMSG (std/src/exec.rs 72-112) and what can happen to the last error of a machine
-/

namespace EB

/-- `ErrmsgFunction::exec` (std/src/exec.rs 100-111) with the `Display` of positions (core/src/reader.rs 36-40).  `msg` is the
message of an error. -/
def errmsgText (msg : RtErr → Str) : Option (LineCol × RtErr) → Str
  | some (pos, e) => showNat pos.line ++ ':' :: showNat pos.col ++ ':' :: ' ' :: msg e
  | none => []

/-- The machine after a step that does not panic, whether it goes on or stops (core/src/vm/mod.rs 443-482). -/
def VmStep.after? {H : Type} : VmStep H → Option (Vm H)
  | .cont vm => some vm
  | .stop _ vm => some vm
  | .panic => none

/-- The error of the pending upcall when it is invoked (core/src/vm/mod.rs 84-100). -/
def pendingError {H : Type} (host : Host H) (img : Image) (vm : Vm H) : Option (LineCol × RtErr) :=
  match vm.pending with
  | some (idx, first, pc) => upcallError host img { vm with pending := none } idx first pc
  | none => none

/-- What users of a machine do with it, with the errors that are raised meanwhile: steps of `Vm::exec`, the invocation of
pending upcalls, interrupts and `clear_error_handler` (core/src/vm/mod.rs 84-100, 276-278, 443-491), with an image that may
have grown between two of them, as at the prompt (std/src/lib.rs `Machine::compile`). -/
inductive VmSession {H : Type} (F : FloatOps) (host : Host H) : Vm H → List (LineCol × RtErr) → Vm H → Prop where
  | refl (vm : Vm H) : VmSession F host vm [] vm
  | exec {vm vm1 vm2 : Vm H} {l : List (LineCol × RtErr)} (img : Image) : (vmStep F host img vm).after? = some vm1 →
      VmSession F host vm1 l vm2 → VmSession F host vm ((nextError F host img vm).toList ++ l) vm2
  | invoke {vm vm1 vm2 : Vm H} {l : List (LineCol × RtErr)} (img : Image) : (invokePending host img vm).after? = some vm1 →
      VmSession F host vm1 l vm2 → VmSession F host vm ((pendingError host img vm).toList ++ l) vm2
  | interrupt {vm vm2 : Vm H} {l : List (LineCol × RtErr)} (img : Image) :
      VmSession F host (vm.interrupt img) l vm2 → VmSession F host vm l vm2
  | clearHandler {vm vm2 : Vm H} {l : List (LineCol × RtErr)} :
      VmSession F host vm.clearErrorHandler l vm2 → VmSession F host vm l vm2

end EB
