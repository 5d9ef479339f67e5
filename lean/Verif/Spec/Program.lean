import Verif.Spec.Exec
import Verif.Spec.Machine
/-!
# What it means that a program does what the interpreter says
-/

namespace EB.Spec

/-- What is declared before the program: the built-in callables. -/
def builtins (up : FMap Str Md) : Env where
  locals := []
  shared := []
  callable := fun k => (up.get? k).map fun md => .builtin md.returnType
  outs := fun k args =>
    match up.get? k with
    | some md =>
      match md.findSyntax (Args.length args) with
      | some syn => outVars syn.repeated syn.singular args
      | none => []
    | none => []
  syn := fun k n => (up.get? k).bind fun md => md.findSyntax n
  md := up.get?

/-- No variable is known, of the heap one entry is in use, errors stop the program, and nothing has happened. -/
def fresh (maxHeap : Nat) : World := ⟨fun _ => none, min (2 ^ 24) maxHeap - 1, .stop, ⟨[], none⟩⟩

/-- The machine holds all that is known, wherever the labels are in the code. -/
def Shown (consts : List ConstantDatum) (Γ : Env) (fp : Nat) (w : World) (m : Mach) : Prop :=
  letI := Labels.anywhere
  Models consts Γ fp w m

/-- The machine, from `vm` on, does what the interpreter says: the program comes to its end with the variables in
that state, stops at `END` with that exit code, or raises that error at that position of the source; and it makes
the calls of built-in callables that the interpreter says. -/
def Follows {H : Type} (F : FloatOps) (host : Host H) (state : List (Request × Reply) → H) (img : Image) (Γ : Env)
    (vm : Vm H) : Res → Prop
  | .done w => ∃ vm', Reaches F host img vm vm' ∧ vmStep F host img vm' = .stop .eof vm' ∧ vm'.mach.fp = vm.mach.fp ∧
      vm'.mach.stack = vm.mach.stack ∧ Shown img.constants Γ vm.mach.fp w vm'.mach ∧ Synchronous state w.log vm'
  | .ended code w => ∃ vm', Reaches F host img vm vm' ∧ EndsWith F host img vm' code ∧
      Shown img.constants Γ vm.mach.fp w vm'.mach ∧ Synchronous state w.log vm'
  | .err pos e w => ∃ vm1 vm', Reaches F host img vm vm1 ∧ Raises F host img vm1 pos e vm' ∧
      Shown img.constants Γ vm.mach.fp w vm'.mach ∧
      Synchronous state { w.log with lastError := some (pos, e) } vm'
  | .going l => ∃ vm', Reaches F host img vm vm' ∧ Synchronous state l vm'
  | .exitDo _ | .exitFor _ | .leave _ | .jump .. | .back _ => False
  | .stuck => True

/-- How a program stops. -/
inductive Finale where
  /-- It comes to its end. -/
  | finished
  /-- `END`. -/
  | ended (code : Nat)
  | failed (pos : LineCol) (e : RtErr)
  | crashed

/-- The next step of the machine, or the asynchronous call that it starts, stops the program like that. -/
def Stops {H : Type} (F : FloatOps) (host : Host H) (img : Image) (vm : Vm H) : Finale → Prop
  | .finished => ∃ vm', vmStep F host img vm = .stop .eof vm'
  | .ended code => EndsWith F host img vm code
  | .failed pos e => ∃ vm', Raises F host img vm pos e vm'
  | .crashed => vmStep F host img vm = .panic ∨ ∃ vm1, vmStep F host img vm = .stop .upcallAsync vm1 ∧ invokePending host img vm1 = .panic

/-- How the program stops, as the interpreter says, if it has stopped. -/
def Res.outcome : Res → Option Finale
  | .done _ => some .finished
  | .ended code _ => some (.ended code)
  | .err pos e _ => some (.failed pos e)
  | _ => none

end EB.Spec
