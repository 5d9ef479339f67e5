import Verif.Model.CompStmt
import Verif.Model.Parser
import Verif.Model.Vm
/-!
# The machine that compiles and runs lines

Models `Machine` (std/src/lib.rs 105-285).  The callables, the console and the queue of actions are part of the
host.  Errors of the console when it prints are not modelled.
-/

namespace EB

/-- `MachineAction` (std/src/lib.rs 86-93). -/
inductive MachineAction where
  | clear
  | run (program : Str)
  deriving DecidableEq, Repr

/-- What surrounds the machine: the callables, and how they and the machine share the queue of actions
(std/src/lib.rs 112), the objects that `CLEAR` resets (111, `Clearable` 75-79) and the console (114). -/
structure Surroundings (H : Type) where
  host : Host H
  actions : H → List MachineAction
  dropActions : H → H
  resetState : H → H
  print : Str → H → H
  text : TextOps
  floats : FloatOps

/-- `Machine` (std/src/lib.rs 106-117): `upcalls` is the metadata of `callables`. -/
structure Machine (H : Type) where
  compiler : Ctx
  image : Image
  vm : Vm H
  upcalls : FMap Str Md
  defs : List GlobalDef

/-- `std::Result<Option<i32>>` of `Machine::exec`. -/
inductive MachResult where
  | eof
  | exit (code : BitVec 8)
  | error (pos : LineCol) (e : RtErr)
  | compileError (e : CErr)
  | «break»
  deriving DecidableEq, Repr

namespace Machine
variable {H : Type}

/-- `MachineBuilder::build` (std/src/lib.rs 382-416), as far as the state of the machine goes; the error is the panic
of `expect`. -/
def build (upcalls : FMap Str Md) (defs : List GlobalDef) (maxStack maxHeap : Nat) (h : H) : Except CErr (Machine H) :=
  match Compiler.new upcalls defs with
  | .error e => .error e
  | .ok c => .ok ⟨c, .default, ⟨Mach.new maxStack maxHeap, none, none, h⟩, upcalls, defs⟩

/-- `Machine::clear` (std/src/lib.rs 125-133) with `Vm::reset` (core/src/vm/mod.rs 254-261), which also empties the
caches of names that are not modelled; `none` is the panic of `expect`. -/
def clear (E : Surroundings H) (m : Machine H) : Option (Machine H) :=
  match Compiler.new m.upcalls m.defs with
  | .error _ => none
  | .ok c => some { m with compiler := c, image := .default, vm := { m.vm.clear with host := E.resetState m.vm.host } }

/-- `Machine::compile` (std/src/lib.rs 191-194). -/
def compile (E : Surroundings H) (m : Machine H) (text : Str) : Except CErr Unit × Machine H :=
  match compileMore (parseText E.text E.floats text) m.compiler m.image with
  | (r, c, img) => (r, { m with compiler := c, image := img })

/-- The result of performing actions: the machine, and whether the stored program runs now, or an error. -/
inductive Drained (H : Type) where
  | ok (m : Machine H) (running : Bool)
  | error (m : Machine H) (e : CErr)
  | panic

/-- The loop of `Machine::drain_actions` (std/src/lib.rs 148-161) with `Machine::run` (135-138). -/
def perform (E : Surroundings H) : List MachineAction → Bool → Machine H → Drained H
  | [], running, m => .ok m running
  | .clear :: rest, running, m =>
    match m.clear E with
    | none => .panic
    | some m => perform E rest running m
  | .run program :: rest, _, m =>
    match m.clear E with
    | none => .panic
    | some m =>
      match m.compile E program with
      | (.error e, m) => .error m e
      | (.ok (), m) => perform E rest true m

/-- The queue becomes empty (`clear_actions`, std/src/lib.rs 141-143, and `drain`, 149). -/
def emptied (E : Surroundings H) (m : Machine H) : Machine H := { m with vm := { m.vm with host := E.dropActions m.vm.host } }

/-- `Machine::drain_actions` (std/src/lib.rs 148-161). -/
def drain (E : Surroundings H) (m : Machine H) : Drained H :=
  perform E (E.actions m.vm.host) false (m.emptied E)

/-- The result of an iteration of the loop of `Machine::exec`. -/
inductive Tick (H : Type) where
  | more (m : Machine H) (running : Bool)
  | done (r : MachResult) (m : Machine H)
  | panic

/-- The end of `Machine::exec` (std/src/lib.rs 252-255). -/
def finish (running : Bool) (m : Machine H) : Machine H :=
  if running then { m with vm := m.vm.clearErrorHandler } else m

/-- The text of "Program exited with code {}" (std/src/lib.rs 210-212). -/
def exitText (code : BitVec 8) : Str := "Program exited with code ".toList ++ (toString code.toNat).toList

/-- An iteration of the loop of `Machine::exec` (std/src/lib.rs 197-256), at the granularity of one instruction of
`Vm::exec`.  `stop` is the answer of `should_stop` (170-176) if it is asked: whether there is a signal. -/
def tick (E : Surroundings H) (stop : Bool) (m : Machine H) (running : Bool) : Tick H :=
  match vmStep E.floats E.host m.image m.vm with
  | .panic => .panic
  | .cont vm => .more { m with vm } running
  | .stop .eof vm => .done .eof (finish running { m with vm })
  | .stop (.end code) vm =>
    if running then
      let vm := if code = 0#8 then vm else { vm with host := E.print (exitText code) vm.host }
      .done .eof (finish running { m with vm })
    else .done (.exit code) (finish running { m with vm })
  | .stop (.exception pos e) vm => .done (.error pos e) (finish running { m with vm })
  | .stop .upcallAsync vm =>
    match invokePending E.host m.image vm with
    | .panic => .panic
    | .stop (.exception pos e) vm =>
      if stop then .done .break (finish running { emptied E { m with vm } with vm := (emptied E { m with vm }).vm.interrupt m.image })
      else .done (.error pos e) (finish running (emptied E { m with vm }))
    | .stop .. => .panic
    | .cont vm =>
      if stop then .done .break (finish running { emptied E { m with vm } with vm := (emptied E { m with vm }).vm.interrupt m.image })
      else
        match drain E { m with vm } with
        | .panic => .panic
        | .error m e => .done (.compileError e) m
        | .ok m r => .more m (running || r)
  | .stop .yield vm =>
    if stop then .done .break (finish running { m with vm := vm.interrupt m.image })
    else .more { m with vm } running

/-- The machines that a session started with `m0` goes through.  With `none` the machine is at the prompt; with
`some running` it is in the loop of `Machine::exec` (std/src/lib.rs 197-256), which runs the stored program if `running`.
At the prompt, lines (or whole texts) are compiled, and executed if they compile, and the world may change.  Signals
arrive at any time. -/
inductive Session (E : Surroundings H) (m0 : Machine H) : Option Bool → Machine H → Prop where
  | start : Session E m0 none m0
  | world {m : Machine H} (h : H) : Session E m0 none m → Session E m0 none { m with vm := { m.vm with host := h } }
  | rejected {m m' : Machine H} {text : Str} {e : CErr} : Session E m0 none m → m.compile E text = (.error e, m') →
      Session E m0 none m'
  | accepted {m m' : Machine H} {text : Str} : Session E m0 none m → m.compile E text = (.ok (), m') →
      Session E m0 (some false) m'
  | more {m m' : Machine H} {running running' stop : Bool} : Session E m0 (some running) m →
      tick E stop m running = .more m' running' → Session E m0 (some running') m'
  | done {m m' : Machine H} {running stop : Bool} {r : MachResult} : Session E m0 (some running) m →
      tick E stop m running = .done r m' → Session E m0 none m'

end Machine

end EB
