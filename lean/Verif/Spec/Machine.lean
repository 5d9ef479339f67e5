import Verif.Spec.Eval
import Verif.Lemmas.Mem
import Verif.Model.Run
/-!
# How the machine holds what a program knows

The relation between the values and variables of `Spec.Eval` and the registers and heap of the machine,
executions of the machine, and what is expected of the host.
-/

namespace EB.Spec

/-- A register (or array element) holds a value.  Texts are pointers to a constant or to the heap. -/
def Holds (consts : List ConstantDatum) (h : Heap) : Val → BitVec 64 → Prop
  | .bool b, x => x = ofBool b
  | .int i, x => x = ofI32 i
  | .dbl d, x => x = d
  | .text s, x => (DatumPtr.ofU64 x).bind (fun p => p.resolveString consts h) = some s

/-- A register holds the content of a variable. -/
def HoldsCell (consts : List ConstantDatum) (h : Heap) : Cell → BitVec 64 → Prop
  | .scalar v, x => Holds consts h v x
  | .arr _ dims elem, x => ∃ i a, DatumPtr.ofU64 x = some (.heap i) ∧ h.data[i]? = some (.array a) ∧
      a.dimensions = dims ∧ a.WF ∧
      ∀ subs, InBounds dims subs → ∃ y, a.load subs = some (.ok y) ∧ Holds consts h (elem subs) y

/-- The register of a variable in the frame at `fp`. -/
def Place.index (fp : Nat) : Place → Nat
  | .local n => fp + n
  | .shared n => n

/-- What was declared at a place. -/
def Env.proto (Γ : Env) : Place → Option Proto
  | .local n => Γ.locals[n]?.map (·.2)
  | .shared n => Γ.shared[n]?.map (·.2)

/-- The content of a variable agrees with its declaration. -/
def Cell.Of : Cell → Proto → Prop
  | .scalar v, .scalar t => v.ty = t
  | .arr ty dims elem, .array t n => ty = t ∧ dims.length = n ∧ ∀ s, (elem s).ty = t
  | _, _ => False

/-- Where the labels are in the code. -/
class Labels where
  at' : Str → Nat → Prop

/-- Labels are somewhere. -/
@[reducible] def Labels.anywhere : Labels := ⟨fun _ _ => True⟩

/-- What the machine does after errors. -/
def Traps [Labels] : Trap → ErrorHandler → Prop
  | .stop, h => h = .none
  | .resume, h => h = .resumeNext
  | .jump k active, h => ∃ a, Labels.at' k a ∧ h = .jump active a

/-- The machine, with the frame of the variables at `fp`, holds all that is known. -/
structure Models [Labels] (consts : List ConstantDatum) (Γ : Env) (fp : Nat) (w : World) (m : Mach) : Prop where
  base : 64 ≤ fp
  heap : m.heap.data[0]? = some (.text []) ∧ m.heap.data.length ≤ 2 ^ 24
  room : w.room = min (2 ^ 24) m.heap.maxEntries - m.heap.data.length
  cells : ∀ p c, w.mem p = some c → HoldsCell consts m.heap c (m.regs (p.index fp))
  typed : ∀ p c, w.mem p = some c → ∃ q, Γ.proto p = some q ∧ c.Of q
  apart : ∀ p q t d f t' d' f' i, w.mem p = some (.arr t d f) → w.mem q = some (.arr t' d' f') →
    DatumPtr.ofU64 (m.regs (p.index fp)) = some (.heap i) → DatumPtr.ofU64 (m.regs (q.index fp)) = some (.heap i) → p = q
  trap : Traps w.trap m.handler

/-! ## The host -/

/-- What a register of the arguments of a built-in callable is for. -/
inductive Slot where
  | tag (t : VarArgTag)
  | val (v : Val)
  | ref (ty : ExprType) (p : Place)

/-- The registers that pass an argument. -/
def Arg.slots : Arg → List Slot
  | .val v => [.val v]
  | .opt sep v => [.tag (.immediate sep v.ty), .val v]
  | .missing sep => [.tag (.missing sep)]
  | .ref q p => [.ref q.ty p]
  | .optRef sep q p => [.tag (.pointer sep), .ref q.ty p]

/-- The registers that pass some arguments. -/
def slots (args : List (Arg × LineCol)) : List Slot := args.flatMap fun a => a.1.slots

/-- The positions of these registers in the source. -/
def slotPositions (args : List (Arg × LineCol)) : List LineCol := args.flatMap fun a => a.1.slots.map fun _ => a.2

/-- The content of such a register; variables are those of the frame at `fp`. -/
def HoldsSlot (consts : List ConstantDatum) (h : Heap) (fp : Nat) : Slot → BitVec 64 → Prop
  | .tag t, x => VarArgTag.parse x = some t
  | .val v, x => Holds consts h v x
  | .ref ty p, x => taggedRegParse x = some (p.index fp, ty)

/-- What a built-in callable did to the registers and the heap, by its answer: a result is in the register
`first`, the variables that were assigned to have the new values, nothing else has changed, and there are new
strings in the heap. -/
structure Answered (consts : List ConstantDatum) (fp first : Nat) (ret : Option ExprType) (r : Reply)
    (regs : Nat → BitVec 64) (heap : Heap) (regs' : Nat → BitVec 64) (heap' : Heap) : Prop where
  result : ∀ v, r.result = .ok (some v) → Holds consts heap' v (regs' first)
  writes : ∀ p v, assigned (fun _ => none) r.writes p = some (.scalar v) → Holds consts heap' v (regs' (p.index fp))
  others : ∀ j, (ret = none ∨ j ≠ first) → (∀ p, assigned (fun _ => none) r.writes p ≠ none → j ≠ p.index fp) →
    regs' j = regs j
  prior : heap.data <+: heap'.data
  used : heap'.data.length = heap.data.length + r.used
  max : heap'.maxEntries = heap.maxEntries

/-- The variables that are passed to a callable are before the registers of its arguments, each in its own. -/
structure Passable (fp first : Nat) (args : List (Arg × LineCol)) : Prop where
  before : ∀ a ∈ args, ∀ p, a.1.place = some p → p.index fp < first
  apart : ∀ a ∈ args, ∀ b ∈ args, ∀ p q, a.1.place = some p → b.1.place = some q → p.index fp = q.index fp → p = q

/-- The host provides the built-in callables `lib`: in the state that it is in after some calls it answers the
next one as `lib` says.  The arguments are in the registers from `first` on, or behind `first` if there is a
result. -/
def Provides {H : Type} (host : Host H) (img : Image) (lib : Lib) (state : List (Request × Reply) → H) : Prop :=
  ∀ (idx : U16) (q : Request) (first fp room : Nat) (regs : Nat → BitVec 64) (heap : Heap) (l : Log),
    img.upcalls[idx.toNat]? = some q.name →
    q.vars.length = q.args.length →
    (∀ (j : Nat) s, (slots q.args)[j]? = some s →
      HoldsSlot img.constants heap fp s (regs (first + (if q.ret.isSome then 1 else 0) + j))) →
    (∀ (j : Nat) a p c, q.args[j]? = some a → a.1.place = some p → q.vars[j]? = some (some c) →
      HoldsCell img.constants heap c (regs (p.index fp))) →
    Passable fp first q.args →
    heap.data[0]? = some (.text []) →
    room = min (2 ^ 24) heap.maxEntries - heap.data.length →
    (lib l room q).fits q.args q.ret room = true →
    ∃ regs' heap', host.exec idx first (slotPositions q.args) regs heap l.lastError img (state l.events) =
        (state (l.events ++ [(q, lib l room q)]), regs', heap', (lib l room q).result.map fun _ => ()) ∧
      Answered img.constants fp first q.ret (lib l room q) regs heap regs' heap'

/-! ## Executions -/

/-- Executions: any number of steps; a yield is resumed, and asynchronous calls of built-in callables are made. -/
inductive Reaches {H : Type} (F : FloatOps) (host : Host H) (img : Image) : Vm H → Vm H → Prop
  | refl (vm : Vm H) : Reaches F host img vm vm
  | cont {vm vm1 vm2 : Vm H} : vmStep F host img vm = .cont vm1 → Reaches F host img vm1 vm2 → Reaches F host img vm vm2
  | yield {vm vm1 vm2 : Vm H} : vmStep F host img vm = .stop .yield vm1 → Reaches F host img vm1 vm2 →
      Reaches F host img vm vm2
  | async {vm vm1 vm2 vm3 : Vm H} : vmStep F host img vm = .stop .upcallAsync vm1 →
      invokePending host img vm1 = .cont vm2 → Reaches F host img vm2 vm3 → Reaches F host img vm vm3

/-- … in exactly that many steps. -/
inductive ReachesIn {H : Type} (F : FloatOps) (host : Host H) (img : Image) : Nat → Vm H → Vm H → Prop
  | refl (vm : Vm H) : ReachesIn F host img 0 vm vm
  | cont {n : Nat} {vm vm1 vm2 : Vm H} : vmStep F host img vm = .cont vm1 → ReachesIn F host img n vm1 vm2 → ReachesIn F host img (n + 1) vm vm2
  | yield {n : Nat} {vm vm1 vm2 : Vm H} : vmStep F host img vm = .stop .yield vm1 → ReachesIn F host img n vm1 vm2 →
      ReachesIn F host img (n + 1) vm vm2
  | async {n : Nat} {vm vm1 vm2 vm3 : Vm H} : vmStep F host img vm = .stop .upcallAsync vm1 →
      invokePending host img vm1 = .cont vm2 → ReachesIn F host img n vm2 vm3 → ReachesIn F host img (n + 1) vm vm3

/-- The next step, or the asynchronous call that it starts, stops the program with that error at that position
of the source. -/
def Raises {H : Type} (F : FloatOps) (host : Host H) (img : Image) (vm : Vm H) (pos : LineCol) (e : RtErr) (vm' : Vm H) : Prop :=
  vmStep F host img vm = .stop (.exception pos e) vm' ∨
  ∃ vm1, vmStep F host img vm = .stop .upcallAsync vm1 ∧ invokePending host img vm1 = .stop (.exception pos e) vm'

/-- The next step ends the program with that exit code. -/
def EndsWith {H : Type} (F : FloatOps) (host : Host H) (img : Image) (vm : Vm H) (code : Nat) : Prop :=
  ∃ c vm', vmStep F host img vm = .stop (.end c) vm' ∧ c.toNat = code

/-- The machine and its host are in that state: no call is pending, and what has happened is what the log says. -/
structure Synchronous {H : Type} (state : List (Request × Reply) → H) (l : Log) (vm : Vm H) : Prop where
  pending : vm.pending = none
  host : vm.host = state l.events
  lastError : vm.lastError = l.lastError

end EB.Spec
