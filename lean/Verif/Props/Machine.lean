import Verif.Lemmas.Machine
import Verif.Model.Inspect
import Verif.Props.Calls
/-!
# C60, C61: sessions of the machine

`CLEAR` and `RUN` start afresh; lines typed at the prompt run from their own first statement.
-/

namespace EB
open Machine

/-! ## Running sessions -/

section
variable {H : Type}

/-- Executes to the end, without signals, in at most `n` steps. -/
def Ex.exec (E : Surroundings H) : Nat → Machine H → Bool → Option (Machine H)
  | 0, _, _ => none
  | n + 1, m, running =>
    match tick E false m running with
    | .more m' r' => Ex.exec E n m' r'
    | .done _ m' => some m'
    | .panic => none

/-- Compiles and executes one text after the other. -/
def Ex.lines (E : Surroundings H) (n : Nat) : List Str → Machine H → Option (Machine H)
  | [], m => some m
  | t :: ts, m =>
    match m.compile E t with
    | (.error _, m') => Ex.lines E n ts m'
    | (.ok (), m') =>
      match Ex.exec E n m' false with
      | none => none
      | some m'' => Ex.lines E n ts m''

theorem Ex.exec_session {E : Surroundings H} {m0 m m' : Machine H} {n : Nat} {r : Bool} (h : Session E m0 (some r) m)
    (hx : Ex.exec E n m r = some m') : Session E m0 none m' := by
  induction n generalizing m r with
  | zero => cases hx
  | succ n ih =>
    unfold Ex.exec at hx
    split at hx
    next ht => exact ih (h.more ht) hx
    next ht => cases hx; exact h.done ht
    · cases hx

theorem Ex.lines_session {E : Surroundings H} {m0 m m' : Machine H} {n : Nat} {ts : List Str} (h : Session E m0 none m)
    (hx : Ex.lines E n ts m = some m') : Session E m0 none m' := by
  induction ts generalizing m with
  | nil => cases hx; exact h
  | cons t ts ih =>
    unfold Ex.lines at hx
    split at hx
    next hc => exact ih (h.rejected hc) hx
    next hc =>
      split at hx
      · cases hx
      next he => exact ih (Ex.exec_session (h.accepted hc) he) hx

end

/-- Surroundings whose state is the queue of actions and what was printed.  Every callable requests these actions, and
fails if `fails`. -/
def Ex.around (requests : List MachineAction) (fails : Bool) : Surroundings (List MachineAction × List Str) where
  host := ⟨fun _ _ _ regs heap _ _ h =>
    ((h.1 ++ requests, h.2), regs, heap, if fails then .error (none, "bad".toList) else .ok ())⟩
  actions := fun h => h.1
  dropActions := fun h => ([], h.2)
  resetState := id
  print := fun s h => (h.1, h.2 ++ [s])
  text := asciiText
  floats := Ex.noFloat

theorem Ex.around_keeps (as : List MachineAction) (f : Bool) : KeepsLimits (Ex.around as f).host :=
  fun _ _ _ _ _ _ _ _ => rfl

/-- A command without arguments, as `RUN` and `CLEAR` are. -/
def Ex.command : FMap Str Md := [("DOIT".toList, ⟨"DOIT".toList, none, true, [⟨[], none⟩], false⟩)]

/-- A machine with that command, without or with a stored program. -/
def Ex.newMachine : Option (Machine (List MachineAction × List Str)) := (build Ex.command [] 50 50 ([], [])).toOption

/-- The machine after these lines. -/
def Ex.after (E : Surroundings (List MachineAction × List Str)) (ts : List String) : Option (Machine (List MachineAction × List Str)) :=
  Ex.newMachine.bind (Ex.lines E 100 (ts.map String.toList))

/-- The machine while it executes the last of these lines, after so many steps. -/
def Ex.within (E : Surroundings (List MachineAction × List Str)) (ts : List String) (last : String) (n : Nat) :
    Option (Machine (List MachineAction × List Str)) :=
  (Ex.after E ts).bind fun m =>
    match m.compile E last.toList with
    | (.error _, _) => none
    | (.ok (), m) => steps n m
where
  steps : Nat → Machine (List MachineAction × List Str) → Option (Machine (List MachineAction × List Str))
    | 0, m => some m
    | n + 1, m =>
      match tick E false m false with
      | .more m false => steps n m
      | _ => none

/-- What the machine says that a variable of the program is. -/
def Ex.variable (m : Machine (List MachineAction × List Str)) (name : String) : Option (Except GetError (Option ConstantDatum)) :=
  m.vm.getProgram m.image name.toList

theorem Ex.after_session {E : Surroundings (List MachineAction × List Str)} {ts : List String} {m : Machine (List MachineAction × List Str)}
    (h : Ex.after E ts = some m) : ∃ m0, build Ex.command [] 50 50 ([], []) = .ok m0 ∧ Session E m0 none m := by
  unfold Ex.after Ex.newMachine at h
  cases hb : build Ex.command [] 50 50 (([], []) : List MachineAction × List Str) with
  | error e => rw [hb] at h; cases h
  | ok m0 => rw [hb] at h; exact ⟨m0, rfl, Ex.lines_session .start h⟩

/-! ## C60 -/

section
variable {H : Type} {E : Surroundings H} {upcalls : FMap Str Md} {defs : List GlobalDef} {maxStack maxHeap : Nat} {h0 : H}
  {m0 m : Machine H} {p : Option Bool}

/-- **C60** At any moment of any session, whatever was compiled and executed before and wherever it was interrupted,
clearing the machine gives exactly the machine that a new session with the same surroundings starts with. -/
theorem C60_clear (hk : KeepsLimits E.host) (hb : build upcalls defs maxStack maxHeap h0 = .ok m0) (hs : Session E m0 p m) :
    ∃ new, m.clear E = some new ∧ build upcalls defs maxStack maxHeap (E.resetState m.vm.host) = .ok new :=
  let ⟨hg, he⟩ := good_build hb
  clear_new hb (session_good hk hg he hs).1

set_option maxRecDepth 100000 in
/-- A session of three lines; the second does not compile and the last fails in a `SUB`: there is a variable, and clearing removes it. -/
example : ((Ex.after (Ex.around [] false) ["x = 7", "ON ERROR GOTO 10", "SUB f\ny = 1 / 0\nEND SUB\nf"]).bind fun m =>
    (m.clear (Ex.around [] false)).map fun new => (Ex.variable m "X", Ex.variable new "X", m.vm.mach.stack.length, new.vm.mach.stack.length)) =
    some (some (.ok (some (.integer 7))), some (.ok none), 1, 0) := by
  decide +kernel

/-- **C60** `RUN`: when a call returns and has requested that a text be run, what follows is exactly the execution of that
text by a new machine, or its compilation error: nothing of what was compiled or executed before matters. -/
theorem C60_run (hk : KeepsLimits E.host) (hb : build upcalls defs maxStack maxHeap h0 = .ok m0)
    {running : Bool} (hs : Session E m0 (some running) m) {vm vm' : Vm H} {text : Str}
    (hcall : vmStep E.floats E.host m.image m.vm = .stop .upcallAsync vm)
    (hret : invokePending E.host m.image vm = .cont vm') (hreq : E.actions vm'.host = [.run text]) :
    ∃ new, build upcalls defs maxStack maxHeap (E.resetState (E.dropActions vm'.host)) = .ok new ∧
      tick E false m running = match new.compile E text with
        | (.ok (), new') => .more new' true
        | (.error e, new') => .done (.compileError e) new' := by
  have hg := call_good hk (session_good hk (good_build hb).1 (good_build hb).2 hs).1 hcall hret
  obtain ⟨new, hclear, hnew⟩ := clear_new (E := E) hb hg
  refine ⟨new, hnew, ?_⟩
  unfold tick
  rw [hcall]
  simp only
  rw [hret]
  simp only [drain]
  rw [show E.actions ({ m with vm := vm' } : Machine H).vm.host = [.run text] from hreq]
  simp only [perform, hclear]
  cases hx : new.compile E text with
  | mk r new' =>
    cases r with
    | error e => rfl
    | ok u => cases running <;> rfl

set_option maxRecDepth 100000 in
/-- `x = 7` and then a command that requests that a text be run: the call is made, it returns and the request is there. -/
example : ((Ex.within (Ex.around [.run "y = 1".toList] false) ["x = 7"] "DOIT" 0).map fun m =>
    match vmStep Ex.noFloat (Ex.around [.run "y = 1".toList] false).host m.image m.vm with
    | .stop .upcallAsync vm =>
      match invokePending (Ex.around [.run "y = 1".toList] false).host m.image vm with
      | .cont vm' => decide (vm'.host.1 = [.run "y = 1".toList])
      | _ => false
    | _ => false) = some true := by
  decide +kernel

set_option maxRecDepth 100000 in
/-- Afterwards the variables are those of that text. -/
example : ((Ex.after (Ex.around [.run "y = 1".toList] false) ["x = 7", "DOIT"]).map fun m => (Ex.variable m "X", Ex.variable m "Y")) =
    some (some (.ok none), some (.ok (some (.integer 1)))) := by
  decide +kernel

/-- **C60** `CLEAR`: when a call returns and has requested it, execution goes on with a new machine. -/
theorem C60_clear_call (hk : KeepsLimits E.host) (hb : build upcalls defs maxStack maxHeap h0 = .ok m0)
    {running : Bool} (hs : Session E m0 (some running) m) {vm vm' : Vm H}
    (hcall : vmStep E.floats E.host m.image m.vm = .stop .upcallAsync vm)
    (hret : invokePending E.host m.image vm = .cont vm') (hreq : E.actions vm'.host = [.clear]) :
    ∃ new, build upcalls defs maxStack maxHeap (E.resetState (E.dropActions vm'.host)) = .ok new ∧
      tick E false m running = .more new running := by
  have hg := call_good hk (session_good hk (good_build hb).1 (good_build hb).2 hs).1 hcall hret
  obtain ⟨new, hclear, hnew⟩ := clear_new (E := E) hb hg
  refine ⟨new, hnew, ?_⟩
  unfold tick
  rw [hcall]
  simp only
  rw [hret]
  simp only [drain]
  rw [show E.actions ({ m with vm := vm' } : Machine H).vm.host = [.clear] from hreq]
  simp only [perform, hclear]
  cases running <;> rfl

set_option maxRecDepth 100000 in
example : ((Ex.after (Ex.around [.clear] false) ["x = 7", "DOIT"]).map fun m => Ex.variable m "X") = some (some (.ok none)) := by
  decide +kernel

/-- **C60** The error handler of a program started by `RUN` does not outlive it, however it ends. -/
theorem C60_handler (hk : KeepsLimits E.host) (hb : build upcalls defs maxStack maxHeap h0 = .ok m0) (hs : Session E m0 (some true) m)
    {stop : Bool} {r : MachResult} {m' : Machine H} (ht : tick E stop m true = .done r m') : m'.vm.mach.handler = .none :=
  let ⟨hg, he⟩ := good_build hb
  ((tick_good hk (session_good hk hg he hs).1).2 _ _ ht).2.2 (.inl rfl)

set_option maxRecDepth 100000 in
/-- The stored program traps errors and the trap is gone after it; a trap set by a line stays. -/
example : ((Ex.after (Ex.around [.run "ON ERROR RESUME NEXT\ny = 1 / 0\nEND 3".toList] false) ["x = 7", "DOIT"]).map fun m =>
      (m.vm.mach.handler, m.vm.host.2)) = some (.none, ["Program exited with code 3".toList]) ∧
    ((Ex.after (Ex.around [] false) ["ON ERROR RESUME NEXT"]).map fun m => m.vm.mach.handler) = some .resumeNext := by
  decide +kernel

/-! ## C61 -/

/-- **C61** At the prompt no call is half done, and a line that does not compile changes nothing.  A line that compiles is
put behind all the code that is there, and execution starts with its first instruction: nothing of an earlier line goes on
or is executed again, even if that line failed or was interrupted. -/
theorem C61_line (hk : KeepsLimits E.host) (hb : build upcalls defs maxStack maxHeap h0 = .ok m0) (hs : Session E m0 none m) (text : Str) :
    m.vm.pending = none ∧
    (∀ e m', m.compile E text = (.error e, m') → m' = m) ∧
    (∀ m', m.compile E text = (.ok (), m') → m'.vm = m.vm ∧
      ∃ new, m'.image.code = m.image.code.dropLast ++ new ∧ m'.vm.mach.pc = m.image.code.dropLast.length) := by
  obtain ⟨hg, he⟩ := good_build hb
  obtain ⟨h1, h2⟩ := session_good hk hg he hs
  have h2 := h2 rfl
  refine ⟨h2.pending, fun e m' hc => (compile_good hc h1).2.2.1 e rfl, fun m' hc => ?_⟩
  obtain ⟨_, hv, _, hn⟩ := compile_good hc h1
  obtain ⟨new, hn⟩ := hn rfl
  refine ⟨hv, new, hn, ?_⟩
  have := h2.pc
  rw [hv, List.length_dropLast]
  omega

set_option maxRecDepth 100000 in
/-- A line fails in its middle, the next one does not compile, and the one after that runs from its start. -/
example : ((Ex.after (Ex.around [] false) ["x = 7: y = 1 / 0: x = 8", "x = )", "z = x"]).map fun m =>
    (Ex.variable m "X", Ex.variable m "Z")) = some (some (.ok (some (.integer 7))), some (.ok (some (.integer 7)))) := by
  decide +kernel

/-- **C61** A signal that arrives while a call is served or execution yields stops the line right there, even if the call
fails, and what the call requested is not done. -/
theorem C61_break {running : Bool} {vm : Vm H} :
    (vmStep E.floats E.host m.image m.vm = .stop .yield vm →
      ∃ m', tick E true m running = .done .break m' ∧ m'.vm.host = vm.host) ∧
    (∀ vm', vmStep E.floats E.host m.image m.vm = .stop .upcallAsync vm →
      (invokePending E.host m.image vm = .cont vm' ∨ ∃ pos e, invokePending E.host m.image vm = .stop (.exception pos e) vm') →
      ∃ m', tick E true m running = .done .break m' ∧ m'.vm.host = E.dropActions vm'.host) := by
  have fin : ∀ x : Machine H, (finish running x).vm.host = x.vm.host := fun x => by
    unfold finish; split <;> rfl
  constructor
  · intro h
    unfold tick
    rw [h]
    exact ⟨_, rfl, by rw [fin]; rfl⟩
  · intro vm' h hi
    unfold tick
    rw [h]
    simp only
    rcases hi with hi | ⟨pos, e, hi⟩
    · rw [hi]; exact ⟨_, rfl, by rw [fin]; rfl⟩
    · rw [hi]; exact ⟨_, rfl, by rw [fin]; rfl⟩

set_option maxRecDepth 100000 in
/-- A signal arrives while a call is served that requested `CLEAR`: the variables are still there. -/
example : ((Ex.within (Ex.around [.clear] false) ["x = 7"] "DOIT: x = 8" 0).map fun m =>
    match tick (Ex.around [.clear] false) true m false with
    | .done .break m' => decide (Ex.variable m' "X" = some (.ok (some (.integer 7))) ∧ m'.vm.host.1 = [])
    | _ => false) = some true := by
  decide +kernel

/-- **C61** If no `SUB` or `FUNCTION` was left unfinished, a line works on the variables of the program: the frame is
the one that the session started with.  Missing: without that condition it is not (`C61_counterexample`). -/
theorem C61_variables_partial (hk : KeepsLimits E.host) (hb : build upcalls defs maxStack maxHeap h0 = .ok m0) (hs : Session E m0 p m)
    (hu : ∀ f ∈ m.vm.mach.stack, f.retReg = none) : m.vm.mach.fp = m0.vm.mach.fp := by
  obtain ⟨hg, he⟩ := good_build hb
  have h1 := (session_good hk hg he hs).1
  rw [h1.sane.frames.program hu]
  unfold build at hb
  split at hb
  · cases hb
  · cases hb; rfl

set_option maxRecDepth 100000 in
/-- A `GOSUB` that is left unfinished does not matter. -/
example : ((Ex.after (Ex.around [] false) ["x = 7", "GOSUB @a\nEND\n@a\nEND", "z = x"]).map fun m =>
    (m.vm.mach.stack.map (·.retReg), Ex.variable m "Z")) = some ([none], some (.ok (some (.integer 7)))) := by
  decide +kernel

end

/-- The machine that the counterexample reaches. -/
def Ex.wrongFrame : List String := ["x = 7", "SUB f\ny = 1 / 0\nEND SUB\nf", "z = x"]

set_option maxRecDepth 100000 in
/-- **C61** fails if a `SUB` or `FUNCTION` is left by an error (or `END`, or a break): the lines that follow do not see the
variables of the program.  Here `x` is 7, a line calls a `SUB` that fails, and `z = x` makes `z` 1. -/
theorem C61_counterexample : ∃ m0 m, build Ex.command [] 50 50 ([], []) = .ok m0 ∧
    Session (Ex.around [] false) m0 none m ∧ Ex.after (Ex.around [] false) Ex.wrongFrame = some m ∧
    m.vm.getProgram m.image "X".toList = some (.ok (some (.integer 7))) ∧
    m.vm.getProgram m.image "Z".toList = some (.ok (some (.integer 1))) := by
  have h : ((Ex.after (Ex.around [] false) Ex.wrongFrame).map fun m =>
      (m.vm.getProgram m.image "X".toList, m.vm.getProgram m.image "Z".toList)) =
      some (some (.ok (some (.integer 7))), some (.ok (some (.integer 1)))) := by
    decide +kernel
  cases hm : Ex.after (Ex.around [] false) Ex.wrongFrame with
  | none => rw [hm] at h; cases h
  | some m =>
    rw [hm] at h
    simp only [Option.map_some, Option.some.injEq, Prod.mk.injEq] at h
    obtain ⟨m0, hb, hs⟩ := Ex.after_session hm
    exact ⟨m0, m, hb, hs, rfl, h.1, h.2⟩

end EB
