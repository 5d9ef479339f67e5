import Verif.Lemmas.VmRun
/-!
# C13, C15, C16, C50: procedures, subroutines, error handlers and END on the machine

The theorems quantify over all images, machine states, hosts (built-in callables), floating-point
implementations and executions.
-/

namespace EB
open Spec

variable {H : Type}

/-- Two machine states with the same control state and registers (the pending-yield flag, the heap
and the pc may differ). -/
structure SameMach (m m' : Mach) : Prop where
  stack : m'.stack = m.stack
  fp : m'.fp = m.fp
  regs : m'.regs = m.regs
  handler : m'.handler = m.handler
  maxStack : m'.maxStack = m.maxStack

theorem run_cons {F : FloatOps} {host : Host H} {img : Image} {P : Vm H → Prop} {vm vm' : Vm H}
    {e : Ev} {l : List Ev} (h : VmRun F host img P vm (e :: l) vm') :
    ∃ v1 v2 : Vm H, SameMach vm.mach v1.mach ∧ (e = .enter ∨ e = .leave → v1.mach.pc = vm.mach.pc) ∧
      EvEffect img v1.mach v2.mach e ∧ v2.mach.maxStack = v1.mach.maxStack ∧
      (e ≠ .leave → ∀ b, (∀ v, P v → UpcallKeeps host img b v) → b ≤ vm.mach.fp →
        ∀ j, maxGlobal ≤ j → j < b → v2.mach.regs j = vm.mach.regs j) ∧
      VmRun F host img P v2 l vm' := by
  generalize hl : e :: l = l0 at h
  induction h with
  | refl => simp at hl
  | step hP hs hr ih =>
    rename_i vm vm1 vm2 l'
    injection hl with h1 h2
    subst h1; subst h2
    obtain ⟨_, _, h3, h4, h5⟩ := vm_effect hs
    exact ⟨vm, vm1, ⟨rfl, rfl, rfl, rfl, rfl⟩, fun _ => rfl, h4, h3,
      fun hne b hb hfp => h5 hne b (hb vm hP) hfp, hr⟩
  | yield hP hs hr ih =>
    obtain ⟨_, rfl⟩ := vm_yield hs
    obtain ⟨v1, v2, h1, h2, h3, h4, h5, h6⟩ := ih hl
    exact ⟨v1, v2, ⟨h1.stack, h1.fp, h1.regs, h1.handler, h1.maxStack⟩, h2, h3, h4, h5, h6⟩
  | async hP hs hP1 hi hr ih =>
    rename_i vm vm1 vm2 vm3 l'
    injection hl with h1 h2
    subst h1; subst h2
    obtain ⟨a1, a2, a3, a4, a5, _⟩ := vm_async hs
    obtain ⟨_, b2, b3, ⟨b4, b5⟩, b6⟩ := pending_effect hi
    refine ⟨vm1, vm2, ⟨a1, a2, a3, a4, a5⟩, ?_, b3, b2, ?_, hr⟩
    · rintro (h | h)
      · exact absurd h b5
      · exact absurd h b4
    · intro _ b hb _ j hj hj'
      rw [b6 b (hb vm1 hP1) j hj hj', a3]

theorem run_append {F : FloatOps} {host : Host H} {img : Image} {P : Vm H → Prop} {vm vm' : Vm H}
    {l l' : List Ev} (h : VmRun F host img P vm (l ++ l') vm') :
    ∃ v, VmRun F host img P vm l v ∧ VmRun F host img P v l' vm' := by
  generalize hl : l ++ l' = l0 at h
  induction h generalizing l with
  | refl v =>
    simp at hl; obtain ⟨rfl, rfl⟩ := hl
    exact ⟨_, .refl _, .refl _⟩
  | step hP hs hr ih =>
    cases l with
    | nil => simp at hl; subst hl; exact ⟨_, .refl _, .step hP hs hr⟩
    | cons e l =>
      simp at hl
      obtain ⟨rfl, hl⟩ := hl
      obtain ⟨v, h1, h2⟩ := ih hl
      exact ⟨v, .step hP hs h1, h2⟩
  | yield hP hs hr ih =>
    obtain ⟨v, h1, h2⟩ := ih hl
    exact ⟨v, .yield hP hs h1, h2⟩
  | async hP hs hP1 hi hr ih =>
    cases l with
    | nil => simp at hl; subst hl; exact ⟨_, .refl _, .async hP hs hP1 hi hr⟩
    | cons e l =>
      simp at hl
      obtain ⟨rfl, hl⟩ := hl
      obtain ⟨v, h1, h2⟩ := ih hl
      exact ⟨v, .async hP hs hP1 hi h1, h2⟩

theorem run_nil {F : FloatOps} {host : Host H} {img : Image} {P : Vm H → Prop} {vm vm' : Vm H}
    (h : VmRun F host img P vm [] vm') : SameMach vm.mach vm'.mach ∧ vm'.mach.pc = vm.mach.pc := by
  generalize hl : [] = l0 at h
  induction h with
  | refl => exact ⟨⟨rfl, rfl, rfl, rfl, rfl⟩, rfl⟩
  | step => simp at hl
  | yield hP hs hr ih =>
    obtain ⟨_, rfl⟩ := vm_yield hs
    obtain ⟨h1, h2⟩ := ih hl
    exact ⟨⟨h1.stack, h1.fp, h1.regs, h1.handler, h1.maxStack⟩, h2⟩
  | async => simp at hl

/-- Balanced executions restore the frames and leave registers below the frame alone. -/
theorem run_balanced {F : FloatOps} {host : Host H} {img : Image} {P : Vm H → Prop} {l : List Ev}
    (hl : Balanced l) : ∀ {vm vm' : Vm H}, VmRun F host img P vm l vm' →
      vm'.mach.stack = vm.mach.stack ∧ vm'.mach.fp = vm.mach.fp ∧
      (∀ b, (∀ v, P v → UpcallKeeps host img b v) → b ≤ vm.mach.fp →
        ∀ j, maxGlobal ≤ j → j < b → vm'.mach.regs j = vm.mach.regs j) := by
  induction hl with
  | nil =>
    intro vm vm' h
    obtain ⟨h, _⟩ := run_nil h
    exact ⟨h.stack, h.fp, fun _ _ _ j _ _ => by rw [h.regs]⟩
  | skip e l h1 h2 _ ih =>
    intro vm vm' h
    obtain ⟨v1, v2, a1, a2, a3, a4, a5, a6⟩ := run_cons h
    obtain ⟨b1, b2, b3⟩ := ih a6
    have key : v2.mach.stack = v1.mach.stack ∧ v2.mach.fp = v1.mach.fp := by
      cases e with
      | enter => exact absurd rfl h1
      | leave => exact absurd rfl h2
      | arm m t => exact ⟨a3.1, a3.2.1⟩
      | error => exact ⟨a3.1, a3.2.1⟩
      | other => exact ⟨a3.1, a3.2.1⟩
    refine ⟨by rw [b1, key.1, a1.stack], by rw [b2, key.2, a1.fp], ?_⟩
    intro b hb hfp j hj hj'
    rw [b3 b hb (by rw [key.2, a1.fp]; exact hfp) j hj hj', a5 h2 b hb hfp j hj hj']
  | call l l' _ _ ih ih' =>
    intro vm vm' h
    obtain ⟨v1, v2, a1, a2, a3, a4, a5, a6⟩ := run_cons h
    obtain ⟨v3, c1, c2⟩ := run_append a6
    obtain ⟨b1, b2, b3⟩ := ih c1
    obtain ⟨v4, v5, d1, d2, d3, d4, d5, d6⟩ := run_cons c2
    obtain ⟨e1, e2, e3⟩ := ih' d6
    obtain ⟨ret, k, f1, f2, f3, f4, f5, f6, f7, -⟩ := a3
    obtain ⟨f, -, g1, g2, g3, g4, g5⟩ := d3
    rw [d1.stack, b1, f1] at g1
    injection g1 with g0 g1
    subst g0
    simp only at g2 g3 g5
    refine ⟨by rw [e1, ← g1, a1.stack], by rw [e2, g3, a1.fp], ?_⟩
    intro b hb hfp j hj hj'
    have hfp3 : b ≤ v2.mach.fp := by rw [f3, a1.fp]; omega
    have h5 : v5.mach.regs j = v4.mach.regs j := by
      cases ret with
      | none => simp only at g5; rw [g5]
      | some r =>
        simp only at g5
        rw [g5]
        apply setAt_ne
        have := (f6 r rfl).1
        rw [a1.fp]
        split <;> omega
    rw [e3 b hb (by rw [g3, a1.fp]; exact hfp) j hj hj', h5, d1.regs, b3 b hb hfp3 j hj hj', f5, a1.regs]

/-! ## C13: procedure calls -/

/-- **C13** (machine level) Take any execution of a call instruction at address `p` with result
register `r`, up to and including its matching return (everything in between is arbitrary: nested
and recursive calls, GOSUBs, handled errors, yields, built-in callables).  When it comes back,
execution continues right after the call with the caller's frame, and every register of the
caller and its callers below the result register is as before; the result register holds what the
callee left in its first local.  Built-in callables are assumed to only change registers of
the procedure that uses them, or globals. -/
theorem C13_call_isolation {F : FloatOps} {host : Host H} {img : Image} {vm vm' : Vm H} {body : List Ev}
    {p : Nat} {r : Reg} {t : U16}
    (hpc : vm.mach.pc = p) (hcode : img.code[p]? = some (.call r t)) (hbody : Balanced body)
    (hrun : VmRun F host img (UpcallKeeps host img (vm.mach.fp + (r.toNat - maxGlobal))) vm
      (.enter :: (body ++ [.leave])) vm') :
    vm'.mach.pc = p + 1 ∧ vm'.mach.fp = vm.mach.fp ∧ vm'.mach.stack = vm.mach.stack ∧
    (∀ j, maxGlobal ≤ j → j < vm.mach.fp + (r.toNat - maxGlobal) → vm'.mach.regs j = vm.mach.regs j) ∧
    (∃ last : Vm H, VmRun F host img (UpcallKeeps host img (vm.mach.fp + (r.toNat - maxGlobal))) vm
        (.enter :: body) last ∧ last.mach.fp = vm.mach.fp + (r.toNat - maxGlobal) ∧
      vm'.mach.get r = last.mach.regs last.mach.fp) := by
  have hrun' := hrun
  rw [← List.cons_append] at hrun'
  obtain ⟨last, hl1, hl2⟩ := run_append hrun'
  obtain ⟨v1, v2, a1, a2, a3, a4, a5, a6⟩ := run_cons hrun
  obtain ⟨v3, c1, c2⟩ := run_append a6
  obtain ⟨w1, w2, aa1, aa2, aa3, aa4, aa5, aa6⟩ := run_cons hl1
  obtain ⟨ret, k, f1, f2, f3, f4, f5, f6, f7, f8⟩ := aa3
  obtain ⟨b1, b2, b3⟩ := run_balanced hbody aa6
  obtain ⟨v4, v5, d1, d2, d3, d4, d5, d6⟩ := run_cons hl2
  obtain ⟨hn, hn'⟩ := run_nil d6
  obtain ⟨f, g0, g1, g2, g3, g4, g5⟩ := d3
  have hp1 := aa2 (.inl rfl)
  have hret : ret = some r := by
    rcases f8 with ⟨r', t', h1, h2, _⟩ | ⟨t', h1, _⟩
    · rw [hp1, hpc, hcode] at h1; simp at h1; rw [h2, h1.1]
    · rw [hp1, hpc, hcode] at h1; simp at h1
  subst hret
  obtain ⟨hr1, hk⟩ := f6 r rfl
  subst hk
  rw [d1.stack, b1, f1] at g1
  injection g1 with ge g1
  subst ge
  simp only at g2 g3 g5
  refine ⟨by rw [hn', g2, hp1, hpc], by rw [hn.fp, g3, aa1.fp], by rw [hn.stack, ← g1, aa1.stack], ?_,
    last, hl1, by rw [b2, f3, aa1.fp], ?_⟩
  · intro j hj hj'
    rw [hn.regs, g5, if_neg (by omega), setAt_ne (by rw [aa1.fp]; omega), d1.regs,
      b3 _ (fun _ h => h) (by rw [f3, aa1.fp]; exact Nat.le_refl _) j hj hj', f5, aa1.regs]
  · unfold Mach.get Mach.regIndex
    rw [hn.regs, hn.fp, g3, g5, setAt_eq, d1.regs, d1.fp]


/-- A host without any callable, for examples. -/
def noHost : Host Unit :=
  { exec := fun _ _ _ regs heap _ _ h => (h, regs, heap, .error (none, [])) }

/-- Floating-point operations for examples that use none. -/
def noFloat : FloatOps :=
  { add := fun a _ => a, sub := fun a _ => a, mul := fun a _ => a, div := fun a _ => a,
    rem := fun a _ => a, pow := fun a _ => a, neg := fun a => a, eq := fun _ _ => false,
    lt := fun _ _ => false, le := fun _ _ => false, ofInt := fun i => i.setWidth 64,
    toInt := fun _ => none }

/-- An image with the given code, for examples. -/
def exampleImage (code : List Instr) : Image :=
  { code := code, upcalls := [], constants := [], data := [],
    instrs := code.map fun _ => { linecol := ⟨1, 1⟩, isStmtStart := false, argLinecols := [] },
    callables := [], globalVars := [], programVars := [] }

/-- Starting state, for examples. -/
def exampleVm (maxStack : Nat) : Vm Unit :=
  { mach := Mach.new maxStack 10, lastError := none, pending := none, host := () }

/-- Runs `n` steps, for examples. -/
def runFor (img : Image) : Nat → Vm Unit → List Ev × Vm Unit
  | 0, vm => ([], vm)
  | n + 1, vm =>
    match vmStep noFloat noHost img vm with
    | .cont vm' => let r := runFor img n vm'; (vmEvent noFloat noHost img vm :: r.1, r.2)
    | _ => ([], vm)

theorem runFor_run (img : Image) (P : Vm Unit → Prop) (hP : ∀ vm, P vm) (n : Nat) (vm : Vm Unit) :
    VmRun noFloat noHost img P vm (runFor img n vm).1 (runFor img n vm).2 := by
  induction n generalizing vm with
  | zero => exact .refl _
  | succ n ih =>
    unfold runFor
    split
    next vm' h => exact .step (hP vm) h (ih vm')
    · exact .refl _

/-- A caller with a live variable calls a function that calls another one: -/
def callExample : Image := exampleImage
  [ .loadInt 64#8 7#16, .call 65#8 3#16, .eof,
    .loadInt 65#8 9#16, .call 66#8 7#16, .move 64#8 66#8, .ret,
    .loadInt 64#8 5#16, .ret ]

theorem noHost_keeps {img : Image} {b : Nat} (vm : Vm Unit) : UpcallKeeps noHost img b vm :=
  fun _ _ _ _ _ _ _ _ => rfl

example : ∃ vm' : Vm Unit,
    VmRun noFloat noHost callExample (UpcallKeeps noHost callExample (64 + 1)) (runFor callExample 1 (exampleVm 5)).2
      (.enter :: ([.other, .enter, .other, .leave, .other] ++ [.leave])) vm' ∧
    Balanced [.other, .enter, .other, .leave, .other] ∧
    vm'.mach.get 64#8 = 7#64 ∧ vm'.mach.get 65#8 = 5#64 := by
  refine ⟨_, runFor_run callExample _ noHost_keeps 7 _, ?_, ?_, ?_⟩
  · exact .skip _ _ (by simp) (by simp)
      (.call [.other] [.other] (.skip _ _ (by simp) (by simp) .nil) (.skip _ _ (by simp) (by simp) .nil))
  · rfl
  · rfl

/-! ## C15: GOSUB and RETURN -/

/-- **C15** A RETURN matching a GOSUB at address `p` continues at `p + 1`, with the same frame and
the same pending subroutines as before the GOSUB, whatever the subroutine does in between. -/
theorem C15_gosub_return {F : FloatOps} {host : Host H} {img : Image} {P : Vm H → Prop}
    {vm vm' : Vm H} {body : List Ev} {p : Nat} {t : U16}
    (hpc : vm.mach.pc = p) (_hcode : img.code[p]? = some (.gosub t)) (hbody : Balanced body)
    (hrun : VmRun F host img P vm (.enter :: (body ++ [.leave])) vm') :
    vm'.mach.pc = p + 1 ∧ vm'.mach.fp = vm.mach.fp ∧ vm'.mach.stack = vm.mach.stack := by
  obtain ⟨w1, w2, aa1, aa2, aa3, aa4, aa5, aa6⟩ := run_cons hrun
  obtain ⟨last, c1, c2⟩ := run_append aa6
  obtain ⟨ret, k, f1, f2, f3, f4, f5, f6, f7, f8⟩ := aa3
  obtain ⟨b1, b2, b3⟩ := run_balanced hbody c1
  obtain ⟨v4, v5, d1, d2, d3, d4, d5, d6⟩ := run_cons c2
  obtain ⟨hn, hn'⟩ := run_nil d6
  obtain ⟨f, g0, g1, g2, g3, g4, g5⟩ := d3
  have hp1 := aa2 (.inl rfl)
  rw [d1.stack, b1, f1] at g1
  injection g1 with ge g1
  subst ge
  exact ⟨by rw [hn', g2, hp1, hpc], by rw [hn.fp, g3, aa1.fp], by rw [hn.stack, ← g1, aa1.stack]⟩

/-- **C15** A GOSUB or call whose entry succeeds goes to its target. -/
theorem C15_gosub_target {F : FloatOps} {host : Host H} {img : Image} {vm vm' : Vm H} {t : U16}
    (hcode : img.code[vm.mach.pc]? = some (.gosub t)) (hs : vmStep F host img vm = .cont vm')
    (hev : vmEvent F host img vm = .enter) : vm'.mach.pc = t.toNat := by
  obtain ⟨_, _, _, h, _⟩ := vm_effect hs
  rw [hev] at h
  obtain ⟨ret, k, f1, f2, f3, f4, f5, f6, f7, f8⟩ := h
  rcases f8 with ⟨r', t', h1, _⟩ | ⟨t', h1, _, h3⟩
  · rw [hcode] at h1; simp at h1
  · rw [hcode] at h1; simp at h1; rw [h3, h1]

/-- **C15** The number of pending GOSUBs and calls is the number of entries minus the number of
exits since the start, and never exceeds the limit. -/
theorem C15_depth {F : FloatOps} {host : Host H} {img : Image} {P : Vm H → Prop} {vm vm' : Vm H}
    {l : List Ev} (hrun : VmRun F host img P vm l vm') (hlim : vm.mach.stack.length ≤ vm.mach.maxStack) :
    (vm'.mach.stack.length : Int) = vm.mach.stack.length + depth l ∧
    vm'.mach.maxStack = vm.mach.maxStack ∧ vm'.mach.stack.length ≤ vm.mach.maxStack := by
  induction l generalizing vm with
  | nil =>
    obtain ⟨h, _⟩ := run_nil hrun
    simp [h.stack, h.maxStack, depth, hlim]
  | cons e l ih =>
    obtain ⟨v1, v2, a1, a2, a3, a4, a5, a6⟩ := run_cons hrun
    have key : (v2.mach.stack.length : Int) = vm.mach.stack.length + depth [e] ∧
        v2.mach.stack.length ≤ v2.mach.maxStack := by
      rw [a4, a1.maxStack]
      cases e with
      | enter =>
        obtain ⟨ret, k, f1, f2, -⟩ := a3
        rw [a1.stack, a1.maxStack] at f2
        rw [f1, a1.stack]; simp [depth]; omega
      | leave =>
        obtain ⟨f, g0, g1, -⟩ := a3
        rw [a1.stack] at g1
        rw [g1] at hlim ⊢
        simp [depth] at hlim ⊢; omega
      | arm m t => rw [a3.1, a1.stack]; simp [depth, hlim]
      | error => rw [a3.1, a1.stack]; simp [depth, hlim]
      | other => rw [a3.1, a1.stack]; simp [depth, hlim]
    obtain ⟨h1, h2, h3⟩ := ih a6 key.2
    rw [a4, a1.maxStack] at h2 h3
    refine ⟨?_, h2, h3⟩
    rw [h1, key.1]
    cases e <;> simp [depth] <;> omega

/-- **C15** RETURN fails exactly when nothing is pending, and with the documented error; GOSUB fails
exactly when the limit is reached.  No other outcome (such as a crash) is possible. -/
theorem C15_errors (F : FloatOps) (img : Image) (m : Mach) (meta' : InstrMeta)
    (hm : img.instrs[m.pc]? = some meta') (hy : (m.yieldPending && meta'.isStmtStart) = false) :
    (img.code[m.pc]? = some .ret →
      (m.stack = [] → step F img m = .stop (.exception m.pc .returnWithoutGosub) m) ∧
      (m.stack ≠ [] → ∃ m', step F img m = .cont m')) ∧
    (∀ t, img.code[m.pc]? = some (.gosub t) →
      (m.stack.length ≥ m.maxStack → step F img m = .stop (.exception m.pc .outOfCallStack) m) ∧
      (m.stack.length < m.maxStack → ∃ m', step F img m = .cont m')) := by
  constructor
  · intro hc
    constructor
    · intro hs
      simp [step, hm, hy, hc, execInstr, doReturn, hs, Mach.raise]
    · intro hs
      obtain ⟨f, rest, hs⟩ := List.exists_cons_of_ne_nil hs
      simp only [step, hm, hy, hc, execInstr, doReturn, hs]
      cases f.retReg <;> exact ⟨_, rfl⟩
  · intro t hc
    constructor
    · intro hs
      simp [step, hm, hy, hc, execInstr, doGosub, Mach.pushFrame, hs, Mach.raise]
    · intro hs
      have : ¬ m.stack.length ≥ m.maxStack := by omega
      simp only [step, hm, hy, hc, execInstr, doGosub, Mach.pushFrame, this]
      exact ⟨_, rfl⟩

/-- Nested subroutines; the third RETURN has no GOSUB. -/
def gosubExample : Image := exampleImage
  [ .gosub 3#16, .nop, .ret, .gosub 5#16, .ret, .ret, .eof ]

example : ∃ vm' : Vm Unit,
    VmRun noFloat noHost gosubExample (fun _ => True) (exampleVm 5)
      (.enter :: ([.enter, .leave] ++ [.leave])) vm' ∧ Balanced [.enter, .leave] ∧ vm'.mach.pc = 1 ∧
    nextError noFloat noHost gosubExample (runFor gosubExample 1 vm').2 = some (⟨1, 1⟩, .returnWithoutGosub) := by
  refine ⟨_, runFor_run gosubExample _ (fun _ => trivial) 4 _, .call [] [] .nil .nil, rfl, rfl⟩

/-! ## C16: error handlers -/

/-- The policy that a machine state implements. -/
def ErrorHandler.policy : ErrorHandler → Policy
  | .none => .abort
  | .jump active addr => .goto addr active
  | .resumeNext => .resumeNext

/-- **C16** In every execution, the handler in force is the one of the last ON ERROR statement
executed, and a GOTO handler counts as used from the first error it handles until the next
ON ERROR. -/
theorem C16_policy {F : FloatOps} {host : Host H} {img : Image} {P : Vm H → Prop} {vm vm' : Vm H}
    {l : List Ev} (hrun : VmRun F host img P vm l vm') :
    vm'.mach.handler.policy = l.foldl Policy.after vm.mach.handler.policy := by
  induction l generalizing vm with
  | nil => obtain ⟨h, _⟩ := run_nil hrun; rw [h.handler]; rfl
  | cons e l ih =>
    obtain ⟨v1, v2, a1, a2, a3, a4, a5, a6⟩ := run_cons hrun
    rw [ih a6, List.foldl_cons]
    congr 1
    rw [← a1.handler]
    cases e with
    | enter => obtain ⟨ret, k, f1, f2, f3, f4, -⟩ := a3; rw [f4]; rfl
    | leave => obtain ⟨f, g0, g1, g2, g3, g4, -⟩ := a3; rw [g4]; rfl
    | arm m t => rw [a3.2.2.2]; cases m <;> rfl
    | error =>
      rcases a3.2.2 with ⟨a, h1, h2, -⟩ | ⟨h1, h2⟩
      · rw [h1, h2]; rfl
      · rw [h1, h2]; rfl
    | other => rw [a3.2.2]; rfl

/-- What an error raised at position `pos` with message `e` must lead to, by the policy in force. -/
def ErrorOutcome (img : Image) (pc : Nat) (pos : LineCol) (e : RtErr) (pol : Policy) (r : VmStep H) : Prop :=
  match pol with
  | .abort | .goto _ true => ∃ vm', r = .stop (.exception pos e) vm' ∧
      vm'.lastError = some (pos, e) ∧ vm'.mach.pc = img.code.length - 1
  | .goto t false => ∃ vm', r = .cont vm' ∧ vm'.lastError = some (pos, e) ∧ vm'.mach.pc = t
  | .resumeNext => ∃ vm', r = .cont vm' ∧ vm'.lastError = some (pos, e) ∧ pc < vm'.mach.pc

theorem nextStmtStart_gt {img : Image} {pc : Nat} (h : pc < img.code.length) : pc < nextStmtStart img pc := by
  unfold nextStmtStart
  split <;> omega

/-- **C16** Whenever a step raises an error (an instruction or a built-in callable): without a
handler, or with one that is already handling an error, the program stops and reports the
position and message; with an unused GOTO handler control moves to its label; in all cases the
error becomes the last error (what ERRMSG shows). -/
theorem C16_error_outcome {F : FloatOps} {host : Host H} {img : Image} {vm : Vm H} {pos : LineCol}
    {e : RtErr} (hlen : vm.mach.pc < img.code.length)
    (hfirst : ∀ idx first, img.code[vm.mach.pc]? = some (.upcall idx first) → maxGlobal ≤ first.toNat)
    (herr : nextError F host img vm = some (pos, e)) :
    ErrorOutcome img vm.mach.pc pos e vm.mach.handler.policy (vmStep F host img vm) := by
  unfold nextError at herr
  split at herr
  · simp at herr
  next hp =>
  split at herr
  next pc e' m hs =>
    simp only [Option.map_eq_some_iff, Prod.mk.injEq] at herr
    obtain ⟨meta', hmeta, rfl, rfl⟩ := herr
    rcases step_stop hs with ⟨h1, _⟩ | ⟨-, i, hi, he⟩
    · simp at h1
    rcases exec_stop he with ⟨e', h1, h2⟩ | ⟨_, _, h1 | h1, _⟩ | ⟨h1, _⟩ | ⟨_, _, h1, _⟩
    · subst h2
      simp only [Stop.exception.injEq] at h1
      obtain ⟨rfl, rfl⟩ := h1
      simp only [vmStep, hp, hs, hmeta]
      cases hh : vm.mach.handler with
      | none =>
        simp only [handleException, hh, ErrorHandler.policy, ErrorOutcome]
        exact ⟨_, rfl, rfl, rfl⟩
      | jump act addr =>
        cases act
        · simp only [handleException, hh, ErrorHandler.policy, ErrorOutcome]
          exact ⟨_, rfl, rfl, rfl⟩
        · simp only [handleException, hh, ErrorHandler.policy, ErrorOutcome]
          exact ⟨_, rfl, rfl, rfl⟩
      | resumeNext =>
        simp only [handleException, hh, ErrorHandler.policy, ErrorOutcome]
        exact ⟨_, rfl, rfl, nextStmtStart_gt hlen⟩
    · simp at h1
    · simp at h1
    · simp at h1
    · simp at h1
  next idx first pc m hs =>
    rcases step_stop hs with ⟨h1, _⟩ | ⟨-, i, hi, he⟩
    · simp at h1
    have hup : i = .upcall idx first ∧ pc = vm.mach.pc ∧ m = vm.mach.next := by
      rcases exec_stop he with ⟨e', h1, h2⟩ | ⟨_, _, h1 | h1, h2⟩ | ⟨h1, _⟩ | ⟨_, _, h1, _⟩
      · simp at h1
      · obtain ⟨ha, hb⟩ := h1
        simp only [Stop.upcall.injEq] at hb
        obtain ⟨rfl, rfl, rfl⟩ := hb
        exact ⟨ha, rfl, h2⟩
      · simp at h1
      · simp at h1
      · simp at h1
    obtain ⟨rfl, rfl, rfl⟩ := hup
    have hf := hfirst idx first hi
    unfold upcallError at herr
    simp only [vmStep, hp, hs, runUpcall, show ¬ first.toNat < maxGlobal by omega, ↓reduceIte]
    obtain ⟨h', regs', heap', res, hx⟩ : ∃ a b c d, host.exec idx
      (vm.mach.next.fp + (first.toNat - maxGlobal))
      (img.argPositions vm.mach.pc) vm.mach.next.regs vm.mach.next.heap vm.lastError img vm.host = (a, b, c, d) := ⟨_, _, _, _, rfl⟩
    simp only [hx] at herr ⊢
    split at herr
    next pos' msg meta' h2 =>
      simp only [Option.some.injEq, Prod.mk.injEq] at herr
      obtain ⟨rfl, rfl⟩ := herr
      simp only [h2]
      cases hh : vm.mach.handler with
      | none =>
        simp only [handleException, show vm.mach.next.handler = vm.mach.handler from rfl, hh,
          ErrorHandler.policy, ErrorOutcome]
        exact ⟨_, rfl, rfl, rfl⟩
      | jump act addr =>
        cases act
        · simp only [handleException, show vm.mach.next.handler = vm.mach.handler from rfl, hh,
            ErrorHandler.policy, ErrorOutcome]
          exact ⟨_, rfl, rfl, rfl⟩
        · simp only [handleException, show vm.mach.next.handler = vm.mach.handler from rfl, hh,
            ErrorHandler.policy, ErrorOutcome]
          exact ⟨_, rfl, rfl, rfl⟩
      | resumeNext =>
        simp only [handleException, show vm.mach.next.handler = vm.mach.handler from rfl, hh,
          ErrorHandler.policy, ErrorOutcome]
        exact ⟨_, rfl, rfl, nextStmtStart_gt hlen⟩
    · simp at herr
  · simp at herr

/-- ON ERROR GOTO, a first error that is handled, a second one that is not. -/
def handlerExample : Image := exampleImage
  [ .setErrorHandler .jump 2#16, .ret, .ret, .eof ]

example : ((runFor handlerExample 2 (exampleVm 5)).1 = [.arm .jump 2, .error]) ∧
    (runFor handlerExample 2 (exampleVm 5)).2.mach.pc = 2 ∧
    nextError noFloat noHost handlerExample (runFor handlerExample 2 (exampleVm 5)).2 =
      some (⟨1, 1⟩, .returnWithoutGosub) ∧
    (runFor handlerExample 2 (exampleVm 5)).2.mach.handler.policy = .goto 2 true := by
  refine ⟨rfl, rfl, rfl, rfl⟩

/-! ## C50: END -/

/-- **C50** END with a code `n` in a register stops the program with that exit code exactly when
`0 ≤ n < 128`, and otherwise raises the documented error. -/
theorem C50_end (F : FloatOps) (img : Image) (m : Mach) (meta' : InstrMeta) (r : Reg)
    (hm : img.instrs[m.pc]? = some meta') (hy : (m.yieldPending && meta'.isStmtStart) = false)
    (hc : img.code[m.pc]? = some (.end r)) :
    (0 ≤ (toI32 (m.get r)).toInt ∧ (toI32 (m.get r)).toInt < 128 →
      ∃ c, step F img m = .stop (.end c) m ∧ (c.toNat : Int) = (toI32 (m.get r)).toInt) ∧
    (¬ (0 ≤ (toI32 (m.get r)).toInt ∧ (toI32 (m.get r)).toInt < 128) →
      step F img m = .stop (.exception m.pc .badExitCode) m) := by
  have hs : step F img m = doEnd m r := by
    simp only [step, hm, hy, hc, Bool.false_eq_true, if_false]; rfl
  rw [hs]
  constructor
  · rintro ⟨h1, h2⟩
    simp only [doEnd, exitCodeTryNew, if_pos (And.intro h1 h2)]
    refine ⟨_, rfl, ?_⟩
    simp; omega
  · intro h
    simp only [doEnd, exitCodeTryNew, if_neg h]
    rfl

example : vmStep noFloat noHost (exampleImage [.loadInt 64#8 3#16, .end 64#8, .eof])
    (runFor (exampleImage [.loadInt 64#8 3#16, .end 64#8, .eof]) 1 (exampleVm 5)).2 =
    .stop (.end 3#8) { (runFor (exampleImage [.loadInt 64#8 3#16, .end 64#8, .eof]) 1 (exampleVm 5)).2 with
      mach := { (runFor (exampleImage [.loadInt 64#8 3#16, .end 64#8, .eof]) 1 (exampleVm 5)).2.mach with pc := 2 } } := rfl

end EB
