import Verif.Model.Run
/-!
# Lemmas about single steps of the machine
-/

namespace EB
open Spec (Ev)

theorem setAt_ne {regs : Nat → BitVec 64} {i j : Nat} {v : BitVec 64} (h : j ≠ i) :
    setAt regs i v j = regs j := if_neg h

theorem setAt_eq {regs : Nat → BitVec 64} {i : Nat} {v : BitVec 64} :
    setAt regs i v i = v := if_pos rfl

theorem set_low {m : Mach} {r : Reg} {v : BitVec 64} {j : Nat} (h1 : maxGlobal ≤ j) (h2 : j < m.fp) :
    (m.set r v).regs j = m.regs j := by
  apply setAt_ne
  unfold Mach.regIndex
  split <;> omega

/-- `m'` differs from `m` only in registers of the frame or globals, the heap, the pc and flags. -/
structure SameFrame (m m' : Mach) : Prop where
  stack : m'.stack = m.stack
  fp : m'.fp = m.fp
  maxStack : m'.maxStack = m.maxStack
  handler : m'.handler = m.handler
  regs : ∀ j, maxGlobal ≤ j → j < m.fp → m'.regs j = m.regs j

theorem SameFrame.rfl {m : Mach} : SameFrame m m := ⟨.refl _, .refl _, .refl _, .refl _, fun _ _ _ => .refl _⟩

theorem SameFrame.set {m : Mach} (r : Reg) (v : BitVec 64) : SameFrame m (m.set r v).next :=
  ⟨.refl _, .refl _, .refl _, .refl _, fun _ h1 h2 => set_low h1 h2⟩

theorem SameFrame.setHeap {m : Mach} (h : Heap) (r : Reg) (v : BitVec 64) :
    SameFrame m ({ m with heap := h }.set r v).next :=
  ⟨.refl _, .refl _, .refl _, .refl _, fun _ h1 h2 => set_low (m := { m with heap := h }) h1 h2⟩

/-- What an instruction does to the frames when it completes. -/
def ExecEffect (m m' : Mach) : Instr → Prop
  | .call r t => m'.stack = { oldPc := m.pc, oldFp := m.fp, retReg := some r } :: m.stack ∧
      m.stack.length < m.maxStack ∧ m'.maxStack = m.maxStack ∧ m'.handler = m.handler ∧
      m'.regs = m.regs ∧ m'.heap = m.heap ∧ maxGlobal ≤ r.toNat ∧
      m'.fp = m.fp + (r.toNat - maxGlobal) ∧ m'.pc = t.toNat ∧ m'.yieldPending = m.yieldPending
  | .gosub t => m'.stack = { oldPc := m.pc, oldFp := m.fp, retReg := none } :: m.stack ∧
      m.stack.length < m.maxStack ∧ m'.maxStack = m.maxStack ∧ m'.handler = m.handler ∧
      m'.regs = m.regs ∧ m'.heap = m.heap ∧ m'.fp = m.fp ∧ m'.pc = t.toNat ∧
      m'.yieldPending = m.yieldPending
  | .ret => ∃ f, m.stack = f :: m'.stack ∧ m'.maxStack = m.maxStack ∧ m'.handler = m.handler ∧
      m'.pc = f.oldPc + 1 ∧ m'.fp = f.oldFp ∧ m'.heap = m.heap ∧
      (match f.retReg with
        | none => m'.regs = m.regs ∧ m'.yieldPending = true
        | some r => m'.yieldPending = m.yieldPending ∧
            m'.regs = setAt m.regs (if r.toNat < maxGlobal then r.toNat else r.toNat - maxGlobal + f.oldFp)
              (m.regs m.fp))
  | .setErrorHandler mode t => m' = { m with
      pc := m.pc + 1
      handler := match mode with
        | .none => .none
        | .jump => .jump false t.toNat
        | .resumeNext => .resumeNext }
  | .jump t => SameFrame m m' ∧ m'.pc = t.toNat ∧
      m'.yieldPending = (m.yieldPending || decide (t.toNat ≤ m.pc))
  | .jumpIfFalse _ t => SameFrame m m' ∧
      ((m'.pc = m.pc + 1 ∧ m'.yieldPending = m.yieldPending) ∨
       (m'.pc = t.toNat ∧ m'.yieldPending = (m.yieldPending || decide (t.toNat ≤ m.pc))))
  | _ => SameFrame m m' ∧ m'.pc = m.pc + 1 ∧ m'.yieldPending = m.yieldPending

set_option maxHeartbeats 1000000 in
/-- Instructions that complete have the effect above. -/
theorem exec_cont {F : FloatOps} {cs : List ConstantDatum} {m m' : Mach} {i : Instr}
    (h : execInstr F cs m i = .cont m') : ExecEffect m m' i := by
  cases i with
  | bin op d l r =>
    simp only [execInstr, doBin] at h
    split at h
    · split at h
      · split at h
        · simp [Mach.raise] at h
        · injection h with h; subst h; exact ⟨.setHeap _ _ _, rfl, rfl⟩
      · simp at h
    · split at h
      · injection h with h; subst h; exact ⟨.set _ _, rfl, rfl⟩
      · simp at h
    · split at h
      · injection h with h; subst h; exact ⟨.set _ _, rfl, rfl⟩
      · simp at h
    · split at h
      · injection h with h; subst h; exact ⟨.set _ _, rfl, rfl⟩
      · simp at h
    · split at h
      · injection h with h; subst h; exact ⟨.set _ _, rfl, rfl⟩
      · simp at h
    · split at h
      · injection h with h; subst h; exact ⟨.set _ _, rfl, rfl⟩
      · simp at h
    · split at h
      · injection h with h; subst h; exact ⟨.set _ _, rfl, rfl⟩
      · simp at h
    · split at h
      · injection h with h; subst h; exact ⟨.set _ _, rfl, rfl⟩
      · simp [Mach.raise] at h
  | un op r =>
    simp only [execInstr] at h
    split at h
    · injection h with h; subst h; exact ⟨.set _ _, rfl, rfl⟩
    · simp [Mach.raise] at h
  | alloc d ty =>
    simp only [execInstr] at h
    split at h
    · injection h with h; subst h; exact ⟨.set _ _, rfl, rfl⟩
    · simp at h
  | allocArray d p f =>
    simp only [execInstr, doAllocArray] at h
    split at h
    · simp at h
    split at h
    · simp at h
    split at h
    · simp [Mach.raise] at h
    split at h
    · simp at h
    split at h
    · simp [Mach.raise] at h
    · injection h with h; subst h; exact ⟨.setHeap _ _ _, rfl, rfl⟩
  | call r t =>
    simp only [execInstr, doCall, Mach.pushFrame] at h
    split at h
    · simp [Mach.raise] at h
    next m1 hm1 =>
      split at hm1
      · simp at hm1
      next hlen =>
        injection hm1 with hm1
        subst hm1
        split at h
        · simp at h
        · injection h with h; subst h
          refine ⟨rfl, by omega, rfl, rfl, rfl, rfl, by omega, rfl, rfl, rfl⟩
  | gosub t =>
    simp only [execInstr, doGosub, Mach.pushFrame] at h
    split at h
    · simp [Mach.raise] at h
    next m1 hm1 =>
      split at hm1
      · simp at hm1
      next hlen =>
        injection hm1 with hm1
        subst hm1
        injection h with h; subst h
        refine ⟨rfl, by omega, rfl, rfl, rfl, rfl, rfl, rfl, rfl⟩
  | jump t =>
    simp only [execInstr, doJump] at h
    injection h with h; subst h
    exact ⟨⟨rfl, rfl, rfl, rfl, fun _ _ _ => rfl⟩, rfl, rfl⟩
  | jumpIfFalse r t =>
    simp only [execInstr, doJump] at h
    split at h
    · injection h with h; subst h
      exact ⟨⟨rfl, rfl, rfl, rfl, fun _ _ _ => rfl⟩, .inl ⟨rfl, rfl⟩⟩
    · injection h with h; subst h
      exact ⟨⟨rfl, rfl, rfl, rfl, fun _ _ _ => rfl⟩, .inr ⟨rfl, rfl⟩⟩
  | loadArray d a f =>
    simp only [execInstr, doLoadArray] at h
    split at h
    · simp at h
    split at h
    · simp at h
    · simp [Mach.raise] at h
    · injection h with h; subst h; exact ⟨.set _ _, rfl, rfl⟩
  | loadConst d i =>
    simp only [execInstr, doLoadConst] at h
    split at h
    · injection h with h; subst h; exact ⟨.set _ _, rfl, rfl⟩
    · injection h with h; subst h; exact ⟨.set _ _, rfl, rfl⟩
    · simp at h
  | loadInt d i =>
    simp only [execInstr] at h
    injection h with h; subst h; exact ⟨.set _ _, rfl, rfl⟩
  | loadRegPtr d ty s =>
    simp only [execInstr] at h
    split at h
    · injection h with h; subst h; exact ⟨.set _ _, rfl, rfl⟩
    · simp at h
  | move d s =>
    simp only [execInstr] at h
    injection h with h; subst h; exact ⟨.set _ _, rfl, rfl⟩
  | nop =>
    simp only [execInstr] at h
    injection h with h; subst h
    exact ⟨⟨rfl, rfl, rfl, rfl, fun _ _ _ => rfl⟩, rfl, rfl⟩
  | ret =>
    simp only [execInstr, doReturn] at h
    split at h
    · simp [Mach.raise] at h
    next f rest hst =>
      split at h
      next r hr =>
        injection h with h; subst h
        refine ⟨f, ?_⟩
        rw [hr]
        exact ⟨hst, rfl, rfl, rfl, rfl, rfl, rfl, rfl⟩
      next hr =>
        injection h with h; subst h
        refine ⟨f, ?_⟩
        rw [hr]
        exact ⟨hst, rfl, rfl, rfl, rfl, rfl, rfl, rfl⟩
  | setErrorHandler mode t =>
    simp only [execInstr] at h
    injection h with h; subst h
    rfl
  | storeArray a v f =>
    simp only [execInstr, doStoreArray] at h
    split at h
    · simp at h
    split at h
    · simp at h
    · simp [Mach.raise] at h
    · injection h with h; subst h
      exact ⟨⟨rfl, rfl, rfl, rfl, fun _ _ _ => rfl⟩, rfl, rfl⟩
  | «end» r =>
    simp only [execInstr, doEnd] at h
    split at h <;> simp [Mach.raise] at h
  | upcall i r => simp [execInstr] at h
  | upcallAsync i r => simp [execInstr] at h
  | eof => simp [execInstr] at h

set_option maxHeartbeats 1000000 in
/-- Stopping leaves everything alone; only upcalls advance the pc. -/
theorem exec_stop {F : FloatOps} {cs : List ConstantDatum} {m m' : Mach} {i : Instr} {s : Stop}
    (h : execInstr F cs m i = .stop s m') :
    (∃ e, s = .exception m.pc e ∧ m' = m) ∨
    (∃ idx r, (i = .upcall idx r ∧ s = .upcall idx r m.pc ∨
        i = .upcallAsync idx r ∧ s = .upcallAsync idx r m.pc) ∧ m' = m.next) ∨
    (s = .eof ∧ m' = m ∧ i = .eof) ∨
    (∃ c r, s = .end c ∧ m' = m ∧ i = .end r ∧ exitCodeTryNew (toI32 (m.get r)).toInt = some c) := by
  cases i with
  | bin op d l r =>
    simp only [execInstr, doBin] at h
    split at h <;> (try split at h) <;> (try split at h) <;>
      simp only [Mach.raise, Step.stop.injEq, reduceCtorEq] at h
    · left; exact ⟨_, h.1.symm, h.2.symm⟩
    · left; exact ⟨_, h.1.symm, h.2.symm⟩
  | un op r =>
    simp only [execInstr] at h
    split at h <;> simp only [Mach.raise, Step.stop.injEq, reduceCtorEq] at h
    left; exact ⟨_, h.1.symm, h.2.symm⟩
  | alloc d ty =>
    simp only [execInstr] at h
    split at h <;> simp at h
  | allocArray d p f =>
    simp only [execInstr, doAllocArray] at h
    split at h <;> (try split at h) <;> (try split at h) <;> (try split at h) <;> (try split at h) <;>
      simp only [Mach.raise, Step.stop.injEq, reduceCtorEq] at h
    · left; exact ⟨_, h.1.symm, h.2.symm⟩
    · left; exact ⟨_, h.1.symm, h.2.symm⟩
  | call r t =>
    simp only [execInstr, doCall] at h
    split at h <;> (try split at h) <;> simp only [Mach.raise, Step.stop.injEq, reduceCtorEq] at h
    left; exact ⟨_, h.1.symm, h.2.symm⟩
  | gosub t =>
    simp only [execInstr, doGosub] at h
    split at h <;> simp only [Mach.raise, Step.stop.injEq, reduceCtorEq] at h
    left; exact ⟨_, h.1.symm, h.2.symm⟩
  | jump t => simp [execInstr] at h
  | jumpIfFalse r t => simp only [execInstr] at h; split at h <;> simp at h
  | loadArray d a f =>
    simp only [execInstr, doLoadArray] at h
    split at h <;> (try split at h) <;> simp only [Mach.raise, Step.stop.injEq, reduceCtorEq] at h
    left; exact ⟨_, h.1.symm, h.2.symm⟩
  | loadConst d i => simp only [execInstr, doLoadConst] at h; split at h <;> simp at h
  | loadInt d i => simp [execInstr] at h
  | loadRegPtr d ty s => simp only [execInstr] at h; split at h <;> simp at h
  | move d s => simp [execInstr] at h
  | nop => simp [execInstr] at h
  | ret =>
    simp only [execInstr, doReturn] at h
    split at h <;> (try split at h) <;> simp only [Mach.raise, Step.stop.injEq, reduceCtorEq] at h
    left; exact ⟨_, h.1.symm, h.2.symm⟩
  | setErrorHandler mode t => simp [execInstr] at h
  | storeArray a v f =>
    simp only [execInstr, doStoreArray] at h
    split at h <;> (try split at h) <;> simp only [Mach.raise, Step.stop.injEq, reduceCtorEq] at h
    left; exact ⟨_, h.1.symm, h.2.symm⟩
  | «end» r =>
    simp only [execInstr, doEnd] at h
    split at h
    next c hc =>
      injection h with h1 h2
      right; right; right
      exact ⟨c, r, h1.symm, h2.symm, rfl, hc⟩
    · simp only [Mach.raise, Step.stop.injEq] at h
      left; exact ⟨_, h.1.symm, h.2.symm⟩
  | upcall i r =>
    simp only [execInstr, Step.stop.injEq] at h
    right; left; exact ⟨_, _, .inl ⟨rfl, h.1.symm⟩, h.2.symm⟩
  | upcallAsync i r =>
    simp only [execInstr, Step.stop.injEq] at h
    right; left; exact ⟨_, _, .inr ⟨rfl, h.1.symm⟩, h.2.symm⟩
  | eof =>
    simp only [execInstr, Step.stop.injEq] at h
    right; right; left; exact ⟨h.1.symm, h.2.symm, rfl⟩

/-- A step that continues executed an instruction. -/
theorem step_cont {F : FloatOps} {img : Image} {m m' : Mach} (h : step F img m = .cont m') :
    ∃ i, img.code[m.pc]? = some i ∧ execInstr F img.constants m i = .cont m' := by
  unfold step at h
  split at h
  · simp at h
  split at h
  · simp at h
  split at h
  · simp at h
  next i hi => exact ⟨i, hi, h⟩

/-- A step that stops either yields or executed an instruction. -/
theorem step_stop {F : FloatOps} {img : Image} {m m' : Mach} {s : Stop}
    (h : step F img m = .stop s m') :
    (s = .yield ∧ m' = { m with yieldPending := false }) ∨
    (s ≠ .yield ∧ ∃ i, img.code[m.pc]? = some i ∧ execInstr F img.constants m i = .stop s m') := by
  unfold step at h
  split at h
  · simp at h
  split at h
  · simp only [Step.stop.injEq] at h; exact .inl ⟨h.1.symm, h.2.symm⟩
  split at h
  · simp at h
  next i hi =>
    refine .inr ⟨?_, i, hi, h⟩
    intro hs
    subst hs
    rcases exec_stop h with ⟨_, h, _⟩ | ⟨_, _, h | h, _⟩ | ⟨h, _⟩ | ⟨_, _, h, _⟩ <;> simp_all

theorem handle_same {img : Image} {m m' : Mach} {pc : Nat} (h : handleException img m pc = some m') :
    m'.stack = m.stack ∧ m'.fp = m.fp ∧ m'.maxStack = m.maxStack ∧ m'.regs = m.regs ∧
    m'.heap = m.heap ∧ m'.yieldPending = m.yieldPending := by
  unfold handleException at h
  split at h <;> simp at h <;> subst h <;> simp

end EB
