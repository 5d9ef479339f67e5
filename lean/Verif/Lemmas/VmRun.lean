import Verif.Lemmas.Vm
/-!
# Lemmas about executions
-/

namespace EB
open Spec

variable {H : Type}

/-- The upcall that a state is about to run (if any) leaves the registers `64 ≤ j < b` alone. -/
def UpcallKeeps (host : Host H) (img : Image) (b : Nat) (vm : Vm H) : Prop :=
  ∀ idx first poss le, (img.code[vm.mach.pc]? = some (.upcall idx first) ∨
      ∃ pc, vm.pending = some (idx, first, pc)) →
    ∀ j, maxGlobal ≤ j → j < b →
      (host.exec idx (vm.mach.fp + (first.toNat - maxGlobal)) poss vm.mach.regs vm.mach.heap le
        img vm.host).2.1 j = vm.mach.regs j

/-- Effect of running an upcall and continuing. -/
theorem runUpcall_cont {host : Host H} {img : Image} {vm vm' : Vm H} {idx : U16} {first : Reg} {pc : Nat}
    (h : runUpcall host img vm idx first pc = .cont vm') :
    maxGlobal ≤ first.toNat ∧
    ∃ h' regs' heap' res, host.exec idx (vm.mach.fp + (first.toNat - maxGlobal)) (img.argPositions pc) vm.mach.regs vm.mach.heap
        vm.lastError img vm.host = (h', regs', heap', res) ∧
      ((res = .ok () ∧ vm' = { vm with mach := { vm.mach with regs := regs', heap := heap' }, host := h' }) ∨
       (∃ pos msg meta' m', res = .error (pos, msg) ∧ img.instrs[pc]? = some meta' ∧
          handleException img { vm.mach with regs := regs', heap := heap' } pc = some m' ∧
          vm' = { vm with mach := m', host := h', lastError := some (pos.getD meta'.linecol, .upcall msg) })) := by
  unfold runUpcall at h
  split at h
  · simp at h
  next hg =>
  refine ⟨by omega, ?_⟩
  obtain ⟨h', regs', heap', res, hx⟩ : ∃ a b c d, host.exec idx (vm.mach.fp + (first.toNat - maxGlobal))
    (img.argPositions pc) vm.mach.regs vm.mach.heap vm.lastError img vm.host = (a, b, c, d) := ⟨_, _, _, _, rfl⟩
  refine ⟨h', regs', heap', res, hx, ?_⟩
  simp only [hx] at h
  split at h
  · injection h with h
    left; exact ⟨rfl, h.symm⟩
  next _ pos msg =>
    split at h
    · simp at h
    next meta' hmeta =>
      split at h
      next m' hm' =>
        injection h with h
        right; exact ⟨pos, msg, meta', m', rfl, hmeta, hm', h.symm⟩
      · simp at h

/-- How the error handler changes when it handles an error. -/
theorem handle_handler {img : Image} {m m' : Mach} {pc : Nat} (h : handleException img m pc = some m') :
    (∃ a, m.handler = .jump false a ∧ m'.handler = .jump true a ∧ m'.pc = a) ∨
    (m.handler = .resumeNext ∧ m'.handler = .resumeNext ∧ m'.pc = nextStmtStart img pc) := by
  unfold handleException at h
  split at h
  · simp at h
  · simp at h
  next a ha => simp at h; subst h; left; exact ⟨a, ha, rfl, rfl⟩
  next ha => simp at h; subst h; right; exact ⟨ha, ha, rfl⟩

/-- The effect of an event on a machine, apart from its registers. -/
def EvEffect (img : Image) (m m' : Mach) : Ev → Prop
  | .enter => ∃ ret k, m'.stack = { oldPc := m.pc, oldFp := m.fp, retReg := ret } :: m.stack ∧
      m.stack.length < m.maxStack ∧ m'.fp = m.fp + k ∧ m'.handler = m.handler ∧ m'.regs = m.regs ∧
      (∀ r, ret = some r → maxGlobal ≤ r.toNat ∧ k = r.toNat - maxGlobal) ∧ (ret = none → k = 0) ∧
      ((∃ r t, img.code[m.pc]? = some (.call r t) ∧ ret = some r ∧ m'.pc = t.toNat) ∨
       (∃ t, img.code[m.pc]? = some (.gosub t) ∧ ret = none ∧ m'.pc = t.toNat))
  | .leave => ∃ f, img.code[m.pc]? = some .ret ∧ m.stack = f :: m'.stack ∧ m'.pc = f.oldPc + 1 ∧ m'.fp = f.oldFp ∧
      m'.handler = m.handler ∧
      (match f.retReg with
        | none => m'.regs = m.regs
        | some r => m'.regs = setAt m.regs
            (if r.toNat < maxGlobal then r.toNat else r.toNat - maxGlobal + f.oldFp) (m.regs m.fp))
  | .arm mode t => m'.stack = m.stack ∧ m'.fp = m.fp ∧ m'.regs = m.regs ∧
      m'.handler = (match mode with
        | .none => .none
        | .jump => .jump false t
        | .resumeNext => .resumeNext)
  | .error => m'.stack = m.stack ∧ m'.fp = m.fp ∧
      ((∃ a, m.handler = .jump false a ∧ m'.handler = .jump true a ∧ m'.pc = a) ∨
       (m.handler = .resumeNext ∧ m'.handler = .resumeNext))
  | .other => m'.stack = m.stack ∧ m'.fp = m.fp ∧ m'.handler = m.handler

/-- Steps that continue have the effect of their event, and (if the upcall they run does) leave
alone all registers below the frame pointer that are not global, except for the result of a call. -/
theorem vm_effect {F : FloatOps} {host : Host H} {img : Image} {vm vm1 : Vm H}
    (h : vmStep F host img vm = .cont vm1) :
    vm.pending = none ∧ vm1.pending = none ∧ vm1.mach.maxStack = vm.mach.maxStack ∧
    EvEffect img vm.mach vm1.mach (vmEvent F host img vm) ∧
    (vmEvent F host img vm ≠ .leave → ∀ b, UpcallKeeps host img b vm → b ≤ vm.mach.fp →
      ∀ j, maxGlobal ≤ j → j < b → vm1.mach.regs j = vm.mach.regs j) := by
  unfold vmStep at h
  split at h
  · simp at h
  next hp =>
  refine ⟨hp, ?_⟩
  split at h
  · simp at h
  next m hs =>
    injection h with h
    subst h
    obtain ⟨i, hi, he⟩ := step_cont hs
    have he := exec_cont he
    have hne : nextError F host img vm = none := by unfold nextError; simp [hp, hs]
    have hev : vmEvent F host img vm = match img.code[vm.mach.pc]? with
      | some (.call ..) => .enter
      | some (.gosub _) => .enter
      | some .ret => .leave
      | some (.setErrorHandler mode t) => .arm mode t.toNat
      | _ => .other := by unfold vmEvent; rw [hne]; rfl
    rw [hi] at hev
    cases i with
    | call r t =>
      obtain ⟨h1, h2, h3, h4, h5, h6, h7, h8, h9, h10⟩ := he
      refine ⟨hp, h3, ?_, ?_⟩
      · rw [hev]
        exact ⟨some r, _, h1, h2, h8, h4, h5, by rintro _ ⟨⟩; exact ⟨h7, rfl⟩, by simp,
          .inl ⟨r, t, hi, rfl, h9⟩⟩
      · intro _ b _ _ j _ _; rw [h5]
    | gosub t =>
      obtain ⟨h1, h2, h3, h4, h5, h6, h7, h8, h9⟩ := he
      refine ⟨hp, h3, ?_, ?_⟩
      · rw [hev]
        exact ⟨none, 0, h1, h2, h7, h4, h5, by simp, by simp, .inr ⟨t, hi, rfl, h8⟩⟩
      · intro _ b _ _ j _ _; rw [h5]
    | ret =>
      obtain ⟨f, h1, h2, h3, h4, h5, h6, h7⟩ := he
      refine ⟨hp, h2, ?_, ?_⟩
      · rw [hev]
        refine ⟨f, hi, h1, h4, h5, h3, ?_⟩
        split at h7
        next hr => rw [hr]; exact h7.1
        next r hr => rw [hr]; exact h7.2
      · intro hx; rw [hev] at hx; exact absurd rfl hx
    | setErrorHandler mode t =>
      replace he : m = _ := he
      subst he
      refine ⟨hp, rfl, ?_, ?_⟩
      · rw [hev]; exact ⟨rfl, rfl, rfl, rfl⟩
      · intros; rfl
    | jump t =>
      obtain ⟨h1, -⟩ := he
      refine ⟨hp, h1.maxStack, by rw [hev]; exact ⟨h1.stack, h1.fp, h1.handler⟩, ?_⟩
      intro _ b _ hb j hj hj'; exact h1.regs j hj (by omega)
    | jumpIfFalse r t =>
      obtain ⟨h1, -⟩ := he
      refine ⟨hp, h1.maxStack, by rw [hev]; exact ⟨h1.stack, h1.fp, h1.handler⟩, ?_⟩
      intro _ b _ hb j hj hj'; exact h1.regs j hj (by omega)
    | _ =>
      obtain ⟨h1, -⟩ := he
      refine ⟨hp, h1.maxStack, by rw [hev]; exact ⟨h1.stack, h1.fp, h1.handler⟩, ?_⟩
      intro _ b _ hb j hj hj'; exact h1.regs j hj (by omega)
  · simp at h
  · simp at h
  next pc e m hs =>
    split at h
    · simp at h
    next meta' hmeta =>
      simp only at h
      split at h
      next m' hm' =>
        injection h with h
        subst h
        have hne : nextError F host img vm = some (meta'.linecol, e) := by
          unfold nextError; simp [hp, hs, hmeta]
        have hev : vmEvent F host img vm = .error := by unfold vmEvent; rw [hne]
        rcases step_stop hs with ⟨h1, _⟩ | ⟨-, i, hi, he⟩
        · simp at h1
        rcases exec_stop he with ⟨e', h1, h2⟩ | ⟨_, _, h1 | h1, _⟩ | ⟨h1, _⟩ | ⟨_, _, h1, _⟩
        · subst h2
          obtain ⟨a1, a2, a3, a4, a5, a6⟩ := handle_same hm'
          refine ⟨hp, a3, ?_, ?_⟩
          · rw [hev]
            refine ⟨a1, a2, ?_⟩
            rcases handle_handler hm' with h | ⟨h, h', -⟩
            · exact .inl h
            · exact .inr ⟨h, h'⟩
          · intro _ b _ hb j hj hj'; simp only [a4]
        · simp at h1
        · simp at h1
        · simp at h1
        · simp at h1
      · simp at h
  next idx first pc m hs =>
    rcases step_stop hs with ⟨h1, _⟩ | ⟨-, i, hi, he⟩
    · simp at h1
    have hup : i = .upcall idx first ∧ pc = vm.mach.pc ∧ m = vm.mach.next := by
      rcases exec_stop he with ⟨e', h1, h2⟩ | ⟨_, _, h1 | h1, h2⟩ | ⟨h1, _⟩ | ⟨_, _, h1, _⟩
      · simp at h1
      · obtain ⟨ha, hb⟩ := h1
        simp only [Stop.upcall.injEq] at hb
        obtain ⟨rfl, rfl, rfl⟩ := hb
        exact ⟨ha, rfl, h2⟩
      · simp at h1
      · simp at h1
      · simp at h1
    obtain ⟨rfl, rfl, rfl⟩ := hup
    obtain ⟨hfirst, h', regs', heap', res, hx, hres⟩ := runUpcall_cont h
    have hfp : vm.mach.next.fp = vm.mach.fp := rfl
    have hrg : vm.mach.next.regs = vm.mach.regs := rfl
    have hhp : vm.mach.next.heap = vm.mach.heap := rfl
    simp only [hfp, hrg, hhp] at hx
    have hkeep : ∀ b, UpcallKeeps host img b vm → ∀ j, maxGlobal ≤ j → j < b → regs' j = vm.mach.regs j := by
      intro b hk j hj hj'
      have := hk idx first (img.argPositions vm.mach.pc) vm.lastError (.inl hi) j hj hj'
      rw [hx] at this
      exact this
    rcases hres with ⟨hr, rfl⟩ | ⟨pos, msg, meta', m', hr, hmeta, hm', rfl⟩
    · have hne : nextError F host img vm = none := by
        unfold nextError upcallError; simp [hp, hs, hfp, hrg, hhp, hx, hr]
      have hev : vmEvent F host img vm = .other := by unfold vmEvent; rw [hne, hi]
      refine ⟨hp, rfl, ?_, ?_⟩
      · rw [hev]; exact ⟨rfl, rfl, rfl⟩
      · intro _ b hk hb j hj hj'; exact hkeep b hk j hj hj'
    · have hne : nextError F host img vm = some (pos.getD meta'.linecol, .upcall msg) := by
        unfold nextError upcallError; simp [hp, hs, hfp, hrg, hhp, hx, hr, hmeta]
      have hev : vmEvent F host img vm = .error := by unfold vmEvent; rw [hne]
      obtain ⟨a1, a2, a3, a4, a5, a6⟩ := handle_same hm'
      refine ⟨hp, a3, ?_, ?_⟩
      · rw [hev]
        refine ⟨a1, a2, ?_⟩
        rcases handle_handler hm' with h | ⟨h, h', -⟩
        · exact .inl h
        · exact .inr ⟨h, h'⟩
      · intro _ b hk hb j hj hj'; simp only [a4]; exact hkeep b hk j hj hj'
  · simp at h
  · simp at h

/-- The same for invoking a pending upcall. -/
theorem pending_effect {host : Host H} {img : Image} {vm vm1 : Vm H}
    (h : invokePending host img vm = .cont vm1) :
    vm1.pending = none ∧ vm1.mach.maxStack = vm.mach.maxStack ∧
    EvEffect img vm.mach vm1.mach (pendingEvent host img vm) ∧
    (pendingEvent host img vm ≠ .leave ∧ pendingEvent host img vm ≠ .enter) ∧
    (∀ b, UpcallKeeps host img b vm →
      ∀ j, maxGlobal ≤ j → j < b → vm1.mach.regs j = vm.mach.regs j) := by
  unfold invokePending at h
  split at h
  · simp at h
  next idx first pc hp =>
  obtain ⟨hfirst, h', regs', heap', res, hx, hres⟩ := runUpcall_cont h
  simp only at hx hres
  have hkeep : ∀ b, UpcallKeeps host img b vm → ∀ j, maxGlobal ≤ j → j < b → regs' j = vm.mach.regs j := by
    intro b hk j hj hj'
    have := hk idx first (img.argPositions pc) vm.lastError (.inr ⟨pc, hp⟩) j hj hj'
    rw [hx] at this
    exact this
  rcases hres with ⟨hr, rfl⟩ | ⟨pos, msg, meta', m', hr, hmeta, hm', rfl⟩
  · have hev : pendingEvent host img vm = .other := by
      unfold pendingEvent upcallError; simp [hp, hx, hr]
    refine ⟨rfl, rfl, ?_, by rw [hev]; simp, ?_⟩
    · rw [hev]; exact ⟨rfl, rfl, rfl⟩
    · intro b hk j hj hj'; exact hkeep b hk j hj hj'
  · have hev : pendingEvent host img vm = .error := by
      unfold pendingEvent upcallError; simp [hp, hx, hr, hmeta]
    obtain ⟨a1, a2, a3, a4, a5, a6⟩ := handle_same hm'
    refine ⟨rfl, a3, ?_, by rw [hev]; simp, ?_⟩
    · rw [hev]
      refine ⟨a1, a2, ?_⟩
      rcases handle_handler hm' with h | ⟨h, h', -⟩
      · exact .inl h
      · exact .inr ⟨h, h'⟩
    · intro b hk j hj hj'; simp only [a4]; exact hkeep b hk j hj hj'

/-- Yielding only clears the flag. -/
theorem vm_yield {F : FloatOps} {host : Host H} {img : Image} {vm vm1 : Vm H}
    (h : vmStep F host img vm = .stop .yield vm1) :
    vm.pending = none ∧ vm1 = { vm with mach := { vm.mach with yieldPending := false } } := by
  unfold vmStep at h
  split at h
  · simp at h
  next hp =>
  refine ⟨hp, ?_⟩
  split at h <;> try (simp at h; done)
  · split at h
    · simp at h
    · simp only at h; split at h <;> simp at h
  · unfold runUpcall at h
    split at h
    · simp at h
    · simp only at h
      split at h
      · simp at h
      · split at h
        · simp at h
        · split at h <;> simp at h
  next m hs =>
    rcases step_stop hs with ⟨_, rfl⟩ | ⟨h1, _⟩
    · simp at h; exact h.symm
    · exact absurd rfl h1

/-- Stopping for an asynchronous upcall only moves past it. -/
theorem vm_async {F : FloatOps} {host : Host H} {img : Image} {vm vm1 : Vm H}
    (h : vmStep F host img vm = .stop .upcallAsync vm1) :
    vm1.mach.stack = vm.mach.stack ∧ vm1.mach.fp = vm.mach.fp ∧ vm1.mach.regs = vm.mach.regs ∧
    vm1.mach.handler = vm.mach.handler ∧ vm1.mach.maxStack = vm.mach.maxStack ∧
    vm1.lastError = vm.lastError ∧ vm1.host = vm.host ∧ vm1.mach.heap = vm.mach.heap := by
  unfold vmStep at h
  split at h
  · simp at h; subst h; simp
  next hp =>
  split at h <;> try (simp at h; done)
  · split at h
    · simp at h
    · simp only at h; split at h <;> simp at h
  · unfold runUpcall at h
    split at h
    · simp at h
    · simp only at h
      split at h
      · simp at h
      · split at h
        · simp at h
        · split at h <;> simp at h
  next idx first pc m hs =>
    rcases step_stop hs with ⟨h1, _⟩ | ⟨_, i, hi, he⟩
    · simp at h1
    · rcases exec_stop he with ⟨e', h1, h2⟩ | ⟨_, _, h1 | h1, rfl⟩ | ⟨h1, _⟩ | ⟨_, _, h1, _⟩
      · simp at h1
      · simp at h1
      · simp at h; subst h; exact ⟨rfl, rfl, rfl, rfl, rfl, rfl, rfl, rfl⟩
      · simp at h1
      · simp at h1

end EB
