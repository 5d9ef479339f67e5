import Verif.Lemmas.VmRun
import Mathlib.Tactic.Ring
import Mathlib.Tactic.Linarith
import Mathlib.Algebra.Order.Ring.Nat
/-!
# Termination measure between two yields
-/

namespace EB
open Spec

variable {H : Type}

/-- The instruction at `p` is the first one of a statement. -/
def StmtStart (img : Image) (p : Nat) : Prop := ∃ i, img.instrs[p]? = some i ∧ i.isStmtStart = true

/-- Every backward jump leaves from or goes to the start of a statement. -/
def JumpsMarked (img : Image) : Prop :=
  ∀ (p : Nat) (t : U16), (img.code[p]? = some (.jump t) ∨ ∃ r, img.code[p]? = some (.jumpIfFalse r t)) →
    t.toNat ≤ p → StmtStart img p ∨ StmtStart img t.toNat

/-- Work left in the pending frames (innermost first) plus the current one. -/
def framesRank (N D : Nat) : List Frame → Nat
  | [] => 0
  | f :: fs => (N - (f.oldPc + 1)) * (N + 1) ^ (D - fs.length) + framesRank N D fs

def pcRank (N D : Nat) (m : Mach) : Nat := (N - m.pc) * (N + 1) ^ (D - m.stack.length) + framesRank N D m.stack

def rankBound (N D : Nat) : Nat := N * (D + 1) * (N + 1) ^ D + 1

theorem framesRank_le (N D : Nat) (fs : List Frame) : framesRank N D fs ≤ N * fs.length * (N + 1) ^ D := by
  induction fs with
  | nil => simp [framesRank]
  | cons f fs ih =>
    simp only [framesRank, List.length_cons]
    have h1 : (N - (f.oldPc + 1)) * (N + 1) ^ (D - fs.length) ≤ N * (N + 1) ^ D :=
      Nat.mul_le_mul (Nat.sub_le _ _) (Nat.pow_le_pow_right (by omega) (Nat.sub_le _ _))
    have h2 : N * (fs.length + 1) * (N + 1) ^ D = N * fs.length * (N + 1) ^ D + N * (N + 1) ^ D := by ring
    omega

theorem pcRank_lt (N D : Nat) (m : Mach) (h : m.stack.length ≤ D) : pcRank N D m < rankBound N D := by
  unfold pcRank rankBound
  have h1 := framesRank_le N D m.stack
  have h2 : (N - m.pc) * (N + 1) ^ (D - m.stack.length) ≤ N * (N + 1) ^ D :=
    Nat.mul_le_mul (Nat.sub_le _ _) (Nat.pow_le_pow_right (by omega) (Nat.sub_le _ _))
  have h3 : N * m.stack.length * (N + 1) ^ D ≤ N * D * (N + 1) ^ D :=
    Nat.mul_le_mul_right _ (Nat.mul_le_mul_left _ h)
  have h4 : N * (D + 1) * (N + 1) ^ D = N * D * (N + 1) ^ D + N * (N + 1) ^ D := by ring
  omega

open Classical in
/-- 2: no yield requested; 1: yield requested; 0: about to yield. -/
noncomputable def yieldRank (img : Image) (m : Mach) : Nat :=
  if m.yieldPending then (if StmtStart img m.pc then 0 else 1) else 2

noncomputable def machRank (img : Image) (m : Mach) : Nat :=
  yieldRank img m * rankBound img.code.length m.maxStack + pcRank img.code.length m.maxStack m

def armedRank (img : Image) (m : Mach) : Nat :=
  match m.handler with
  | .jump false _ => 3 * rankBound img.code.length m.maxStack
  | _ => 0

/-- The instruction at `pc` is ON ERROR GOTO. -/
def armsJump (img : Image) (pc : Nat) : Bool :=
  match img.code[pc]? with
  | some (.setErrorHandler .jump _) => true
  | _ => false

theorem yieldRank_le (img : Image) (m : Mach) : yieldRank img m ≤ 2 := by
  unfold yieldRank; split <;> (try split) <;> omega

theorem machRank_lt (img : Image) (m : Mach) (h : m.stack.length ≤ m.maxStack) :
    machRank img m < 3 * rankBound img.code.length m.maxStack := by
  unfold machRank
  have h1 := pcRank_lt img.code.length m.maxStack m h
  have h2 := Nat.mul_le_mul_right (rankBound img.code.length m.maxStack) (yieldRank_le img m)
  omega

/-- Moving forward in the same frame decreases the rank. -/
theorem pcRank_forward {N D : Nat} {m m' : Mach} (hs : m'.stack = m.stack) (hlt : m.pc < N)
    (hpc : m.pc < m'.pc) : pcRank N D m' < pcRank N D m := by
  unfold pcRank
  rw [hs]
  have : 0 < (N + 1) ^ (D - m.stack.length) := Nat.pow_pos (by omega)
  have : (N - m'.pc) * (N + 1) ^ (D - m.stack.length) < (N - m.pc) * (N + 1) ^ (D - m.stack.length) :=
    Nat.mul_lt_mul_of_pos_right (by omega) this
  omega

theorem pcRank_enter {N D : Nat} {m m' : Mach} {ret : Option Reg}
    (hs : m'.stack = { oldPc := m.pc, oldFp := m.fp, retReg := ret } :: m.stack) (hlt : m.pc < N)
    (hd : m.stack.length < D) : pcRank N D m' < pcRank N D m := by
  unfold pcRank
  rw [hs]
  simp only [framesRank, List.length_cons]
  obtain ⟨e, he⟩ : ∃ e, D - m.stack.length = e + 1 := ⟨D - m.stack.length - 1, by omega⟩
  have he' : D - (m.stack.length + 1) = e := by omega
  obtain ⟨k, hk⟩ : ∃ k, N - m.pc = k + 1 := ⟨N - m.pc - 1, by omega⟩
  have hk' : N - (m.pc + 1) = k := by omega
  rw [he, he', hk, hk']
  have h1 : (N - m'.pc) * (N + 1) ^ e ≤ N * (N + 1) ^ e := Nat.mul_le_mul_right _ (Nat.sub_le _ _)
  have h2 : (k + 1) * (N + 1) ^ (e + 1) = k * (N + 1) ^ (e + 1) + N * (N + 1) ^ e + (N + 1) ^ e := by ring
  have : 0 < (N + 1) ^ e := Nat.pow_pos (by omega)
  omega

theorem pcRank_leave {N D : Nat} {m m' : Mach} {f : Frame} (hs : m.stack = f :: m'.stack)
    (hlt : m.pc < N) (hpc : m'.pc = f.oldPc + 1) : pcRank N D m' < pcRank N D m := by
  unfold pcRank
  rw [hs, hpc]
  simp only [framesRank, List.length_cons]
  have : 0 < (N - m.pc) * (N + 1) ^ (D - (m'.stack.length + 1)) :=
    Nat.mul_pos (by omega) (Nat.pow_pos (by omega))
  omega

theorem yieldRank_mono {img : Image} {m m' : Mach} (h : m.yieldPending = true → m'.yieldPending = true)
    (hs : m.yieldPending = true → ¬ StmtStart img m.pc) : yieldRank img m' ≤ yieldRank img m := by
  unfold yieldRank
  cases h1 : m.yieldPending <;> simp only [h1, forall_const] at h hs <;>
    simp only [Bool.false_eq_true, if_false, if_true]
  · split <;> (try split) <;> omega
  · simp only [h, hs, if_true, if_false]; split <;> omega

/-- Step that decreases `pcRank` and does not clear the flag. -/
theorem machRank_of_pcRank {img : Image} {m m' : Mach} (hm : m'.maxStack = m.maxStack)
    (hy : yieldRank img m' ≤ yieldRank img m)
    (hp : pcRank img.code.length m.maxStack m' < pcRank img.code.length m.maxStack m) :
    machRank img m' < machRank img m := by
  unfold machRank
  rw [hm]
  have := Nat.mul_le_mul_right (rankBound img.code.length m.maxStack) hy
  omega

theorem machRank_of_yieldRank {img : Image} {m m' : Mach} (hm : m'.maxStack = m.maxStack)
    (hd : m'.stack.length ≤ m.maxStack) (hy : yieldRank img m' < yieldRank img m) :
    machRank img m' < machRank img m := by
  unfold machRank
  rw [hm]
  have h1 := Nat.mul_le_mul_right (rankBound img.code.length m.maxStack) (Nat.succ_le_of_lt hy)
  have h2 := pcRank_lt img.code.length m.maxStack m' hd
  rw [Nat.succ_mul] at h1
  omega

theorem step_guard {F : FloatOps} {img : Image} {m : Mach} (h : ∀ m', step F img m ≠ .stop .yield m')
    (hy : m.yieldPending = true) : ¬ StmtStart img m.pc := by
  rintro ⟨i, hi, hs⟩
  apply h { m with yieldPending := false }
  simp [step, hi, hs, hy]

/-- A jump to `t` (forward or backward). -/
theorem machRank_jump {img : Image} {m m' : Mach} {t : U16} (hj : JumpsMarked img)
    (hcode : img.code[m.pc]? = some (.jump t) ∨ ∃ r, img.code[m.pc]? = some (.jumpIfFalse r t))
    (hguard : m.yieldPending = true → ¬ StmtStart img m.pc) (hlt : m.pc < img.code.length)
    (hd : m.stack.length ≤ m.maxStack) (hs : SameFrame m m') (hpc : m'.pc = t.toNat)
    (hy : m'.yieldPending = (m.yieldPending || decide (t.toNat ≤ m.pc))) :
    machRank img m' < machRank img m := by
  by_cases hb : t.toNat ≤ m.pc
  · have hy' : m'.yieldPending = true := by rw [hy]; simp [hb]
    apply machRank_of_yieldRank hs.maxStack (by rw [hs.stack]; exact hd)
    unfold yieldRank
    cases hyp : m.yieldPending with
    | false =>
      simp only [hy', if_true, Bool.false_eq_true, if_false]
      split <;> omega
    | true =>
      have hn := hguard hyp
      rcases hj m.pc t hcode hb with h | h
      · exact absurd h hn
      · simp only [hy', hpc, h, hn, if_true, if_false]; omega
  · apply machRank_of_pcRank hs.maxStack
    · apply yieldRank_mono _ hguard
      intro h; rw [hy, h]; rfl
    · exact pcRank_forward hs.stack hlt (by omega)

theorem nextStmtStart_gt' {img : Image} {pc : Nat} (h : pc < img.code.length) : pc < nextStmtStart img pc := by
  unfold nextStmtStart
  split <;> omega

/-- Effect of a handled error on the ranks. -/
theorem handle_rank {img : Image} {m m' : Mach} {pc : Nat} (hlt : pc < img.code.length)
    (hd : m.stack.length ≤ m.maxStack) (h : handleException img m pc = some m') (m0 : Mach)
    (h0 : m0.stack = m.stack) (h0' : m0.maxStack = m.maxStack) (h0h : m0.handler = m.handler)
    (h0y : m0.yieldPending = m.yieldPending)
    (hpc : m0.pc = pc) (hguard : m0.yieldPending = true → ¬ StmtStart img m0.pc) :
    machRank img m' + armedRank img m' < machRank img m0 + armedRank img m0 := by
  obtain ⟨a1, a2, a3, a4, a5, a6⟩ := handle_same h
  rcases handle_handler h with ⟨a, h1, h2, h3⟩ | ⟨h1, h2, h3⟩
  · have := machRank_lt img m' (by rw [a1, a3]; exact hd)
    have e1 : armedRank img m' = 0 := by unfold armedRank; rw [h2]
    have e2 : armedRank img m0 = 3 * rankBound img.code.length m.maxStack := by
      unfold armedRank; rw [h0h, h1, h0']
    rw [a3] at this
    omega
  · have e1 : armedRank img m' = 0 := by unfold armedRank; rw [h2]
    have : machRank img m' < machRank img m0 := by
      apply machRank_of_pcRank (by rw [a3, h0'])
      · apply yieldRank_mono _ hguard
        intro h; rw [a6, ← h0y, h]
      · apply pcRank_forward (by rw [a1, h0]) (by omega)
        rw [h3, hpc]; exact nextStmtStart_gt' hlt
    omega

/-- Every step that continues decreases the rank, unless it arms a GOTO handler. -/
theorem vmStep_rank {F : FloatOps} {host : Host H} {img : Image} {vm vm1 : Vm H}
    (hj : JumpsMarked img) (hd : vm.mach.stack.length ≤ vm.mach.maxStack)
    (h : vmStep F host img vm = .cont vm1) :
    vm1.mach.stack.length ≤ vm1.mach.maxStack ∧ vm1.mach.maxStack = vm.mach.maxStack ∧
    machRank img vm1.mach + armedRank img vm1.mach <
      machRank img vm.mach + armedRank img vm.mach +
      (if armsJump img vm.mach.pc then 3 * rankBound img.code.length vm.mach.maxStack else 0) := by
  unfold vmStep at h
  split at h
  · simp at h
  next hp =>
  have hguard : (∀ m', step F img vm.mach ≠ .stop .yield m') →
      vm.mach.yieldPending = true → ¬ StmtStart img vm.mach.pc := step_guard
  split at h
  · simp at h
  next m hs =>
    injection h with h
    subst h
    obtain ⟨i, hi, he⟩ := step_cont hs
    have he := exec_cont he
    have hg := hguard (by rw [hs]; simp)
    have hlt : vm.mach.pc < img.code.length := by
      rw [List.getElem?_eq_some_iff] at hi; exact hi.1
    simp only
    cases i with
    | call r t =>
      obtain ⟨h1, h2, h3, h4, h5, h6, h7, h8, h9, h10⟩ := he
      refine ⟨by rw [h1, h3]; exact h2, h3, ?_⟩
      have e : armedRank img m = armedRank img vm.mach := by unfold armedRank; rw [h4, h3]
      rw [e]
      have := machRank_of_pcRank (img := img) h3 (yieldRank_mono (by rw [h10]; exact id) hg) (pcRank_enter h1 hlt h2)
      omega
    | gosub t =>
      obtain ⟨h1, h2, h3, h4, h5, h6, h7, h8, h9⟩ := he
      refine ⟨by rw [h1, h3]; exact h2, h3, ?_⟩
      have e : armedRank img m = armedRank img vm.mach := by unfold armedRank; rw [h4, h3]
      rw [e]
      have := machRank_of_pcRank (img := img) h3 (yieldRank_mono (by rw [h9]; exact id) hg) (pcRank_enter h1 hlt h2)
      omega
    | ret =>
      obtain ⟨f, h1, h2, h3, h4, h5, h6, h7⟩ := he
      refine ⟨by rw [h2]; rw [h1] at hd; simp at hd; omega, h2, ?_⟩
      have e : armedRank img m = armedRank img vm.mach := by unfold armedRank; rw [h3, h2]
      rw [e]
      have hy : vm.mach.yieldPending = true → m.yieldPending = true := by
        split at h7
        · intro; exact h7.2
        · rw [h7.1]; exact id
      have := machRank_of_pcRank (img := img) h2 (yieldRank_mono hy hg) (pcRank_leave h1 hlt h4)
      omega
    | setErrorHandler mode t =>
      replace he : m = _ := he
      have hst : m.stack = vm.mach.stack := by rw [he]
      have hmx : m.maxStack = vm.mach.maxStack := by rw [he]
      refine ⟨by rw [hst, hmx]; exact hd, hmx, ?_⟩
      have := machRank_of_pcRank (img := img) (m := vm.mach) (m' := m) hmx
        (yieldRank_mono (by rw [he]; exact id) hg) (pcRank_forward hst hlt (by rw [he]; exact Nat.lt_succ_self _))
      cases mode with
      | none =>
        have e : armedRank img m = 0 := by rw [he]; rfl
        omega
      | resumeNext =>
        have e : armedRank img m = 0 := by rw [he]; rfl
        omega
      | jump =>
        have e : armedRank img m = 3 * rankBound img.code.length vm.mach.maxStack := by rw [he]; rfl
        rw [if_pos (by simp [armsJump, hi])]
        omega
    | jump t =>
      obtain ⟨h1, h2, h3⟩ := he
      refine ⟨by rw [h1.stack, h1.maxStack]; exact hd, h1.maxStack, ?_⟩
      have e : armedRank img m = armedRank img vm.mach := by unfold armedRank; rw [h1.handler, h1.maxStack]
      have := machRank_jump hj (.inl hi) hg hlt hd h1 h2 h3
      omega
    | jumpIfFalse r t =>
      obtain ⟨h1, h2⟩ := he
      refine ⟨by rw [h1.stack, h1.maxStack]; exact hd, h1.maxStack, ?_⟩
      have e : armedRank img m = armedRank img vm.mach := by unfold armedRank; rw [h1.handler, h1.maxStack]
      rcases h2 with ⟨h2, h3⟩ | ⟨h2, h3⟩
      · have := machRank_of_pcRank (img := img) h1.maxStack (yieldRank_mono (by rw [h3]; exact id) hg)
          (pcRank_forward h1.stack hlt (by omega))
        omega
      · have := machRank_jump hj (.inr ⟨r, hi⟩) hg hlt hd h1 h2 h3
        omega
    | _ =>
      obtain ⟨h1, h2, h3⟩ := he
      refine ⟨by rw [h1.stack, h1.maxStack]; exact hd, h1.maxStack, ?_⟩
      have e : armedRank img m = armedRank img vm.mach := by unfold armedRank; rw [h1.handler, h1.maxStack]
      have := machRank_of_pcRank (img := img) h1.maxStack (yieldRank_mono (by rw [h3]; exact id) hg)
          (pcRank_forward h1.stack hlt (by omega))
      omega
  · simp at h
  · simp at h
  next pc e m hs =>
    split at h
    · simp at h
    next meta' hmeta =>
      simp only at h
      split at h
      next m' hm' =>
        injection h with h
        subst h
        have hg := hguard (by rw [hs]; simp)
        rcases step_stop hs with ⟨h1, _⟩ | ⟨-, i, hi, he⟩
        · simp at h1
        have hlt : vm.mach.pc < img.code.length := by
          rw [List.getElem?_eq_some_iff] at hi; exact hi.1
        rcases exec_stop he with ⟨e', h1, h2⟩ | ⟨_, _, h1 | h1, _⟩ | ⟨h1, _⟩ | ⟨_, _, h1, _⟩
        · subst h2
          simp only [Stop.exception.injEq] at h1
          obtain ⟨rfl, -⟩ := h1
          obtain ⟨a1, a2, a3, a4, a5, a6⟩ := handle_same hm'
          refine ⟨by simp only [a1, a3]; exact hd, a3, ?_⟩
          have := handle_rank hlt hd hm' vm.mach rfl rfl rfl rfl rfl hg
          simp only
          omega
        · simp at h1
        · simp at h1
        · simp at h1
        · simp at h1
      · simp at h
  next idx first pc m hs =>
    have hg := hguard (by rw [hs]; simp)
    rcases step_stop hs with ⟨h1, _⟩ | ⟨-, i, hi, he⟩
    · simp at h1
    have hlt : vm.mach.pc < img.code.length := by
      rw [List.getElem?_eq_some_iff] at hi; exact hi.1
    have hup : i = .upcall idx first ∧ pc = vm.mach.pc ∧ m = vm.mach.next := by
      rcases exec_stop he with ⟨e', h1, h2⟩ | ⟨_, _, h1 | h1, h2⟩ | ⟨h1, _⟩ | ⟨_, _, h1, _⟩
      · simp at h1
      · obtain ⟨ha, hb⟩ := h1
        simp only [Stop.upcall.injEq] at hb
        obtain ⟨rfl, rfl, rfl⟩ := hb
        exact ⟨ha, rfl, h2⟩
      · simp at h1
      · simp at h1
      · simp at h1
    obtain ⟨rfl, rfl, rfl⟩ := hup
    obtain ⟨hfirst, h', regs', heap', res, hx, hres⟩ := runUpcall_cont h
    rcases hres with ⟨hr, rfl⟩ | ⟨pos, msg, meta', m', hr, hmeta, hm', rfl⟩
    · refine ⟨hd, rfl, ?_⟩
      have := machRank_of_pcRank (img := img) (m := vm.mach)
        (m' := { vm.mach.next with regs := regs', heap := heap' }) rfl
        (yieldRank_mono (fun h => h) hg) (pcRank_forward rfl hlt (Nat.lt_succ_self _))
      have := Nat.add_lt_add_right this (armedRank img vm.mach)
      exact Nat.lt_of_lt_of_le this (Nat.le_add_right _ _)
    · obtain ⟨a1, a2, a3, a4, a5, a6⟩ := handle_same hm'
      refine ⟨by simp only [a1, a3]; exact hd, a3, ?_⟩
      have := handle_rank (m := { vm.mach.next with regs := regs', heap := heap' }) hlt hd hm'
        vm.mach rfl rfl rfl rfl rfl hg
      simp only
      omega
  · simp at h
  · simp at h

end EB
