import Verif.Lemmas.Progress
import Verif.Props.Vm
/-!
# C18: running programs can be interrupted

`vmStep` returns `.cont` exactly when the loop of `Vm::exec` goes on without giving control back to
the host.  The full claim, "no execution continues forever", is false (`C18_counterexample`); what
holds is that every execution that does so executes ON ERROR GOTO again and again.
-/

namespace EB
open Spec

variable {H : Type}

theorem conts_rank {F : FloatOps} {host : Host H} {img : Image} (hj : JumpsMarked img) (f : Nat → Vm H)
    (h0 : (f 0).mach.stack.length ≤ (f 0).mach.maxStack) (n : Nat)
    (hrun : ∀ i, i < n → vmStep F host img (f i) = .cont (f (i + 1)))
    (harm : ∀ i, i < n → armsJump img (f i).mach.pc = false) :
    (f n).mach.stack.length ≤ (f n).mach.maxStack ∧ (f n).mach.maxStack = (f 0).mach.maxStack ∧
    n + (machRank img (f n).mach + armedRank img (f n).mach) ≤
      machRank img (f 0).mach + armedRank img (f 0).mach := by
  induction n with
  | zero => exact ⟨h0, rfl, by omega⟩
  | succ n ih =>
    obtain ⟨a1, a2, a3⟩ := ih (fun i hi => hrun i (by omega)) (fun i hi => harm i (by omega))
    obtain ⟨b1, b2, b3⟩ := vmStep_rank hj a1 (hrun n (by omega))
    rw [harm n (by omega)] at b3
    simp only [Bool.false_eq_true, if_false] at b3
    exact ⟨b1, b2.trans a2, by omega⟩

/-- **C18** (quantitative) Between two moments at which the host gets control, or ON ERROR GOTO is
executed, the machine executes at most a number of instructions that depends only on the length of
the program and the limit on nested calls.  `img` may be any image in which backward jumps leave
from or go to the start of a statement, which holds for compiled programs. -/
theorem C18_bound_partial {F : FloatOps} {host : Host H} {img : Image} (hj : JumpsMarked img)
    (f : Nat → Vm H) (n : Nat) (h0 : (f 0).mach.stack.length ≤ (f 0).mach.maxStack)
    (hrun : ∀ i, i < n → vmStep F host img (f i) = .cont (f (i + 1)))
    (harm : ∀ i, i < n → armsJump img (f i).mach.pc = false) :
    n < 6 * (img.code.length * ((f 0).mach.maxStack + 1) * (img.code.length + 1) ^ (f 0).mach.maxStack + 1) := by
  obtain ⟨a1, a2, a3⟩ := conts_rank hj f h0 n hrun harm
  have h1 := machRank_lt img (f 0).mach h0
  have h2 : armedRank img (f 0).mach ≤ 3 * rankBound img.code.length (f 0).mach.maxStack := by
    unfold armedRank; split <;> omega
  unfold rankBound at h1 h2
  omega

/-- **C18** An execution that goes on forever without giving control back to the host executes
ON ERROR GOTO infinitely often. -/
theorem C18_forever_partial {F : FloatOps} {host : Host H} {img : Image} (hj : JumpsMarked img)
    (f : Nat → Vm H) (h0 : (f 0).mach.stack.length ≤ (f 0).mach.maxStack)
    (hrun : ∀ i, vmStep F host img (f i) = .cont (f (i + 1))) :
    ∀ i, ∃ j, i ≤ j ∧ ∃ t, img.code[(f j).mach.pc]? = some (.setErrorHandler .jump t) := by
  intro i
  have hinv : ∀ i, (f i).mach.stack.length ≤ (f i).mach.maxStack := by
    intro i
    induction i with
    | zero => exact h0
    | succ i ih => exact (vmStep_rank hj ih (hrun i)).1
  by_contra hno
  have harm : ∀ k, armsJump img (f (i + k)).mach.pc = false := by
    intro k
    cases hb : armsJump img (f (i + k)).mach.pc with
    | false => rfl
    | true =>
      exfalso
      apply hno
      refine ⟨i + k, by omega, ?_⟩
      unfold armsJump at hb
      split at hb
      next t h => exact ⟨t, h⟩
      · simp at hb
  have := C18_bound_partial hj (fun k => f (i + k))
    (6 * (img.code.length * ((f i).mach.maxStack + 1) * (img.code.length + 1) ^ (f i).mach.maxStack + 1))
    (hinv i) (fun k _ => hrun (i + k)) (fun k _ => harm k)
  simp at this

/-- **C18** For programs without ON ERROR GOTO: from every reachable state the host gets control
back (or the program ends) after finitely many instructions. -/
theorem C18_no_handlers {F : FloatOps} {host : Host H} {img : Image} (hj : JumpsMarked img)
    (hno : ∀ (p : Nat) (t : U16), img.code[p]? ≠ some (.setErrorHandler .jump t))
    (f : Nat → Vm H) (h0 : (f 0).mach.stack.length ≤ (f 0).mach.maxStack) :
    ¬ ∀ i, vmStep F host img (f i) = .cont (f (i + 1)) := by
  intro hrun
  obtain ⟨j, -, t, h⟩ := C18_forever_partial hj f h0 hrun 0
  exact hno _ _ h

/-- An infinite loop whose jump is marked, as compiled from `DO: x = 1: LOOP`. -/
def loopExample : Image :=
  { exampleImage [.loadInt 64#8 1#16, .jump 0#16, .eof] with
    instrs := [⟨⟨1, 1⟩, true, []⟩, ⟨⟨1, 1⟩, false, []⟩, ⟨⟨1, 1⟩, true, []⟩] }

theorem loopExample_marked : JumpsMarked loopExample := by
  intro p t h hp
  match p with
  | 0 => simp [loopExample, exampleImage] at h
  | 1 =>
    simp only [loopExample, exampleImage, List.getElem?_cons_succ, List.getElem?_cons_zero,
      Option.some.injEq, Instr.jump.injEq, reduceCtorEq, exists_false, or_false] at h
    subst h
    exact .inr ⟨_, rfl, rfl⟩
  | 2 => simp [loopExample, exampleImage] at h
  | p + 3 => simp [loopExample, exampleImage] at h

example : ∃ vm', vmStep noFloat noHost loopExample (runFor loopExample 2 (exampleVm 5)).2 = .stop .yield vm' :=
  ⟨_, rfl⟩

/-- `@top: ON ERROR GOTO @top: x = 200: END x` (finding F11). -/
def rearmExample : Image :=
  { exampleImage [.setErrorHandler .jump 0#16, .loadInt 64#8 200#16, .move 65#8 64#8, .end 65#8, .eof] with
    instrs := [⟨⟨1, 1⟩, true, []⟩, ⟨⟨2, 1⟩, true, []⟩, ⟨⟨3, 1⟩, true, []⟩, ⟨⟨3, 1⟩, false, []⟩,
      ⟨⟨3, 1⟩, true, []⟩] }

set_option maxRecDepth 4000 in
/-- The first steps of that program leave it where it started. -/
theorem rearm_cycle (vm : Vm Unit) (h1 : vm.mach.pc = 0) (h2 : vm.pending = none)
    (h3 : vm.mach.yieldPending = false) (h4 : vm.mach.fp = 64) :
    ∃ v1 v2 v3 v4 : Vm Unit, vmStep noFloat noHost rearmExample vm = .cont v1 ∧
      vmStep noFloat noHost rearmExample v1 = .cont v2 ∧ vmStep noFloat noHost rearmExample v2 = .cont v3 ∧
      vmStep noFloat noHost rearmExample v3 = .cont v4 ∧
      v4.mach.pc = 0 ∧ v4.pending = none ∧ v4.mach.yieldPending = false ∧ v4.mach.fp = 64 := by
  obtain ⟨m, le, pd, hst⟩ := vm
  obtain ⟨pc, fp, hd, regs, stk, mx, yp, heap⟩ := m
  simp only at h1 h2 h3 h4
  subst h1 h2 h3 h4
  exact ⟨_, _, _, _, rfl, rfl, rfl, rfl, rfl, rfl, rfl, rfl⟩

/-- **C18** The unrestricted claim is false: this compiled-looking program, with an error handler
that re-arms itself, runs forever without ever giving control back to the host. -/
theorem C18_counterexample : ∃ f : Nat → Vm Unit, f 0 = exampleVm 5 ∧ JumpsMarked rearmExample ∧
    ∀ i, vmStep noFloat noHost rearmExample (f i) = .cont (f (i + 1)) := by
  let next : Vm Unit → Vm Unit := fun vm =>
    match vmStep noFloat noHost rearmExample vm with
    | .cont v => v
    | _ => vm
  let f : Nat → Vm Unit := fun i => next^[i] (exampleVm 5)
  have hn : ∀ {a b}, vmStep noFloat noHost rearmExample a = .cont b → next a = b := by
    intro a b h; simp only [next, h]
  have hf : ∀ i, f (i + 1) = next (f i) := fun i => Function.iterate_succ_apply' next i _
  have hc : ∀ k, (f (4 * k)).mach.pc = 0 ∧ (f (4 * k)).pending = none ∧
      (f (4 * k)).mach.yieldPending = false ∧ (f (4 * k)).mach.fp = 64 := by
    intro k
    induction k with
    | zero => exact ⟨rfl, rfl, rfl, rfl⟩
    | succ k ih =>
      obtain ⟨v1, v2, v3, v4, s1, s2, s3, s4, r⟩ := rearm_cycle _ ih.1 ih.2.1 ih.2.2.1 ih.2.2.2
      have e1 : f (4 * k + 1) = v1 := by rw [hf]; exact hn s1
      have e2 : f (4 * k + 2) = v2 := by rw [hf, e1]; exact hn s2
      have e3 : f (4 * k + 3) = v3 := by rw [hf, e2]; exact hn s3
      have e4 : f (4 * (k + 1)) = v4 := by
        have : 4 * (k + 1) = 4 * k + 3 + 1 := by ring
        rw [this, hf, e3]; exact hn s4
      rw [e4]; exact r
  refine ⟨f, rfl, ?_, ?_⟩
  · intro p t h hp
    match p with
    | 0 | 1 | 2 | 3 | 4 => simp [rearmExample, exampleImage] at h
    | p + 5 => simp [rearmExample, exampleImage] at h
  · intro i
    obtain ⟨k, r, hr, rfl⟩ : ∃ k r, r < 4 ∧ i = 4 * k + r := ⟨i / 4, i % 4, Nat.mod_lt _ (by omega), by omega⟩
    obtain ⟨c1, c2, c3, c4⟩ := hc k
    obtain ⟨v1, v2, v3, v4, s1, s2, s3, s4, -⟩ := rearm_cycle _ c1 c2 c3 c4
    have e1 : f (4 * k + 1) = v1 := by rw [hf]; exact hn s1
    have e2 : f (4 * k + 2) = v2 := by rw [hf, e1]; exact hn s2
    have e3 : f (4 * k + 3) = v3 := by rw [hf, e2]; exact hn s3
    have e4 : f (4 * k + 3 + 1) = v4 := by rw [hf, e3]; exact hn s4
    match r, hr with
    | 0, _ => rw [Nat.add_zero, s1, e1]
    | 1, _ => rw [e1, s2, ← e2]
    | 2, _ => rw [e2, s3, ← e3]
    | 3, _ => rw [e3, s4, ← e4]

end EB
