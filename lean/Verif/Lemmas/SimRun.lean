import Verif.Spec.Machine
import Verif.Lemmas.CompExpr
import Verif.Lemmas.Vm
import Verif.Props.Names
/-!
# Runs without yields

The effect of a run does not depend on when it yields: runs are studied with `Go`, which ignores
`yieldPending`, and `reaches_of_go` translates them back.
-/

namespace EB
open Spec

/-- The machine with no yield pending. -/
def Mach.calm (m : Mach) : Mach := { m with yieldPending := false }

/-- The same for the result of a step. -/
def Step.calm : Step → Step
  | .cont m => .cont m.calm
  | .stop r m => .stop r m.calm
  | .panic => .panic

theorem calm_of_quiet {m : Mach} (h : m.yieldPending = false) : m.calm = m := by
  cases m; simp_all [Mach.calm]

theorem execInstr_calm (F : FloatOps) (c : List ConstantDatum) (m : Mach) (i : Instr) :
    (execInstr F c m i).calm = (execInstr F c m.calm i).calm := by
  have rd : ∀ (r : Reg) (n k : Nat), m.calm.readLocals r k n = m.readLocals r k n := by
    intro r n
    induction n with
    | zero => intro k; rfl
    | succ n ih => intro k; simp only [Mach.readLocals, ih]; rfl
  have aa : ∀ r s : Reg, m.calm.arrayAccess r s = m.arrayAccess r s := by
    intro r s
    simp only [Mach.arrayAccess, rd]; rfl
  cases i with
  | bin op d l r =>
    have num : (match binEval F op (m.get l) (m.get r) with
        | .ok v => Step.cont (m.set d v).next
        | .error e => m.raise e).calm =
      (match binEval F op (m.calm.get l) (m.calm.get r) with
        | .ok v => Step.cont (m.calm.set d v).next
        | .error e => m.calm.raise e).calm := by
      show _ = (match binEval F op (m.get l) (m.get r) with
        | .ok v => Step.cont (m.calm.set d v).next
        | .error e => m.calm.raise e).calm
      split <;> rfl
    have txt : (match m.derefString l c, m.derefString r c with
        | some a, some b => Step.cont (m.set d (ofBool ((textEval op a b).getD false))).next
        | _, _ => .panic).calm =
      (match m.calm.derefString l c, m.calm.derefString r c with
        | some a, some b => Step.cont (m.calm.set d (ofBool ((textEval op a b).getD false))).next
        | _, _ => .panic).calm := by
      show _ = (match m.derefString l c, m.derefString r c with
        | some a, some b => Step.cont (m.calm.set d (ofBool ((textEval op a b).getD false))).next
        | _, _ => .panic).calm
      split <;> rfl
    have cat : (match m.derefString l c, m.derefString r c with
        | some a, some b =>
          match m.heap.push (.text (a ++ b)) with
          | none => m.raise .outOfHeap
          | some (p, h) => .cont ({ m with heap := h }.set d p).next
        | _, _ => .panic).calm =
      (match m.calm.derefString l c, m.calm.derefString r c with
        | some a, some b =>
          match m.calm.heap.push (.text (a ++ b)) with
          | none => m.calm.raise .outOfHeap
          | some (p, h) => .cont ({ m.calm with heap := h }.set d p).next
        | _, _ => .panic).calm := by
      show _ = (match m.derefString l c, m.derefString r c with
        | some a, some b =>
          match m.heap.push (.text (a ++ b)) with
          | none => m.calm.raise .outOfHeap
          | some (p, h) => .cont ({ m.calm with heap := h }.set d p).next
        | _, _ => .panic).calm
      split
      · split <;> rfl
      · rfl
    cases op <;> first | exact num | exact txt | exact cat
  | un op r =>
    show (match unEval F op (m.get r) with
      | .ok v => Step.cont (m.set r v).next
      | .error e => m.raise e).calm = (match unEval F op (m.get r) with
      | .ok v => Step.cont (m.calm.set r v).next
      | .error e => m.calm.raise e).calm
    split <;> rfl
  | alloc d ty =>
    show (if ty = .text then Step.cont (m.set d m.heap.emptyTextPtr).next else .panic).calm =
      (if ty = .text then Step.cont (m.calm.set d m.heap.emptyTextPtr).next else .panic).calm
    split <;> rfl
  | allocArray d p f =>
    show (doAllocArray m d p f).calm = (doAllocArray m.calm d p f).calm
    unfold doAllocArray
    rw [rd]
    split
    · rfl
    · split
      · rfl
      · split
        · rfl
        · split
          · rfl
          · rw [show m.calm.heap = m.heap from rfl]
            cases m.heap.push _ <;> rfl
  | call r t =>
    show (doCall m r t).calm = (doCall m.calm r t).calm
    unfold doCall Mach.pushFrame
    show _ = (match (if m.stack.length ≥ m.maxStack then none else some _ : Option Mach) with
      | none => m.calm.raise .outOfCallStack
      | some m' => if r.toNat < maxGlobal then .panic else .cont { m' with pc := t.toNat, fp := m.fp + (r.toNat - maxGlobal) } : Step).calm
    by_cases h1 : m.stack.length ≥ m.maxStack
    · simp only [h1, if_true]; rfl
    · simp only [h1, if_false]
      split <;> rfl
  | gosub t =>
    show (doGosub m t).calm = (doGosub m.calm t).calm
    unfold doGosub Mach.pushFrame
    show _ = (match (if m.stack.length ≥ m.maxStack then none else some _ : Option Mach) with
      | none => m.calm.raise .outOfCallStack
      | some m' => .cont { m' with pc := t.toNat } : Step).calm
    by_cases h1 : m.stack.length ≥ m.maxStack
    · simp only [h1, if_true]; rfl
    · simp only [h1, if_false]; rfl
  | jump t => rfl
  | jumpIfFalse r t =>
    show (if m.get r ≠ 0#64 then Step.cont m.next else .cont (doJump m t.toNat)).calm =
      (if m.get r ≠ 0#64 then Step.cont m.calm.next else .cont (doJump m.calm t.toNat)).calm
    split <;> rfl
  | loadArray d a f =>
    show (doLoadArray m d a f).calm = (doLoadArray m.calm d a f).calm
    unfold doLoadArray
    rw [aa]
    split
    · rfl
    · split <;> rfl
  | loadConst d i =>
    show (doLoadConst m c d i).calm = (doLoadConst m.calm c d i).calm
    unfold doLoadConst
    split <;> rfl
  | loadInt d i => rfl
  | loadRegPtr d ty s =>
    show (match taggedRegNew s m.fp ty with
    | some v => Step.cont (m.set d v).next
    | none => .panic).calm = (match taggedRegNew s m.fp ty with
    | some v => Step.cont (m.calm.set d v).next
    | none => .panic).calm
    split <;> rfl
  | move d s => rfl
  | nop => rfl
  | ret =>
    show (doReturn m).calm = (doReturn m.calm).calm
    unfold doReturn
    rw [show m.calm.stack = m.stack from rfl]
    cases m.stack with
    | nil => rfl
    | cons f rest => cases h : f.retReg <;> simp only [h] <;> rfl
  | setErrorHandler mode t => rfl
  | storeArray a v f =>
    show (doStoreArray m a v f).calm = (doStoreArray m.calm a v f).calm
    unfold doStoreArray
    simp only [aa]
    rw [show m.calm.get v = m.get v from rfl]
    cases m.arrayAccess a f with
    | none => rfl
    | some x =>
      obtain ⟨i, a, subs⟩ := x
      simp only
      cases a.store subs (m.get v) with
      | none => rfl
      | some y => cases y <;> rfl
  | «end» r =>
    show (doEnd m r).calm = (doEnd m.calm r).calm
    unfold doEnd
    rw [show m.calm.get r = m.get r from rfl]
    cases exitCodeTryNew (toI32 (m.get r)).toInt <;> rfl
  | upcall i r => rfl
  | upcallAsync i r => rfl
  | eof => rfl

/-! ## Built-in callables -/

/-- The built-in callables that the program of an image is linked with. -/
class Answers (img : Image) where
  lib : Lib
  rel : U16 → Nat → List LineCol → Log → (Nat → BitVec 64) → Heap → Log → (Nat → BitVec 64) → Heap →
    Except (Option LineCol × Str) Unit → Prop
  law : ∀ (idx : U16) (q : Request) (first fp room : Nat) (regs : Nat → BitVec 64) (heap : Heap) (l : Log),
    img.upcalls[idx.toNat]? = some q.name →
    q.vars.length = q.args.length →
    (∀ (j : Nat) s, (slots q.args)[j]? = some s →
      HoldsSlot img.constants heap fp s (regs (first + (if q.ret.isSome then 1 else 0) + j))) →
    (∀ (j : Nat) a p c, q.args[j]? = some a → a.1.place = some p → q.vars[j]? = some (some c) →
      HoldsCell img.constants heap c (regs (p.index fp))) →
    Passable fp first q.args →
    heap.data[0]? = some (.text []) →
    room = min (2 ^ 24) heap.maxEntries - heap.data.length →
    (lib l room q).fits q.args q.ret room = true →
    ∃ regs' heap', rel idx first (slotPositions q.args) l regs heap
        ⟨l.events ++ [(q, lib l room q)], l.lastError⟩ regs' heap' ((lib l room q).result.map fun _ => ()) ∧
      Answered img.constants fp first q.ret (lib l room q) regs heap regs' heap'

/-- The host does what the callables do. -/
def Implements {H : Type} (host : Host H) (img : Image) [Answers img] (state : List (Request × Reply) → H) : Prop :=
  ∀ idx first poss l regs heap l' regs' heap' res, Answers.rel img idx first poss l regs heap l' regs' heap' res →
    host.exec idx first poss regs heap l.lastError img (state l.events) = (state l'.events, regs', heap', res) ∧
    l'.lastError = l.lastError

/-- The callables of a host. -/
@[reducible] def answers {H : Type} {host : Host H} {img : Image} {lib : Lib} {state : List (Request × Reply) → H}
    (h : Provides host img lib state) : Answers img where
  lib := lib
  rel := fun idx first poss l regs heap l' regs' heap' res =>
    host.exec idx first poss regs heap l.lastError img (state l.events) = (state l'.events, regs', heap', res) ∧
    l'.lastError = l.lastError
  law := by
    intro idx q first fp room regs heap l h1 h2 h3 h4 hb h5 h6 h7
    obtain ⟨regs', heap', h8, h9⟩ := h idx q first fp room regs heap l h1 h2 h3 h4 hb h5 h6 h7
    exact ⟨regs', heap', ⟨h8, rfl⟩, h9⟩

theorem answers_implements {H : Type} {host : Host H} {img : Image} {lib : Lib} {state : List (Request × Reply) → H}
    (h : Provides host img lib state) : @Implements H host img (answers h) state :=
  fun _ _ _ _ _ _ _ _ _ _ h => h

/-! ## Runs -/

section
variable (F : FloatOps) (img : Image) [Answers img]

/-- What the next instruction does: it may raise an error. -/
inductive Does : Log → Mach → Log → Mach → Option (LineCol × RtErr) → Prop
  | cont {l : Log} {m m1 : Mach} {i : Instr} : img.code[m.pc]? = some i → execInstr F img.constants m i = .cont m1 →
      Does l m l m1 none
  | fault {l : Log} {m : Mach} {i : Instr} {pos : LineCol} {e : RtErr} : img.code[m.pc]? = some i →
      execInstr F img.constants m i = .stop (.exception m.pc e) m → (img.instrs[m.pc]?).map (·.linecol) = some pos →
      Does l m l m (some (pos, e))
  | upcall {l l' : Log} {m : Mach} {idx : U16} {r : Reg} {regs' : Nat → BitVec 64} {heap' : Heap} :
      (img.code[m.pc]? = some (.upcall idx r) ∨ img.code[m.pc]? = some (.upcallAsync idx r)) → 64 ≤ r.toNat →
      Answers.rel img idx (m.fp + (r.toNat - 64)) (img.argPositions m.pc) l m.regs m.heap l' regs' heap' (.ok ()) →
      Does l m l' { m.next with regs := regs', heap := heap' } none
  | upcallError {l l' : Log} {m : Mach} {idx : U16} {r : Reg} {pos : LineCol} {regs' : Nat → BitVec 64} {heap' : Heap}
      {p : Option LineCol} {msg : Str} :
      (img.code[m.pc]? = some (.upcall idx r) ∨ img.code[m.pc]? = some (.upcallAsync idx r)) → 64 ≤ r.toNat →
      (img.instrs[m.pc]?).map (·.linecol) = some pos →
      Answers.rel img idx (m.fp + (r.toNat - 64)) (img.argPositions m.pc) l m.regs m.heap l' regs' heap' (.error (p, msg)) →
      Does l m l' { m.next with regs := regs', heap := heap' } (some (p.getD pos, .upcall msg))

/-- Runs; errors may be followed by the next statement, or by the statements at a label. -/
inductive Go : Log → Mach → Log → Mach → Prop
  | refl (l : Log) (m : Mach) : Go l m l m
  | step {l l1 l2 : Log} {m m1 m2 : Mach} : Does F img l m l1 m1 none → Go l1 m1.calm l2 m2 → Go l m l2 m2
  | resume {l l1 l2 : Log} {m m1 m2 : Mach} {pos : LineCol} {e : RtErr} : Does F img l m l1 m1 (some (pos, e)) →
      m1.handler = .resumeNext →
      Go { l1 with lastError := some (pos, e) } { m1.calm with pc := nextStmtStart img m.pc } l2 m2 → Go l m l2 m2
  | trap {l l1 l2 : Log} {m m1 m2 : Mach} {pos : LineCol} {e : RtErr} {a : Nat} : Does F img l m l1 m1 (some (pos, e)) →
      m1.handler = .jump false a →
      Go { l1 with lastError := some (pos, e) } { m1.calm with pc := a, handler := .jump true a } l2 m2 → Go l m l2 m2

/-- … of exactly that many steps. -/
inductive GoIn : Nat → Log → Mach → Log → Mach → Prop
  | refl (l : Log) (m : Mach) : GoIn 0 l m l m
  | step {n : Nat} {l l1 l2 : Log} {m m1 m2 : Mach} : Does F img l m l1 m1 none → GoIn n l1 m1.calm l2 m2 → GoIn (n + 1) l m l2 m2
  | resume {n : Nat} {l l1 l2 : Log} {m m1 m2 : Mach} {pos : LineCol} {e : RtErr} : Does F img l m l1 m1 (some (pos, e)) →
      m1.handler = .resumeNext →
      GoIn n { l1 with lastError := some (pos, e) } { m1.calm with pc := nextStmtStart img m.pc } l2 m2 → GoIn (n + 1) l m l2 m2
  | trap {n : Nat} {l l1 l2 : Log} {m m1 m2 : Mach} {pos : LineCol} {e : RtErr} {a : Nat} : Does F img l m l1 m1 (some (pos, e)) →
      m1.handler = .jump false a →
      GoIn n { l1 with lastError := some (pos, e) } { m1.calm with pc := a, handler := .jump true a } l2 m2 → GoIn (n + 1) l m l2 m2

/-- … of at least that many steps. -/
def GoFor (n : Nat) (l : Log) (m : Mach) (l' : Log) (m' : Mach) : Prop := ∃ k, n ≤ k ∧ GoIn F img k l m l' m'

/-- A run that ends with an error, of the instruction at `pc`. -/
def Fails (l : Log) (m : Mach) (l' : Log) (m' : Mach) (pc : Nat) (pos : LineCol) (e : RtErr) : Prop :=
  ∃ l0 m0, Go F img l m l0 m0 ∧ m0.pc = pc ∧ Does F img l0 m0 l' m' (some (pos, e))

end

/-- The next instruction ends the program. -/
def Finishes (F : FloatOps) (img : Image) (m : Mach) (code : Nat) : Prop :=
  ∃ i c, img.code[m.pc]? = some i ∧ execInstr F img.constants m i = .stop (.end c) m ∧ c.toNat = code

section
variable {F : FloatOps} {img : Image} [Answers img]

theorem Go.trans {la lb lc : Log} {a b c : Mach} (h1 : Go F img la a lb b) (h2 : Go F img lb b lc c) :
    Go F img la a lc c := by
  induction h1 with
  | refl => exact h2
  | step hd _ ih => exact .step hd (ih h2)
  | resume hd hh _ ih => exact .resume hd hh (ih h2)
  | trap hd hh _ ih => exact .trap hd hh (ih h2)

theorem GoIn.go {n : Nat} {l l' : Log} {m m' : Mach} (h : GoIn F img n l m l' m') : Go F img l m l' m' := by
  induction h with
  | refl => exact .refl _ _
  | step hd _ ih => exact .step hd ih
  | resume hd hh _ ih => exact .resume hd hh ih
  | trap hd hh _ ih => exact .trap hd hh ih

theorem Go.in {l l' : Log} {m m' : Mach} (h : Go F img l m l' m') : ∃ n, GoIn F img n l m l' m' := by
  induction h with
  | refl => exact ⟨0, .refl _ _⟩
  | step hd _ ih => obtain ⟨n, ih⟩ := ih; exact ⟨n + 1, .step hd ih⟩
  | resume hd hh _ ih => obtain ⟨n, ih⟩ := ih; exact ⟨n + 1, .resume hd hh ih⟩
  | trap hd hh _ ih => obtain ⟨n, ih⟩ := ih; exact ⟨n + 1, .trap hd hh ih⟩

theorem GoIn.trans {n k : Nat} {la lb lc : Log} {a b c : Mach} (h1 : GoIn F img n la a lb b) (h2 : GoIn F img k lb b lc c) :
    GoIn F img (n + k) la a lc c := by
  induction h1 with
  | refl => rw [Nat.zero_add]; exact h2
  | step hd _ ih => rw [Nat.add_right_comm]; exact .step hd (ih h2)
  | resume hd hh _ ih => rw [Nat.add_right_comm]; exact .resume hd hh (ih h2)
  | trap hd hh _ ih => rw [Nat.add_right_comm]; exact .trap hd hh (ih h2)

theorem GoFor.go {n : Nat} {l l' : Log} {m m' : Mach} (h : GoFor F img n l m l' m') : Go F img l m l' m' := by
  obtain ⟨_, _, h⟩ := h; exact h.go

theorem Go.for {l l' : Log} {m m' : Mach} (h : Go F img l m l' m') : GoFor F img 0 l m l' m' := by
  obtain ⟨n, h⟩ := h.in; exact ⟨n, Nat.zero_le _, h⟩

theorem GoFor.trans {n k : Nat} {la lb lc : Log} {a b c : Mach} (h1 : GoFor F img n la a lb b) (h2 : GoFor F img k lb b lc c) :
    GoFor F img (n + k) la a lc c := by
  obtain ⟨i, hi, h1⟩ := h1
  obtain ⟨j, hj, h2⟩ := h2
  exact ⟨i + j, by omega, h1.trans h2⟩

theorem GoFor.less {n k : Nat} {l l' : Log} {m m' : Mach} (h : GoFor F img n l m l' m') (hk : k ≤ n) : GoFor F img k l m l' m' := by
  obtain ⟨i, hi, h⟩ := h; exact ⟨i, by omega, h⟩

/-- A run first, of which the steps are not counted. -/
theorem GoFor.before {n : Nat} {la lb lc : Log} {a b c : Mach} (h2 : GoFor F img n lb b lc c) (h1 : Go F img la a lb b) : GoFor F img n la a lc c :=
  (h1.for.trans h2).less (by omega)

theorem GoFor.after {n : Nat} {la lb lc : Log} {a b c : Mach} (h1 : GoFor F img n la a lb b) (h2 : Go F img lb b lc c) : GoFor F img n la a lc c :=
  (h1.trans h2.for).less (by omega)

theorem GoFor.one {l : Log} {m m1 : Mach} {i : Instr} (hi : img.code[m.pc]? = some i)
    (he : execInstr F img.constants m i = .cont m1) (hq : m1.yieldPending = false) : GoFor F img 1 l m l m1 := by
  refine ⟨1, Nat.le_refl _, .step (.cont hi he) ?_⟩
  rw [calm_of_quiet hq]; exact .refl _ _

theorem Go.one {l : Log} {m m1 : Mach} {i : Instr} (hi : img.code[m.pc]? = some i)
    (he : execInstr F img.constants m i = .cont m1) (hq : m1.yieldPending = false) : Go F img l m l m1 := by
  refine .step (.cont hi he) ?_
  rw [calm_of_quiet hq]; exact .refl _ _

theorem Fails.before {la lb l' : Log} {a b m' : Mach} {pc : Nat} {pos : LineCol} {e : RtErr} (h1 : Go F img la a lb b)
    (h2 : Fails F img lb b l' m' pc pos e) : Fails F img la a l' m' pc pos e := by
  obtain ⟨l0, m0, g, hp, hd⟩ := h2
  exact ⟨l0, m0, h1.trans g, hp, hd⟩

theorem Fails.one {l : Log} {m : Mach} {i : Instr} {pos : LineCol} {e : RtErr} (hi : img.code[m.pc]? = some i)
    (he : execInstr F img.constants m i = .stop (.exception m.pc e) m)
    (hp : (img.instrs[m.pc]?).map (·.linecol) = some pos) : Fails F img l m l m m.pc pos e :=
  ⟨l, m, .refl _ _, rfl, .fault hi he hp⟩

/-- The next statement after an error. -/
theorem Fails.resume {l l' : Log} {m m' : Mach} {pc : Nat} {pos : LineCol} {e : RtErr} (h : Fails F img l m l' m' pc pos e)
    (hh : m'.handler = .resumeNext) (hq : m'.yieldPending = false) :
    Go F img l m { l' with lastError := some (pos, e) } { m' with pc := nextStmtStart img pc } := by
  obtain ⟨l0, m0, g, hp, hd⟩ := h
  refine g.trans (.resume hd hh ?_)
  rw [hp, calm_of_quiet hq]; exact .refl _ _

/-- The statements at the label after an error. -/
theorem Fails.trap {l l' : Log} {m m' : Mach} {pc : Nat} {pos : LineCol} {e : RtErr} {a : Nat} (h : Fails F img l m l' m' pc pos e)
    (hh : m'.handler = .jump false a) (hq : m'.yieldPending = false) :
    GoFor F img 1 l m { l' with lastError := some (pos, e) } { m' with pc := a, handler := .jump true a } := by
  obtain ⟨l0, m0, g, hp, hd⟩ := h
  refine GoFor.before ⟨1, Nat.le_refl _, .trap hd hh ?_⟩ g
  rw [calm_of_quiet hq]; exact .refl _ _

end

/-! ## Runs of the whole machine -/

section
variable {H : Type} {F : FloatOps} {host : Host H} {img : Image} {state : List (Request × Reply) → H}

theorem Spec.Reaches.trans {a b c : Vm H} (h1 : Reaches F host img a b) (h2 : Reaches F host img b c) :
    Reaches F host img a c := by
  induction h1 with
  | refl => exact h2
  | cont h _ ih => exact .cont h (ih h2)
  | yield h _ ih => exact .yield h (ih h2)
  | async h h' _ ih => exact .async h h' (ih h2)

theorem Spec.Reaches.in {a b : Vm H} (h : Reaches F host img a b) : ∃ n, ReachesIn F host img n a b := by
  induction h with
  | refl => exact ⟨0, .refl _⟩
  | cont h _ ih => obtain ⟨n, ih⟩ := ih; exact ⟨n + 1, .cont h ih⟩
  | yield h _ ih => obtain ⟨n, ih⟩ := ih; exact ⟨n + 1, .yield h ih⟩
  | async h h' _ ih => obtain ⟨n, ih⟩ := ih; exact ⟨n + 1, .async h h' ih⟩

theorem Spec.ReachesIn.reaches {n : Nat} {a b : Vm H} (h : ReachesIn F host img n a b) : Reaches F host img a b := by
  induction h with
  | refl => exact .refl _
  | cont h _ ih => exact .cont h ih
  | yield h _ ih => exact .yield h ih
  | async h h' _ ih => exact .async h h' ih

theorem Spec.ReachesIn.trans {n k : Nat} {a b c : Vm H} (h1 : ReachesIn F host img n a b) (h2 : ReachesIn F host img k b c) :
    ReachesIn F host img (n + k) a c := by
  induction h1 with
  | refl => rw [Nat.zero_add]; exact h2
  | cont h _ ih => rw [Nat.add_right_comm]; exact .cont h (ih h2)
  | yield h _ ih => rw [Nat.add_right_comm]; exact .yield h (ih h2)
  | async h h' _ ih => rw [Nat.add_right_comm]; exact .async h h' (ih h2)

theorem Spec.Synchronous.mach {l : Log} {vm : Vm H} (h : Synchronous state l vm) (m : Mach) :
    Synchronous state l { vm with mach := m } := ⟨h.pending, h.host, h.lastError⟩

/-- One instruction of the real machine, after the yield that may come first. -/
theorem reaches_instr {vm : Vm H} {i : Instr} (hl : img.instrs.length = img.code.length) (hp : vm.pending = none)
    (hi : img.code[vm.mach.pc]? = some i) :
    ∃ n0, Reaches F host img vm { vm with mach := n0 } ∧ n0.calm = vm.mach.calm ∧
      step F img n0 = execInstr F img.constants n0 i := by
  obtain ⟨mt, hm⟩ : ∃ mt, img.instrs[vm.mach.pc]? = some mt := by
    have := (List.getElem?_eq_some_iff.1 hi).1
    exact ⟨_, List.getElem?_eq_getElem (by omega)⟩
  by_cases hy : (vm.mach.yieldPending && mt.isStmtStart) = true
  · refine ⟨{ vm.mach with yieldPending := false },
      .yield (vm1 := { vm with mach := { vm.mach with yieldPending := false } }) ?_ (.refl _), rfl, ?_⟩
    · have : step F img vm.mach = .stop .yield { vm.mach with yieldPending := false } := by
        unfold step; rw [hm]; simp only [hy, if_true]
      simp only [vmStep, hp, this]
    · unfold step
      show (match img.instrs[vm.mach.pc]? with | none => _ | some meta' => _) = _
      rw [hm]
      simp only [Bool.false_and, Bool.false_eq_true, if_false]
      rw [hi]
  · refine ⟨vm.mach, .refl _, rfl, ?_⟩
    unfold step
    rw [hm]
    simp only [hy, if_false, hi]
    rfl

/-- The result of running the error handler. -/
def handled (img : Image) (vm : Vm H) (m : Mach) (pc : Nat) (pos : LineCol) (e : RtErr) : VmStep H :=
  match handleException img m pc with
  | some m' => .cont { vm with mach := m', lastError := some (pos, e) }
  | none => .stop (.exception pos e) { vm with mach := m.park img, lastError := some (pos, e) }

variable [Answers img]

/-- What a step of the whole machine, or the asynchronous call that it starts, does. -/
theorem vm_does (hl : img.instrs.length = img.code.length) (hi : Implements host img state) {l l1 : Log} {m m1 : Mach}
    {o : Option (LineCol × RtErr)} (h : Does F img l m l1 m1 o) (vm : Vm H) (hm : vm.mach.calm = m.calm)
    (hs : Synchronous state l vm) :
    ∃ vm0 n1 h1, Reaches F host img vm vm0 ∧ n1.calm = m1.calm ∧
      Synchronous state l1 ⟨n1, l1.lastError, none, h1⟩ ∧
      (vmStep F host img vm0 =
          (match (motive := Option (LineCol × RtErr) → VmStep H) o with
            | none => .cont ⟨n1, l1.lastError, none, h1⟩
            | some (pos, e) => handled img ⟨n1, l1.lastError, none, h1⟩ n1 m.pc pos e) ∨
        ∃ vm1, vmStep F host img vm0 = .stop .upcallAsync vm1 ∧
          invokePending host img vm1 =
          (match (motive := Option (LineCol × RtErr) → VmStep H) o with
            | none => .cont ⟨n1, l1.lastError, none, h1⟩
            | some (pos, e) => handled img ⟨n1, l1.lastError, none, h1⟩ n1 m.pc pos e)) := by
  have hpc : vm.mach.pc = m.pc := congrArg (f := Mach.pc) (a₁ := vm.mach.calm) (a₂ := m.calm) hm
  obtain ⟨i, hc⟩ : ∃ i, img.code[m.pc]? = some i := by
    cases h with
    | cont hc => exact ⟨_, hc⟩
    | fault hc => exact ⟨_, hc⟩
    | upcall hc => rcases hc with hc | hc <;> exact ⟨_, hc⟩
    | upcallError hc => rcases hc with hc | hc <;> exact ⟨_, hc⟩
  obtain ⟨n0, h0, hc0, hstep⟩ := reaches_instr (F := F) (host := host) (vm := vm) hl hs.pending (by rw [hpc]; exact hc)
  have hc1 : n0.calm = m.calm := hc0.trans hm
  have hpc0 : n0.pc = m.pc := congrArg (f := Mach.pc) (a₁ := n0.calm) (a₂ := m.calm) hc1
  have hfp0 : n0.fp = m.fp := congrArg (f := Mach.fp) (a₁ := n0.calm) (a₂ := m.calm) hc1
  have hr0 : n0.regs = m.regs := congrArg (f := Mach.regs) (a₁ := n0.calm) (a₂ := m.calm) hc1
  have hh0 : n0.heap = m.heap := congrArg (f := Mach.heap) (a₁ := n0.calm) (a₂ := m.calm) hc1
  have hx := execInstr_calm F img.constants n0 i
  rw [hc1, ← execInstr_calm] at hx
  have hvm : vm.lastError = l.lastError := hs.lastError
  -- the call of a built-in callable
  have call : ∀ {idx : U16} {r : Reg} {l' : Log} {regs' heap' res}, 64 ≤ r.toNat →
      Answers.rel img idx (m.fp + (r.toNat - 64)) (img.argPositions m.pc) l m.regs m.heap l' regs' heap' res →
      l'.lastError = l.lastError ∧
      runUpcall host img { vm with mach := n0.next, pending := none } idx r m.pc =
        match res with
        | .ok () => .cont ⟨{ n0.next with regs := regs', heap := heap' }, l'.lastError, none, state l'.events⟩
        | .error (p, msg) =>
          match img.instrs[m.pc]? with
          | none => .panic
          | some mt => handled img ⟨{ n0.next with regs := regs', heap := heap' }, l'.lastError, none, state l'.events⟩
              { n0.next with regs := regs', heap := heap' } m.pc (p.getD mt.linecol) (.upcall msg) := by
    intro idx r l' regs' heap' res hr hrel
    obtain ⟨hx1, hx2⟩ := hi _ _ _ _ _ _ _ _ _ _ hrel
    refine ⟨hx2, ?_⟩
    unfold runUpcall
    rw [if_neg (by simpa [maxGlobal] using hr)]
    have hx3 : host.exec idx (n0.next.fp + (r.toNat - maxGlobal)) (img.argPositions m.pc) n0.next.regs n0.next.heap
        vm.lastError img vm.host = (state l'.events, regs', heap', res) := by
      show host.exec idx (n0.fp + (r.toNat - 64)) (img.argPositions m.pc) n0.regs n0.heap vm.lastError img vm.host = _
      rw [hfp0, hr0, hh0, hvm, hs.host, hx1]
    simp only [hx3]
    cases res with
    | ok u => rw [hx2, hvm]
    | error pm =>
      obtain ⟨p, msg⟩ := pm
      cases img.instrs[m.pc]? with
      | none => rfl
      | some mt =>
        simp only [handled]
        cases handleException img _ m.pc <;> rfl
  have hpn : (vm : Vm H).pending = none := hs.pending
  have sync : ∀ n, Synchronous state l ⟨n, l.lastError, none, vm.host⟩ := fun n => ⟨rfl, hs.host, rfl⟩
  cases h with
  | cont hc' he =>
    rw [hc] at hc'; cases hc'
    rw [he] at hx
    obtain ⟨n1, hn1, hcn⟩ : ∃ n1, execInstr F img.constants n0 i = .cont n1 ∧ n1.calm = m1.calm := by
      cases hy : execInstr F img.constants n0 i with
      | cont n1 => rw [hy] at hx; simp only [Step.calm, Step.cont.injEq] at hx; exact ⟨n1, rfl, hx⟩
      | stop => rw [hy] at hx; simp [Step.calm] at hx
      | panic => rw [hy] at hx; simp [Step.calm] at hx
    refine ⟨_, n1, vm.host, h0, hcn, sync n1, .inl ?_⟩
    simp only [vmStep, hpn, hstep, hn1]
    rw [← hvm]
  | fault hc' he hp =>
    rw [hc] at hc'; cases hc'
    rw [he] at hx
    rename_i pos e
    have hn1 : execInstr F img.constants n0 i = .stop (.exception m.pc e) n0 := by
      cases hy : execInstr F img.constants n0 i with
      | cont n1 => rw [hy] at hx; simp [Step.calm] at hx
      | panic => rw [hy] at hx; simp [Step.calm] at hx
      | stop r n1 =>
        rw [hy] at hx; simp only [Step.calm, Step.stop.injEq] at hx
        obtain ⟨rfl, hx⟩ := hx
        rcases exec_stop hy with ⟨e', _, rfl⟩ | ⟨_, _, h | h, _⟩ | ⟨h, _⟩ | ⟨_, _, h, _⟩
        · rfl
        · simp at h
        · simp at h
        · simp at h
        · simp at h
    refine ⟨_, n0, vm.host, h0, hc1, sync n0, .inl ?_⟩
    obtain ⟨mt, hmt, rfl⟩ := Option.map_eq_some_iff.1 hp
    simp only [vmStep, hpn, hstep, hn1, hmt, handled]
    cases handleException img n0 m.pc <;> rfl
  | upcall hc' hr hrel =>
    rename_i idx r regs' heap'
    obtain ⟨hx2, hx3⟩ := call hr hrel
    have hcalm : ({ n0.next with regs := regs', heap := heap' } : Mach).calm = ({ m.next with regs := regs', heap := heap' } : Mach).calm := by
      have : n0.next.calm = m.next.calm := by
        show ({ n0.calm with pc := n0.calm.pc + 1 } : Mach) = { m.calm with pc := m.calm.pc + 1 }
        rw [hc1]
      show ({ n0.next.calm with regs := regs', heap := heap' } : Mach) = { m.next.calm with regs := regs', heap := heap' }
      rw [this]
    refine ⟨_, _, state l1.events, h0, hcalm, ⟨rfl, rfl, rfl⟩, ?_⟩
    rcases hc' with hc' | hc' <;> rw [hc] at hc' <;> cases hc'
    · left
      simp only [vmStep, hpn, hstep]
      show runUpcall host img { vm with mach := n0.next, pending := none } idx r n0.pc = _
      rw [hpc0, hx3]
    · right
      refine ⟨{ vm with mach := n0.next, pending := some (idx, r, m.pc) }, ?_, ?_⟩
      · simp only [vmStep, hpn, hstep]
        show VmStep.stop _ { vm with mach := n0.next, pending := some (idx, r, n0.pc) } = _
        rw [hpc0]
      · exact hx3
  | upcallError hc' hr hp hrel =>
    rename_i idx r pos regs' heap' p msg
    obtain ⟨hx2, hx3⟩ := call hr hrel
    obtain ⟨mt, hmt, rfl⟩ := Option.map_eq_some_iff.1 hp
    rw [hmt] at hx3
    have hcalm : ({ n0.next with regs := regs', heap := heap' } : Mach).calm = ({ m.next with regs := regs', heap := heap' } : Mach).calm := by
      have : n0.next.calm = m.next.calm := by
        show ({ n0.calm with pc := n0.calm.pc + 1 } : Mach) = { m.calm with pc := m.calm.pc + 1 }
        rw [hc1]
      show ({ n0.next.calm with regs := regs', heap := heap' } : Mach) = { m.next.calm with regs := regs', heap := heap' }
      rw [this]
    refine ⟨_, _, state l1.events, h0, hcalm, ⟨rfl, rfl, rfl⟩, ?_⟩
    rcases hc' with hc' | hc' <;> rw [hc] at hc' <;> cases hc'
    · left
      simp only [vmStep, hpn, hstep]
      show runUpcall host img { vm with mach := n0.next, pending := none } idx r n0.pc = _
      rw [hpc0, hx3]
    · right
      refine ⟨{ vm with mach := n0.next, pending := some (idx, r, m.pc) }, ?_, ?_⟩
      · simp only [vmStep, hpn, hstep]
        show VmStep.stop _ { vm with mach := n0.next, pending := some (idx, r, n0.pc) } = _
        rw [hpc0]
      · exact hx3

theorem reaches_of_goIn (hl : img.instrs.length = img.code.length) (hi : Implements host img state) {n : Nat} {l l' : Log} {m m' : Mach}
    (h : GoIn F img n l m l' m') : ∀ vm : Vm H, vm.mach.calm = m.calm → Synchronous state l vm →
    ∃ k vm', n ≤ k ∧ ReachesIn F host img k vm vm' ∧ vm'.mach.calm = m'.calm ∧ Synchronous state l' vm' := by
  induction h with
  | refl => intro vm hm hs; exact ⟨0, vm, Nat.le_refl _, .refl _, hm, hs⟩
  | step hd _ ih =>
    intro vm hm hs
    obtain ⟨vm0, n1, h1, r0, c1, s1, hstep⟩ := vm_does hl hi hd vm hm hs
    obtain ⟨k0, r0⟩ := r0.in
    obtain ⟨k, vm', hk, r1, c2, s2⟩ := ih ⟨n1, _, none, h1⟩ c1 s1
    rcases hstep with hstep | ⟨vm1, hs1, hs2⟩
    · exact ⟨_, vm', by omega, r0.trans (.cont hstep r1), c2, s2⟩
    · exact ⟨_, vm', by omega, r0.trans (.async hs1 hs2 r1), c2, s2⟩
  | @resume _ l l1 l2 m m1 m2 pos e hd hh _ ih =>
    intro vm hm hs
    obtain ⟨vm0, n1, h1, r0, c1, s1, hstep⟩ := vm_does hl hi hd vm hm hs
    obtain ⟨k0, r0⟩ := r0.in
    have hh1 : n1.handler = .resumeNext :=
      (congrArg (f := Mach.handler) (a₁ := n1.calm) (a₂ := m1.calm) c1).trans hh
    have hx : handled img ⟨n1, l1.lastError, none, h1⟩ n1 m.pc pos e =
        .cont ⟨{ n1 with pc := nextStmtStart img m.pc }, some (pos, e), none, h1⟩ := by
      unfold handled handleException
      rw [hh1]
    simp only [hx] at hstep
    obtain ⟨k, vm', hk, r1, c2, s2⟩ := ih ⟨{ n1 with pc := nextStmtStart img m.pc }, some (pos, e), none, h1⟩
      (by show ({ n1.calm with pc := nextStmtStart img m.pc } : Mach) = { m1.calm with pc := nextStmtStart img m.pc }
          rw [c1]) ⟨rfl, s1.host, rfl⟩
    rcases hstep with hstep | ⟨vm1, hs1, hs2⟩
    · exact ⟨_, vm', by omega, r0.trans (.cont hstep r1), c2, s2⟩
    · exact ⟨_, vm', by omega, r0.trans (.async hs1 hs2 r1), c2, s2⟩
  | @trap _ l l1 l2 m m1 m2 pos e a hd hh _ ih =>
    intro vm hm hs
    obtain ⟨vm0, n1, h1, r0, c1, s1, hstep⟩ := vm_does hl hi hd vm hm hs
    obtain ⟨k0, r0⟩ := r0.in
    have hh1 : n1.handler = .jump false a :=
      (congrArg (f := Mach.handler) (a₁ := n1.calm) (a₂ := m1.calm) c1).trans hh
    have hx : handled img ⟨n1, l1.lastError, none, h1⟩ n1 m.pc pos e =
        .cont ⟨{ n1 with handler := .jump true a, pc := a }, some (pos, e), none, h1⟩ := by
      unfold handled handleException
      rw [hh1]
    simp only [hx] at hstep
    obtain ⟨k, vm', hk, r1, c2, s2⟩ := ih ⟨{ n1 with handler := .jump true a, pc := a }, some (pos, e), none, h1⟩
      (by show ({ n1.calm with handler := .jump true a, pc := a } : Mach) = { m1.calm with handler := .jump true a, pc := a }
          rw [c1]) ⟨rfl, s1.host, rfl⟩
    rcases hstep with hstep | ⟨vm1, hs1, hs2⟩
    · exact ⟨_, vm', by omega, r0.trans (.cont hstep r1), c2, s2⟩
    · exact ⟨_, vm', by omega, r0.trans (.async hs1 hs2 r1), c2, s2⟩

theorem reaches_of_go (hl : img.instrs.length = img.code.length) (hi : Implements host img state) {l l' : Log} {m m' : Mach}
    (h : Go F img l m l' m') (vm : Vm H) (hm : vm.mach.calm = m.calm) (hs : Synchronous state l vm) :
    ∃ vm', Reaches F host img vm vm' ∧ vm'.mach.calm = m'.calm ∧ Synchronous state l' vm' := by
  obtain ⟨n, h⟩ := h.in
  obtain ⟨_, vm', _, h1, h2⟩ := reaches_of_goIn hl hi h vm hm hs
  exact ⟨vm', h1.reaches, h2⟩

theorem raises_of_fails (hl : img.instrs.length = img.code.length) (hi : Implements host img state) {l l' : Log} {m m' : Mach}
    {pc : Nat} {pos : LineCol} {e : RtErr} (h : Fails F img l m l' m' pc pos e)
    (hh : m'.handler = .none ∨ ∃ a, m'.handler = .jump true a) (vm : Vm H)
    (hm : vm.mach.calm = m.calm) (hs : Synchronous state l vm) :
    ∃ (vm1 vm' : Vm H) (n0 : Mach), Reaches F host img vm vm1 ∧ Raises F host img vm1 pos e vm' ∧ Mach.calm n0 = m'.calm ∧ vm'.mach = n0.park img ∧
      Synchronous state { l' with lastError := some (pos, e) } vm' := by
  obtain ⟨l0, m0, g, hp, hd⟩ := h
  obtain ⟨vm0, r0, c0, s0⟩ := reaches_of_go hl hi g vm hm hs
  obtain ⟨vm1, n1, h1, r1, c1, s1, hstep⟩ := vm_does hl hi hd vm0 c0 s0
  have hh1 : n1.handler = m'.handler := congrArg (f := Mach.handler) (a₁ := n1.calm) (a₂ := m'.calm) c1
  have hx : handled img ⟨n1, l'.lastError, none, h1⟩ n1 m0.pc pos e =
      .stop (.exception pos e) ⟨n1.park img, some (pos, e), none, h1⟩ := by
    unfold handled handleException
    rw [hh1]
    rcases hh with hh | ⟨a, hh⟩ <;> rw [hh]
  simp only [hx] at hstep
  exact ⟨vm1, _, n1, r0.trans r1, hstep, c1, rfl, ⟨rfl, s1.host, rfl⟩⟩

omit [Answers img] in
theorem ends_of_finishes (hl : img.instrs.length = img.code.length) {l : Log} {m : Mach} {code : Nat}
    (h : Finishes F img m code) (vm : Vm H) (hm : vm.mach.calm = m.calm) (hs : Synchronous state l vm) :
    ∃ vm', Reaches F host img vm vm' ∧ vm'.mach.calm = m.calm ∧ Synchronous state l vm' ∧ EndsWith F host img vm' code := by
  obtain ⟨i, c, hi, he, hp⟩ := h
  have hpc : vm.mach.pc = m.pc := congrArg (f := Mach.pc) (a₁ := vm.mach.calm) (a₂ := m.calm) hm
  obtain ⟨n0, h0, hc0, hstep⟩ := reaches_instr (F := F) (host := host) (vm := vm) hl hs.pending (by rw [hpc]; exact hi)
  have h1 := execInstr_calm F img.constants n0 i
  rw [hc0, hm, ← execInstr_calm, he] at h1
  refine ⟨_, h0, hc0.trans hm, hs.mach n0, c, { vm with mach := n0.park img }, ?_, hp⟩
  have : execInstr F img.constants n0 i = .stop (.end c) n0 := by
    cases hx : execInstr F img.constants n0 i with
    | cont n1 => rw [hx] at h1; simp [Step.calm] at h1
    | panic => rw [hx] at h1; simp [Step.calm] at h1
    | stop r n1 =>
      rw [hx] at h1; simp only [Step.calm, Step.stop.injEq] at h1
      obtain ⟨rfl, h1⟩ := h1
      rcases exec_stop hx with ⟨e', h, _⟩ | ⟨_, _, h | h, _⟩ | ⟨h, _⟩ | ⟨_, _, _, h2, _⟩
      · simp at h
      · simp at h
      · simp at h
      · simp at h
      · rw [h2]
  simp only [vmStep, hs.pending, hstep, this]

end
end EB
