import Verif.Lemmas.SimMem
/-!
# The code of single operations
-/

namespace EB
open Spec

/-- How many rounds of loops and jumps are watched at least. -/
class Watch where
  rounds : Nat

variable [Labels] [Watch]

/-! ## Combining runs -/

/-- Nothing becomes known. -/
def Dom (w w' : World) : Prop := ∀ p, w.mem p = none → w'.mem p = none

theorem Dom.refl (w : World) : Dom w w := fun _ h => h
theorem Dom.trans {a b c : World} (h1 : Dom a b) (h2 : Dom b c) : Dom a c := fun p h => h2 p (h1 p h)

theorem FreeReg.dom {w w' : World} {r : Nat} (h : FreeReg w r) (hd : Dom w w') : FreeReg w' r := by
  intro p c hp
  cases hx : w.mem p with
  | none => rw [hd p hx] at hp; simp at hp
  | some c' => exact h p c' hx

section
variable {F : FloatOps} {img : Image} [Answers img] {Γ : Env} {lo : Nat}

/-- What a run from `m` should do, given what the specification says. -/
def Post {α : Type} (F : FloatOps) (img : Image) [Answers img] (Γ : Env) (lo : Nat) (K : Nat → Prop) (w : World) (m : Mach)
    (pc : Nat) (holds : α → Mach → Prop) : Out α → Prop
  | .ok a w' => ∃ m', Go F img w.log m w'.log m' ∧ m'.pc = pc ∧ SameAct m m' ∧ Kept m.fp K w m w' m' ∧
      Models img.constants Γ m.fp w' m' ∧ Dom w w' ∧ holds a m'
  | .err pos e w' => ∃ m' pc, Fails F img w.log m w'.log m' pc pos e ∧ Kept m.fp K w m w' m' ∧
      Models img.constants Γ m.fp w' m' ∧ Dom w w' ∧ (w'.trap.goesOn = true → SameAct m m' ∧ Inside img lo pc)
  | .ended code w' => ∃ m', Go F img w.log m w'.log m' ∧ Finishes F img m' code ∧ Kept m.fp K w m w' m' ∧
      Models img.constants Γ m.fp w' m' ∧ Dom w w'
  | .going l => ∃ m', GoFor F img Watch.rounds w.log m l m'
  | .stuck => True

omit [Watch] in
/-- A smaller number of steps. -/
theorem Post.fewer {W W' : Watch} {α : Type} {K : Nat → Prop} {w : World} {m : Mach} {pc : Nat} {h1 : α → Mach → Prop} {x : Out α}
    (hW : W'.rounds ≤ W.rounds) (h : @Post _ W α F img _ Γ lo K w m pc h1 x) : @Post _ W' α F img _ Γ lo K w m pc h1 x := by
  cases x with
  | going l => obtain ⟨m2, h2⟩ := h; exact ⟨m2, h2.less hW⟩
  | _ => exact h

theorem Post.bind {α β : Type} {K : Nat → Prop} {w : World} {m : Mach} {pc pc' : Nat} {h1 : α → Mach → Prop}
    {h2 : β → Mach → Prop} {x : Out α} {f : α → World → Out β} (hx : Post F img Γ lo K w m pc h1 x)
    (hf : ∀ a w1 m1, m1.pc = pc → SameAct m m1 → Kept m.fp K w m w1 m1 → Models img.constants Γ m1.fp w1 m1 → Dom w w1 →
      h1 a m1 → Post F img Γ lo K w1 m1 pc' h2 (f a w1)) : Post F img Γ lo K w m pc' h2 (x.bind f) := by
  cases x with
  | stuck => trivial
  | going l => exact hx
  | err pos e w1 => exact hx
  | ended code w1 => exact hx
  | ok a w1 =>
    obtain ⟨m1, g1, p1, s1, k1, md1, d1, a1⟩ := hx
    have := hf a w1 m1 p1 s1 k1 (by rw [s1.fp]; exact md1) d1 a1
    show Post F img Γ lo K w m pc' h2 (f a w1)
    cases hy : f a w1 with
    | stuck => trivial
    | going l =>
      rw [hy] at this
      obtain ⟨m2, g2⟩ := this
      exact ⟨m2, g2.before g1⟩
    | err pos e w2 =>
      rw [hy] at this
      obtain ⟨m2, pc2, g2, k2, md2, d2, r2⟩ := this
      exact ⟨m2, pc2, g2.before g1, k1.trans (s1.fp ▸ k2), by rw [← s1.fp]; exact md2, d1.trans d2,
        fun h => ⟨s1.trans (r2 h).1, (r2 h).2⟩⟩
    | ended code w2 =>
      rw [hy] at this
      obtain ⟨m2, g2, f2, k2, md2, d2⟩ := this
      exact ⟨m2, g1.trans g2, f2, k1.trans (s1.fp ▸ k2), by rw [← s1.fp]; exact md2, d1.trans d2⟩
    | ok b w2 =>
      rw [hy] at this
      obtain ⟨m2, g2, p2, s2, k2, md2, d2, a2⟩ := this
      exact ⟨m2, g1.trans g2, p2, s1.trans s2, k1.trans (s1.fp ▸ k2), by rw [← s1.fp]; exact md2, d1.trans d2, a2⟩

theorem Post.weaken {α : Type} {K K' : Nat → Prop} {w : World} {m : Mach} {pc : Nat} {h h' : α → Mach → Prop} {x : Out α}
    (hx : Post F img Γ lo K w m pc h x) (hk : ∀ j, K' j → K j)
    (hh : ∀ a w' m', SameAct m m' → Kept m.fp K w m w' m' → h a m' → h' a m') : Post F img Γ lo K' w m pc h' x := by
  cases x with
  | stuck => trivial
  | going l => exact hx
  | err pos e w1 =>
    obtain ⟨m1, pc1, f1, k1, md1, d1, r1⟩ := hx
    exact ⟨m1, pc1, f1, k1.weaken hk, md1, d1, r1⟩
  | ended code w1 =>
    obtain ⟨m1, g1, f1, k1, md1, d1⟩ := hx
    exact ⟨m1, g1, f1, k1.weaken hk, md1, d1⟩
  | ok a w1 =>
    obtain ⟨m1, g1, p1, s1, k1, md1, d1, a1⟩ := hx
    exact ⟨m1, g1, p1, s1, k1.weaken hk, md1, d1, hh a w1 m1 s1 k1 a1⟩

/-- One more instruction first, which is not seen by the specification. -/
theorem Post.before {α : Type} {K : Nat → Prop} {w : World} {m m1 : Mach} {pc : Nat} {h : α → Mach → Prop} {x : Out α}
    (hg : Go F img w.log m w.log m1) (hs : SameAct m m1) (hk : Kept m.fp K w m w m1)
    (hx : Post F img Γ lo K w m1 pc h x) : Post F img Γ lo K w m pc h x := by
  cases x with
  | stuck => trivial
  | going l =>
    obtain ⟨m2, g1⟩ := hx
    exact ⟨m2, g1.before hg⟩
  | err pos e w1 =>
    obtain ⟨m2, pc2, f1, k1, md1, d1, r1⟩ := hx
    exact ⟨m2, pc2, f1.before hg, hk.trans (hs.fp ▸ k1), by rw [← hs.fp]; exact md1, d1,
      fun h => ⟨hs.trans (r1 h).1, (r1 h).2⟩⟩
  | ended code w1 =>
    obtain ⟨m2, g1, f1, k1, md1, d1⟩ := hx
    exact ⟨m2, hg.trans g1, f1, hk.trans (hs.fp ▸ k1), by rw [← hs.fp]; exact md1, d1⟩
  | ok a w1 =>
    obtain ⟨m2, g1, p1, s1, k1, md1, d1, a1⟩ := hx
    exact ⟨m2, hg.trans g1, p1, hs.trans s1, hk.trans (hs.fp ▸ k1), by rw [← hs.fp]; exact md1, d1, a1⟩

/-- One instruction that puts a value into a free register. -/
theorem post_set {K : Nat → Prop} {w : World} {m : Mach} {i : Instr} {r : Reg} {x : BitVec 64} {v : Val} {t : ExprType}
    (hi : img.code[m.pc]? = some i) (he : execInstr F img.constants m i = .cont (m.set r x).next)
    (hq : m.yieldPending = false) (hm : Models img.constants Γ m.fp w m) (hs : EnvSmall Γ) (hf : FreeReg w r.toNat)
    (hK : ¬ K (m.regIndex r)) (ht : v.ty = t) (hv : Holds img.constants m.heap v x) :
    Post F img Γ lo K w m (m.pc + 1) (fun v m' => v.ty = t ∧ Holds img.constants m'.heap v (m'.get r)) (.ok v w) := by
  refine ⟨(m.set r x).next, Go.one hi he hq, rfl, ⟨rfl, rfl, rfl, hq⟩, kept_set hm hs hf x hK, models_set hm hs hf x, .refl _, ht, ?_⟩
  rw [set_get]; exact hv

theorem post_fault {α : Type} {K : Nat → Prop} {w : World} {m : Mach} {i : Instr} {pos : LineCol} {e : RtErr} {pc : Nat}
    {h : α → Mach → Prop}
    (hi : img.code[m.pc]? = some i) (he : execInstr F img.constants m i = m.raise e)
    (hp : (img.instrs[m.pc]?).map (·.linecol) = some pos ∧ Inside img lo m.pc) (hq : m.yieldPending = false)
    (hm : Models img.constants Γ m.fp w m) :
    Post F img Γ lo K w m pc h (.err pos e w) :=
  ⟨m, m.pc, Fails.one hi he hp.1, .refl _ _ _ _, hm, .refl _, fun _ => ⟨.refl hq, hp.2⟩⟩

/-! ## Binary operators -/

theorem exec_num {F : FloatOps} {cs : List ConstantDatum} {m : Mach} {op : BinOp} {d l r : Reg}
    (h : op ∉ [BinOp.concat, .eqS, .neS, .ltS, .leS, .gtS, .geS]) :
    execInstr F cs m (.bin op d l r) = match binEval F op (m.get l) (m.get r) with
      | .ok v => .cont (m.set d v).next
      | .error e => m.raise e := by
  cases op <;> first | rfl | (exact absurd (by simp) h)

theorem exec_text {F : FloatOps} {cs : List ConstantDatum} {m : Mach} {op : BinOp} {d l r : Reg} {a b : Str} {c : Bool}
    (hl : m.derefString l cs = some a) (hr : m.derefString r cs = some b) (h : textEval op a b = some c) :
    execInstr F cs m (.bin op d l r) = .cont (m.set d (ofBool c)).next := by
  cases op <;> first | (simp [textEval] at h; done) | skip
  all_goals
    simp only [execInstr, doBin, hl, hr, h, Option.getD]

theorem exec_concat {F : FloatOps} {cs : List ConstantDatum} {m : Mach} {d l r : Reg} {a b : Str}
    (hl : m.derefString l cs = some a) (hr : m.derefString r cs = some b) :
    execInstr F cs m (.bin .concat d l r) = match m.heap.push (.text (a ++ b)) with
      | none => m.raise .outOfHeap
      | some (p, h) => .cont ({ m with heap := h }.set d p).next := by
  simp only [execInstr, doBin, hl, hr]
  cases m.heap.push (.text (a ++ b)) <;> rfl

omit [Labels] [Watch] in
theorem intBin_eval (F : FloatOps) (op : SrcBin) (a b : I32) (pos : LineCol) (w : World) :
    match intBin op a b pos w with
    | .ok v w' => w' = w ∧ v.ty = (if op.isRel then .boolean else .integer) ∧
        ∃ x, binEval F op.intOp (ofI32 a) (ofI32 b) = .ok x ∧ (∀ cs h, Holds cs h v x)
    | .err p e w' => w' = w ∧ p = pos ∧ binEval F op.intOp (ofI32 a) (ofI32 b) = .error e
    | .ended .. => False
    | .going _ => False
    | .stuck => True := by
  unfold intBin
  cases h1 : intArith op a.toInt b.toInt with
  | some res =>
    have := C06_instructions F op a b res h1
    cases res with
    | error e => exact ⟨rfl, rfl, this⟩
    | ok x =>
      refine ⟨rfl, ?_, _, this, fun _ _ => rfl⟩
      cases op <;> simp [intArith] at h1 <;> rfl
  | none =>
    cases h2 : intRel op a.toInt b.toInt with
    | none => trivial
    | some c =>
      refine ⟨rfl, ?_, _, C06_comparisons F op a b c h2, fun _ _ => rfl⟩
      cases op <;> simp [intRel] at h2 <;> rfl

omit [Labels] [Watch] in
theorem dblBin_eval (F : FloatOps) (op : SrcBin) (a b : BitVec 64) (w : World) :
    match dblBin F op a b w with
    | .ok v w' => w' = w ∧ v.ty = (if op.isRel then .boolean else .double) ∧
        ∃ o x, op.doubleOp = some o ∧ binEval F o a b = .ok x ∧ (∀ cs h, Holds cs h v x)
    | .err .. => False
    | .ended .. => False
    | .going _ => False
    | .stuck => True := by
  cases op <;>
    first
    | exact trivial
    | exact ⟨rfl, rfl, _, _, rfl, rfl, fun _ _ => rfl⟩

omit [Labels] [Watch] in
theorem boolOp_eval (F : FloatOps) (op : SrcBin) (a b : Bool) (c : Bool) (h : boolOp op a b = some c) :
    ∃ o, op.boolOp = some o ∧ binEval F o (ofBool a) (ofBool b) = .ok (ofBool c) ∧
      o ∉ [BinOp.concat, .eqS, .neS, .ltS, .leS, .gtS, .geS] := by
  cases op <;> simp only [boolOp, Option.some.injEq, reduceCtorEq] at h <;> subst h <;>
    refine ⟨_, rfl, ?_, by simp⟩ <;> cases a <;> cases b <;> rfl

omit [Labels] [Watch] in
theorem textRel_eval (op : SrcBin) (a b : Str) (c : Bool) (h : textRel op a b = some c) :
    ∃ o, op.textOp = some o ∧ textEval o a b = some c := by
  have h0 := C06_text_comparisons a b
  have key : ∀ {o : BinOp} {P : Prop} [Decidable P] {x : Bool}, textEval o a b = some x →
      (textEval o a b = some true ↔ P) → textEval o a b = some (decide P) := by
    intro o P _ x hx hp
    by_cases hP : P
    · rw [hp.2 hP]; simp [hP]
    · cases x with
      | true => exact absurd (hp.1 hx) hP
      | false => rw [hx]; simp [hP]
  cases op <;> simp only [textRel, Option.some.injEq, reduceCtorEq] at h <;> subst h
  · exact ⟨_, rfl, key rfl h0.1⟩
  · exact ⟨_, rfl, key rfl h0.2.1⟩
  · exact ⟨_, rfl, key rfl h0.2.2.1⟩
  · exact ⟨_, rfl, key rfl h0.2.2.2.1⟩
  · exact ⟨_, rfl, key rfl h0.2.2.2.2.1⟩
  · exact ⟨_, rfl, key rfl h0.2.2.2.2.2⟩

/-! ## The code for operators -/

section
variable (op : SrcBin) (reg rtemp : Reg) (rpos pos : LineCol) (g : Codegen)

theorem applyBin_int : applyBin op reg .integer rtemp .integer rpos pos g =
    .ok (if op.isRel then .boolean else .integer, g.push (.bin op.intOp reg reg rtemp) pos) := by
  cases op <;> rfl

theorem applyBin_dbl {o : BinOp} (h : op.doubleOp = some o) : applyBin op reg .double rtemp .double rpos pos g =
    .ok (if op.isRel then .boolean else .double, g.push (.bin o reg reg rtemp) pos) := by
  cases op <;> simp only [SrcBin.doubleOp, Option.some.injEq, reduceCtorEq] at h <;> subst h <;> rfl

theorem applyBin_dbl_int {o : BinOp} (h : op.doubleOp = some o) : applyBin op reg .double rtemp .integer rpos pos g =
    .ok (if op.isRel then .boolean else .double, (g.push (.un .itod rtemp) rpos).push (.bin o reg reg rtemp) pos) := by
  cases op <;> simp only [SrcBin.doubleOp, Option.some.injEq, reduceCtorEq] at h <;> subst h <;> rfl

theorem applyBin_int_dbl {o : BinOp} (h : op.doubleOp = some o) : applyBin op reg .integer rtemp .double rpos pos g =
    .ok (if op.isRel then .boolean else .double, (g.push (.un .itod reg) pos).push (.bin o reg reg rtemp) pos) := by
  cases op <;> simp only [SrcBin.doubleOp, Option.some.injEq, reduceCtorEq] at h <;> subst h <;> rfl

theorem applyBin_bool {o : BinOp} (h : op.boolOp = some o) : applyBin op reg .boolean rtemp .boolean rpos pos g =
    .ok (.boolean, g.push (.bin o reg reg rtemp) pos) := by
  cases op <;> simp only [SrcBin.boolOp, Option.some.injEq, reduceCtorEq] at h <;> subst h <;> rfl

theorem applyBin_text {o : BinOp} (h : op.textOp = some o) : applyBin op reg .text rtemp .text rpos pos g =
    .ok (if op.isRel then .boolean else .text, g.push (.bin o reg reg rtemp) pos) := by
  cases op <;> simp only [SrcBin.textOp, Option.some.injEq, reduceCtorEq] at h <;> subst h <;> rfl

end

/-- The code for an operator on doubles is never for strings. -/
theorem doubleOp_num {op : SrcBin} {o : BinOp} (h : op.doubleOp = some o) :
    o ∉ [BinOp.concat, .eqS, .neS, .ltS, .leS, .gtS, .geS] := by
  cases op <;> simp only [SrcBin.doubleOp, Option.some.injEq, reduceCtorEq] at h <;> subst h <;> simp

theorem intOp_num (op : SrcBin) : op.intOp ∉ [BinOp.concat, .eqS, .neS, .ltS, .leS, .gtS, .geS] := by
  cases op <;> simp [SrcBin.intOp]

theorem GOk.push {g : Codegen} (h : GOk g) {i : Instr} (hi : i.plain = true) (pos : LineCol) : GOk (g.push i pos) :=
  h.ext (gext_push (Instr.plain_refs hi).1 (fun _ => .plain hi) (Instr.plain_eof hi))

/-- Conversion of the content of a free register. -/
theorem itod_step {K : Nat → Prop} {w : World} {m : Mach} {r : Reg} {i : I32}
    (hi : img.code[m.pc]? = some (.un .itod r)) (hq : m.yieldPending = false) (hm : Models img.constants Γ m.fp w m)
    (hs : EnvSmall Γ) (hf : FreeReg w r.toNat) (hK : ¬ K (m.regIndex r)) (hx : m.get r = ofI32 i) :
    ∃ m1, m1 = (m.set r (F.ofInt i)).next ∧ Go F img w.log m w.log m1 ∧ SameAct m m1 ∧ Kept m.fp K w m w m1 ∧ Models img.constants Γ m1.fp w m1 := by
  refine ⟨_, rfl, Go.one hi ?_ hq, ⟨rfl, rfl, rfl, hq⟩, kept_set hm hs hf _ hK, models_set hm hs hf _⟩
  simp only [execInstr, unEval, hx, C06_register_roundtrip]

omit [Answers img] in
theorem push_room {w : World} {m : Mach} (hm : Models img.constants Γ m.fp w m) (s : Str) :
    (s ≠ [] → w.room = 0 → m.heap.push (.text s) = none) ∧
    (s = [] ∨ w.room ≠ 0 → ∃ p h, m.heap.push (.text s) = some (p, h) ∧
      (∀ (i : Nat) (d : HeapDatum), m.heap.data[i]? = some d → h.data[i]? = some d) ∧ h.data.length ≤ 2 ^ 24 ∧
      (if s = [] then w.room else w.room - 1) = min (2 ^ 24) h.maxEntries - h.data.length ∧
      m.heap.data.length ≤ h.data.length ∧ h.maxEntries = m.heap.maxEntries ∧
      ∀ cs, Holds cs h (.text s) p) := by
  have hr := hm.room
  have hh := hm.heap
  constructor
  · intro h1 h2
    rw [C05_push_fail]
    refine ⟨by simpa using h1, ?_⟩
    omega
  · intro h1
    by_cases he : s = []
    · subst he
      refine ⟨ptrForHeap 0, m.heap, by simp [Heap.push, Heap.emptyTextPtr], fun _ _ h => h, hh.2, by simpa using hr, Nat.le_refl _, rfl, ?_⟩
      intro cs
      show (DatumPtr.ofU64 _).bind _ = _
      rw [(C02_datumPtr 0 (by decide)).1]
      simp only [Option.bind_some, DatumPtr.resolveString, hh.1]
    · have h2 : w.room ≠ 0 := by simpa [he] using h1
      have h3 : m.heap.push (.text s) = some (ptrForHeap m.heap.data.length, { m.heap with data := m.heap.data ++ [.text s] }) := by
        unfold Heap.push
        rw [if_neg (by simpa using he), if_neg (by omega), if_neg (by omega)]
      refine ⟨_, _, h3, ?_, ?_, ?_, ?_, rfl, ?_⟩
      · intro i d hd
        rw [List.getElem?_append_left (List.getElem?_eq_some_iff.1 hd).1]; exact hd
      · simp only [List.length_append, List.length_singleton]; omega
      · simp only [List.length_append, List.length_singleton, if_neg he]; omega
      · simp
      · intro cs
        show (DatumPtr.ofU64 _).bind _ = _
        rw [(C02_datumPtr _ (by omega)).1]
        simp [DatumPtr.resolveString]

/-- The code that applies a binary operator to two registers. -/
theorem post_bin {gf : Codegen} {K : Nat → Prop} {w : World} {m : Mach} {op : SrcBin} {reg rtemp : Reg}
    {x y : Val} {rpos pos : LineCol} {g g' : Codegen} {t : ExprType}
    (hc : applyBin op reg x.ty rtemp y.ty rpos pos g = .ok (t, g')) (hg : GOk g) (hl : Linked img gf lo g')
    (hlo : lo ≤ g.code.length) (hpc : m.pc = g.code.length) (hq : m.yieldPending = false)
    (hm : Models img.constants Γ m.fp w m) (hs : EnvSmall Γ) (hf : FreeReg w reg.toNat) (hf' : FreeReg w rtemp.toNat)
    (hK : ¬ K (m.regIndex reg)) (hK' : ¬ K (m.regIndex rtemp)) (hne : m.regIndex reg ≠ m.regIndex rtemp)
    (hx : Holds img.constants m.heap x (m.get reg)) (hy : Holds img.constants m.heap y (m.get rtemp)) :
    Post F img Γ lo K w m g'.code.length (fun v m' => v.ty = t ∧ Holds img.constants m'.heap v (m'.get reg))
      (binVal F op x y pos w) := by
  -- two doubles, once they are there
  have dbl : ∀ {g g' : Codegen} {m : Mach} {a b : BitVec 64} {o : BinOp}, GOk g → Linked img gf lo g' →
      lo ≤ g.code.length → m.pc = g.code.length → m.yieldPending = false → Models img.constants Γ m.fp w m →
      ¬ K (m.regIndex reg) → op.doubleOp = some o → g' = g.push (.bin o reg reg rtemp) pos →
      t = (if op.isRel then .boolean else .double) → m.get reg = a → m.get rtemp = b →
      Post F img Γ lo K w m g'.code.length (fun v m' => v.ty = t ∧ Holds img.constants m'.heap v (m'.get reg)) (dblBin F op a b w) := by
    intro g g' m a b o hg hl hlo hpc hq hm hK ho hg' ht ha hb
    have := dblBin_eval F op a b w
    subst hg'
    obtain ⟨f1, f2⟩ := hl.fetch hg hlo
    cases hz : dblBin F op a b w with
    | stuck => trivial
    | err p e w' => rw [hz] at this; exact this.elim
    | ended c w' => rw [hz] at this; exact this.elim
    | going l => rw [hz] at this; exact this.elim
    | ok v w' =>
      rw [hz] at this
      obtain ⟨rfl, h2, o', z, h3, h4, h5⟩ := this
      rw [ho] at h3
      cases h3
      have := post_set (F := F) (lo := lo) (K := K) (t := t) (v := v) (x := z) (r := reg) (by rw [hpc]; exact f1)
        (by rw [exec_num (doubleOp_num ho), ha, hb, h4]) hq hm hs hf hK (h2.trans ht.symm) (h5 _ _)
      rw [hpc] at this
      simpa [Codegen.push] using this
  cases x with
  | int a =>
    cases y with
    | int b =>
      have h0 := applyBin_int op reg rtemp rpos pos g
      rw [show (Val.int a).ty = .integer from rfl, show (Val.int b).ty = .integer from rfl, h0] at hc
      cases hc
      obtain ⟨f1, f2⟩ := hl.fetch hg hlo
      have := intBin_eval F op a b pos w
      show Post F img Γ lo K w m _ _ (intBin op a b pos w)
      cases hz : intBin op a b pos w with
      | stuck => trivial
      | ended c w' => rw [hz] at this; exact this.elim
      | going l => rw [hz] at this; exact this.elim
      | err p e w' =>
        rw [hz] at this
        obtain ⟨rfl, rfl, h1⟩ := this
        refine post_fault (by rw [hpc]; exact f1) ?_ (by rw [hpc]; exact f2) hq hm
        rw [exec_num (intOp_num op), show m.get reg = ofI32 a from hx, show m.get rtemp = ofI32 b from hy, h1]
      | ok v w' =>
        rw [hz] at this
        obtain ⟨rfl, h2, z, h4, h5⟩ := this
        have := post_set (F := F) (lo := lo) (K := K) (v := v) (x := z) (r := reg) (by rw [hpc]; exact f1)
          (by rw [exec_num (intOp_num op), show m.get reg = ofI32 a from hx, show m.get rtemp = ofI32 b from hy, h4])
          hq hm hs hf hK h2 (h5 _ _)
        rw [hpc] at this
        simpa [Codegen.push] using this
    | dbl b =>
      show Post F img Γ lo K w m _ _ (dblBin F op (F.ofInt a) b w)
      cases ho : op.doubleOp with
      | none => cases op <;> first | trivial | simp [SrcBin.doubleOp] at ho
      | some o =>
        rw [show (Val.int a).ty = .integer from rfl, show (Val.dbl b).ty = .double from rfl,
          applyBin_int_dbl op reg rtemp rpos pos g ho] at hc
        cases hc
        have hg1 : GOk (g.push (.un .itod reg) pos) := hg.push rfl _
        have hl1 := hl.mono (gext_push rfl fun _ => .plain rfl) hg1
        obtain ⟨f1, f2⟩ := hl1.fetch hg hlo
        obtain ⟨m1, e1, g1, s1, k1, md1⟩ := itod_step (F := F) (K := K) (i := a) (by rw [hpc]; exact f1) hq hm hs hf hK hx
        have hidx : ∀ r, m1.regIndex r = m.regIndex r := by intro r; rw [e1]; rfl
        refine Post.before g1 s1 k1 (dbl hg1 hl (by simp [Codegen.push]; omega) (by rw [e1]; simp [Mach.next, Mach.set, Codegen.push, hpc]) s1.quiet md1 (by rw [hidx]; exact hK) ho rfl rfl ?_ ?_)
        · rw [e1]; exact set_get _ _ _
        · rw [e1]; exact (setAt_other hne.symm).trans hy
    | bool b => trivial
    | text b => trivial
  | dbl a =>
    cases y with
    | int b =>
      show Post F img Γ lo K w m _ _ (dblBin F op a (F.ofInt b) w)
      cases ho : op.doubleOp with
      | none => cases op <;> first | trivial | simp [SrcBin.doubleOp] at ho
      | some o =>
        rw [show (Val.int b).ty = .integer from rfl, show (Val.dbl a).ty = .double from rfl,
          applyBin_dbl_int op reg rtemp rpos pos g ho] at hc
        cases hc
        have hg1 : GOk (g.push (.un .itod rtemp) rpos) := hg.push rfl _
        have hl1 := hl.mono (gext_push rfl fun _ => .plain rfl) hg1
        obtain ⟨f1, f2⟩ := hl1.fetch hg hlo
        obtain ⟨m1, e1, g1, s1, k1, md1⟩ := itod_step (F := F) (K := K) (i := b) (by rw [hpc]; exact f1) hq hm hs hf' hK' hy
        have hidx : ∀ r, m1.regIndex r = m.regIndex r := by intro r; rw [e1]; rfl
        refine Post.before g1 s1 k1 (dbl hg1 hl (by simp [Codegen.push]; omega) (by rw [e1]; simp [Mach.next, Mach.set, Codegen.push, hpc]) s1.quiet md1 (by rw [hidx]; exact hK) ho rfl rfl ?_ ?_)
        · rw [e1]; exact (setAt_other hne).trans hx
        · rw [e1]; exact set_get _ _ _
    | dbl b =>
      show Post F img Γ lo K w m _ _ (dblBin F op a b w)
      cases ho : op.doubleOp with
      | none => cases op <;> first | trivial | simp [SrcBin.doubleOp] at ho
      | some o =>
        rw [show (Val.dbl a).ty = .double from rfl, show (Val.dbl b).ty = .double from rfl,
          applyBin_dbl op reg rtemp rpos pos g ho] at hc
        cases hc
        exact dbl hg hl hlo hpc hq hm hK ho rfl rfl hx hy
    | bool b => trivial
    | text b => trivial
  | bool a =>
    cases y with
    | bool b =>
      show Post F img Γ lo K w m _ _ (match boolOp op a b with | some c => Out.ok (Val.bool c) w | none => .stuck)
      cases hb : boolOp op a b with
      | none => trivial
      | some c =>
        obtain ⟨o, ho, he, hn⟩ := boolOp_eval F op a b c hb
        rw [show (Val.bool a).ty = .boolean from rfl, show (Val.bool b).ty = .boolean from rfl,
          applyBin_bool op reg rtemp rpos pos g ho] at hc
        cases hc
        obtain ⟨f1, f2⟩ := hl.fetch hg hlo
        have := post_set (F := F) (lo := lo) (K := K) (t := .boolean) (v := .bool c) (x := ofBool c) (r := reg) (by rw [hpc]; exact f1)
          (by rw [exec_num hn, show m.get reg = ofBool a from hx, show m.get rtemp = ofBool b from hy, he])
          hq hm hs hf hK rfl rfl
        rw [hpc] at this
        simpa [Codegen.push] using this
    | int b => trivial
    | dbl b => trivial
    | text b => trivial
  | text a =>
    cases y with
    | bool b => trivial
    | int b => trivial
    | dbl b => trivial
    | text b =>
      have hda : m.derefString reg img.constants = some a := hx
      have hdb : m.derefString rtemp img.constants = some b := hy
      rw [show (Val.text a).ty = .text from rfl, show (Val.text b).ty = .text from rfl] at hc
      by_cases hop : op = .add
      · subst hop
        rw [applyBin_text .add reg rtemp rpos pos g rfl] at hc
        cases hc
        obtain ⟨f1, f2⟩ := hl.fetch hg hlo
        show Post F img Γ lo K w m _ _ (newText (a ++ b) pos w)
        have hp := push_room hm (a ++ b)
        have hex := exec_concat (F := F) (d := reg) hda hdb
        unfold newText
        by_cases h0 : a ++ b ≠ [] ∧ w.room = 0
        · rw [if_neg h0.1, if_pos h0.2]
          refine post_fault (by rw [hpc]; exact f1) ?_ (by rw [hpc]; exact f2) hq hm
          rw [hex, hp.1 h0.1 h0.2]
        · obtain ⟨p, h, h1, h2, h3, h4, h5, h6, h7⟩ := hp.2 (by tauto)
          rw [h1] at hex
          have hidx : ({ m with heap := h } : Mach).regIndex reg = m.regIndex reg := rfl
          have key : ∀ w' : World, w'.mem = w.mem → w'.room = (if a ++ b = [] then w.room else w.room - 1) →
              w'.trap = w.trap → w'.log = w.log →
              Post F img Γ lo K w m ((g.push (.bin .concat reg reg rtemp) pos).code.length)
                (fun v m' => v.ty = .text ∧ Holds img.constants m'.heap v (m'.get reg)) (.ok (.text (a ++ b)) w') := by
            intro w' hw1 hw2 hw3 hw4
            refine ⟨({ m with heap := h }.set reg p).next, hw4 ▸ Go.one (by rw [hpc]; exact f1) hex hq, ?_, ⟨rfl, rfl, rfl, hq⟩, ?_, ?_, ?_, rfl, ?_⟩
            · simp [Mach.next, Mach.set, Codegen.push, hpc]
            · refine ⟨fun j hj => setAt_other (fun e => hK (by rw [← hidx, ← e]; exact hj)), fun i s => h2 i _, fun i a' h _ => h2 _ _ h, ?_, h5, h6⟩
              rintro i _ ⟨n, t, d, f, h8, h9⟩
              rw [hw1] at h8
              refine ⟨n, t, d, f, h8, ?_⟩
              have := hm.index_ne hs hf h8
              rw [show (({ m with heap := h } : Mach).set reg p).next.regs (n.index m.fp) = m.regs (n.index m.fp) from setAt_other this] at h9
              exact h9
            · refine hm.write hw1 h2 h3 (by rw [hw2]; exact h4) ?_ (by rw [hw3]; exact hm.trap)
              intro q c hq'
              exact setAt_other (hm.index_ne hs hf hq')
            · intro q hq'; rw [hw1]; exact hq'
            · rw [set_get]; exact h7 _
          by_cases he : a ++ b = []
          · rw [if_pos he]
            exact key w rfl (by simp [he]) rfl rfl
          · have hr : ¬ w.room = 0 := by tauto
            rw [if_neg he, if_neg hr]
            exact key { w with room := w.room - 1 } rfl (by simp only [if_neg he]) rfl rfl
      · cases hb : textRel op a b with
        | none =>
          have : binVal F op (.text a) (.text b) pos w = .stuck := by
            show textBin op a b pos w = .stuck
            unfold textBin
            rw [hb]
            cases op <;> first | rfl | exact absurd rfl hop
          rw [this]; trivial
        | some c =>
          have : binVal F op (.text a) (.text b) pos w = .ok (.bool c) w := by
            show textBin op a b pos w = _
            unfold textBin
            rw [hb]
            cases op <;> first | rfl | exact absurd rfl hop
          rw [this]
          obtain ⟨o, ho, he⟩ := textRel_eval op a b c hb
          rw [applyBin_text op reg rtemp rpos pos g ho] at hc
          cases hc
          obtain ⟨f1, f2⟩ := hl.fetch hg hlo
          have := post_set (F := F) (lo := lo) (K := K) (v := .bool c) (x := ofBool c) (r := reg)
            (t := if op.isRel then .boolean else .text) (by rw [hpc]; exact f1)
            (exec_text hda hdb he) hq hm hs hf hK (by cases op <;> first | rfl | simp [textRel] at hb) rfl
          rw [hpc] at this
          simpa [Codegen.push] using this

end
end EB
