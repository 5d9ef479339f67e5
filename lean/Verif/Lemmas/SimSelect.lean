import Verif.Lemmas.SimData
/-!
# The code of `SELECT`
-/

namespace EB
open Spec

variable [Labels] [Watch] [Nest]

section
variable {F : FloatOps} {img : Image} [Answers img] {Γ : Env}

section
variable (pos : LineCol) (test rhs dest : Reg) (op : CaseRelOp) (g : Codegen)

theorem caseRelop_same {t : ExprType} {o : BinOp} (h : op.instr t = some o) :
    compileCaseRelop pos test t rhs t op dest g = .ok ((), g.push (.bin o dest test rhs) pos) := by
  cases t <;> cases op <;> simp only [CaseRelOp.instr, Option.some.injEq, reduceCtorEq] at h <;> subst h <;> rfl

theorem caseRelop_dbl_int {o : BinOp} (h : op.instr .double = some o) :
    compileCaseRelop pos test .double rhs .integer op dest g =
      .ok ((), (g.push (.un .itod rhs) pos).push (.bin o dest test rhs) pos) := by
  cases op <;> simp only [CaseRelOp.instr, Option.some.injEq] at h <;> subst h <;> rfl

theorem caseRelop_int_dbl {o : BinOp} (h : op.instr .double = some o) :
    compileCaseRelop pos test .integer rhs .double op dest g =
      .ok ((), (g.push (.un .itod test) pos).push (.bin o dest test rhs) pos) := by
  cases op <;> simp only [CaseRelOp.instr, Option.some.injEq] at h <;> subst h <;> rfl

end

theorem case_int (F : FloatOps) (op : CaseRelOp) (a b : I32) (pos : LineCol) (w : World) :
    ∃ o c, op.instr .integer = some o ∧ intBin (caseOp op) a b pos w = .ok (.bool c) w ∧
      binEval F o (ofI32 a) (ofI32 b) = .ok (ofBool c) ∧ o ∉ [BinOp.concat, .eqS, .neS, .ltS, .leS, .gtS, .geS] := by
  have := intBin_eval F (caseOp op) a b pos w
  cases op <;> refine ⟨_, _, rfl, rfl, ?_, by simp⟩ <;> obtain ⟨_, _, x, h1, h2⟩ := this <;>
    exact h1.trans (congrArg Except.ok (h2 [] ⟨[], 0⟩))

theorem case_dbl (F : FloatOps) (op : CaseRelOp) (a b : BitVec 64) (w : World) :
    ∃ o c, op.instr .double = some o ∧ dblBin F (caseOp op) a b w = .ok (.bool c) w ∧
      binEval F o a b = .ok (ofBool c) ∧ o ∉ [BinOp.concat, .eqS, .neS, .ltS, .leS, .gtS, .geS] := by
  cases op <;> exact ⟨_, _, rfl, rfl, rfl, by simp⟩

theorem case_text (op : CaseRelOp) (a b : Str) (pos : LineCol) (w : World) :
    ∃ o c, op.instr .text = some o ∧ textBin (caseOp op) a b pos w = .ok (.bool c) w ∧ textEval o a b = some c := by
  have key : ∀ c, textRel (caseOp op) a b = some c → ∃ o, op.instr .text = some o ∧ textEval o a b = some c := by
    intro c h
    obtain ⟨o, h1, h2⟩ := textRel_eval _ a b c h
    refine ⟨o, ?_, h2⟩
    rw [← h1]
    cases op <;> rfl
  cases op <;> (obtain ⟨o, h1, h2⟩ := key _ rfl; exact ⟨o, _, h1, rfl, h2⟩)

/-- The comparison of a `CASE`: both operands and the result are in registers of their own. -/
theorem post_case {gf : Codegen} {lo : Nat} {K : Nat → Prop} {w : World} {m : Mach} {op : CaseRelOp} {test rhs dest : Reg}
    {x y : Val} {pos : LineCol} {g g' : Codegen} {u : Unit}
    (hc : compileCaseRelop pos test x.ty rhs y.ty op dest g = .ok (u, g')) (hg : GOk g) (hl : Linked img gf lo g')
    (hlo : lo ≤ g.code.length) (hpc : m.pc = g.code.length) (hq : m.yieldPending = false)
    (hm : Models img.constants Γ m.fp w m) (hs : EnvSmall Γ) (hft : FreeReg w test.toNat) (hfr : FreeReg w rhs.toNat)
    (hfd : FreeReg w dest.toNat)
    (hKt : ¬ K (m.regIndex test)) (hKr : ¬ K (m.regIndex rhs)) (hKd : ¬ K (m.regIndex dest)) (hne : m.regIndex test ≠ m.regIndex rhs)
    (hx : Holds img.constants m.heap x (m.get test)) (hy : Holds img.constants m.heap y (m.get rhs)) :
    Post F img Γ lo K w m g'.code.length (IsBool dest) (binVal F (caseOp op) x y pos w) := by
  have fin : ∀ {g : Codegen} {m : Mach} {o : BinOp} {c : Bool}, GOk g → Linked img gf lo (g.push (.bin o dest test rhs) pos) →
      lo ≤ g.code.length → m.pc = g.code.length → m.yieldPending = false → Models img.constants Γ m.fp w m →
      ¬ K (m.regIndex dest) → execInstr F img.constants m (.bin o dest test rhs) = .cont (m.set dest (ofBool c)).next →
      Post F img Γ lo K w m (g.push (.bin o dest test rhs) pos).code.length (IsBool dest) (.ok (.bool c) w) := by
    intro g m o c hg hl hlo hpc hq hm hK hex
    obtain ⟨f1, f2⟩ := hl.fetch hg hlo
    have := post_set (F := F) (lo := lo) (K := K) (v := .bool c) (x := ofBool c) (r := dest) (by rw [hpc]; exact f1) hex hq hm hs hfd hK rfl rfl
    rw [hpc] at this
    have h2 := this.weaken (h' := IsBool dest) (fun _ h => h) fun v w' m' _ _ hv => ?_
    · simpa [Codegen.push] using h2
    · obtain ⟨hv1, hv2⟩ := hv
      cases v with
      | bool b => exact ⟨b, rfl, hv2⟩
      | _ => simp [Val.ty] at hv1
  have dbl : ∀ {g : Codegen} {m : Mach} {a b : BitVec 64} {o : BinOp}, op.instr .double = some o → GOk g →
      Linked img gf lo (g.push (.bin o dest test rhs) pos) → lo ≤ g.code.length → m.pc = g.code.length → m.yieldPending = false →
      Models img.constants Γ m.fp w m → ¬ K (m.regIndex dest) → m.get test = a → m.get rhs = b →
      Post F img Γ lo K w m (g.push (.bin o dest test rhs) pos).code.length (IsBool dest) (dblBin F (caseOp op) a b w) := by
    intro g m a b o ho hg hl hlo hpc hq hm hK ha hb
    obtain ⟨o', c, h1, h2, h3, h4⟩ := case_dbl F op a b w
    rw [ho] at h1
    cases h1
    rw [h2]
    exact fin hg hl hlo hpc hq hm hK (by rw [exec_num h4, ha, hb, h3])
  cases x with
  | int a =>
    cases y with
    | int b =>
      obtain ⟨o, c, h1, h2, h3, h4⟩ := case_int F op a b pos w
      rw [show (Val.int a).ty = .integer from rfl, show (Val.int b).ty = .integer from rfl, caseRelop_same _ _ _ _ _ _ h1] at hc
      cases hc
      show Post F img Γ lo K w m _ _ (intBin (caseOp op) a b pos w)
      rw [h2]
      exact fin hg hl hlo hpc hq hm hKd (by rw [exec_num h4, show m.get test = ofI32 a from hx, show m.get rhs = ofI32 b from hy, h3])
    | dbl b =>
      obtain ⟨o, _, h1, _⟩ := case_dbl F op (F.ofInt a) b w
      rw [show (Val.int a).ty = .integer from rfl, show (Val.dbl b).ty = .double from rfl, caseRelop_int_dbl _ _ _ _ _ _ h1] at hc
      cases hc
      have hg1 : GOk (g.push (.un .itod test) pos) := hg.push rfl _
      have hl1 := hl.mono (gext_push rfl fun _ => .plain rfl) hg1
      obtain ⟨f1, f2⟩ := hl1.fetch hg hlo
      obtain ⟨m1, e1, g1, s1, k1, md1⟩ := itod_step (F := F) (K := K) (i := a) (by rw [hpc]; exact f1) hq hm hs hft hKt hx
      have hidx : ∀ r, m1.regIndex r = m.regIndex r := by intro r; rw [e1]; rfl
      refine Post.before g1 s1 k1 (dbl h1 hg1 hl (by simp [Codegen.push]; omega) (by rw [e1]; simp [Mach.next, Mach.set, Codegen.push, hpc]) s1.quiet md1 (by rw [hidx]; exact hKd) ?_ ?_)
      · rw [e1]; exact set_get _ _ _
      · rw [e1]; exact (setAt_other hne.symm).trans hy
    | bool b => trivial
    | text b => trivial
  | dbl a =>
    cases y with
    | int b =>
      obtain ⟨o, _, h1, _⟩ := case_dbl F op a (F.ofInt b) w
      rw [show (Val.int b).ty = .integer from rfl, show (Val.dbl a).ty = .double from rfl, caseRelop_dbl_int _ _ _ _ _ _ h1] at hc
      cases hc
      have hg1 : GOk (g.push (.un .itod rhs) pos) := hg.push rfl _
      have hl1 := hl.mono (gext_push rfl fun _ => .plain rfl) hg1
      obtain ⟨f1, f2⟩ := hl1.fetch hg hlo
      obtain ⟨m1, e1, g1, s1, k1, md1⟩ := itod_step (F := F) (K := K) (i := b) (by rw [hpc]; exact f1) hq hm hs hfr hKr hy
      have hidx : ∀ r, m1.regIndex r = m.regIndex r := by intro r; rw [e1]; rfl
      refine Post.before g1 s1 k1 (dbl h1 hg1 hl (by simp [Codegen.push]; omega) (by rw [e1]; simp [Mach.next, Mach.set, Codegen.push, hpc]) s1.quiet md1 (by rw [hidx]; exact hKd) ?_ ?_)
      · rw [e1]; exact (setAt_other hne).trans hx
      · rw [e1]; exact set_get _ _ _
    | dbl b =>
      obtain ⟨o, _, h1, _⟩ := case_dbl F op a b w
      rw [show (Val.dbl b).ty = .double from rfl, show (Val.dbl a).ty = .double from rfl, caseRelop_same _ _ _ _ _ _ h1] at hc
      cases hc
      exact dbl h1 hg hl hlo hpc hq hm hKd hx hy
    | bool b => trivial
    | text b => trivial
  | bool a =>
    cases y with
    | bool b =>
      show Post F img Γ lo K w m _ _ (match boolOp (caseOp op) a b with | some c => Out.ok (Val.bool c) w | none => Out.stuck)
      cases hb : boolOp (caseOp op) a b with
      | none => trivial
      | some c =>
        obtain ⟨o, h1, h2, h3⟩ := boolOp_eval F _ a b c hb
        have h1' : op.instr .boolean = some o := by rw [← h1]; cases op <;> rfl
        rw [show (Val.bool a).ty = .boolean from rfl, show (Val.bool b).ty = .boolean from rfl, caseRelop_same _ _ _ _ _ _ h1'] at hc
        cases hc
        exact fin hg hl hlo hpc hq hm hKd (by rw [exec_num h3, show m.get test = ofBool a from hx, show m.get rhs = ofBool b from hy, h2])
    | _ => trivial
  | text a =>
    cases y with
    | text b =>
      obtain ⟨o, c, h1, h2, h3⟩ := case_text op a b pos w
      rw [show (Val.text a).ty = .text from rfl, show (Val.text b).ty = .text from rfl, caseRelop_same _ _ _ _ _ _ h1] at hc
      cases hc
      show Post F img Γ lo K w m _ _ (textBin (caseOp op) a b pos w)
      rw [h2]
      exact fin hg hl hlo hpc hq hm hKd (exec_text hx hy h3)
    | _ => trivial

end

theorem Spec.Out.bind_then {α β : Type} (x : Out α) (f : α → World → Out β) (k : β → World → Res) :
    (x.bind f).then k = x.then fun a w => (f a w).then k := by cases x <;> rfl

section
variable {F : FloatOps} {L : Link} [Answers L.img] {S : Decls} {cl : Calls} {d : Nat} (hS : Shares L S) (hcl : CallsOk F L S cl d)
include hS hcl

/-- One comparison of a guard, with the registers `i`, `i + 1` and `i + 2`. -/
theorem sim_case {sy : Syms} {Γ : Env} (hs : Scope sy Γ) (hw : L.Within sy) {lo : Nat} {e : Expr} {i nt : Nat} {test lhs rhs cond : Reg}
    {op : CaseRelOp} {pos : LineCol} {g g2 g3 : Codegen} {t : ExprType} {u : Unit} {x : Val} {w : World} {m : Mach}
    (ht : test.toNat = 64 + sy.nlocals) (hi : 1 ≤ i) (hl1 : lhs.toNat = 64 + sy.nlocals + i) (hl2 : rhs.toNat = 64 + sy.nlocals + (i + 1))
    (hl3 : cond.toNat = 64 + sy.nlocals + (i + 2)) (hnt : i + 3 ≤ nt)
    (hc2 : compileExpr sy e nt rhs (g.push (.move lhs test) pos) = .ok (t, g2))
    (hc3 : compileCaseRelop pos lhs x.ty rhs t op cond g2 = .ok (u, g3))
    (st : Start L.img (wide S Γ) d lo g w m) (hl : Linked L.img L.gf lo g3) (hx : Holds L.img.constants m.heap x (m.get test)) :
    Post F L.img (wide S Γ) lo (fun j => 64 ≤ j ∧ j < m.fp + sy.nlocals + i) w m g3.code.length (IsBool cond)
      ((eval F cl Γ e w).bind fun y w => binVal F (caseOp op) x y pos w) := by
  have hwd := wide_wider hS hs hw
  obtain ⟨t1, t2, t3⟩ := temp_low hS hs hw st.models hl1
  have hg1 : GOk (g.push (.move lhs test) pos) := st.ok.push rfl _
  have e2 := GStep.compileExpr _ _ _ _ _ _ _ hg1.lens hc2
  have hg2 := hg1.ext e2
  have e3 := GStep.compileCaseRelop _ _ _ _ _ _ _ _ _ _ hg2.lens hc3
  have hL2 := hl.mono e3 hg2
  have hL1 := hL2.mono e2 hg1
  obtain ⟨f1, f2⟩ := hL1.fetch st.ok st.lo
  obtain ⟨m1, e1⟩ : ∃ m1, m1 = (m.set lhs (m.get test)).next := ⟨_, rfl⟩
  have s1 : SameAct m m1 := by rw [e1]; exact ⟨rfl, rfl, rfl, st.quiet⟩
  have k1 : Kept m.fp (fun j => 64 ≤ j ∧ j < m.fp + sy.nlocals + i) w m w m1 := by
    rw [e1]; exact kept_set st.models hwd.small t1 _ (by rw [t2]; omega)
  have md1 : Models L.img.constants (wide S Γ) m1.fp w m1 := by
    rw [e1]; exact models_set st.models hwd.small t1 _
  have pc1 : m1.pc = (g.push (.move lhs test) pos).code.length := by rw [e1]; simp [Mach.next, Mach.set, Codegen.push, st.pc]
  have hx1 : Holds L.img.constants m1.heap x (m1.get lhs) := by rw [e1]; exact (set_get m lhs _) ▸ hx
  have go1 : Go F L.img w.log m w.log m1 := by
    rw [e1]; exact Go.one (by rw [st.pc]; exact f1) rfl st.quiet
  refine Post.before go1 s1 k1 ?_
  have hfp := s1.fp
  have st1 : Start L.img (wide S Γ) d lo (g.push (.move lhs test) pos) w m1 :=
    st.next (gext_push rfl fun _ => .plain rfl) pc1 s1 md1
  obtain ⟨r1, r2, _⟩ := temp_low hS hs hw md1 hl2
  obtain ⟨q1, q2, _⟩ := temp_low hS hs hw md1 hl1
  have hev := (sim_at hs.syms hwd (hcl.fn hs hw) (cf := False) e (kb := sy.nlocals + (i + 2)) hc2 st1 hL2 r1 (by omega) (by omega) (by omega) (by simp)
    (by omega) (fun _ => by omega)).weaken (K' := fun j => 64 ≤ j ∧ j < m.fp + sy.nlocals + i)
    (h' := fun v m' => (v.ty = t ∧ Holds L.img.constants m'.heap v (m'.get rhs)) ∧ Holds L.img.constants m'.heap x (m'.get lhs))
    (fun j hj => ⟨.inl hj.1, by have := hj.2; omega, by have := hj.2; omega⟩)
    (fun a w' m' s' k' h' => ⟨h', Holds.kept k' hx1 (get_kept k' s' ⟨.inl (by omega), by omega, by omega⟩)⟩)
  refine hev.bind ?_
  rintro y w2 m2 p2 s2 k2 md2 d2 ⟨⟨rfl, hy⟩, hx2⟩
  have st2 := st1.next e2 p2 s2 md2
  obtain ⟨a1, a2, _⟩ := temp_low hS hs hw md2 hl1
  obtain ⟨b1, b2, _⟩ := temp_low hS hs hw md2 hl2
  obtain ⟨c1, c2, _⟩ := temp_low hS hs hw md2 hl3
  have hfp2 := s2.fp
  exact post_case hc3 st2.ok hl st2.lo st2.pc st2.quiet md2 hwd.small a1 b1 c1 (by omega) (by omega) (by omega) (by omega) hx2 hy

/-- The code of a guard of a `CASE`. -/
theorem sim_guard {sy : Syms} {Γ : Env} (hs : Scope sy Γ) {cg : CaseGuard} {a k : Nat} {r test : Reg} {pos : LineCol} {x : Val} {w : World} {m : Mach}
    (ht : test.toNat = 64 + sy.nlocals)
    (hp : Piece L sy (compileGuard sy 1 test x.ty cg) a k (r, pos)) (ha : At L.img (wide S Γ) d w m a)
    (hx : Holds L.img.constants m.heap x (m.get test)) :
    Post F L.img (wide S Γ) a (fun j => 64 ≤ j ∧ j < m.fp + sy.nlocals + 1) w m k
      (fun v m' => IsBool r v m' ∧ Holds L.img.constants m'.heap x (m'.get test)) (guardHolds F cl Γ x cg w) := by
  obtain ⟨g, g', hc, hg, hla, hlk, hl, hw⟩ := hp
  have hwd := wide_wider hS hs hw
  have st : Start L.img (wide S Γ) d a g w m := ⟨hg, by omega, by rw [ha.pc, hla], ha.quiet, ha.models, ha.depth, ha.low⟩
  have hti : ∀ m' : Mach, m'.regIndex test = m'.fp + sy.nlocals := by
    intro m'; rw [regIndex_local (by omega)]; omega
  have hb := ha.models.base
  suffices h : Post F L.img (wide S Γ) a (fun j => 64 ≤ j ∧ j < m.fp + sy.nlocals + 1) w m k (IsBool r) (guardHolds F cl Γ x cg w) by
    refine h.weaken (fun _ h => h) fun v w' m' s' k' h' => ⟨h', Holds.kept k' hx (get_kept k' s' ?_)⟩
    rw [hti]; omega
  cases cg with
  | is op e =>
    simp only [compileGuard] at hc
    obtain ⟨lhs, _, h1, hc⟩ := CM.bind_ok.1 hc
    obtain ⟨_, hl1, h1⟩ := CM.lift_ok.1 h1
    cases h1
    obtain ⟨rhs, _, h1, hc⟩ := CM.bind_ok.1 hc
    obtain ⟨_, hl2, h1⟩ := CM.lift_ok.1 h1
    cases h1
    obtain ⟨cond, _, h1, hc⟩ := CM.bind_ok.1 hc
    obtain ⟨_, hl3, h1⟩ := CM.lift_ok.1 h1
    cases h1
    obtain ⟨_, g1, h1, hc⟩ := CM.bind_ok.1 hc
    cases h1
    obtain ⟨t, g2, h2, hc⟩ := CM.bind_ok.1 hc
    obtain ⟨_, g3, h3, hc⟩ := CM.bind_ok.1 hc
    cases hc
    have := sim_case hS hcl hs hw (i := 1) ht (Nat.le_refl _) (temp_reg hl1) (temp_reg hl2) (temp_reg hl3) (Nat.le_refl _) h2 h3 st hl hx
    rw [← hlk]
    exact this
  | «to» lo hi =>
    simp only [compileGuard] at hc
    obtain ⟨lhsFrom, _, h1, hc⟩ := CM.bind_ok.1 hc
    obtain ⟨_, hl1, h1⟩ := CM.lift_ok.1 h1
    cases h1
    obtain ⟨rhsFrom, _, h1, hc⟩ := CM.bind_ok.1 hc
    obtain ⟨_, hl2, h1⟩ := CM.lift_ok.1 h1
    cases h1
    obtain ⟨condFrom, _, h1, hc⟩ := CM.bind_ok.1 hc
    obtain ⟨_, hl3, h1⟩ := CM.lift_ok.1 h1
    cases h1
    obtain ⟨lhsTo, _, h1, hc⟩ := CM.bind_ok.1 hc
    obtain ⟨_, hl4, h1⟩ := CM.lift_ok.1 h1
    cases h1
    obtain ⟨rhsTo, _, h1, hc⟩ := CM.bind_ok.1 hc
    obtain ⟨_, hl5, h1⟩ := CM.lift_ok.1 h1
    cases h1
    obtain ⟨condTo, _, h1, hc⟩ := CM.bind_ok.1 hc
    obtain ⟨_, hl6, h1⟩ := CM.lift_ok.1 h1
    cases h1
    obtain ⟨cond, _, h1, hc⟩ := CM.bind_ok.1 hc
    obtain ⟨_, hl7, h1⟩ := CM.lift_ok.1 h1
    cases h1
    obtain ⟨_, g1, h1, hc⟩ := CM.bind_ok.1 hc
    cases h1
    obtain ⟨t, g2, h2, hc⟩ := CM.bind_ok.1 hc
    obtain ⟨_, g3, h3, hc⟩ := CM.bind_ok.1 hc
    obtain ⟨_, g4, h4, hc⟩ := CM.bind_ok.1 hc
    cases h4
    obtain ⟨t', g5, h5, hc⟩ := CM.bind_ok.1 hc
    obtain ⟨_, g6, h6, hc⟩ := CM.bind_ok.1 hc
    obtain ⟨_, g7, h7, hc⟩ := CM.bind_ok.1 hc
    cases h7
    cases hc
    have r1 := temp_reg hl1
    have r2 := temp_reg hl2
    have r3 := temp_reg hl3
    have r4 := temp_reg hl4
    have r5 := temp_reg hl5
    have r6 := temp_reg hl6
    have r7 := temp_reg hl7
    have hg1 : GOk (g.push (.move lhsFrom test) lo.startPos) := hg.push rfl _
    have e2 := GStep.compileExpr _ _ _ _ _ _ _ hg1.lens h2
    have hg2 := hg1.ext e2
    have e3 := GStep.compileCaseRelop _ _ _ _ _ _ _ _ _ _ hg2.lens h3
    have hg3 := hg2.ext e3
    have hg4 : GOk (g3.push (.move lhsTo test) lo.startPos) := hg3.push rfl _
    have e5 := GStep.compileExpr _ _ _ _ _ _ _ hg4.lens h5
    have hg5 := hg4.ext e5
    have e6 := GStep.compileCaseRelop _ _ _ _ _ _ _ _ _ _ hg5.lens h6
    have hg6 := hg5.ext e6
    have hL6 := hl.mono (gext_push rfl fun _ => .plain rfl) hg6
    have e03 : GExt g g3 := (gext_push rfl fun _ => .plain rfl).trans (e2.trans e3)
    have e36 : GExt g3 g6 := (gext_push rfl fun _ => .plain rfl).trans (e5.trans e6)
    have hL3 := hL6.mono e36 hg3
    have hbind : guardHolds F cl Γ x (.to lo hi) w = ((eval F cl Γ lo w).bind fun y w => binVal F (caseOp .ge) x y lo.startPos w).bind
        fun a w => ((eval F cl Γ hi w).bind fun z w => binVal F (caseOp .le) x z lo.startPos w).bind fun b w =>
          match a, b with
          | .bool a, .bool b => .ok (.bool (a && b)) w
          | _, _ => .stuck := by
      simp only [guardHolds, Out.bind_assoc, caseOp]
      rfl
    rw [hbind]
    have hfrom := sim_case hS hcl hs hw (i := 1) ht (Nat.le_refl _) r1 r2 r3 (by omega) h2 h3 st hL3 hx
    refine hfrom.bind ?_
    rintro v1 w1 m1 p1 s1 k1 md1 d1 ⟨c1, rfl, hc1⟩
    have st1 := st.next e03 p1 s1 md1
    have hx1 : Holds L.img.constants m1.heap x (m1.get test) := Holds.kept k1 hx (get_kept k1 s1 (by rw [hti]; omega))
    have hfp := s1.fp
    have hto := (sim_case hS hcl hs hw (i := 4) ht (by omega) r4 r5 r6 (by omega) h5 h6 st1 hL6 hx1).weaken
      (K' := fun j => 64 ≤ j ∧ j < m.fp + sy.nlocals + 1)
      (h' := fun v m' => IsBool condTo v m' ∧ m'.get condFrom = ofBool c1)
      (fun j hj => ⟨hj.1, by have := hj.2; omega⟩) (fun v w' m' s' k' h' => ⟨h', by
        rw [get_kept k' s' ?_, hc1]
        obtain ⟨_, b2, b3⟩ := temp_low hS hs hw md1 r3
        rw [b2]; omega⟩)
    refine hto.bind ?_
    rintro v2 w2 m2 p2 s2 k2 md2 d2 ⟨⟨c2, rfl, hc2⟩, hc1'⟩
    have st2 := st1.next e36 p2 s2 md2
    obtain ⟨f1, f2⟩ := hl.fetch hg6 st2.lo
    obtain ⟨t1, t2, t3⟩ := temp_low hS hs hw md2 r7
    have hfp2 := s2.fp
    have := post_set (F := F) (lo := a) (K := fun j => 64 ≤ j ∧ j < m.fp + sy.nlocals + 1) (v := .bool (c1 && c2)) (x := ofBool (c1 && c2)) (r := r)
      (by rw [p2]; exact f1) (by
        rw [exec_num (by simp), hc1', hc2, show binEval F .bitAnd (ofBool c1) (ofBool c2) = .ok (ofBool (c1 && c2)) by cases c1 <;> cases c2 <;> rfl])
      s2.quiet md2 hwd.small t1 (by rw [t2]; omega) rfl rfl
    rw [p2] at this
    have h8 := this.weaken (h' := IsBool r) (fun _ h => h) fun v w' m' _ _ hv => ?_
    · rw [← hlk]
      simpa [Codegen.push] using h8
    · obtain ⟨hv1, hv2⟩ := hv
      cases v with
      | bool b => exact ⟨b, rfl, hv2⟩
      | _ => simp [Val.ty] at hv1

variable {Δ' : Env} {T : Targets} {I : Nat → Prop} (hI : ∀ pc, I pc)
include hI

/-- The guards of a `CASE` go to its body or to what follows. -/
theorem sim_guards {sy : Syms} {Γ : Env} (hs : Scope sy Γ) {gs : List CaseGuard} {a b body e : Nat} {test : Reg} {x : Val}
    (ht : test.toNat = 64 + sy.nlocals) (hgc : GuardCode L sy test x.ty body a gs b) :
    ∀ {w : World} {m : Mach} {f : Bool → World → Res}, At L.img (wide S Γ) d w m a → Holds L.img.constants m.heap x (m.get test) →
      Fewer (wide S Γ) Δ' →
      (∀ c w1 m1, Passes F L.img w m w1 m1 → At L.img (wide S Γ) d w1 m1 (if c then body else b) →
        Holds L.img.constants m1.heap x (m1.get test) → SPost F L.img Δ' T I w1 m1 e (f c w1)) →
      SPost F L.img Δ' T I w m e ((anyHolds F cl Γ x gs w).then f) := by
  induction hgc with
  | nil =>
    intro w m f ha hx hd hf
    exact hf false w m (.refl ha.quiet) ha hx
  | @cons a k b cg gs r pos hp hsk hj hrest ih =>
    intro w m f ha hx hd hf
    simp only [anyHolds, Out.bind_then]
    refine (sim_guard hS hcl hs ht hp ha hx).then (fun pc _ => hI pc) (fun j hj => ⟨hj.1, by have := hj.2; omega⟩) (fun p q _ => hd p q) ?_
    rintro v w1 m1 p1 pc1 md1 d1 ⟨⟨c, rfl, hr⟩, hx1⟩ k1
    have a1 := p1.at ha pc1 md1
    obtain ⟨m2, p2, a2, hregs, hheap, _⟩ := skip_passes (F := F) hsk a1 hr
    have hx2 : Holds L.img.constants m2.heap x (m2.get test) := by
      rw [hheap]
      have : m2.get test = m1.get test := by unfold Mach.get; rw [regIndex_act p2.act, hregs]
      rw [this]; exact hx1
    cases c with
    | true =>
      obtain ⟨m3, p3, a3, hregs3, hheap3, _⟩ := jump_full (F := F) hj a2
      have hx3 : Holds L.img.constants m3.heap x (m3.get test) := by
        rw [hheap3]
        have : m3.get test = m2.get test := by unfold Mach.get; rw [regIndex_act p3.act, hregs3]
        rw [this]; exact hx2
      exact ((hf true w1 m3 ((p1.trans p2).trans p3) a3 hx3).after p3).after p2
    | false =>
      exact (ih a2 hx2 hd fun c w3 m3 p3 a3 hx3 => hf c w3 m3 ((p1.trans p2).trans p3) a3 hx3).after p2

/-- Where the body of the chosen case is. -/
def Chosen (ts : List Nat) (d : Nat) (t : Nat) : Option Nat → Prop
  | none => t = d
  | some k => ts[k]? = some t

/-- The dispatch of a `SELECT` goes to the body of the first case that matches, or to the end. -/
theorem sim_dispatch {sy : Syms} {Γ : Env} (hs : Scope sy Γ) {cs : Cases} {ts : List Nat} {a b e : Nat} {test : Reg} {x : Val} {tt : ExprType}
    (ht : test.toNat = 64 + sy.nlocals) (htt : x.ty = tt) (hdc : DispatchCode L sy test tt a cs ts b) :
    ∀ {w : World} {m : Mach} {f : Option Nat → World → Res}, At L.img (wide S Γ) d w m a → Holds L.img.constants m.heap x (m.get test) →
      Fewer (wide S Γ) Δ' →
      (∀ k w1 m1 t, Passes F L.img w m w1 m1 → Chosen ts b t k → At L.img (wide S Γ) d w1 m1 t → SPost F L.img Δ' T I w1 m1 e (f k w1)) →
      SPost F L.img Δ' T I w m e ((choose F cl Γ x cs w).then f) := by
  induction hdc with
  | nil =>
    intro w m f ha hx hd hf
    exact hf none w m _ (.refl ha.quiet) rfl ha
  | @other a b t ts body rest hj hrest ih =>
    intro w m f ha hx hd hf
    obtain ⟨m1, p1, a1⟩ := jump_passes (F := F) hj ha
    exact (hf (some 0) w m1 t p1 rfl a1).after p1
  | @cons a k b t ts g gs body rest hgc hj hrest ih =>
    intro w m f ha hx hd hf
    subst htt
    simp only [choose, Out.bind_then]
    refine sim_guards hS hcl hI hs ht hgc ha hx hd ?_
    intro c w1 m1 p1 a1 hx1
    cases c with
    | true => exact hf (some 0) w1 m1 t p1 rfl a1
    | false =>
      simp only [Bool.false_eq_true, if_false, Out.bind_then]
      obtain ⟨m2, p2, a2, hregs, hheap, _⟩ := jump_full (F := F) hj a1
      have hx2 : Holds L.img.constants m2.heap x (m2.get test) := by
        rw [hheap]
        have : m2.get test = m1.get test := by unfold Mach.get; rw [regIndex_act p2.act, hregs]
        rw [this]; exact hx1
      refine SPost.after p2 (ih a2 hx2 hd ?_)
      intro k' w3 m3 t' p3 hch a3
      refine hf (k'.map (· + 1)) w3 m3 t' ((p1.trans p2).trans p3) ?_ a3
      cases k' with
      | none => exact hch
      | some k' => exact hch

end

end EB
