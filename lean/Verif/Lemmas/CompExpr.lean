import Verif.Spec.Compiler
import Verif.Lemmas.Ids
/-!
# What compiling an expression does to the generated code

Compiling an expression only appends: `GExt` says so for every part of the code generator.
-/

namespace EB

/-! ## Sequencing -/

section
variable {σ α β : Type}

theorem CM.bind_ok {x : CM σ α} {f : α → CM σ β} {s : σ} {r : β × σ} :
    (x >>= f) s = .ok r ↔ ∃ a s', x s = .ok (a, s') ∧ f a s' = .ok r := by
  show CM.bind x f s = .ok r ↔ _
  unfold CM.bind
  constructor
  · intro h
    split at h
    next a s' hx => exact ⟨a, s', hx, h⟩
    next e hx => simp at h
  · rintro ⟨a, s', hx, hf⟩
    rw [hx]; exact hf

theorem CM.pure_ok {a : α} {s : σ} {r : α × σ} : (Pure.pure a : CM σ α) s = .ok r ↔ r = (a, s) := by
  show Except.ok (a, s) = Except.ok r ↔ _
  simp [eq_comm]

theorem CM.throw_ok {e : CErr} {s : σ} {r : α × σ} : (CM.throw e : CM σ α) s = .ok r ↔ False := by
  simp [CM.throw]

theorem CM.get_ok {s : σ} {r : σ × σ} : (CM.get : CM σ σ) s = .ok r ↔ r = (s, s) := by
  simp [CM.get, eq_comm]

theorem CM.modify_ok {f : σ → σ} {s : σ} {r : Unit × σ} : CM.modify f s = .ok r ↔ r = ((), f s) := by
  simp [CM.modify, eq_comm]

theorem CM.lift_ok {x : Except CErr α} {s : σ} {r : α × σ} :
    (CM.lift x : CM σ α) s = .ok r ↔ ∃ a, x = .ok a ∧ r = (a, s) := by
  unfold CM.lift
  cases x with
  | ok a => simp [eq_comm]
  | error e => simp

end

/-! ## Targets -/

/-- Instructions that refer to nothing but registers. -/
def Instr.plain : Instr → Bool
  | .call .. | .gosub .. | .jump .. | .jumpIfFalse .. | .loadConst .. | .upcall .. | .upcallAsync .. => false
  | .setErrorHandler .jump _ => false
  | .eof => false
  | _ => true

theorem Instr.plain_refs {i : Instr} (h : i.plain = true) :
    i.targets = [] ∧ i.constRefs = [] ∧ i.upcallRefs = [] := by
  cases i <;> first | exact ⟨rfl, rfl, rfl⟩ | exact absurd h Bool.false_ne_true | skip
  next m t => cases m <;> first | exact ⟨rfl, rfl, rfl⟩ | exact absurd h Bool.false_ne_true

theorem Instr.plain_eof {i : Instr} (h : i.plain = true) : i ≠ .eof := by rintro rfl; exact absurd h Bool.false_ne_true

/-- The tables of constants and builtins are in order. -/
structure GWf (g : Codegen) : Prop where
  constants : g.constants.Wf
  upcalls : g.upcalls.Wf
  constLimit : g.constants.len ≤ 65536
  upcallLimit : g.upcalls.len ≤ 65536

/-- The constants and builtins that an instruction refers to exist. -/
structure RefsOk (g : Codegen) (i : Instr) : Prop where
  constants : ∀ k ∈ i.constRefs, k < g.constants.len
  upcalls : ∀ k ∈ i.upcallRefs, k < g.upcalls.len

theorem RefsOk.plain {g : Codegen} {i : Instr} (h : i.plain = true) : RefsOk g i := by
  obtain ⟨_, h1, h2⟩ := Instr.plain_refs h
  exact ⟨by simp [h1], by simp [h2]⟩

/-! ## Appending -/

/-- `g'` is `g` with more code at the end. -/
structure GExt (g g' : Codegen) : Prop where
  code : g.code <+: g'.code
  instrs : g.instrs <+: g'.instrs
  lens : g.instrs.length + g'.code.length = g'.instrs.length + g.code.length
  constants : g.constants.Ext g'.constants
  upcalls : g.upcalls.Ext g'.upcalls
  labels : g'.labels = g.labels
  callables : g'.callables = g.callables
  fixups : ∀ a, g'.fixups.get? a ≠ g.fixups.get? a → g.code.length ≤ a ∧ a < g'.code.length
  targets : ∀ i ∈ g'.code, i ∈ g.code ∨ (i.targets = [] ∧ (GWf g → RefsOk g' i))
  constLimit : g.constants.len ≤ 65536 → g'.constants.len ≤ 65536
  upcallLimit : g.upcalls.len ≤ 65536 → g'.upcalls.len ≤ 65536
  unmarked : ∀ (i : Nat) m, g.instrs.length ≤ i → g'.instrs[i]? = some m → m.isStmtStart = false
  eofs : .eof ∈ g'.code → .eof ∈ g.code

theorem no_more {α : Type} {l : List α} {i : Nat} {x : α} (h : l.length ≤ i) (hx : l[i]? = some x) (P : Prop) : P := by
  have := (List.getElem?_eq_some_iff.1 hx).1; omega

theorem one_more {l : List InstrMeta} {x m : InstrMeta} (hx : x.isStmtStart = false) {i : Nat} (h : l.length ≤ i)
    (hm : (l ++ [x])[i]? = some m) : m.isStmtStart = false := by
  have h1 := (List.getElem?_eq_some_iff.1 hm).1
  have : i = l.length := by simp at h1; omega
  subst this
  simp at hm
  subst hm; exact hx

theorem GExt.refl (g : Codegen) : GExt g g :=
  ⟨List.prefix_refl _, List.prefix_refl _, rfl, .refl _, .refl _, rfl, rfl, by simp, fun _ h => .inl h, id, id,
    fun _ _ h hx => no_more h hx _, id⟩

theorem GExt.len {g g' : Codegen} (h : GExt g g') : g.code.length ≤ g'.code.length := h.code.length_le

theorem GExt.lens_eq {g g' : Codegen} (h : GExt g g') (hl : g.instrs.length = g.code.length) :
    g'.instrs.length = g'.code.length := by have := h.lens; omega

theorem GExt.wf {g g' : Codegen} (h : GExt g g') (hw : GWf g) : GWf g' :=
  ⟨h.constants.wf hw.constants, h.upcalls.wf hw.upcalls, h.constLimit hw.constLimit, h.upcallLimit hw.upcallLimit⟩

theorem GExt.refs {g g' : Codegen} (h : GExt g g') {i : Instr} (hr : RefsOk g i) : RefsOk g' i :=
  ⟨fun k hk => Nat.lt_of_lt_of_le (hr.constants k hk) h.constants.len,
   fun k hk => Nat.lt_of_lt_of_le (hr.upcalls k hk) h.upcalls.len⟩

theorem GExt.trans {a b c : Codegen} (h1 : GExt a b) (h2 : GExt b c) : GExt a c := by
  refine ⟨h1.code.trans h2.code, h1.instrs.trans h2.instrs, ?_, h1.constants.trans h2.constants,
    h1.upcalls.trans h2.upcalls, h2.labels.trans h1.labels, h2.callables.trans h1.callables, ?_, ?_,
    fun h => h2.constLimit (h1.constLimit h), fun h => h2.upcallLimit (h1.upcallLimit h), ?_, fun h => h1.eofs (h2.eofs h)⟩
  · have := h1.lens; have := h2.lens; omega
  · intro i hi
    have l1 := h1.len
    have l2 := h2.len
    by_cases h : b.fixups.get? i = a.fixups.get? i
    · rw [← h] at hi
      have := h2.fixups i hi; omega
    · have := h1.fixups i h; omega
  · intro i hi
    rcases h2.targets i hi with h | ⟨h, hr⟩
    · rcases h1.targets i h with h' | ⟨h', hr'⟩
      · exact .inl h'
      · exact .inr ⟨h', fun hw => h2.refs (hr' hw)⟩
    · exact .inr ⟨h, fun hw => hr (h1.wf hw)⟩
  · intro i m hi hm
    by_cases h : b.instrs.length ≤ i
    · exact h2.unmarked i m h hm
    · obtain ⟨t, ht⟩ := h2.instrs
      rw [← ht, List.getElem?_append_left (by omega)] at hm
      exact h1.unmarked i m hi hm

/-- One more instruction. -/
theorem gext_push {g : Codegen} {i : Instr} {pos : LineCol} (hi : i.targets = []) (hr : GWf g → RefsOk g i)
    (he : i ≠ .eof := by simp) : GExt g (g.push i pos) := by
  refine ⟨List.prefix_append _ _, List.prefix_append _ _, ?_, .refl _, .refl _, rfl, rfl, ?_, ?_, id, id, fun _ _ h hx => one_more rfl h hx, ?_⟩
  · simp [Codegen.push]; omega
  · simp [Codegen.push]
  · intro j hj
    simp only [Codegen.push, List.mem_append, List.mem_singleton] at hj
    rcases hj with h | rfl
    · exact .inl h
    · exact .inr ⟨hi, fun hw => ⟨(hr hw).1, (hr hw).2⟩⟩
  · simp only [Codegen.push, List.mem_append, List.mem_singleton]
    exact fun h => h.resolve_right fun h => he h.symm

/-- A code generation function that only appends. -/
def GStep {α : Type} (x : CG α) : Prop :=
  ∀ g a g', g.instrs.length = g.code.length → x g = .ok (a, g') → GExt g g'

namespace GStep
variable {α β : Type}

theorem bind {x : CG α} {f : α → CG β} (hx : GStep x) (hf : ∀ a, GStep (f a)) : GStep (x >>= f) := by
  intro g b g' hl h
  obtain ⟨a, g1, h1, h2⟩ := CM.bind_ok.1 h
  have e1 := hx _ _ _ hl h1
  exact e1.trans (hf a _ _ _ (e1.lens_eq hl) h2)

theorem pure (a : α) : GStep (Pure.pure a : CG α) := by
  intro g b g' _ h
  have := CM.pure_ok.1 h
  cases this; exact GExt.refl g

theorem throw (e : CErr) : GStep (CM.throw e : CG α) := by
  intro g b g' _ h
  exact absurd h (by simp [CM.throw])

theorem lift (x : Except CErr α) : GStep (CM.lift x : CG α) := by
  intro g b g' _ h
  obtain ⟨a, _, h⟩ := CM.lift_ok.1 h
  cases h; exact GExt.refl g

theorem emit (i : Instr) (pos : LineCol) (hi : i.plain = true) : GStep (emit i pos) := by
  intro g b g' _ h
  unfold EB.emit at h
  cases h
  exact gext_push (Instr.plain_refs hi).1 (fun _ => .plain hi) (Instr.plain_eof hi)

end GStep

/-- Only the constants grow. -/
theorem gext_constants {g : Codegen} {m : IdMap ConstantDatum ExprType} (h : g.constants.Ext m)
    (hl : g.constants.len ≤ 65536 → m.len ≤ 65536) : GExt g { g with constants := m } :=
  ⟨List.prefix_refl _, List.prefix_refl _, rfl, h, .refl _, rfl, rfl, by simp, fun _ h => .inl h, hl, id,
    fun _ _ h hx => no_more h hx _, id⟩

/-- Only the upcalls grow. -/
theorem gext_upcalls {g : Codegen} {m : IdMap Str (Option ExprType)} (h : g.upcalls.Ext m)
    (hl : g.upcalls.len ≤ 65536 → m.len ≤ 65536) : GExt g { g with upcalls := m } :=
  ⟨List.prefix_refl _, List.prefix_refl _, rfl, .refl _, h, rfl, rfl, by simp, fun _ h => .inl h, id, hl,
    fun _ _ h hx => no_more h hx _, id⟩

/-- `get_constant` finds the constant or adds it. -/
theorem getConstant_ok {c : ConstantDatum} {pos : LineCol} {g g' : Codegen} {idx : U16}
    (h : getConstant c pos g = .ok (idx, g')) :
    GExt g g' ∧ g'.code = g.code ∧ g'.instrs = g.instrs ∧ g'.fixups = g.fixups ∧
      g'.upcalls = g.upcalls ∧
      ∃ t id, g'.constants.get? c = some (t, id) ∧ idx = BitVec.ofNat 16 id ∧
        (g.constants.Wf → g.constants.len ≤ 65536 → id < 65536 ∧ g'.constants.len ≤ 65536) := by
  unfold getConstant at h
  split at h
  next t id hc =>
    cases h
    exact ⟨GExt.refl g, rfl, rfl, rfl, rfl, t, id, hc, rfl, fun hw hl => by
      have := IdMap.id_lt hw hc; omega⟩
  next hc =>
    by_cases hl : g.constants.len < 65536
    · rw [IdMap.insert_new hc hl] at h
      simp only at h
      cases h
      refine ⟨gext_constants (IdMap.ext_insert_new hc) (fun _ => by rw [IdMap.len_insert_new]; omega), rfl, rfl, rfl, rfl, c.etype, _, ?_, rfl, fun hw _ => ⟨hl, ?_⟩⟩
      · show IdMap.get? _ _ = _
        rw [IdMap.get?_insert_new, if_pos rfl]
      · show IdMap.len _ ≤ _
        rw [IdMap.len_insert_new]; omega
    · rw [IdMap.insert_full hc hl] at h
      simp at h

theorem GStep.getConstant (c : ConstantDatum) (pos : LineCol) : GStep (getConstant c pos) :=
  fun _ _ _ _ h => (getConstant_ok h).1

/-- `get_upcall` finds the upcall or adds it. -/
theorem getUpcall_ok {key : Str} {ret : Option ExprType} {pos : LineCol} {g g' : Codegen} {idx : U16}
    (h : getUpcall key ret pos g = .ok (idx, g')) :
    GExt g g' ∧ g'.code = g.code ∧ g'.instrs = g.instrs ∧ g'.fixups = g.fixups ∧
      g'.constants = g.constants ∧
      ∃ t id, g'.upcalls.get? key = some (t, id) ∧ idx = BitVec.ofNat 16 id ∧
        (g.upcalls.Wf → g.upcalls.len ≤ 65536 → id < 65536 ∧ g'.upcalls.len ≤ 65536) := by
  unfold getUpcall at h
  split at h
  next t id hc =>
    cases h
    exact ⟨GExt.refl g, rfl, rfl, rfl, rfl, t, id, hc, rfl, fun hw hl => by
      have := IdMap.id_lt hw hc; omega⟩
  next hc =>
    by_cases hl : g.upcalls.len < 65536
    · rw [IdMap.insert_new hc hl] at h
      simp only at h
      cases h
      refine ⟨gext_upcalls (IdMap.ext_insert_new hc) (fun _ => by rw [IdMap.len_insert_new]; omega), rfl, rfl, rfl, rfl, ret, _, ?_, rfl, fun hw _ => ⟨hl, ?_⟩⟩
      · show IdMap.get? _ _ = _
        rw [IdMap.get?_insert_new, if_pos rfl]
      · show IdMap.len _ ≤ _
        rw [IdMap.len_insert_new]; omega
    · rw [IdMap.insert_full hc hl] at h
      simp at h

theorem GStep.getUpcall (key : Str) (ret : Option ExprType) (pos : LineCol) :
    GStep (getUpcall key ret pos) := fun _ _ _ _ h => (getUpcall_ok h).1

theorem refs_const {g : Codegen} (hw : GWf g) {c : ConstantDatum} {t : ExprType} {id : Nat} {reg : Reg}
    (hk : g.constants.get? c = some (t, id)) : RefsOk g (.loadConst reg (BitVec.ofNat 16 id)) := by
  refine ⟨?_, by simp [Instr.upcallRefs]⟩
  intro k h
  simp only [Instr.constRefs, List.mem_singleton] at h
  have := IdMap.id_lt hw.constants hk
  have := hw.constLimit
  rw [h, BitVec.toNat_ofNat]
  omega

theorem refs_upcall {g : Codegen} (hw : GWf g) {c : Str} {t : Option ExprType} {id : Nat} {reg : Reg} {b : Bool}
    (hk : g.upcalls.get? c = some (t, id)) :
    RefsOk g (if b then .upcallAsync (BitVec.ofNat 16 id) reg else .upcall (BitVec.ofNat 16 id) reg) := by
  have := IdMap.id_lt hw.upcalls hk
  have := hw.upcallLimit
  refine ⟨?_, ?_⟩
  · cases b <;> simp [Instr.constRefs]
  · intro k h
    cases b <;> simp [Instr.upcallRefs] at h <;> omega

/-- Loading a constant that was just looked up. -/
theorem GStep.loadConst (c : ConstantDatum) (reg : Reg) (pos : LineCol) : GStep (do
    let idx ← EB.getConstant c pos
    let _ ← EB.emit (.loadConst reg idx) pos : CG Unit) := by
  intro g a g' hl h
  obtain ⟨idx, g1, h1, h⟩ := CM.bind_ok.1 h
  obtain ⟨e1, _, _, _, _, t, id, hk, rfl, hid⟩ := getConstant_ok h1
  cases h
  exact e1.trans (gext_push rfl fun hw => refs_const hw hk)

theorem GStep.emitValue (reg : Reg) (d : ConstantDatum) (pos : LineCol) : GStep (emitValue reg d pos) := by
  unfold EB.emitValue
  cases d with
  | boolean b => exact .bind (.emit _ _ rfl) fun _ => .pure _
  | double b => exact .loadConst _ _ _
  | integer i =>
    simp only
    split
    · exact .bind (.emit _ _ rfl) fun _ => .pure _
    · exact .loadConst _ _ _
  | text s => exact .bind (.getConstant _ _) fun _ => .bind (.emit _ _ rfl) fun _ => .pure _

theorem GStep.emitDefault (reg : Reg) (t : ExprType) (pos : LineCol) : GStep (emitDefault reg t pos) := by
  unfold EB.emitDefault
  cases t <;> exact .bind (.emit _ _ rfl) fun _ => .pure _

theorem GStep.castNumerical (reg : Reg) (s d : ExprType) (pos : LineCol) :
    GStep (castNumerical reg s d pos) := by
  unfold EB.castNumerical
  split <;> first | exact .pure _ | exact .bind (.emit _ _ rfl) fun _ => .pure _

theorem GStep.resolveNumeric (reg : Reg) (et : ExprType) (rt : Reg) (rty : ExprType) (p q : LineCol) :
    GStep (resolveNumeric reg et rt rty p q) := by
  unfold EB.resolveNumeric
  split <;> first | exact .pure _ | exact .bind (.castNumerical _ _ _ _) fun _ => .pure _

theorem GStep.applyBin (op : SrcBin) (reg : Reg) (et : ExprType) (rt : Reg) (rty : ExprType) (p q : LineCol) :
    GStep (applyBin op reg et rt rty p q) := by
  have fin : ∀ (o : BinOp) (t : ExprType), GStep (do
      let _ ← EB.emit (.bin o reg reg rt) q
      Pure.pure (if op.isRel then .boolean else t) : CG ExprType) :=
    fun o t => .bind (.emit _ _ rfl) fun _ => .pure _
  have num : GStep (match op.doubleOp with
    | some dop => do
      match ← EB.resolveNumeric reg et rt rty p q with
      | some .double => do
        let _ ← EB.emit (.bin dop reg reg rt) q
        Pure.pure (if op.isRel then .boolean else .double)
      | some .integer => do
        let _ ← EB.emit (.bin op.intOp reg reg rt) q
        Pure.pure (if op.isRel then .boolean else .integer)
      | _ => CM.throw (.binaryOpType q op.name et rty)
    | none =>
      match et, rty with
      | .integer, .integer => do
        let _ ← EB.emit (.bin op.intOp reg reg rt) q
        Pure.pure (if op.isRel then .boolean else .integer)
      | _, _ => CM.throw (.binaryOpType q op.name et rty) : CG ExprType) := by
    split
    · refine .bind (.resolveNumeric _ _ _ _ _ _) fun r => ?_
      split
      · exact fin _ _
      · exact fin _ _
      · exact .throw _
    · split
      · exact fin _ _
      · exact .throw _
  unfold EB.applyBin
  simp only
  split
  · split
    · exact fin _ _
    · exact num
  · split
    · exact fin _ _
    · exact num
  · exact num

theorem GStep.applyUn (sy : Syms) (nt : Nat) (op : SrcUn) (reg : Reg) (t : ExprType) (pos : LineCol) :
    GStep (applyUn sy nt op reg t pos) := by
  unfold EB.applyUn
  split
  · exact .bind (.emit _ _ rfl) fun _ => .pure _
  · exact .bind (.emit _ _ rfl) fun _ => .pure _
  · exact .throw _
  · exact .bind (.lift _) fun _ => .bind (.emitValue _ _ _) fun _ => .bind (.emit _ _ rfl) fun _ => .pure _
  · exact .bind (.emit _ _ rfl) fun _ => .pure _
  · exact .throw _

theorem GStep.castTo (reg : Reg) (s d : ExprType) (pos : LineCol) : GStep (castTo reg s d pos) := by
  unfold EB.castTo
  split
  · exact .pure _
  · refine .bind (.castNumerical _ _ _ _) fun _ => ?_
    split
    · exact .pure _
    · split <;> exact .throw _

theorem GStep.emitTag (reg : Reg) (t : VarArgTag) (pos : LineCol) : GStep (emitTag reg t pos) :=
  .bind (.emit _ _ rfl) fun _ => .pure _

theorem GStep.compileNoArgs (A : ArgEnv) (noneYet : Bool) (syns : List SingSyn) (nt : Nat)
    (lcs : List LineCol) : GStep (compileNoArgs A noneYet syns nt lcs) := by
  induction syns generalizing nt lcs with
  | nil =>
    unfold EB.compileNoArgs
    split
    · exact .pure _
    · split
      · exact .pure _
      · exact .bind (.lift _) fun _ => .bind (.emitTag _ _ _) fun _ => .pure _
  | cons s syns ih =>
    cases s <;> simp only [EB.compileNoArgs]
    · exact .throw _
    · exact .throw _
    · exact .bind (.lift _) fun _ => .bind (.lift _) fun _ => .bind (.emitTag _ _ _) fun _ => ih _ _
    · split
      · exact .throw _
      · exact .bind (.lift _) fun _ => .bind (.lift _) fun _ => .bind (.emitTag _ _ _) fun _ => ih _ _

/-- The code generator after a call instruction at `g.code.length`. -/
theorem modify_last (l : List InstrMeta) (m : InstrMeta) (f : InstrMeta → InstrMeta) :
    (l ++ [m]).modify l.length f = l ++ [f m] := by
  induction l with
  | nil => rfl
  | cons a l ih => simp [List.modify_succ_cons, ih]

theorem gext_call {g : Codegen} (hl : g.instrs.length = g.code.length) (i : Instr) (pos : LineCol)
    (hi : i.targets = []) (hr : GWf g → RefsOk g i) (lcs : List LineCol)
    (he : i ≠ .eof := by simp) :
    GExt g ((g.push i pos).setArgs g.code.length lcs) := by
  have hm : ((g.push i pos).setArgs g.code.length lcs).instrs = g.instrs ++ [⟨pos, false, lcs⟩] := by
    show List.modify _ _ _ = _
    rw [← hl]
    exact modify_last _ _ _
  refine ⟨List.prefix_append _ _, ?_, ?_, .refl _, .refl _, rfl, rfl, ?_, ?_, id, id, by rw [hm]; exact fun _ _ h hx => one_more rfl h hx, ?_⟩
  · rw [hm]; exact List.prefix_append _ _
  · rw [hm]; simp [Codegen.setArgs, Codegen.push]; omega
  · simp [Codegen.setArgs, Codegen.push]
  · intro j hj
    simp only [Codegen.setArgs, Codegen.push, List.mem_append, List.mem_singleton] at hj
    rcases hj with h | rfl
    · exact .inl h
    · exact .inr ⟨hi, fun hw => ⟨(hr hw).1, (hr hw).2⟩⟩
  · simp only [Codegen.setArgs, Codegen.push, List.mem_append, List.mem_singleton]
    exact fun h => h.resolve_right fun h => he h.symm

theorem gext_fixup {g g' : Codegen} (h : GExt g g') {a : Nat} (h1 : g.code.length ≤ a)
    (h2 : a < g'.code.length) (f : Fixup) : GExt g (g'.addFixup a f) := by
  refine ⟨h.code, h.instrs, h.lens, h.constants, h.upcalls, h.labels, h.callables, ?_, fun i hi =>
      (h.targets i hi).imp id fun h => ⟨h.1, fun hw => ⟨(h.2 hw).1, (h.2 hw).2⟩⟩,
    h.constLimit, h.upcallLimit, h.unmarked, h.eofs⟩
  intro b hb
  by_cases e : b = a
  · subst e; exact ⟨h1, h2⟩
  · refine h.fixups b ?_
    simpa [Codegen.addFixup, FMap.get?_insert, e] using hb

theorem GStep.emitCall (md : Md) (key : Str) (ret : Option ExprType) (first : Reg) (lcs : List LineCol)
    (pos : LineCol) : GStep (emitCall md key ret first lcs pos) := by
  intro g a g' hl h
  unfold EB.emitCall at h
  split at h
  · obtain ⟨addr, g1, h1, h2⟩ := CM.bind_ok.1 h
    cases h1
    have := CM.modify_ok.1 h2
    cases this
    exact gext_fixup (gext_call hl _ _ rfl (fun _ => .plain rfl) _) (Nat.le_refl _) (by simp [Codegen.setArgs, Codegen.push]) _
  · obtain ⟨idx, g1, h1, h⟩ := CM.bind_ok.1 h
    obtain ⟨addr, g2, h2, h3⟩ := CM.bind_ok.1 h
    have e1 := (getUpcall_ok h1).1
    cases h2
    have := CM.modify_ok.1 h3
    cases this
    obtain ⟨t, id, hk, rfl, hid⟩ := (getUpcall_ok h1).2.2.2.2.2
    refine e1.trans (gext_call (e1.lens_eq hl) _ _ ?_ (fun hw => refs_upcall hw hk) _ ?_) <;> split <;> simp [Instr.targets]

theorem GStep.compileArgless (sy : Syms) (nt : Nat) (reg : Reg) (v : VarRef) (pos : LineCol) :
    GStep (compileArgless sy nt reg v pos) := by
  unfold EB.compileArgless
  split
  · exact .throw _
  · refine .bind (.lift _) fun _ => ?_
    split
    · exact .throw _
    · split
      · exact .bind (.emitCall _ _ _ _ _ _) fun _ => .pure _
      · split
        · intro g a g' hl h
          obtain ⟨idx, g1, h1, h⟩ := CM.bind_ok.1 h
          obtain ⟨temp, g2, h2, h⟩ := CM.bind_ok.1 h
          obtain ⟨x, hx, h2⟩ := CM.lift_ok.1 h2
          cases h2
          have e1 := (getUpcall_ok h1).1
          obtain ⟨t, id, hk, rfl, hid⟩ := (getUpcall_ok h1).2.2.2.2.2
          obtain ⟨addr, g3, h3, h⟩ := CM.bind_ok.1 h
          have e3 : GExt g1 g3 := by
            cases h3
            refine gext_push ?_ (fun hw => refs_upcall hw hk) ?_ <;> split <;> simp [Instr.targets]
          refine (e1.trans e3).trans ?_
          exact GStep.bind (.emit _ _ rfl) (fun _ => .pure _) _ _ _ ((e1.trans e3).lens_eq hl) h
        · exact .bind (.emitCall _ _ _ _ _ _) fun _ => .pure _

mutual
theorem GStep.compileExpr (sy : Syms) (e : Expr) (nt : Nat) (reg : Reg) : GStep (compileExpr sy e nt reg) := by
  match e with
  | .bool b pos => simp only [EB.compileExpr]; exact .bind (.emitValue _ _ _) fun _ => .pure _
  | .dbl b pos => simp only [EB.compileExpr]; exact .bind (.emitValue _ _ _) fun _ => .pure _
  | .int b pos => simp only [EB.compileExpr]; exact .bind (.emitValue _ _ _) fun _ => .pure _
  | .text b pos => simp only [EB.compileExpr]; exact .bind (.emitValue _ _ _) fun _ => .pure _
  | .sym v pos =>
    simp only [EB.compileExpr]
    split
    · exact .bind (.emit _ _ rfl) fun _ => .pure _
    · exact .throw _
    · exact .compileArgless _ _ _ _ _
    · exact .throw _
  | .un op e pos =>
    simp only [EB.compileExpr]
    exact .bind (GStep.compileExpr sy e nt reg) fun _ => .applyUn _ _ _ _ _ _
  | .bin op l r pos =>
    simp only [EB.compileExpr]
    exact .bind (GStep.compileExpr sy l nt reg) fun _ => .bind (.lift _) fun _ =>
      .bind (GStep.compileExpr sy r _ _) fun _ => .applyBin _ _ _ _ _ _ _
  | .call v pos args =>
    simp only [EB.compileExpr]
    split
    · refine .bind (.lift _) fun _ => ?_
      split
      · exact .throw _
      · refine .bind (.lift _) fun _ => ?_
        split
        · exact .throw _
        · refine .bind (GStep.compileArgsFrom _ args _ _ _ _) fun _ => .bind (.lift _) fun _ =>
            .bind (.emitCall _ _ _ _ _ _) fun _ => ?_
          split
          · exact .bind (.emit _ _ rfl) fun _ => .pure _
          · exact .pure _
    · split
      · split
        · exact .throw _
        · exact .bind (GStep.compileSubs sy args _ _) fun _ => .bind (.lift _) fun _ =>
            .bind (.emit _ _ rfl) fun _ => .pure _
      · exact .throw _
      · exact .throw _
      · exact .throw _
termination_by structural e

theorem GStep.compileSubs (sy : Syms) (args : Args) (nt : Nat) (pos : LineCol) :
    GStep (compileSubs sy args nt pos) := by
  match args with
  | .nil => simp only [EB.compileSubs]; exact .pure _
  | .skip .. => simp only [EB.compileSubs]; exact .throw _
  | .cons e _ _ rest =>
    simp only [EB.compileSubs]
    exact .bind (.lift _) fun _ => .bind (GStep.compileExpr sy e _ _) fun _ => .bind (.castTo _ _ _ _) fun _ =>
      GStep.compileSubs sy rest _ _
termination_by structural args

theorem GStep.compileArgsFrom (A : ArgEnv) (args : Args) (noneYet : Bool) (syns : List SingSyn) (nt : Nat)
    (lcs : List LineCol) : GStep (compileArgsFrom A args noneYet syns nt lcs) := by
  match args with
  | .nil => simp only [EB.compileArgsFrom]; exact .compileNoArgs _ _ _ _ _
  | .cons e sep sepPos rest =>
    simp only [EB.compileArgsFrom]
    split
    · exact .bind (.lift _) fun _ => .bind (GStep.compileExpr _ e _ _) fun _ => .bind (.castTo _ _ _ _) fun _ =>
        .bind (.lift _) fun _ => GStep.compileArgsFrom _ rest _ _ _ _
    · split
      · refine .bind (.lift _) fun _ => .bind (.lift _) fun _ => .bind (.emit _ _ rfl) fun _ =>
          .bind (.lift _) fun _ => GStep.compileArgsFrom _ rest _ _ _ _
      · exact .throw _
    · exact .bind (.lift _) fun _ => .bind (.lift _) fun _ => .bind (GStep.compileExpr _ e _ _) fun _ =>
        .bind (.castTo _ _ _ _) fun _ => .bind (.lift _) fun _ => .bind (.emitTag _ _ _) fun _ =>
        GStep.compileArgsFrom _ rest _ _ _ _
    · exact .bind (.lift _) fun _ => .bind (.lift _) fun _ => .bind (GStep.compileExpr _ e _ _) fun _ =>
        .bind (.lift _) fun _ => .bind (.emitTag _ _ _) fun _ => GStep.compileArgsFrom _ rest _ _ _ _
    · split
      · exact .throw _
      · split
        · split
          · exact .bind (.lift _) fun _ => .bind (.lift _) fun _ => .bind (GStep.compileExpr _ e _ _) fun _ =>
              .bind (.castTo _ _ _ _) fun _ => GStep.compileArgsFrom _ rest _ _ _ _
          · exact .throw _
        · refine .bind (.lift _) fun _ => .bind (.lift _) fun _ => ?_
          split
          · exact .bind (.lift _) fun _ => .bind (GStep.compileExpr _ e _ _) fun _ =>
              .bind (.emitTag _ _ _) fun _ => GStep.compileArgsFrom _ rest _ _ _ _
          · exact .bind (.lift _) fun _ => .bind (GStep.compileExpr _ e _ _) fun _ => .bind (.castTo _ _ _ _) fun _ =>
              .bind (.emitTag _ _ _) fun _ => GStep.compileArgsFrom _ rest _ _ _ _
          · split
            · exact .bind (.lift _) fun _ => .bind (.lift _) fun _ => .bind (.emit _ _ rfl) fun _ =>
                .bind (.emitTag _ _ _) fun _ => GStep.compileArgsFrom _ rest _ _ _ _
            · exact .throw _
  | .skip sep sepPos rest =>
    simp only [EB.compileArgsFrom]
    split
    · exact .throw _
    · exact .throw _
    · exact .bind (.lift _) fun _ => .bind (.lift _) fun _ => .bind (.emitTag _ _ _) fun _ =>
        GStep.compileArgsFrom _ rest _ _ _ _
    · exact .bind (.lift _) fun _ => .bind (.lift _) fun _ => .bind (.emitTag _ _ _) fun _ =>
        GStep.compileArgsFrom _ rest _ _ _ _
    · split
      · exact .throw _
      · split
        · exact .bind (.lift _) fun _ => .throw _
        · refine .bind (.lift _) fun _ => .bind (.lift _) fun _ => ?_
          split
          · exact .throw _
          · exact .bind (.emitTag _ _ _) fun _ => GStep.compileArgsFrom _ rest _ _ _ _
termination_by structural args
end

theorem GStep.compileExprAs (sy : Syms) (e : Expr) (nt : Nat) (reg : Reg) (t : ExprType) :
    GStep (compileExprAs sy e nt reg t) := .bind (.compileExpr _ _ _ _) fun _ => .castTo _ _ _ _

theorem GStep.compileArgs (sy : Syms) (md : Md) (pos : LineCol) (args : Args) (nt : Nat) :
    GStep (compileArgs sy md pos args nt) := by
  unfold EB.compileArgs
  split
  · exact .throw _
  · exact .bind (.compileArgsFrom _ _ _ _ _ _) fun _ => .bind (.lift _) fun _ => .pure _

theorem GStep.compileCaseRelop (pos : LineCol) (test : Reg) (tt : ExprType) (rhs : Reg) (rt : ExprType)
    (op : CaseRelOp) (dest : Reg) : GStep (compileCaseRelop pos test tt rhs rt op dest) := by
  unfold EB.compileCaseRelop
  have hjp : ∀ o : Option BinOp, GStep (match o with
      | some o => do
        let _ ← EB.emit (Instr.bin o dest test rhs) pos
        Pure.pure ()
      | none => CM.throw (CErr.binaryOpType pos op.name tt rt) : CG Unit) := by
    intro o
    cases o with
    | some o => exact .bind (.emit _ _ rfl) fun _ => .pure _
    | none => exact .throw _
  simp only
  split
  · exact .bind (.emit _ _ rfl) fun _ => .bind (.pure _) fun _ => hjp _
  · exact .bind (.emit _ _ rfl) fun _ => .bind (.pure _) fun _ => hjp _
  · exact .bind (.pure _) fun _ => hjp _

theorem GStep.compileGuard (sy : Syms) (nt : Nat) (test : Reg) (tt : ExprType) (g : CaseGuard) :
    GStep (compileGuard sy nt test tt g) := by
  cases g with
  | is op e =>
    unfold EB.compileGuard
    exact .bind (.lift _) fun _ => .bind (.lift _) fun _ => .bind (.lift _) fun _ => .bind (.emit _ _ rfl) fun _ =>
      .bind (.compileExpr _ _ _ _) fun _ => .bind (.compileCaseRelop _ _ _ _ _ _ _) fun _ => .pure _
  | «to» lo hi =>
    unfold EB.compileGuard
    exact .bind (.lift _) fun _ => .bind (.lift _) fun _ => .bind (.lift _) fun _ => .bind (.lift _) fun _ =>
      .bind (.lift _) fun _ => .bind (.lift _) fun _ => .bind (.lift _) fun _ => .bind (.emit _ _ rfl) fun _ =>
      .bind (.compileExpr _ _ _ _) fun _ => .bind (.compileCaseRelop _ _ _ _ _ _ _) fun _ =>
      .bind (.emit _ _ rfl) fun _ => .bind (.compileExpr _ _ _ _) fun _ =>
      .bind (.compileCaseRelop _ _ _ _ _ _ _) fun _ => .bind (.emit _ _ rfl) fun _ => .pure _

end EB
