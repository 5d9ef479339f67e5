import Verif.Lemmas.CompStmt
/-!
# Sessions

The invariant that relates the compiler and the image between chunks of code.
-/

namespace EB

/-! ## Fixups -/

theorem fixupInstr_targets {g : Codegen} {pos : LineCol} {f : Fixup} {i : Instr}
    (h : g.fixupInstr pos f = .ok i) : ∀ t ∈ i.targets,
      (∃ k, g.labels.get? k = some t) ∨ ∃ k e, g.callables.get? k = some (t, e) := by
  intro t ht
  unfold Codegen.fixupInstr at h
  split at h
  · split at h
    · simp at h
    next s e hk =>
      split at h
      next u hu => cases h; simp only [Instr.targets, List.mem_singleton] at ht; rw [ht, mkTarget_ok hu]; exact .inr ⟨_, _, hk⟩
      · simp at h
  all_goals
    split at h
    · simp at h
    next s hk =>
      split at h
      next u hu => cases h; simp only [Instr.targets, List.mem_singleton] at ht; rw [ht, mkTarget_ok hu]; exact .inl ⟨_, hk⟩
      · simp at h

theorem fixupInstr_refs {g : Codegen} {pos : LineCol} {f : Fixup} {i : Instr}
    (h : g.fixupInstr pos f = .ok i) : i.constRefs = [] ∧ i.upcallRefs = [] := by
  unfold Codegen.fixupInstr at h
  split at h <;> (split at h; · simp at h) <;> (split at h <;> first | (cases h; exact ⟨rfl, rfl⟩) | simp at h)

theorem fixupInstr_eof {g : Codegen} {pos : LineCol} {f : Fixup} (h : g.fixupInstr pos f = .ok .eof) : False := by
  unfold Codegen.fixupInstr at h
  split at h <;> (split at h; · simp at h) <;> (split at h <;> simp at h)

theorem applyFixups_len {g : Codegen} {fs : FMap Nat Fixup} {code : List Instr}
    (h : g.applyFixups fs = .ok code) : code.length = g.code.length := by
  induction fs generalizing code with
  | nil => cases h; rfl
  | cons p fs ih =>
    obtain ⟨a, f⟩ := p
    unfold Codegen.applyFixups at h
    split at h
    · simp at h
    · split at h
      · simp at h
      · split at h
        · simp at h
        next code' h' => cases h; rw [List.length_set]; exact ih h'

/-- Instructions without a fixup stay. -/
theorem applyFixups_none {g : Codegen} {fs : FMap Nat Fixup} {code : List Instr}
    (h : g.applyFixups fs = .ok code) {i : Nat} (hi : fs.get? i = none) : code[i]? = g.code[i]? := by
  induction fs generalizing code with
  | nil => cases h; rfl
  | cons p fs ih =>
    obtain ⟨a, f⟩ := p
    unfold Codegen.applyFixups at h
    simp only [FMap.get?] at hi
    split at hi
    · simp at hi
    next hne =>
    split at h
    · simp at h
    · split at h
      · simp at h
      · split at h
        · simp at h
        next code' h' => cases h; rw [List.getElem?_set_ne hne]; exact ih h' hi

/-- Instructions with a fixup are replaced by what it stands for. -/
theorem applyFixups_some {g : Codegen} {fs : FMap Nat Fixup} {code : List Instr}
    (h : g.applyFixups fs = .ok code) {i : Nat} {f : Fixup} (hi : fs.get? i = some f) :
    ∃ m ins, g.instrs[i]? = some m ∧ g.fixupInstr m.linecol f = .ok ins ∧
      (i < g.code.length → code[i]? = some ins) := by
  induction fs generalizing code with
  | nil => simp [FMap.get?] at hi
  | cons p fs ih =>
    obtain ⟨a, f'⟩ := p
    unfold Codegen.applyFixups at h
    simp only [FMap.get?] at hi
    split at h
    · simp at h
    next m hm =>
    split at h
    · simp at h
    next ins hins =>
    split at h
    · simp at h
    next code' h' =>
    cases h
    split at hi
    next he =>
      cases hi; subst he
      refine ⟨m, ins, hm, hins, fun hl => ?_⟩
      rw [List.getElem?_set_self (by rw [applyFixups_len h']; exact hl)]
    next hne =>
      obtain ⟨m', ins', h1, h2, h3⟩ := ih h' hi
      exact ⟨m', ins', h1, h2, fun hl => by rw [List.getElem?_set_ne hne]; exact h3 hl⟩

/-- Every instruction of the result was there or comes from a fixup. -/
theorem applyFixups_mem {g : Codegen} {fs : FMap Nat Fixup} {code : List Instr}
    (h : g.applyFixups fs = .ok code) {i : Instr} (hi : i ∈ code) :
    i ∈ g.code ∨ ∃ pos f, g.fixupInstr pos f = .ok i := by
  induction fs generalizing code with
  | nil => cases h; exact .inl hi
  | cons p fs ih =>
    obtain ⟨a, f⟩ := p
    unfold Codegen.applyFixups at h
    split at h
    · simp at h
    next m hm =>
    split at h
    · simp at h
    next ins hins =>
    split at h
    · simp at h
    next code' h' =>
    cases h
    rcases List.mem_or_eq_of_mem_set hi with h | rfl
    · exact ih h' h
    · exact .inr ⟨_, _, hins⟩

/-! ## The invariant between chunks -/

/-- Everything compiled so far is in the image. -/
structure Fresh (c : Ctx) (img : Image) : Prop where
  code : img.code = c.cg.code
  instrs : img.instrs = c.cg.instrs
  constants : img.constants = c.cg.constants.keys
  upcalls : img.upcalls = c.cg.upcalls.keys
  data : img.data = c.data

/-- The compiler between two chunks. -/
structure Idle (c : Ctx) : Prop where
  inv : Inv c
  eof : ∃ body, c.cg.code = body ++ [.eof]
  once : .eof ∉ c.cg.code.dropLast
  targets : ∀ i ∈ c.cg.code, ∀ t ∈ i.targets, t < c.cg.code.length
  labels : ∀ k a, c.cg.labels.get? k = some a → a < c.cg.code.length
  callables : ∀ k s e, c.cg.callables.get? k = some (s, e) → s < c.cg.code.length
  fixups : c.cg.fixups = []
  doExit : c.doExit = []
  forExit : c.forExit = []
  cur : c.cur = none

/-- Compiler and image between two chunks. -/
structure Synced (c : Ctx) (img : Image) : Prop where
  idle : Idle c
  img : img = .default ∨ Fresh c img

theorem inv_init (upcalls : FMap Str Md) : Inv ⟨.empty, [], [], [], none, [], [], ⟨.empty, upcalls, [], .empty⟩⟩ := by
  refine ⟨rfl, IdMap.wf_empty, IdMap.wf_empty, Nat.zero_le _, Nat.zero_le _, IdMap.wf_empty, IdMap.wf_empty, Nat.zero_le _,
    Nat.zero_le _, ?_, ?_, ?_, ?_, ?_,
    ?_, ?_, ?_, ?_, ?_⟩ <;> simp [Codegen.empty, FMap.get?]

theorem SStep.prepareScalars (defs : List GlobalDef) : SStep (prepareScalars defs) := by
  induction defs with
  | nil => exact .pure _
  | cons d defs ih =>
    cases d with
    | scalar name ty init =>
      unfold EB.prepareScalars
      refine .bind (.putGlobalS _ _ _) fun _ => ?_
      cases init with
      | none => exact .bind (.onCg (.emitDefault _ _ _)) fun _ => ih
      | some d =>
        simp only
        split
        · exact .bind (.throw _) fun _ => ih
        · exact .bind (.onCg (.emitValue _ _ _)) fun _ => ih
    | array name ty dims =>
      unfold EB.prepareScalars
      split
      · exact .throw _
      · exact .bind (.putGlobalS _ _ _) fun _ => .bind ih fun _ => .pure _

theorem SStep.prepareDims (i : Nat) (ds : List Nat) : SStep (prepareDims i ds) := by
  induction ds generalizing i with
  | nil => exact .pure _
  | cons d ds ih =>
    unfold EB.prepareDims
    split
    · exact .throw _
    · split
      · exact .bind (.emit _ _ rfl) fun _ => ih _
      · exact .throw _

theorem SStep.prepareArrays (l : List (Reg × ExprType × List Nat)) : SStep (prepareArrays l) := by
  induction l with
  | nil => exact .pure _
  | cons d l ih =>
    obtain ⟨reg, ty, dims⟩ := d
    unfold EB.prepareArrays
    refine .bind (.prepareDims _ _) fun _ => ?_
    split
    · exact .bind (.emit _ _ rfl) fun _ => ih
    · exact .bind (.throw _) fun _ => ih
    · exact .bind (.throw _) fun _ => ih

/-- Steps that leave no jumps, labels or callables behind. -/
def Calm {α : Type} (x : CS α) : Prop := ∀ c a c', x c = .ok (a, c') →
  c'.cg.fixups = c.cg.fixups ∧ c'.cg.labels = c.cg.labels ∧ c'.cg.callables = c.cg.callables ∧
    ∀ i ∈ c'.cg.code, i ∈ c.cg.code ∨ i.targets = []

namespace Calm
variable {α β : Type}

theorem bind {x : CS α} {f : α → CS β} (hx : Calm x) (hf : ∀ a, Calm (f a)) : Calm (x >>= f) := by
  intro c b c' h
  obtain ⟨a, c1, h1, h2⟩ := CM.bind_ok.1 h
  obtain ⟨f1, l1, k1, t1⟩ := hx _ _ _ h1
  obtain ⟨f2, l2, k2, t2⟩ := hf a _ _ _ h2
  exact ⟨f2.trans f1, l2.trans l1, k2.trans k1, fun i hi => (t2 i hi).elim (t1 i) .inr⟩

theorem pure (a : α) : Calm (Pure.pure a : CS α) := by
  intro c b c' h
  have := CM.pure_ok.1 h
  cases this; exact ⟨rfl, rfl, rfl, fun _ h => .inl h⟩

theorem throw (e : CErr) : Calm (CM.throw e : CS α) := by
  intro c b c' h
  exact absurd h (by simp [CM.throw])

theorem emit (i : Instr) (pos : LineCol) (hi : i.targets = []) : Calm (onCg (EB.emit i pos)) := by
  intro c b c' h
  have := emit_ok.1 h
  cases this
  refine ⟨rfl, rfl, rfl, fun j hj => ?_⟩
  simp only [Codegen.push, List.mem_append, List.mem_singleton] at hj
  rcases hj with h | rfl
  · exact .inl h
  · exact .inr hi

theorem putGlobalS (key : Str) (p : Proto) (pos : LineCol) : Calm (putGlobalS key p pos) := by
  intro c b c' h
  obtain ⟨s', h1, h2⟩ := putGlobalS_ok.1 h
  subst h2
  exact ⟨rfl, rfl, rfl, fun _ h => .inl h⟩

theorem onCg {x : CG α} (hx : ∀ g a g', x g = .ok (a, g') → g'.fixups = g.fixups ∧ g'.labels = g.labels ∧
    g'.callables = g.callables ∧ ∀ i ∈ g'.code, i ∈ g.code ∨ i.targets = []) : Calm (onCg x) := by
  intro c b c' h
  obtain ⟨g, h1, rfl⟩ := onCg_ok.1 h
  exact hx _ _ _ h1

theorem emitDefault (reg : Reg) (ty : ExprType) (pos : LineCol) : Calm (EB.onCg (emitDefault reg ty pos)) := by
  refine onCg ?_
  intro g a g' h
  unfold EB.emitDefault at h
  cases ty <;>
  · cases h
    refine ⟨rfl, rfl, rfl, fun j hj => ?_⟩
    simp only [Codegen.push, List.mem_append, List.mem_singleton] at hj
    rcases hj with h | rfl
    · exact .inl h
    · exact .inr rfl

theorem emitValue (reg : Reg) (d : ConstantDatum) (pos : LineCol) : Calm (EB.onCg (emitValue reg d pos)) := by
  refine onCg ?_
  intro g a g' h
  have one : ∀ (g : Codegen) (i : Instr) (hi : i.targets = []),
      (g.push i pos).fixups = g.fixups ∧ (g.push i pos).labels = g.labels ∧
      (g.push i pos).callables = g.callables ∧ ∀ j ∈ (g.push i pos).code, j ∈ g.code ∨ j.targets = [] := by
    intro g i hi
    refine ⟨rfl, rfl, rfl, fun j hj => ?_⟩
    simp only [Codegen.push, List.mem_append, List.mem_singleton] at hj
    rcases hj with h | rfl
    · exact .inl h
    · exact .inr hi
  have viaConst : ∀ (d : ConstantDatum) (mk : U16 → Instr), (∀ k, (mk k).targets = []) →
      (do let idx ← getConstant d pos
          let _ ← EB.emit (mk idx) pos : CG Unit) g = .ok (a, g') → 
      g'.fixups = g.fixups ∧ g'.labels = g.labels ∧
      g'.callables = g.callables ∧ ∀ j ∈ g'.code, j ∈ g.code ∨ j.targets = [] := by
    intro d mk hmk h
    obtain ⟨idx, g1, h1, h⟩ := CM.bind_ok.1 h
    obtain ⟨e1, hc, _, hf, _⟩ := getConstant_ok h1
    cases h
    obtain ⟨p1, p2, p3, p4⟩ := one g1 (mk idx) (hmk _)
    rw [hf] at p1; rw [e1.labels] at p2; rw [e1.callables] at p3; rw [hc] at p4
    exact ⟨p1, p2, p3, p4⟩
  unfold EB.emitValue at h
  cases d with
  | boolean b => cases h; exact one _ _ rfl
  | double b => exact viaConst _ _ (fun _ => rfl) h
  | text b => exact viaConst _ _ (fun _ => rfl) h
  | integer i =>
    simp only at h
    split at h
    · cases h; exact one _ _ rfl
    · exact viaConst _ _ (fun _ => rfl) h

theorem prepareScalars (defs : List GlobalDef) : Calm (prepareScalars defs) := by
  induction defs with
  | nil => exact .pure _
  | cons d defs ih =>
    cases d with
    | scalar name ty init =>
      unfold EB.prepareScalars
      refine .bind (.putGlobalS _ _ _) fun _ => ?_
      cases init with
      | none => exact .bind (.emitDefault _ _ _) fun _ => ih
      | some d =>
        simp only
        split
        · exact .bind (.throw _) fun _ => ih
        · exact .bind (.emitValue _ _ _) fun _ => ih
    | array name ty dims =>
      unfold EB.prepareScalars
      split
      · exact .throw _
      · exact .bind (.putGlobalS _ _ _) fun _ => .bind ih fun _ => .pure _

theorem prepareDims (i : Nat) (ds : List Nat) : Calm (prepareDims i ds) := by
  induction ds generalizing i with
  | nil => exact .pure _
  | cons d ds ih =>
    unfold EB.prepareDims
    split
    · exact .throw _
    · split
      · exact .bind (.emit _ _ rfl) fun _ => ih _
      · exact .throw _

theorem prepareArrays (l : List (Reg × ExprType × List Nat)) : Calm (prepareArrays l) := by
  induction l with
  | nil => exact .pure _
  | cons d l ih =>
    obtain ⟨reg, ty, dims⟩ := d
    unfold EB.prepareArrays
    refine .bind (.prepareDims _ _) fun _ => ?_
    split
    · exact .bind (.emit _ _ rfl) fun _ => ih
    · exact .bind (.throw _) fun _ => ih
    · exact .bind (.throw _) fun _ => ih

end Calm

theorem inv_push_eof {c : Ctx} {pos : LineCol} (hi : Inv c) : Inv { c with cg := c.cg.push .eof pos } := by
  have hl : (c.cg.push .eof pos).code.length = c.cg.code.length + 1 := by simp [Codegen.push]
  refine { hi with
    lens := ?_, targets := ?_, refs := ?_, labels := ?_, callables := ?_, fixups := ?_, doExit := ?_, forExit := ?_, calExits := ?_ }
  · have := hi.lens
    simp [Codegen.push]; omega
  · intro i h t ht
    show t ≤ (c.cg.push .eof pos).code.length
    simp only [Codegen.push, List.mem_append, List.mem_singleton] at h
    rcases h with h | rfl
    · have := hi.targets i h t ht; omega
    · simp [Instr.targets] at ht
  · intro i h
    simp only [Codegen.push, List.mem_append, List.mem_singleton] at h
    rcases h with h | rfl
    · exact ⟨(hi.refs i h).1, (hi.refs i h).2⟩
    · exact ⟨by simp [Instr.constRefs], by simp [Instr.upcallRefs]⟩
  · intro k a h
    have := hi.labels k a h
    show a ≤ (c.cg.push .eof pos).code.length; omega
  · intro k s e h
    have := hi.callables k s e h
    show s ≤ (c.cg.push .eof pos).code.length; omega
  · intro a f h
    have := hi.fixups a f h
    show a < (c.cg.push .eof pos).code.length; omega
  · intro l hl p hp
    have := hi.doExit l hl p hp
    show p.1 < (c.cg.push .eof pos).code.length; omega
  · intro l hl p hp
    have := hi.forExit l hl p hp
    show p.1 < (c.cg.push .eof pos).code.length; omega
  · intro p hp
    have := hi.calExits p hp
    show p.1 < (c.cg.push .eof pos).code.length; omega

/-- What `Compiler::new` starts with. -/
theorem idle_new {upcalls : FMap Str Md} {defs : List GlobalDef} {c : Ctx}
    (h : Compiler.new upcalls defs = .ok c) : Idle c := by
  unfold Compiler.new at h
  simp only at h
  split at h
  next u c' hx =>
    cases h
    rw [CM.bind_ok] at hx; obtain ⟨arrays, c1, h1, hx⟩ := hx
    rw [CM.bind_ok] at hx; obtain ⟨u1, c2, h2, hx⟩ := hx
    rw [CM.bind_ok] at hx; obtain ⟨u2, c3, h3, hx⟩ := hx
    have := CM.pure_ok.1 hx; cases this
    have hi := inv_init upcalls
    obtain ⟨E1, l1⟩ := (Ext.refl (n := 0) hi).step (Nat.zero_le _) (.prepareScalars _) h1
    obtain ⟨E2, l2⟩ := E1.step (Nat.zero_le _) (.prepareArrays _) h2
    have h3' := emit_ok.1 h3
    have hcode : c.cg.code = c2.cg.code ++ [.eof] := by cases h3'; rfl
    have hinv : Inv c := by cases h3'; exact inv_push_eof E2.inv
    have hrest : c.doExit = c2.doExit ∧ c.forExit = c2.forExit ∧ c.cur = c2.cur := by cases h3'; exact ⟨rfl, rfl, rfl⟩
    obtain ⟨f3, k3, b3, t3⟩ := Calm.bind (.prepareScalars defs) (fun a => Calm.bind (.prepareArrays a) fun _ =>
      .emit .eof ⟨0, 0⟩ rfl) _ _ _ (CM.bind_ok.2 ⟨_, _, h1, CM.bind_ok.2 ⟨_, _, h2, h3⟩⟩)
    have hd := E2.doExit
    have hf := E2.forExit
    rw [← hrest.1] at hd
    rw [← hrest.2.1] at hf
    have hno : ∀ i ∈ c.cg.code, i.targets = [] := fun i hi => (t3 i hi).elim (fun h => by simp [Codegen.empty] at h) id
    refine ⟨hinv, ⟨_, hcode⟩, ?_, fun i hi t ht => by simp [hno i hi] at ht, ?_, ?_, f3, ?_, ?_, hrest.2.2.trans E2.cur⟩
    · rw [hcode, List.dropLast_concat]
      intro h
      have := E2.eofs h
      simp [Codegen.empty] at this
    · rw [k3]; simp [Codegen.empty, FMap.get?]
    · rw [b3]; simp [Codegen.empty, FMap.get?]
    · exact List.forall₂_nil_left_iff.1 hd
    · exact List.forall₂_nil_left_iff.1 hf
  next => simp at h

/-- Without the last instruction. -/
theorem idle_pop {c : Ctx} (hi : Idle c) : Inv { c with cg := c.cg.popEof } := by
  obtain ⟨body, hb⟩ := hi.eof
  have hpc : c.cg.popEof.code = body := by simp [Codegen.popEof, hb]
  have hpl : c.cg.code.length = body.length + 1 := by rw [hb]; simp
  have hii := hi.inv
  refine { hii with
    lens := ?_, targets := ?_, refs := ?_, labels := ?_, callables := ?_, fixups := ?_, doExit := ?_
    forExit := ?_, calExits := ?_ }
  · have := hii.lens
    simp [Codegen.popEof]; omega
  · intro i h t ht
    have hmem : i ∈ c.cg.code := List.dropLast_subset _ h
    have := hi.targets i hmem t ht
    show t ≤ c.cg.popEof.code.length
    rw [hpc]; omega
  · intro i h
    have hmem : i ∈ c.cg.code := List.dropLast_subset _ h
    exact ⟨(hii.refs i hmem).1, (hii.refs i hmem).2⟩
  · intro k a h
    have := hi.labels k a h
    show a ≤ c.cg.popEof.code.length
    rw [hpc]; omega
  · intro k s e h
    have := hi.callables k s e h
    show s ≤ c.cg.popEof.code.length
    rw [hpc]; omega
  · intro a f h
    have h : c.cg.fixups.get? a = some f := h
    rw [hi.fixups] at h; simp [FMap.get?] at h
  · intro l h
    have h : l ∈ c.doExit := h
    rw [hi.doExit] at h; simp at h
  · intro l h
    have h : l ∈ c.forExit := h
    rw [hi.forExit] at h; simp at h
  · intro p h
    have h : p ∈ c.calExits := h
    rw [hii.calNone hi.cur] at h; simp at h

/-- Compiling a chunk, up to the fixups. -/
theorem compileTop_ok {src : Source} {img : Image} {c c' : Ctx} {d : ImageDelta} (hi : Idle c)
    (h : compileTop src img c = .ok (d, c')) :
    ∃ c1, compileStmts src.stmts { c with cg := c.cg.popEof } = .ok ((), c1) ∧ src.err = none ∧
      Inv { c with cg := c.cg.popEof } ∧
      Ext c.cg.popEof.code.length { c with cg := c.cg.popEof } c1 ∧
      ∃ code, (c1.cg.push .eof ⟨0, 0⟩).applyFixups c1.cg.fixups = .ok code ∧
        c' = { c1 with cg := { c1.cg.push .eof ⟨0, 0⟩ with code := code, fixups := [] } } ∧
        d.code = code.drop (img.code.length - 1) ∧ d.instrs = c'.cg.instrs.drop (img.instrs.length - 1) ∧
        d.constants = c'.cg.constants.keys.drop img.constants.length ∧
        d.upcalls = c'.cg.upcalls.keys.drop img.upcalls.length ∧ d.data = c'.data.drop img.data.length := by
  have hinv := idle_pop hi
  unfold compileTop at h
  split at h
  · simp at h
  next u c1 hc =>
  cases he : src.err with
  | some e => rw [he] at h; simp at h
  | none =>
    rw [he] at h
    simp only at h
    have E := SStep.compileStmts src.stmts _ _ _ _ hinv (Nat.le_refl _) hc
    refine ⟨c1, hc, rfl, hinv, E, ?_⟩
    unfold buildDelta at h
    split at h
    · simp at h
    next code hcode =>
      cases h
      exact ⟨code, hcode, rfl, rfl, rfl, rfl, rfl, rfl⟩

/-- A successful chunk. -/
theorem idle_top {src : Source} {img : Image} {c c' : Ctx} {d : ImageDelta} (hi : Idle c)
    (h : compileTop src img c = .ok (d, c')) :
    Idle c' ∧ c.cg.code.dropLast <+: c'.cg.code ∧ c.cg.instrs.dropLast <+: c'.cg.instrs ∧
      c.cg.constants.Ext c'.cg.constants ∧ c.cg.upcalls.Ext c'.cg.upcalls ∧ c.data <+: c'.data := by
  obtain ⟨body, hb⟩ := hi.eof
  have hpc : c.cg.popEof.code = body := by simp [Codegen.popEof, hb]
  obtain ⟨c1, h1, _, hinv, E, code, hcode, rfl, hd⟩ := compileTop_ok hi h
  rw [hpc] at E
  have hlen : code.length = c1.cg.code.length + 1 := by rw [applyFixups_len hcode]; simp [Codegen.push]
  have hbl : body.length ≤ c1.cg.code.length := by
    have := E.len
    have h2 : ({ c with cg := c.cg.popEof } : Ctx).cg.code.length = body.length := congrArg _ hpc
    omega
  have hnofix : ∀ i < body.length, c1.cg.fixups.get? i = none := by
    intro i hlt
    by_contra hne
    have := E.fixups i (by
      show c1.cg.fixups.get? i ≠ c.cg.fixups.get? i
      rw [hi.fixups]; exact hne)
    have h2 : ({ c with cg := c.cg.popEof } : Ctx).cg.code.length = body.length := congrArg _ hpc
    omega
  have hlast : code[c1.cg.code.length]? = some .eof := by
    rw [applyFixups_none hcode]
    · simp [Codegen.push]
    · cases hf : c1.cg.fixups.get? c1.cg.code.length with
      | none => rfl
      | some f => exact absurd (E.inv.fixups _ _ hf) (Nat.lt_irrefl _)
  have hmem : ∀ i ∈ code, i ∈ c1.cg.code ∨ i = .eof ∨
      ∃ pos f, (c1.cg.push .eof ⟨0, 0⟩).fixupInstr pos f = .ok i := by
    intro i hi
    rcases applyFixups_mem hcode hi with h | h
    · simp only [Codegen.push, List.mem_append, List.mem_singleton] at h
      rcases h with h | h
      · exact .inl h
      · exact .inr (.inl h)
    · exact .inr (.inr h)
  have hd' := E.doExit
  have hf' := E.forExit
  refine ⟨⟨?_, ?_, ?_, ?_, ?_, ?_, rfl, ?_, ?_, ?_⟩, ?_, ?_, E.constants, E.upcalls, E.data⟩
  · refine { E.inv with
      lens := ?_, targets := ?_, refs := ?_, labels := ?_, callables := ?_, fixups := ?_, doExit := ?_
      forExit := ?_, calExits := ?_ }
    · show (c1.cg.instrs ++ _).length = code.length
      rw [hlen]; simp [E.inv.lens]
    · intro i hi t ht
      show t ≤ code.length
      rw [hlen]
      rcases hmem i hi with h | rfl | ⟨pos, f, h⟩
      · have := E.inv.targets i h t ht; omega
      · simp [Instr.targets] at ht
      · rcases fixupInstr_targets h t ht with ⟨k, h⟩ | ⟨k, e, h⟩
        · have := E.inv.labels k t h; omega
        · have := E.inv.callables k t e h; omega
    · intro i hi
      rcases hmem i hi with h | rfl | ⟨pos, f, h⟩
      · exact ⟨(E.inv.refs i h).1, (E.inv.refs i h).2⟩
      · exact ⟨by simp [Instr.constRefs], by simp [Instr.upcallRefs]⟩
      · obtain ⟨h1, h2⟩ := fixupInstr_refs h
        exact ⟨by simp [h1], by simp [h2]⟩
    · intro k a h
      have := E.inv.labels k a h
      show a ≤ code.length; omega
    · intro k s e h
      have := E.inv.callables k s e h
      show s ≤ code.length; omega
    · intro a f h; simp [FMap.get?] at h
    · intro l hl p hp
      have := E.inv.doExit l hl p hp
      show p.1 < code.length; omega
    · intro l hl p hp
      have := E.inv.forExit l hl p hp
      show p.1 < code.length; omega
    · intro p hp
      have := E.inv.calExits p hp
      show p.1 < code.length; omega
  · refine ⟨code.dropLast, ?_⟩
    have hne : code ≠ [] := by intro h; rw [h] at hlen; simp at hlen
    have := List.dropLast_append_getLast hne
    rw [List.getLast_eq_getElem] at this
    have he : code[code.length - 1]'(by omega) = .eof := by
      have h2 : code.length - 1 = c1.cg.code.length := by omega
      have h3 := hlast
      rw [← h2, List.getElem?_eq_getElem (by omega)] at h3
      exact Option.some.inj h3
    rw [he] at this
    exact this.symm
  · intro h
    obtain ⟨i, hlt, hi'⟩ := List.mem_iff_getElem.1 h
    rw [List.length_dropLast, hlen] at hlt
    rw [List.getElem_dropLast] at hi'
    have h' : code[i]? = some .eof := by rw [List.getElem?_eq_getElem (by omega), hi']
    have hbody : .eof ∉ body := by
      have := hi.once
      rwa [hb, List.dropLast_concat] at this
    cases hf : c1.cg.fixups.get? i with
    | some f =>
      obtain ⟨m, ins, _, h2, h3⟩ := applyFixups_some hcode hf
      rw [h3 (by simp [Codegen.push]; omega)] at h'
      cases h'
      exact fixupInstr_eof h2
    | none =>
      rw [applyFixups_none hcode hf] at h'
      have h' : (c1.cg.code ++ [.eof])[i]? = some .eof := h'
      rw [List.getElem?_append_left (by omega)] at h'
      have := E.eofs (List.mem_of_getElem? h')
      have h2 : ({ c with cg := c.cg.popEof } : Ctx).cg.code = body := hpc
      rw [h2] at this
      exact hbody this
  · intro i hi t ht
    show t < code.length
    rw [hlen]
    rcases hmem i hi with h | rfl | ⟨pos, f, h⟩
    · have := E.inv.targets i h t ht; omega
    · simp [Instr.targets] at ht
    · rcases fixupInstr_targets h t ht with ⟨k, h⟩ | ⟨k, e, h⟩
      · have := E.inv.labels k t h; omega
      · have := E.inv.callables k t e h; omega
  · intro k a h
    have := E.inv.labels k a h
    show a < code.length; omega
  · intro k s e h
    have := E.inv.callables k s e h
    show s < code.length; omega
  · have hd' : List.Forall₂ (More body.length) c.doExit c1.doExit := hd'
    rw [hi.doExit] at hd'
    exact List.forall₂_nil_left_iff.1 hd'
  · have hf' : List.Forall₂ (More body.length) c.forExit c1.forExit := hf'
    rw [hi.forExit] at hf'
    exact List.forall₂_nil_left_iff.1 hf'
  · exact E.cur.trans hi.cur
  · have hpre : c.cg.code.dropLast = body := hpc
    rw [hpre, List.prefix_iff_getElem?]
    intro i hlt
    show code[i]? = _
    have h1 := E.code i hlt
    have h2 : ({ c with cg := c.cg.popEof } : Ctx).cg.code[i]? = body[i]? := by
      show c.cg.popEof.code[i]? = _
      rw [hpc]
    rw [h2] at h1
    rw [applyFixups_none hcode (hnofix i hlt)]
    show (c1.cg.code ++ _)[i]? = _
    rw [List.getElem?_append_left (by omega), h1, List.getElem?_eq_getElem hlt]
  · have hil : c.cg.instrs.dropLast.length = body.length := by
      have := hi.inv.lens
      rw [List.length_dropLast, this, hb]; simp
    rw [List.prefix_iff_getElem?]
    intro i hlt
    show (c1.cg.instrs ++ _)[i]? = _
    have h1 := E.instrs i (by omega)
    have h2 : ({ c with cg := c.cg.popEof } : Ctx).cg.instrs[i]? = c.cg.instrs.dropLast[i]? := rfl
    rw [h2] at h1
    have := E.inv.lens
    rw [List.getElem?_append_left (by omega), h1, List.getElem?_eq_getElem hlt]

theorem drop_append_prefix {α : Type} {a b : List α} (h : a <+: b) : a ++ b.drop a.length = b := by
  obtain ⟨t, rfl⟩ := h
  simp

/-- The invariant holds between any two chunks. -/
theorem synced_more {src : Source} {img : Image} {c c' : Ctx} {d : ImageDelta} (h : Synced c img)
    (hc : compileTop src img c = .ok (d, c')) : Synced c' (img.append d) ∧ Fresh c' (img.append d) := by
  obtain ⟨hi, hcode, hinstrs, hconst, hup, hdata⟩ := idle_top h.idle hc
  obtain ⟨c1, _, _, _, _, code, _, hc', d1, d2, d3, d4, d5⟩ := compileTop_ok h.idle hc
  have hcc : c'.cg.code = code := by rw [hc']
  have fresh : Fresh c' (img.append d) := by
    rcases h.img with rfl | hf
    · exact ⟨by rw [hcc]; simp [Image.append, Image.default, d1], by simp [Image.append, Image.default, d2],
        by simp [Image.append, Image.default, d3], by simp [Image.append, Image.default, d4],
        by simp [Image.append, Image.default, d5]⟩
    · refine ⟨?_, ?_, ?_, ?_, ?_⟩
      · show img.code.dropLast ++ d.code = _
        rw [d1, hf.code, ← hcc, ← List.length_dropLast]
        exact drop_append_prefix hcode
      · show img.instrs.dropLast ++ d.instrs = _
        rw [d2, hf.instrs, ← List.length_dropLast]
        exact drop_append_prefix hinstrs
      · show img.constants ++ d.constants = _
        rw [d3, hf.constants]
        exact drop_append_prefix (hconst.keys h.idle.inv.constants)
      · show img.upcalls ++ d.upcalls = _
        rw [d4, hf.upcalls]
        exact drop_append_prefix (hup.keys h.idle.inv.upcalls)
      · show img.data ++ d.data = _
        rw [d5, hf.data]
        exact drop_append_prefix hdata
  exact ⟨⟨hi, .inr fresh⟩, fresh⟩

/-- Every state of a session is in order. -/
theorem synced_of_later {s s' : Ctx × Image} (h : Spec.Later s s') (hs : Synced s.1 s.2) : Synced s'.1 s'.2 := by
  induction h with
  | refl => exact hs
  | more _ hm ih =>
    obtain ⟨r, hm⟩ := hm
    unfold compileMore at hm
    split at hm
    next =>
      simp only [Prod.mk.injEq] at hm
      rw [← hm.2.1, ← hm.2.2]; exact ih
    next d c' hc =>
      simp only [Prod.mk.injEq] at hm
      obtain ⟨_, h1, h2⟩ := hm
      rw [← h1, ← h2]
      exact (synced_more ih hc).1

theorem synced_of_reached {c : Ctx} {img : Image} (h : Spec.Reached c img) : Synced c img := by
  obtain ⟨upcalls, defs, c0, hn, hl⟩ := h
  exact synced_of_later hl ⟨idle_new hn, .inl rfl⟩

/-- An accepted chunk. -/
theorem compileMore_ok {src : Source} {c c' : Ctx} {img img' : Image} {u : Unit}
    (h : compileMore src c img = (.ok u, c', img')) :
    ∃ d, compileTop src img c = .ok (d, c') ∧ img' = img.append d := by
  unfold compileMore at h
  split at h
  next => simp at h
  next d c'' hc =>
    simp only [Prod.mk.injEq] at h
    obtain ⟨_, h1, h2⟩ := h
    subst h1; subst h2
    exact ⟨d, hc, rfl⟩

theorem compileMore_err {src : Source} {c c' : Ctx} {img img' : Image} {e : CErr}
    (h : compileMore src c img = (.error e, c', img')) : c' = c ∧ img' = img := by
  unfold compileMore at h
  split at h
  next => simp only [Prod.mk.injEq] at h; exact ⟨h.2.1.symm, h.2.2.symm⟩
  next => simp at h

theorem grown_more {src : Source} {c c' : Ctx} {img img' : Image} {r : Except CErr Unit} (hs : Synced c img)
    (h : compileMore src c img = (r, c', img')) :
    img.code.dropLast <+: img'.code.dropLast ∧ img.instrs.dropLast <+: img'.instrs.dropLast ∧
      img.constants <+: img'.constants ∧ img.upcalls <+: img'.upcalls ∧ img.data <+: img'.data := by
  cases r with
  | error e =>
    obtain ⟨rfl, rfl⟩ := compileMore_err h
    exact ⟨List.prefix_refl _, List.prefix_refl _, List.prefix_refl _, List.prefix_refl _, List.prefix_refl _⟩
  | ok u =>
    obtain ⟨d, hc, rfl⟩ := compileMore_ok h
    obtain ⟨hi, hcode, hinstrs, hconst, hup, hdata⟩ := idle_top hs.idle hc
    obtain ⟨_, hf⟩ := synced_more hs hc
    have hcl : ∀ {α : Type} {a b : List α}, a.dropLast <+: b → a.length ≤ b.length → a.dropLast <+: b.dropLast := by
      intro α a b h hl
      rw [List.prefix_iff_eq_take] at h ⊢
      rw [List.length_dropLast] at h ⊢
      rw [List.dropLast_eq_take (l := b), List.take_take, show min (a.length - 1) (b.length - 1) = a.length - 1 by omega]
      exact h
    obtain ⟨body, hb⟩ := hs.idle.eof
    obtain ⟨body', hb'⟩ := hi.eof
    have hlen : c.cg.code.length ≤ c'.cg.code.length := by
      have := hcode.length_le
      obtain ⟨c1, _, _, _, E, code, hcd, rfl, _⟩ := compileTop_ok hs.idle hc
      have l1 := E.len
      have l2 := applyFixups_len hcd
      have l3 : ({ c with cg := c.cg.popEof } : Ctx).cg.code.length = body.length := by
        show c.cg.popEof.code.length = _
        simp [Codegen.popEof, hb]
      show c.cg.code.length ≤ code.length
      rw [l2, hb]
      simp [Codegen.push]; omega
    have hilen : c.cg.instrs.length ≤ c'.cg.instrs.length := by
      rw [hs.idle.inv.lens, hi.inv.lens]; exact hlen
    rcases hs.img with rfl | hfr
    · refine ⟨List.nil_prefix, List.nil_prefix, List.nil_prefix, List.nil_prefix, List.nil_prefix⟩
    · rw [hf.code, hf.instrs, hf.constants, hf.upcalls, hf.data, hfr.code, hfr.instrs, hfr.constants, hfr.upcalls, hfr.data]
      exact ⟨hcl hcode hlen, hcl hinstrs hilen, hconst.keys hs.idle.inv.constants, hup.keys hs.idle.inv.upcalls, hdata⟩

theorem grown_later {s s' : Ctx × Image} (h : Spec.Later s s') (hs : Synced s.1 s.2) :
    s.2.code.dropLast <+: s'.2.code.dropLast ∧ s.2.instrs.dropLast <+: s'.2.instrs.dropLast ∧
      s.2.constants <+: s'.2.constants ∧ s.2.upcalls <+: s'.2.upcalls ∧ s.2.data <+: s'.2.data := by
  induction h with
  | refl => exact ⟨List.prefix_refl _, List.prefix_refl _, List.prefix_refl _, List.prefix_refl _, List.prefix_refl _⟩
  | more hl hm ih =>
    obtain ⟨r, hm⟩ := hm
    obtain ⟨a1, a2, a3, a4, a5⟩ := ih
    obtain ⟨b1, b2, b3, b4, b5⟩ := grown_more (synced_of_later hl hs) hm
    exact ⟨a1.trans b1, a2.trans b2, a3.trans b3, a4.trans b4, a5.trans b5⟩

/-- The image itself. -/
theorem image_ok {c : Ctx} {img : Image} (h : Synced c img) :
    img.instrs.length = img.code.length ∧ (∃ body, img.code = body ++ [.eof]) ∧
      img.constants.Nodup ∧ img.upcalls.Nodup ∧
      (∀ i ∈ img.code, ∀ t ∈ i.targets, t < img.code.length) ∧
      (∀ i ∈ img.code, ∀ k ∈ i.constRefs, k < img.constants.length) ∧
      (∀ i ∈ img.code, ∀ k ∈ i.upcallRefs, k < img.upcalls.length) := by
  rcases h.img with rfl | hf
  · refine ⟨rfl, ⟨[], rfl⟩, List.nodup_nil, List.nodup_nil, ?_, ?_, ?_⟩ <;>
      simp [Image.default, Instr.targets, Instr.constRefs, Instr.upcallRefs]
  · have hi := h.idle.inv
    rw [hf.code, hf.instrs, hf.constants, hf.upcalls, IdMap.keys_length, IdMap.keys_length]
    exact ⟨hi.lens, h.idle.eof, IdMap.keys_nodup hi.constants, IdMap.keys_nodup hi.upcalls, h.idle.targets,
      fun i h => (hi.refs i h).1, fun i h => (hi.refs i h).2⟩

end EB
