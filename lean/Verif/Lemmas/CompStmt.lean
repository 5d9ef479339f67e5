import Verif.Lemmas.CompExpr
import Mathlib.Data.List.Forall2
/-!
# What compiling statements does to the compiler

`Inv` is an invariant of the compiler; `Ext n` says that a compilation step keeps everything that was
there before, in particular the code below address `n`.
-/

namespace EB

/-- `l'` is `l` with more addresses, all of them at or after `n`. -/
def More (n : Nat) (l l' : List (Nat × LineCol)) : Prop := ∃ ex, l' = l ++ ex ∧ ∀ p ∈ ex, n ≤ p.1

theorem More.refl (n : Nat) (l : List (Nat × LineCol)) : More n l l := ⟨[], by simp, by simp⟩

theorem More.trans {n : Nat} {a b c : List (Nat × LineCol)} (h1 : More n a b) (h2 : More n b c) :
    More n a c := by
  obtain ⟨e1, rfl, h1⟩ := h1
  obtain ⟨e2, rfl, h2⟩ := h2
  refine ⟨e1 ++ e2, by simp, ?_⟩
  intro p hp
  rcases List.mem_append.1 hp with h | h
  · exact h1 p h
  · exact h2 p h

theorem More.weaken {n m : Nat} {a b : List (Nat × LineCol)} (h : More m a b) (hn : n ≤ m) : More n a b := by
  obtain ⟨e, rfl, h⟩ := h
  exact ⟨e, rfl, fun p hp => Nat.le_trans hn (h p hp)⟩

/-- The invariant of the compiler. -/
structure Inv (c : Ctx) : Prop where
  lens : c.cg.instrs.length = c.cg.code.length
  constants : c.cg.constants.Wf
  upcalls : c.cg.upcalls.Wf
  constLimit : c.cg.constants.len ≤ 65536
  upcallLimit : c.cg.upcalls.len ≤ 65536
  globals : c.sy.globals.Wf
  locals : c.sy.locals.Wf
  globalLimit : c.sy.globals.len ≤ 64
  localLimit : c.sy.locals.len ≤ 192
  targets : ∀ i ∈ c.cg.code, ∀ t ∈ i.targets, t ≤ c.cg.code.length
  refs : ∀ i ∈ c.cg.code, RefsOk c.cg i
  labels : ∀ k a, c.cg.labels.get? k = some a → a ≤ c.cg.code.length
  callables : ∀ k s e, c.cg.callables.get? k = some (s, e) → s ≤ c.cg.code.length
  fixups : ∀ a f, c.cg.fixups.get? a = some f → a < c.cg.code.length
  doExit : ∀ l ∈ c.doExit, ∀ p ∈ l, p.1 < c.cg.code.length
  forExit : ∀ l ∈ c.forExit, ∀ p ∈ l, p.1 < c.cg.code.length
  calExits : ∀ p ∈ c.calExits, p.1 < c.cg.code.length
  calNone : c.cur = none → c.calExits = []
  defined : ∀ k v, c.cg.callables.get? k = some v → k ∈ c.defined

/-- Everything that `c` knows is still there in `c'`, and the code below `n` has not changed. -/
structure Ext (n : Nat) (c c' : Ctx) : Prop where
  inv : Inv c'
  len : c.cg.code.length ≤ c'.cg.code.length
  code : ∀ i < n, c'.cg.code[i]? = c.cg.code[i]?
  instrs : ∀ i < n, c'.cg.instrs[i]? = c.cg.instrs[i]?
  constants : c.cg.constants.Ext c'.cg.constants
  upcalls : c.cg.upcalls.Ext c'.cg.upcalls
  fixups : ∀ a, c'.cg.fixups.get? a ≠ c.cg.fixups.get? a → c.cg.code.length ≤ a
  labels : ∀ k a, c.cg.labels.get? k = some a → c'.cg.labels.get? k = some a
  newLabels : ∀ k a, c'.cg.labels.get? k = some a → c.cg.labels.get? k = none → c.cg.code.length ≤ a
  callables : ∀ k v, c.cg.callables.get? k = some v → c'.cg.callables.get? k = some v
  data : c.data <+: c'.data
  globals : c.sy.globals.Ext c'.sy.globals
  locals : c.sy.locals.Ext c'.sy.locals
  user : ∀ k md, c.sy.user.get? k = some md → c'.sy.user.get? k = some md
  builtin : c'.sy.upcalls = c.sy.upcalls
  cur : c'.cur = c.cur
  defined : ∀ k ∈ c.defined, k ∈ c'.defined
  inside : c.cur ≠ none → c'.defined = c.defined
  doExit : List.Forall₂ (More n) c.doExit c'.doExit
  forExit : List.Forall₂ (More n) c.forExit c'.forExit
  calExits : More n c.calExits c'.calExits
  eofs : .eof ∈ c'.cg.code → .eof ∈ c.cg.code

theorem forall2_more_refl (n : Nat) (l : List (List (Nat × LineCol))) : List.Forall₂ (More n) l l :=
  List.forall₂_same.2 fun _ _ => More.refl _ _

theorem forall2_more_trans {n : Nat} {a b c : List (List (Nat × LineCol))} (h1 : List.Forall₂ (More n) a b)
    (h2 : List.Forall₂ (More n) b c) : List.Forall₂ (More n) a c := by
  induction h1 generalizing c with
  | nil => exact h2
  | cons h _ ih => cases h2 with
    | cons h' h2 => exact .cons (h.trans h') (ih h2)

theorem Ext.refl {n : Nat} {c : Ctx} (h : Inv c) : Ext n c c :=
  ⟨h, Nat.le_refl _, fun _ _ => rfl, fun _ _ => rfl, .refl _, .refl _, by simp, fun _ _ h => h,
    fun _ _ h1 h2 => by simp [h1] at h2, fun _ _ h => h, List.prefix_refl _, .refl _, .refl _,
    fun _ _ h => h, rfl, rfl, fun _ h => h, fun _ => rfl, forall2_more_refl _ _, forall2_more_refl _ _, .refl _ _, id⟩

theorem Ext.trans {n : Nat} {a b c : Ctx} (h1 : Ext n a b) (h2 : Ext n b c) : Ext n a c := by
  refine ⟨h2.inv, Nat.le_trans h1.len h2.len, fun i hi => (h2.code i hi).trans (h1.code i hi),
    fun i hi => (h2.instrs i hi).trans (h1.instrs i hi), h1.constants.trans h2.constants,
    h1.upcalls.trans h2.upcalls, ?_, fun k v h => h2.labels k v (h1.labels k v h), ?_,
    fun k v h => h2.callables k v (h1.callables k v h), h1.data.trans h2.data, h1.globals.trans h2.globals,
    h1.locals.trans h2.locals, fun k v h => h2.user k v (h1.user k v h), h2.builtin.trans h1.builtin,
    h2.cur.trans h1.cur, fun k h => h2.defined k (h1.defined k h), ?_,
    forall2_more_trans h1.doExit h2.doExit, forall2_more_trans h1.forExit h2.forExit,
    h1.calExits.trans h2.calExits, fun h => h1.eofs (h2.eofs h)⟩
  · intro i hi
    by_cases h : b.cg.fixups.get? i = a.cg.fixups.get? i
    · rw [← h] at hi; exact h1.len.trans (h2.fixups i hi)
    · exact h1.fixups i h
  · intro k v hc ha
    cases hb : b.cg.labels.get? k with
    | none => exact h1.len.trans (h2.newLabels k v hc hb)
    | some w =>
      have := h2.labels k w hb
      rw [hc] at this
      cases this
      exact h1.newLabels k v hb ha
  · intro h
    rw [h2.inside (by rw [h1.cur]; exact h), h1.inside h]

theorem Ext.weaken {n m : Nat} {a b : Ctx} (h : Ext m a b) (hn : n ≤ m) : Ext n a b :=
  { h with
    code := fun i hi => h.code i (by omega)
    instrs := fun i hi => h.instrs i (by omega)
    doExit := h.doExit.imp fun _ _ h => h.weaken hn
    forExit := h.forExit.imp fun _ _ h => h.weaken hn
    calExits := h.calExits.weaken hn }

/-- Code generation functions only append. -/
theorem ext_of_gext {n : Nat} {c : Ctx} {g : Codegen} (hi : Inv c) (hn : n ≤ c.cg.code.length)
    (h : GExt c.cg g) : Ext n c { c with cg := g } := by
  have hlen := h.len
  refine { Ext.refl hi with
    inv := ?_, len := h.len, code := ?_, instrs := ?_, constants := h.constants, upcalls := h.upcalls
    fixups := fun a ha => (h.fixups a ha).1
    labels := fun k v hk => by rw [h.labels]; exact hk
    newLabels := fun k v h1 h2 => by rw [h.labels] at h1; simp [h1] at h2
    callables := fun k v hk => by rw [h.callables]; exact hk
    eofs := h.eofs }
  · refine { hi with
      lens := h.lens_eq hi.lens, constants := h.constants.wf hi.constants, upcalls := h.upcalls.wf hi.upcalls
      constLimit := h.constLimit hi.constLimit, upcallLimit := h.upcallLimit hi.upcallLimit
      targets := ?_, refs := ?_, labels := ?_, callables := ?_, fixups := ?_, doExit := ?_, forExit := ?_, calExits := ?_
      defined := ?_ }
    · intro i hi' t ht
      rcases h.targets i hi' with h' | ⟨h', _⟩
      · exact Nat.le_trans (hi.targets i h' t ht) hlen
      · simp [h'] at ht
    · intro i hi'
      rcases h.targets i hi' with h' | ⟨_, h'⟩
      · exact h.refs (hi.refs i h')
      · exact h' ⟨hi.constants, hi.upcalls, hi.constLimit, hi.upcallLimit⟩
    · intro k a hk
      rw [h.labels] at hk
      exact Nat.le_trans (hi.labels k a hk) hlen
    · intro k s e hk
      rw [h.callables] at hk
      exact Nat.le_trans (hi.callables k s e hk) hlen
    · intro a f ha
      by_cases hne : g.fixups.get? a = c.cg.fixups.get? a
      · exact Nat.lt_of_lt_of_le (hi.fixups a f (by rw [← hne]; exact ha)) hlen
      · exact (h.fixups a hne).2
    · intro l hl p hp; exact Nat.lt_of_lt_of_le (hi.doExit l hl p hp) hlen
    · intro l hl p hp; exact Nat.lt_of_lt_of_le (hi.forExit l hl p hp) hlen
    · intro p hp; exact Nat.lt_of_lt_of_le (hi.calExits p hp) hlen
    · intro k v hk
      rw [h.callables] at hk
      exact hi.defined k v hk
  · intro i hi'
    obtain ⟨t, ht⟩ := h.code
    show g.code[i]? = _
    rw [← ht, List.getElem?_append_left (by omega)]
  · intro i hi'
    obtain ⟨t, ht⟩ := h.instrs
    have := hi.lens
    show g.instrs[i]? = _
    rw [← ht, List.getElem?_append_left (by omega)]

theorem onCg_ok {α : Type} {x : CG α} {c c' : Ctx} {a : α} :
    onCg x c = .ok (a, c') ↔ ∃ g, x c.cg = .ok (a, g) ∧ c' = { c with cg := g } := by
  unfold onCg
  constructor
  · intro h
    split at h
    next b g hx => cases h; exact ⟨g, hx, rfl⟩
    next => simp at h
  · rintro ⟨g, hx, rfl⟩
    rw [hx]

theorem withSyms_ok {α : Type} {f : Syms → CG α} {c c' : Ctx} {a : α} :
    withSyms f c = .ok (a, c') ↔ ∃ g, f c.sy c.cg = .ok (a, g) ∧ c' = { c with cg := g } := by
  unfold withSyms
  constructor
  · intro h
    split at h
    next b g hx => cases h; exact ⟨g, hx, rfl⟩
    next => simp at h
  · rintro ⟨g, hx, rfl⟩
    rw [hx]

/-- A compilation step that keeps everything. -/
def SStep {α : Type} (x : CS α) : Prop :=
  ∀ n c a c', Inv c → n ≤ c.cg.code.length → x c = .ok (a, c') → Ext n c c'

namespace SStep
variable {α β : Type}

theorem bind {x : CS α} {f : α → CS β} (hx : SStep x) (hf : ∀ a, SStep (f a)) : SStep (x >>= f) := by
  intro n c b c' hi hn h
  obtain ⟨a, c1, h1, h2⟩ := CM.bind_ok.1 h
  have e1 := hx n _ _ _ hi hn h1
  exact e1.trans (hf a n _ _ _ e1.inv (Nat.le_trans hn e1.len) h2)

theorem pure (a : α) : SStep (Pure.pure a : CS α) := by
  intro n c b c' hi _ h
  have := CM.pure_ok.1 h
  cases this; exact .refl hi

theorem throw (e : CErr) : SStep (CM.throw e : CS α) := by
  intro n c b c' _ _ h
  exact absurd h (by simp [CM.throw])

theorem lift (x : Except CErr α) : SStep (CM.lift x : CS α) := by
  intro n c b c' hi _ h
  obtain ⟨a, _, h⟩ := CM.lift_ok.1 h
  cases h; exact .refl hi

theorem onCg {x : CG α} (hx : GStep x) : SStep (onCg x) := by
  intro n c a c' hi hn h
  obtain ⟨g, h1, rfl⟩ := onCg_ok.1 h
  exact ext_of_gext hi hn (hx _ _ _ hi.lens h1)

theorem withSyms {f : Syms → CG α} (hx : ∀ sy, GStep (f sy)) : SStep (withSyms f) := by
  intro n c a c' hi hn h
  obtain ⟨g, h1, rfl⟩ := withSyms_ok.1 h
  exact ext_of_gext hi hn (hx _ _ _ _ hi.lens h1)

theorem assignErr {x : CS α} (hx : SStep x) : SStep (assignErr x) := by
  intro n c a c' hi hn h
  unfold EB.assignErr at h
  split at h
  · simp at h
  · exact hx n c a c' hi hn h

end SStep

/-! ## Patching -/

theorem mkTarget_ok {t : Nat} {pos : LineCol} {u : U16} (h : mkTarget t pos = .ok u) : u.toNat = t := by
  unfold mkTarget at h
  split at h
  next hlt => cases h; simp; omega
  next => simp at h

/-- Replacing an instruction at or after `n`. -/
theorem ext_patch {n addr : Nat} {c : Ctx} {i : Instr} (hi : Inv c) (ha : n ≤ addr)
    (ht : ∀ t ∈ i.targets, t ≤ c.cg.code.length)
    (hr : i.constRefs = [] ∧ i.upcallRefs = [] := by exact ⟨rfl, rfl⟩) (he : i ≠ .eof := by simp) :
    Ext n c { c with cg := c.cg.patch addr i } := by
  have hl : (c.cg.patch addr i).code.length = c.cg.code.length := by simp [Codegen.patch]
  refine { Ext.refl hi with inv := ?_, len := by rw [hl], code := ?_, eofs := fun h => ?_ }
  · refine { hi with
      lens := by rw [hl]; exact hi.lens
      targets := ?_
      refs := ?_
      labels := by rw [hl]; exact hi.labels
      callables := by rw [hl]; exact hi.callables
      fixups := by rw [hl]; exact hi.fixups
      doExit := by rw [hl]; exact hi.doExit
      forExit := by rw [hl]; exact hi.forExit
      calExits := by rw [hl]; exact hi.calExits }
    · intro j hj t ht'
      rw [hl]
      rcases List.mem_or_eq_of_mem_set hj with h | rfl
      · exact hi.targets j h t ht'
      · exact ht t ht'
    · intro j hj
      rcases List.mem_or_eq_of_mem_set hj with h | rfl
      · exact ⟨(hi.refs j h).1, (hi.refs j h).2⟩
      · exact ⟨by simp [hr.1], by simp [hr.2]⟩
  · intro j hj
    show (c.cg.code.set addr i)[j]? = _
    rw [List.getElem?_set_ne (by omega)]
  · exact (List.mem_or_eq_of_mem_set h).resolve_right fun h => he h.symm

theorem patchJump_ok {addr target : Nat} {pos : LineCol} {c : Ctx} {r : Unit × Ctx} :
    patchJump addr target pos c = .ok r ↔
      ∃ t, mkTarget target pos = .ok t ∧ r = ((), { c with cg := c.cg.patch addr (.jump t) }) := by
  unfold patchJump patchS
  rw [CM.bind_ok]
  constructor
  · rintro ⟨t, c1, h1, h2⟩
    obtain ⟨t', h0, h3⟩ := CM.lift_ok.1 h1
    cases h3
    exact ⟨t, h0, CM.modify_ok.1 h2⟩
  · rintro ⟨t, h1, h2⟩
    exact ⟨t, c, CM.lift_ok.2 ⟨t, h1, rfl⟩, CM.modify_ok.2 h2⟩

theorem patchJumpIfFalse_ok {addr target : Nat} {cond : Reg} {pos : LineCol} {c : Ctx} {r : Unit × Ctx} :
    patchJumpIfFalse addr cond target pos c = .ok r ↔
      ∃ t, mkTarget target pos = .ok t ∧ r = ((), { c with cg := c.cg.patch addr (.jumpIfFalse cond t) }) := by
  unfold patchJumpIfFalse patchS
  rw [CM.bind_ok]
  constructor
  · rintro ⟨t, c1, h1, h2⟩
    obtain ⟨t', h0, h3⟩ := CM.lift_ok.1 h1
    cases h3
    exact ⟨t, h0, CM.modify_ok.1 h2⟩
  · rintro ⟨t, h1, h2⟩
    exact ⟨t, c, CM.lift_ok.2 ⟨t, h1, rfl⟩, CM.modify_ok.2 h2⟩

theorem ext_patchJump {n addr target : Nat} {pos : LineCol} {c c' : Ctx} {a : Unit} (hi : Inv c) (ha : n ≤ addr)
    (ht : target ≤ c.cg.code.length) (h : patchJump addr target pos c = .ok (a, c')) :
    Ext n c c' ∧ c'.cg.code.length = c.cg.code.length := by
  obtain ⟨t, h1, h2⟩ := patchJump_ok.1 h
  cases h2
  refine ⟨ext_patch hi ha ?_, by simp [Codegen.patch]⟩
  intro t' ht'
  simp only [Instr.targets, List.mem_singleton] at ht'
  rw [ht', mkTarget_ok h1]; exact ht

theorem ext_patchJumpIfFalse {n addr target : Nat} {cond : Reg} {pos : LineCol} {c c' : Ctx} {a : Unit}
    (hi : Inv c) (ha : n ≤ addr) (ht : target ≤ c.cg.code.length)
    (h : patchJumpIfFalse addr cond target pos c = .ok (a, c')) :
    Ext n c c' ∧ c'.cg.code.length = c.cg.code.length := by
  obtain ⟨t, h1, h2⟩ := patchJumpIfFalse_ok.1 h
  cases h2
  refine ⟨ext_patch hi ha ?_, by simp [Codegen.patch]⟩
  intro t' ht'
  simp only [Instr.targets, List.mem_singleton] at ht'
  rw [ht', mkTarget_ok h1]; exact ht

theorem ext_patchJumps {n target : Nat} (l : List (Nat × LineCol)) {c c' : Ctx} {a : Unit} (hi : Inv c)
    (ha : ∀ p ∈ l, n ≤ p.1) (ht : target ≤ c.cg.code.length)
    (h : patchJumps target l c = .ok (a, c')) : Ext n c c' ∧ c'.cg.code.length = c.cg.code.length := by
  induction l generalizing c with
  | nil =>
    have := CM.pure_ok.1 h
    cases this; exact ⟨.refl hi, rfl⟩
  | cons p l ih =>
    obtain ⟨addr, pos⟩ := p
    obtain ⟨u, c1, h1, h2⟩ := CM.bind_ok.1 h
    obtain ⟨e1, l1⟩ := ext_patchJump hi (ha _ (List.mem_cons_self ..)) ht h1
    obtain ⟨e2, l2⟩ := ih e1.inv (fun p hp => ha p (List.mem_cons_of_mem _ hp)) (by omega) h2
    exact ⟨e1.trans e2, by omega⟩

/-- The only statement-level code that has a target when it is emitted. -/
theorem ext_emit {n : Nat} {i : Instr} {pos : LineCol} {c : Ctx} (hi : Inv c) (hn : n ≤ c.cg.code.length)
    (ht : ∀ t ∈ i.targets, t ≤ c.cg.code.length)
    (hr : i.constRefs = [] ∧ i.upcallRefs = [] := by exact ⟨rfl, rfl⟩) (he : i ≠ .eof := by simp) :
    Ext n c { c with cg := c.cg.push i pos } := by
  have e1 : Ext n c { c with cg := c.cg.push .nop pos } := ext_of_gext hi hn (GStep.emit .nop pos rfl _ _ _ hi.lens rfl)
  have e2 := ext_patch (n := n) (addr := c.cg.code.length) (i := i) e1.inv hn (by
    intro t h
    have := ht t h
    simp [Codegen.push]; omega) hr he
  have : ((c.cg.push .nop pos).patch c.cg.code.length i) = c.cg.push i pos := by
    simp [Codegen.push, Codegen.patch]
  rw [this] at e2
  exact e1.trans e2

theorem emitJump_ok {target : Nat} {pos : LineCol} {c : Ctx} {r : Unit × Ctx} :
    emitJump target pos c = .ok r ↔
      ∃ t, mkTarget target pos = .ok t ∧ r = ((), { c with cg := c.cg.push (.jump t) pos }) := by
  unfold emitJump
  rw [CM.bind_ok]
  constructor
  · rintro ⟨t, c1, h1, h2⟩
    obtain ⟨t', h0, h3⟩ := CM.lift_ok.1 h1
    cases h3
    obtain ⟨a, c2, h2, h3⟩ := CM.bind_ok.1 h2
    cases h2
    exact ⟨t, h0, CM.pure_ok.1 h3⟩
  · rintro ⟨t, h1, rfl⟩
    exact ⟨t, c, CM.lift_ok.2 ⟨t, h1, rfl⟩, rfl⟩

theorem ext_emitJump {n target : Nat} {pos : LineCol} {c c' : Ctx} {a : Unit} (hi : Inv c)
    (hn : n ≤ c.cg.code.length) (ht : target ≤ c.cg.code.length) (h : emitJump target pos c = .ok (a, c')) :
    Ext n c c' ∧ c'.cg.code.length = c.cg.code.length + 1 := by
  obtain ⟨t, h1, h2⟩ := emitJump_ok.1 h
  cases h2
  refine ⟨ext_emit hi hn ?_, by simp [Codegen.push]⟩
  intro t' ht'
  simp only [Instr.targets, List.mem_singleton] at ht'
  rw [ht', mkTarget_ok h1]; exact ht

theorem pcNow_ok {c : Ctx} {r : Nat × Ctx} : pcNow c = .ok r ↔ r = (c.cg.code.length, c) := by
  unfold pcNow; simp [eq_comm]

theorem emit_ok {i : Instr} {pos : LineCol} {c : Ctx} {r : Nat × Ctx} :
    onCg (emit i pos) c = .ok r ↔ r = (c.cg.code.length, { c with cg := c.cg.push i pos }) := by
  unfold onCg emit; simp [eq_comm]

/-! ## Symbols -/

theorem putVar_ok {key : Str} {p : Proto} {t t' : IdMap Str Proto} {mk : Nat → Option Reg} {s : RegScope} {r : Reg}
    (h : putVar key p t mk s = .ok (r, t')) :
    t.get? key = none ∧ mk t.len = some r ∧ t' = ⟨(key, p, t.len) :: t.map⟩ := by
  unfold putVar at h
  cases hk : t.get? key with
  | some e =>
    obtain ⟨old, id⟩ := e
    unfold IdMap.get? at hk
    unfold IdMap.insert at h
    rw [hk] at h
    simp at h
  | none =>
    by_cases hl : t.len < 256
    · rw [IdMap.insert_new hk hl] at h
      simp only at h
      split at h
      next r' hr => cases h; exact ⟨rfl, hr, rfl⟩
      next => simp at h
    · rw [IdMap.insert_full hk hl] at h
      simp at h

theorem putLocal_ok {s s' : Syms} {key : Str} {p : Proto} {r : Reg} (h : s.putLocal key p = .ok (r, s')) :
    s.locals.get? key = none ∧ mkLocal s.locals.len = some r ∧
      s' = { s with locals := ⟨(key, p, s.locals.len) :: s.locals.map⟩ } := by
  unfold Syms.putLocal at h
  split at h
  next r' t hp =>
    cases h
    obtain ⟨h1, h2, rfl⟩ := putVar_ok hp
    exact ⟨h1, h2, rfl⟩
  next => simp at h

theorem putGlobal_ok {s s' : Syms} {key : Str} {p : Proto} {r : Reg} (h : s.putGlobal key p = .ok (r, s')) :
    s.globals.get? key = none ∧ mkGlobal s.globals.len = some r ∧
      s' = { s with globals := ⟨(key, p, s.globals.len) :: s.globals.map⟩ } := by
  unfold Syms.putGlobal at h
  split at h
  next r' t hp =>
    cases h
    obtain ⟨h1, h2, rfl⟩ := putVar_ok hp
    exact ⟨h1, h2, rfl⟩
  next => simp at h

theorem ext_locals {n : Nat} {c : Ctx} {t : IdMap Str Proto} (hi : Inv c) (h : c.sy.locals.Ext t) (hl : t.len ≤ 192) :
    Ext n c { c with sy := { c.sy with locals := t } } :=
  { Ext.refl hi with inv := { hi with locals := h.wf hi.locals, localLimit := hl }, locals := h }

theorem ext_globals {n : Nat} {c : Ctx} {t : IdMap Str Proto} (hi : Inv c) (h : c.sy.globals.Ext t) (hl : t.len ≤ 64) :
    Ext n c { c with sy := { c.sy with globals := t } } :=
  { Ext.refl hi with inv := { hi with globals := h.wf hi.globals, globalLimit := hl }, globals := h }

theorem mkLocal_lt {n : Nat} {r : Reg} (h : mkLocal n = some r) : n < 192 ∧ r.toNat = n + 64 := by
  unfold mkLocal regLocal at h
  split at h
  next h1 =>
    have h0 : (BitVec.ofNat 8 n).toNat = n := by rw [BitVec.toNat_ofNat]; exact Nat.mod_eq_of_lt h1
    rw [h0] at h
    split at h
    next h2 =>
      cases h
      have h2 : n + 64 < 256 := h2
      refine ⟨by omega, ?_⟩
      show (BitVec.ofNat 8 (n + 64)).toNat = _
      rw [BitVec.toNat_ofNat]; exact Nat.mod_eq_of_lt h2
    · simp at h
  · simp at h

theorem mkGlobal_lt {n : Nat} {r : Reg} (h : mkGlobal n = some r) : n < 64 ∧ r.toNat = n := by
  unfold mkGlobal regGlobal at h
  split at h
  next h1 =>
    have h0 : (BitVec.ofNat 8 n).toNat = n := by rw [BitVec.toNat_ofNat]; exact Nat.mod_eq_of_lt h1
    rw [h0] at h
    split at h
    next h2 =>
      cases h
      have h2 : n < 64 := h2
      exact ⟨h2, h0⟩
    · simp at h
  · simp at h

theorem mkLocal_some {n : Nat} (h : n < 192) : ∃ r, mkLocal n = some r ∧ r.toNat = n + 64 := by
  have h0 : (BitVec.ofNat 8 n).toNat = n := by rw [BitVec.toNat_ofNat]; exact Nat.mod_eq_of_lt (by omega)
  cases hm : mkLocal n with
  | some r => exact ⟨r, rfl, (mkLocal_lt hm).2⟩
  | none =>
    unfold mkLocal regLocal at hm
    rw [if_pos (by omega), h0] at hm
    have : n + maxGlobal < 256 := by show n + 64 < 256; omega
    simp [this] at hm

theorem mkGlobal_some {n : Nat} (h : n < 64) : ∃ r, mkGlobal n = some r ∧ r.toNat = n := by
  have h0 : (BitVec.ofNat 8 n).toNat = n := by rw [BitVec.toNat_ofNat]; exact Nat.mod_eq_of_lt (by omega)
  cases hm : mkGlobal n with
  | some r => exact ⟨r, rfl, (mkGlobal_lt hm).2⟩
  | none =>
    unfold mkGlobal regGlobal at hm
    rw [if_pos (by omega), h0] at hm
    have : n < maxGlobal := h
    simp [this] at hm

theorem putLocalS_ok {key : Str} {p : Proto} {pos : LineCol} {c c' : Ctx} {r : Reg} :
    putLocalS key p pos c = .ok (r, c') ↔ ∃ sy, c.sy.putLocal key p = .ok (r, sy) ∧ c' = { c with sy := sy } := by
  unfold putLocalS
  constructor
  · intro h
    split at h
    next r' sy hp => cases h; exact ⟨sy, hp, rfl⟩
    next => simp at h
  · rintro ⟨sy, h, rfl⟩
    rw [h]

theorem putGlobalS_ok {key : Str} {p : Proto} {pos : LineCol} {c c' : Ctx} {r : Reg} :
    putGlobalS key p pos c = .ok (r, c') ↔ ∃ sy, c.sy.putGlobal key p = .ok (r, sy) ∧ c' = { c with sy := sy } := by
  unfold putGlobalS
  constructor
  · intro h
    split at h
    next r' sy hp => cases h; exact ⟨sy, hp, rfl⟩
    next => simp at h
  · rintro ⟨sy, h, rfl⟩
    rw [h]

theorem SStep.putLocalS (key : Str) (p : Proto) (pos : LineCol) : SStep (putLocalS key p pos) := by
  intro n c a c' hi hn h
  obtain ⟨sy, h1, rfl⟩ := putLocalS_ok.1 h
  obtain ⟨h0, h2, rfl⟩ := putLocal_ok h1
  have := (mkLocal_lt h2).1
  exact ext_locals hi (IdMap.ext_insert_new h0) (by rw [IdMap.len_insert_new]; omega)

theorem SStep.putGlobalS (key : Str) (p : Proto) (pos : LineCol) : SStep (putGlobalS key p pos) := by
  intro n c a c' hi hn h
  obtain ⟨sy, h1, rfl⟩ := putGlobalS_ok.1 h
  obtain ⟨h0, h2, rfl⟩ := putGlobal_ok h1
  have := (mkGlobal_lt h2).1
  exact ext_globals hi (IdMap.ext_insert_new h0) (by rw [IdMap.len_insert_new]; omega)

/-! ## Assignments -/

/-- The cases of `assignDest`. -/
theorem assignDest_ok {v : VarRef} {pos : LineCol} {c c' : Ctx} {r : Reg × Option ExprType × Bool}
    (h : assignDest v pos c = .ok (r, c')) :
    (∃ reg t, c.sy.getVar v = .ok (reg, .scalar t) ∧ r = (reg, some t, true) ∧ c' = c) ∨
    (∃ w reg sy, c.sy.getVar v = .error (.undefinedSymbol w) ∧ c.sy.getCallable (symKey v.name) = none ∧
      c.sy.putLocal (symKey v.name) (.scalar (v.ty.getD .integer)) = .ok (reg, sy) ∧
      r = (reg, v.ty, false) ∧ c' = { c with sy := sy }) := by
  unfold assignDest at h
  split at h
  next => simp at h
  next reg t hg => cases h; exact .inl ⟨reg, t, hg, rfl, rfl⟩
  next w hg =>
    split at h
    next => simp at h
    next hc =>
      split at h
      next reg sy hp => cases h; exact .inr ⟨w, reg, sy, hg, hc, hp, rfl, rfl⟩
      next => simp at h
  next => simp at h

theorem getVar_undefined_local {s : Syms} {v w : VarRef} (h : s.getVar v = .error (.undefinedSymbol w)) :
    s.locals.get? (symKey v.name) = none ∧ s.globals.get? (symKey v.name) = none := by
  unfold Syms.getVar getVar at h
  constructor
  · cases hl : s.locals.get? (symKey v.name) with
    | none => rfl
    | some e =>
      obtain ⟨p, id⟩ := e
      simp only [hl] at h
      split at h
      · simp at h
      next hr =>
        split at hr
        · simp at hr
        · split at hr <;> simp at hr
      · cases h; rename_i hne _
        exact absurd rfl (hne w)
  · cases hl : s.locals.get? (symKey v.name) with
    | some e =>
      obtain ⟨p, id⟩ := e
      simp only [hl] at h
      split at h
      · simp at h
      next hr =>
        split at hr
        · simp at hr
        · split at hr <;> simp at hr
      · cases h; rename_i hne _
        exact absurd rfl (hne w)
    | none =>
      simp only [hl] at h
      cases hg : s.globals.get? (symKey v.name) with
      | none => rfl
      | some e =>
        obtain ⟨p, id⟩ := e
        simp only [hg] at h
        split at h
        · simp at h
        · split at h <;> simp at h

theorem fixupTypeS_ok {v : VarRef} {t : ExprType} {pos : LineCol} {c c' : Ctx} {a : Unit}
    (h : fixupTypeS v t pos c = .ok (a, c')) :
    ∃ p id, c.sy.locals.get? (symKey v.name) = some (p, id) ∧
      c' = { c with sy := { c.sy with locals := c.sy.locals.update (symKey v.name) (.scalar t) } } := by
  unfold fixupTypeS Syms.fixupLocalType at h
  split at h
  next sy hs =>
    cases h
    split at hs
    next t' id hg => cases hs; exact ⟨_, _, hg, rfl⟩
    next => simp at hs
  next => simp at h

theorem SStep.compileAssign (v : VarRef) (pos : LineCol) (e : Expr) : SStep (compileAssign v pos e) := by
  intro n c a c' hi hn h
  unfold EB.compileAssign at h
  obtain ⟨r, c1, h1, h2⟩ := CM.bind_ok.1 h
  obtain ⟨reg, et, wd⟩ := r
  have e1 : Ext n c c1 := by
    rcases assignDest_ok h1 with ⟨_, _, _, _, rfl⟩ | ⟨_, _, sy, _, _, hp, _, rfl⟩
    · exact .refl hi
    · obtain ⟨hk, hr, rfl⟩ := putLocal_ok hp
      have := (mkLocal_lt hr).1
      exact ext_locals hi (IdMap.ext_insert_new hk) (by rw [IdMap.len_insert_new]; omega)
  have hn1 : n ≤ c1.cg.code.length := Nat.le_trans hn e1.len
  cases et with
  | some t =>
    simp only at h2
    split at h2
    · refine e1.trans (SStep.assignErr (.withSyms fun sy => ?_) n _ _ _ e1.inv hn1 h2)
      exact .bind (.lift _) fun _ => .bind (.compileExprAs _ _ _ _ _) fun _ => .bind (.emit _ _ rfl) fun _ => .pure _
    · exact e1.trans (SStep.assignErr (.withSyms fun sy => .compileExprAs _ _ _ _ _) n _ _ _ e1.inv hn1 h2)
  | none =>
    simp only at h2
    obtain ⟨t, c2, hw, h3⟩ := CM.bind_ok.1 h2
    obtain ⟨g, hg2, rfl⟩ := withSyms_ok.1 hw
    obtain ⟨p, id, hg, rfl⟩ := fixupTypeS_ok h3
    rcases assignDest_ok h1 with ⟨_, _, _, hr, _⟩ | ⟨_, _, sy, _, _, hp, _, rfl⟩
    · cases hr
    · obtain ⟨hk, hr, rfl⟩ := putLocal_ok hp
      have hlt := (mkLocal_lt hr).1
      have hl : IdMap.Ext c.sy.locals
          (IdMap.update ⟨(symKey v.name, .scalar (v.ty.getD .integer), c.sy.locals.len) :: c.sy.locals.map⟩
            (symKey v.name) (.scalar t)) := by
        have hx := IdMap.ext_insert_new (v := Proto.scalar (v.ty.getD .integer)) hk
        refine ⟨fun hw => IdMap.wf_update (hx.wf hw) _ _, ?_, ?_⟩
        · rw [IdMap.len_update (hx.wf hi.locals)]; exact hx.len
        · intro k v' id' hk'
          rw [IdMap.get?_update]
          have hne : k ≠ symKey v.name := by rintro rfl; rw [hk] at hk'; simp at hk'
          rw [if_neg hne]; exact hx.ids _ _ _ hk'
      have e3 := ext_locals (n := n) (ext_of_gext (g := g) hi hn (GStep.compileExpr _ _ _ _ _ _ _ hi.lens hg2)).inv hl (by
        rw [IdMap.len_update ((IdMap.ext_insert_new hk).wf hi.locals), IdMap.len_insert_new]; omega)
      exact (ext_of_gext hi hn (GStep.compileExpr _ _ _ _ _ _ _ hi.lens hg2)).trans e3

/-! ## Other simple statements -/

theorem SStep.pcNow : SStep pcNow := by
  intro n c a c' hi _ h
  have := pcNow_ok.1 h
  cases this; exact .refl hi

theorem SStep.emit (i : Instr) (pos : LineCol) (ht : i.plain = true) : SStep (EB.onCg (EB.emit i pos)) :=
  .onCg (.emit i pos ht)

theorem SStep.compileCond (e : Expr) : SStep (compileCond e) :=
  .withSyms fun _ => .bind (.lift _) fun _ => .bind (.compileExprAs _ _ _ _ _) fun _ => .pure _

theorem SStep.defineNewArg (v : VarRef) (pos : LineCol) : SStep (defineNewArg v pos) :=
  .bind (.putLocalS _ _ _) fun _ => .onCg (.emitDefault _ _ _)

theorem SStep.defineIfNew (v : VarRef) (pos : LineCol) : SStep (defineIfNew v pos) := by
  intro n c a c' hi hn h
  unfold EB.defineIfNew at h
  split at h
  · split at h
    · cases h; exact .refl hi
    · exact SStep.defineNewArg _ _ n c a c' hi hn h
  · cases h; exact .refl hi

theorem SStep.defineNewArgs (rep : Option RepSyn) (syns : List SingSyn) (args : Args) :
    SStep (defineNewArgs rep syns args) := by
  match args with
  | .nil => unfold EB.defineNewArgs; split <;> first | exact .throw _ | exact .pure _ | contradiction
  | .skip _ _ rest =>
    cases syns with
    | nil => unfold EB.defineNewArgs; exact SStep.defineNewArgs rep _ rest
    | cons s syns => cases s <;> (unfold EB.defineNewArgs; exact SStep.defineNewArgs rep _ rest)
  | .cons e _ _ rest =>
    unfold EB.defineNewArgs
    split
    · rename_i h; cases h
    · rename_i h; cases h
    · rename_i h; cases h
    · rename_i h; cases h; exact .bind (.defineIfNew _ _) fun _ => SStep.defineNewArgs rep _ rest
    · rename_i h; cases h; exact SStep.defineNewArgs rep _ rest
    · rename_i h; cases h
    · rename_i h; cases h
      simp only
      split
      · exact .bind (.defineIfNew _ _) fun _ => SStep.defineNewArgs rep _ rest
      · exact SStep.defineNewArgs rep _ rest
    · rename_i h; cases h; exact SStep.defineNewArgs rep _ rest
    · rename_i h; cases h
termination_by structural args

theorem SStep.compileCallStmt (v : VarRef) (pos : LineCol) (args : Args) : SStep (compileCallStmt v pos args) := by
  intro n c a c' hi hn h
  unfold EB.compileCallStmt at h
  split at h
  · simp at h
  · split at h
    · simp at h
    · split at h
      · simp at h
      · refine (SStep.bind (.defineNewArgs _ _ _) fun _ => .withSyms fun sy => ?_) n c a c' hi hn h
        exact .bind (.compileArgs _ _ _ _ _) fun _ => .emitCall _ _ _ _ _ _

theorem SStep.dimVar (name : Str) (pos : LineCol) (shared : Bool) (p : Proto) : SStep (dimVar name pos shared p) := by
  intro n c a c' hi hn h
  unfold EB.dimVar at h
  split at h
  · simp at h
  · split at h
    · split at h
      · simp at h
      · exact SStep.putGlobalS _ _ _ n c a c' hi hn h
    · split at h
      · simp at h
      · exact SStep.putLocalS _ _ _ n c a c' hi hn h

theorem SStep.compileArrayAssign (v : VarRef) (pos : LineCol) (subs : List Expr) (e : Expr) :
    SStep (compileArrayAssign v pos subs e) := by
  refine .withSyms fun sy => ?_
  split
  · split
    · exact .throw _
    · exact .bind (.lift _) fun _ => .bind (.compileExprAs _ _ _ _ _) fun _ => .bind (.compileSubs _ _ _ _) fun _ =>
        .bind (.lift _) fun _ => .bind (.emit _ _ rfl) fun _ => .pure _
  · exact .throw _
  · exact .throw _
  · exact .throw _

theorem SStep.compileDimArray (name : Str) (pos : LineCol) (shared : Bool) (dims : List Expr) (ty : ExprType) :
    SStep (compileDimArray name pos shared dims ty) := by
  refine .bind (.dimVar _ _ _ _) fun _ => .withSyms fun sy => .bind (.compileSubs _ _ _ _) fun _ =>
    .bind (.lift _) fun _ => ?_
  split
  · exact .throw _
  · exact .bind (.emit _ _ rfl) fun _ => .pure _
  · exact .throw _

theorem SStep.compileEnd (code : Option Expr) (pos : LineCol) : SStep (compileEnd code pos) := by
  have h : SStep (EB.withSyms fun sy => do
      let reg ← CM.lift (allocTemp sy 0 pos)
      match code with
      | some e => EB.compileExprAs sy e 1 reg .integer
      | none => do let _ ← EB.emit (.loadInt reg 0#16) pos
      let _ ← EB.emit (.end reg) pos : CS Unit) := by
    refine .withSyms fun sy => .bind (.lift _) fun _ => ?_
    cases code with
    | some e => exact .bind (.compileExprAs _ _ _ _ _) fun _ => .bind (.emit _ _ rfl) fun _ => .pure _
    | none => exact .bind (.emit _ _ rfl) fun _ => .bind (.emit _ _ rfl) fun _ => .pure _
  unfold EB.compileEnd
  generalize code.bind staticEndCode = o
  cases o with
  | none => exact h
  | some p =>
    simp only
    split
    · exact .bind (.throw _) fun _ => h
    · exact h

theorem SStep.forIter (v : VarRef) (pos : LineCol) (d : Bool) : SStep (forIter v pos d) := by
  intro n c a c' hi hn h
  unfold EB.forIter at h
  split at h
  · split at h
    · cases h; exact .refl hi
    · split at h
      · simp at h
      · exact (SStep.bind (.putLocalS _ _ _) fun _ => .pure _) n c a c' hi hn h
    · simp at h
  · cases h; exact .refl hi

theorem emitFixup_ok {pos : LineCol} {f : Fixup} {c : Ctx} {r : Unit × Ctx} :
    emitFixup pos f c = .ok r ↔
      r = ((), { c with cg := (c.cg.push .nop pos).addFixup c.cg.code.length f }) := by
  unfold emitFixup
  rw [CM.bind_ok]
  constructor
  · rintro ⟨a, c1, h1, h2⟩
    have := emit_ok.1 h1
    cases this
    exact CM.modify_ok.1 h2
  · rintro rfl
    exact ⟨_, _, emit_ok.2 rfl, rfl⟩

theorem SStep.emitFixup (pos : LineCol) (f : Fixup) : SStep (emitFixup pos f) := by
  intro n c a c' hi hn h
  have := emitFixup_ok.1 h
  cases this
  exact ext_of_gext hi hn (gext_fixup (GStep.emit .nop pos rfl _ _ _ hi.lens rfl) (Nat.le_refl _)
    (by simp [Codegen.push]) f)

theorem more_snoc {n : Nat} (l : List (Nat × LineCol)) {a : Nat} {pos : LineCol} (h : n ≤ a) :
    More n l (l ++ [(a, pos)]) := ⟨[(a, pos)], rfl, by simpa using h⟩

theorem SStep.compileExitDo (pos : LineCol) : SStep (compileExitDo pos) := by
  intro n c a c' hi hn h
  unfold EB.compileExitDo at h
  split at h
  · simp at h
  next top rest hd =>
    cases h
    have e := ext_emit (i := .nop) (pos := pos) hi hn (by simp [Instr.targets])
    refine { e with inv := { e.inv with doExit := ?_ }, doExit := ?_ }
    · intro l hl p hp
      rcases List.mem_cons.1 hl with rfl | hl
      · rcases List.mem_append.1 hp with h | h
        · have := e.inv.doExit top (by show top ∈ c.doExit; rw [hd]; exact List.mem_cons_self ..) p h; exact this
        · simp only [List.mem_singleton] at h; subst h; simp [Codegen.push]
      · exact e.inv.doExit l (by show l ∈ c.doExit; rw [hd]; exact List.mem_cons_of_mem _ hl) p hp
    · show List.Forall₂ _ c.doExit _
      rw [hd]
      exact .cons (more_snoc _ hn) (forall2_more_refl _ _)

theorem SStep.compileExitFor (pos : LineCol) : SStep (compileExitFor pos) := by
  intro n c a c' hi hn h
  unfold EB.compileExitFor at h
  split at h
  · simp at h
  next top rest hd =>
    cases h
    have e := ext_emit (i := .nop) (pos := pos) hi hn (by simp [Instr.targets])
    refine { e with inv := { e.inv with forExit := ?_ }, forExit := ?_ }
    · intro l hl p hp
      rcases List.mem_cons.1 hl with rfl | hl
      · rcases List.mem_append.1 hp with h | h
        · have := e.inv.forExit top (by show top ∈ c.forExit; rw [hd]; exact List.mem_cons_self ..) p h; exact this
        · simp only [List.mem_singleton] at h; subst h; simp [Codegen.push]
      · exact e.inv.forExit l (by show l ∈ c.forExit; rw [hd]; exact List.mem_cons_of_mem _ hl) p hp
    · show List.Forall₂ _ c.forExit _
      rw [hd]
      exact .cons (more_snoc _ hn) (forall2_more_refl _ _)

theorem SStep.compileExitCallable (k : CallableKind) (w : String) (pos : LineCol) :
    SStep (compileExitCallable k w pos) := by
  intro n c a c' hi hn h
  unfold EB.compileExitCallable at h
  split at h
  · simp at h
  next hc =>
    cases h
    have e := ext_emit (i := .nop) (pos := pos) hi hn (by simp [Instr.targets])
    refine { e with inv := { e.inv with calExits := ?_, calNone := ?_ }, calExits := more_snoc _ hn }
    · intro p hp
      rcases List.mem_append.1 hp with h | h
      · exact e.inv.calExits p h
      · simp only [List.mem_singleton] at h; subst h; simp [Codegen.push]
    · intro h
      have h : c.cur = none := h
      simp [h] at hc

/-- Marking a statement at or after `n`. -/
theorem ext_mark {n start : Nat} {c : Ctx} (hi : Inv c) (hs : n ≤ start) :
    Ext n c { c with cg := c.cg.markStmt start } := by
  refine { Ext.refl hi with
    inv := { hi with
      refs := fun i h => ⟨(hi.refs i h).1, (hi.refs i h).2⟩
      lens := by simpa [Codegen.markStmt] using hi.lens }
    instrs := ?_ }
  intro i hi'
  show (List.modify c.cg.instrs start _)[i]? = _
  rw [List.getElem?_modify]
  simp [show ¬ start = i by omega]

theorem ext_markIf {n start : Nat} {b : Bool} {c c' : Ctx} {a : Unit} (hi : Inv c) (hs : n ≤ start)
    (h : markIf b start c = .ok (a, c')) : Ext n c c' := by
  unfold markIf at h
  split at h
  · cases h; exact ext_mark hi hs
  · cases h; exact .refl hi

theorem SStep.declareCallable (name : VarRef) (pos : LineCol) (ps : List VarRef) :
    SStep (declareCallable name pos ps) := by
  intro n c a c' hi hn h
  unfold EB.declareCallable Syms.declareCallable at h
  split at h
  next sy hs =>
    cases h
    split at hs
    · simp at hs
    · have key : sy = { c.sy with user := c.sy.user.insert (symKey name.name) (userMd name ps) } ∧
          ∀ md, c.sy.user.get? (symKey name.name) = some md → md = userMd name ps := by
        split at hs
        next prev hp =>
          split at hs
          · simp at hs
          next hne =>
            cases hs
            refine ⟨rfl, fun md hm => ?_⟩
            rw [hp] at hm; cases hm; simpa using hne
        next hp =>
          cases hs
          exact ⟨rfl, fun md hm => by rw [hp] at hm; simp at hm⟩
      obtain ⟨rfl, hu⟩ := key
      refine { Ext.refl hi with inv := { hi with }, user := ?_ }
      intro k md hk
      show FMap.get? (FMap.insert _ _ _) k = _
      rw [FMap.get?_insert]
      split
      next e => subst e; rw [hu md hk]
      next => exact hk
  next => simp at h

/-! ## SELECT -/

theorem ext_compileGuards {n : Nat} {test : Reg} {tt : ExprType} (gs : List CaseGuard) {c c' : Ctx}
    {a : List (Nat × LineCol)} (hi : Inv c) (hn : n ≤ c.cg.code.length)
    (h : compileGuards test tt gs c = .ok (a, c')) : Ext n c c' ∧ ∀ p ∈ a, n ≤ p.1 ∧ p.1 < c'.cg.code.length := by
  induction gs generalizing c c' a with
  | nil =>
    have := CM.pure_ok.1 h
    cases this; exact ⟨.refl hi, by simp⟩
  | cons g gs ih =>
    unfold compileGuards at h
    rw [CM.bind_ok] at h; obtain ⟨⟨cond, pos⟩, c1, h1, h⟩ := h
    rw [CM.bind_ok] at h; obtain ⟨next, c2, h2, h⟩ := h
    rw [CM.bind_ok] at h; obtain ⟨body, c3, h3, h⟩ := h
    rw [CM.bind_ok] at h; obtain ⟨here, c4, h4, h⟩ := h
    rw [CM.bind_ok] at h; obtain ⟨u, c5, h5, h⟩ := h
    rw [CM.bind_ok] at h; obtain ⟨rest, c6, h6, h⟩ := h
    have e1 := SStep.withSyms (fun sy => .compileGuard sy 1 test tt g) n _ _ _ hi hn h1
    have l1 := e1.len
    have e2 := SStep.emit .nop pos rfl n _ _ _ e1.inv (by omega) h2
    have l2 := e2.len
    have e3 := SStep.emit .nop pos rfl n _ _ _ e2.inv (by omega) h3
    have l3 := e3.len
    have := emit_ok.1 h2; cases this
    have := emit_ok.1 h3; cases this
    have := pcNow_ok.1 h4; cases this
    obtain ⟨e5, l5⟩ := ext_patchJumpIfFalse (n := n) e3.inv (by omega) (Nat.le_refl _) h5
    have := CM.pure_ok.1 h; cases this
    obtain ⟨e6, hr⟩ := ih e5.inv (Nat.le_trans hn (e1.len.trans (e2.len.trans (e3.len.trans e5.len)))) h6
    refine ⟨e1.trans (e2.trans (e3.trans (e5.trans e6))), ?_⟩
    intro p hp
    rcases List.mem_cons.1 hp with rfl | hp
    · refine ⟨hn.trans (e1.len.trans e2.len), ?_⟩
      have l6 := e5.len.trans e6.len
      simp only [Codegen.push, List.length_append, List.length_singleton] at l6 ⊢
      omega
    · exact hr p hp

theorem ext_compileDispatch {n : Nat} {test : Reg} {tt : ExprType} {endPos : LineCol} (cs : Cases)
    {pending : Option Nat} {c c' : Ctx} {a : List (List (Nat × LineCol)) × Option Nat} (hi : Inv c)
    (hn : n ≤ c.cg.code.length) (hp : ∀ p ∈ pending, n ≤ p ∧ p < c.cg.code.length)
    (h : compileDispatch test tt endPos cs pending c = .ok (a, c')) :
    Ext n c c' ∧ (∀ js ∈ a.1, ∀ p ∈ js, n ≤ p.1 ∧ p.1 < c'.cg.code.length) ∧
      ∀ p ∈ a.2, n ≤ p ∧ p < c'.cg.code.length := by
  match cs with
  | .nil =>
    have := CM.pure_ok.1 h
    cases this; exact ⟨.refl hi, by simp, hp⟩
  | .cons guards body rest =>
    unfold compileDispatch at h
    rw [CM.bind_ok] at h; obtain ⟨here, c1, h1, h⟩ := h
    have := pcNow_ok.1 h1; cases this
    have key : ∃ c2, Ext n c c2 ∧ (match guards with
      | [] => (do
        let body ← onCg (emit .nop endPos)
        let (jumps, pending') ← compileDispatch test tt endPos rest none
        pure ([(body, endPos)] :: jumps, pending') : CS (List (List (Nat × LineCol)) × Option Nat))
      | guards => do
        let body ← compileGuards test tt guards
        let next ← onCg (emit .nop endPos)
        let (jumps, pending') ← compileDispatch test tt endPos rest (some next)
        pure (body :: jumps, pending')) c2 = .ok (a, c') := by
      cases pending with
      | none => exact ⟨c, .refl hi, h⟩
      | some p =>
        simp only at h
        rw [CM.bind_ok] at h; obtain ⟨u, c2, h2, h⟩ := h
        exact ⟨c2, (ext_patchJump hi (hp p rfl).1 (Nat.le_refl _) h2).1, h⟩
    obtain ⟨c2, e2, h⟩ := key
    have l2 := e2.len
    cases guards with
    | nil =>
      rw [CM.bind_ok] at h; obtain ⟨b, c3, h3, h⟩ := h
      rw [CM.bind_ok] at h; obtain ⟨⟨jumps, pending'⟩, c4, h4, h⟩ := h
      have e3 := SStep.emit .nop endPos rfl n _ _ _ e2.inv (by omega) h3
      have l3 := e3.len
      have := emit_ok.1 h3; cases this
      obtain ⟨e4, hj, hp'⟩ := ext_compileDispatch (n := n) rest e3.inv (hn.trans (e2.len.trans e3.len)) (by simp) h4
      have := CM.pure_ok.1 h; cases this
      refine ⟨e2.trans (e3.trans e4), ?_, hp'⟩
      intro js hjs p hp
      rcases List.mem_cons.1 hjs with rfl | hjs
      · simp only [List.mem_singleton] at hp; subst hp; simp only
        have l4 := e4.len
        simp only [Codegen.push, List.length_append, List.length_singleton] at l4
        omega
      · exact hj js hjs p hp
    | cons g gs =>
      rw [CM.bind_ok] at h; obtain ⟨b, c3, h3, h⟩ := h
      rw [CM.bind_ok] at h; obtain ⟨next, c4, h4, h⟩ := h
      rw [CM.bind_ok] at h; obtain ⟨⟨jumps, pending'⟩, c5, h5, h⟩ := h
      obtain ⟨e3, hb⟩ := ext_compileGuards (n := n) _ e2.inv (by omega) h3
      have l3 := e3.len
      have e4 := SStep.emit .nop endPos rfl n _ _ _ e3.inv (by omega) h4
      have l4 := e4.len
      have := emit_ok.1 h4; cases this
      obtain ⟨e5, hj, hp'⟩ := ext_compileDispatch (n := n) rest e4.inv (hn.trans (e2.len.trans (e3.len.trans e4.len))) (by
        intro p hp; cases hp
        simp only [Codegen.push, List.length_append, List.length_singleton]; omega) h5
      have := CM.pure_ok.1 h; cases this
      refine ⟨e2.trans (e3.trans (e4.trans e5)), ?_, hp'⟩
      intro js hjs p hp
      rcases List.mem_cons.1 hjs with rfl | hjs
      · exact ⟨(hb p hp).1, Nat.lt_of_lt_of_le (hb p hp).2 (e4.len.trans e5.len)⟩
      · exact hj js hjs p hp
termination_by structural cs

/-! ## Loops -/

theorem inv_pushDo {c : Ctx} (h : Inv c) : Inv { c with doExit := [] :: c.doExit } :=
  { h with
    doExit := by
      intro l hl p hp
      rcases List.mem_cons.1 hl with rfl | hl
      · simp at hp
      · exact h.doExit l hl p hp }

theorem inv_pushFor {c : Ctx} (h : Inv c) : Inv { c with forExit := [] :: c.forExit } :=
  { h with
    forExit := by
      intro l hl p hp
      rcases List.mem_cons.1 hl with rfl | hl
      · simp at hp
      · exact h.forExit l hl p hp }

/-- Closing a `DO` loop. -/
theorem ext_closeDo {n stop : Nat} {c c1 c2 : Ctx} {a : Unit}
    (e : Ext n { c with doExit := [] :: c.doExit } c1) (hs : stop ≤ c1.cg.code.length)
    (h : closeDo stop c1 = .ok (a, c2)) : Ext n c c2 ∧ c2.cg.code.length = c1.cg.code.length := by
  unfold closeDo at h
  have hd := e.doExit
  split at h
  next => simp at h
  next top rest hc =>
    rw [hc] at hd
    have hd : List.Forall₂ (More n) ([] :: c.doExit) (top :: rest) := hd
    cases hd with
    | cons ht hr =>
      obtain ⟨ex, hex, hge⟩ := ht
      simp only [List.nil_append] at hex
      subst hex
      have hi : Inv { c1 with doExit := rest } :=
        { e.inv with doExit := fun l hl => e.inv.doExit l (by rw [hc]; exact List.mem_cons_of_mem _ hl) }
      obtain ⟨e2, l2⟩ := ext_patchJumps (n := n) _ hi hge hs h
      have e1 : Ext n c { c1 with doExit := rest } := { e with inv := hi, doExit := hr }
      exact ⟨e1.trans e2, l2⟩

/-- Closing a `FOR` loop. -/
theorem ext_closeFor {n stop : Nat} {c c1 c2 : Ctx} {a : Unit}
    (e : Ext n { c with forExit := [] :: c.forExit } c1) (hs : stop ≤ c1.cg.code.length)
    (h : closeFor stop c1 = .ok (a, c2)) : Ext n c c2 ∧ c2.cg.code.length = c1.cg.code.length := by
  unfold closeFor at h
  have hd := e.forExit
  split at h
  next => simp at h
  next top rest hc =>
    rw [hc] at hd
    have hd : List.Forall₂ (More n) ([] :: c.forExit) (top :: rest) := hd
    cases hd with
    | cons ht hr =>
      obtain ⟨ex, hex, hge⟩ := ht
      simp only [List.nil_append] at hex
      subst hex
      have hi : Inv { c1 with forExit := rest } :=
        { e.inv with forExit := fun l hl => e.inv.forExit l (by rw [hc]; exact List.mem_cons_of_mem _ hl) }
      obtain ⟨e2, l2⟩ := ext_patchJumps (n := n) _ hi hge hs h
      have e1 : Ext n c { c1 with forExit := rest } := { e with inv := hi, forExit := hr }
      exact ⟨e1.trans e2, l2⟩

/-! ## Callables -/

theorem SStep.putParams (pos : LineCol) (ps : List VarRef) : SStep (putParams pos ps) := by
  induction ps with
  | nil => exact .pure _
  | cons p ps ih => exact .bind (.putLocalS _ _ _) fun _ => ih

theorem SStep.prologBody (name : VarRef) (pos : LineCol) (params : List VarRef) :
    SStep (prologBody name pos params) := by
  unfold EB.prologBody
  generalize name.ty = ty
  match ty with
  | none => exact .putParams _ _
  | some .boolean =>
    exact .bind (.putLocalS _ _ _) fun _ => .bind (.pure _) fun _ => .bind (.emit _ _ rfl) fun _ => .putParams _ _
  | some .integer =>
    exact .bind (.putLocalS _ _ _) fun _ => .bind (.pure _) fun _ => .bind (.emit _ _ rfl) fun _ => .putParams _ _
  | some .double =>
    exact .bind (.putLocalS _ _ _) fun _ => .bind (.onCg (.getConstant _ _)) fun _ =>
      .bind (.emit _ _ rfl) fun _ => .putParams _ _
  | some .text =>
    exact .bind (.putLocalS _ _ _) fun _ => .bind (.onCg (.getConstant _ _)) fun _ =>
      .bind (.emit _ _ rfl) fun _ => .putParams _ _

theorem callableProlog_ok {name : VarRef} {pos : LineCol} {params : List VarRef} {c c' : Ctx} {r : Nat × Nat} :
    callableProlog name pos params c = .ok (r, c') ↔
      prologBody name pos params (enterScope name { c with cg := c.cg.push .nop pos }) = .ok ((), c') ∧
        r = (c.cg.code.length, c.cg.code.length + 1) := by
  unfold callableProlog
  constructor
  · intro h
    rw [CM.bind_ok] at h; obtain ⟨a, c1, h1, h⟩ := h
    rw [CM.bind_ok] at h; obtain ⟨s, c2, h2, h⟩ := h
    rw [CM.bind_ok] at h; obtain ⟨u, c3, h3, h⟩ := h
    rw [CM.bind_ok] at h; obtain ⟨u, c4, h4, h⟩ := h
    have := emit_ok.1 h1; cases this
    have := pcNow_ok.1 h2; cases this
    have := CM.modify_ok.1 h3; cases this
    have := CM.pure_ok.1 h; cases this
    exact ⟨h4, by simp [Codegen.push]⟩
  · rintro ⟨h, rfl⟩
    refine CM.bind_ok.2 ⟨_, _, emit_ok.2 rfl, CM.bind_ok.2 ⟨_, _, pcNow_ok.2 rfl, CM.bind_ok.2 ⟨_, _, CM.modify_ok.2 rfl,
      CM.bind_ok.2 ⟨_, _, h, ?_⟩⟩⟩⟩
    rw [CM.pure_ok]
    simp [Codegen.push]

/-! ## Chains of steps -/

namespace Ext
variable {α : Type} {n : Nat} {c c1 c2 : Ctx}

theorem step {x : CS α} {a : α} (E : Ext n c c1) (hn : n ≤ c.cg.code.length) (hx : SStep x)
    (h : x c1 = .ok (a, c2)) : Ext n c c2 ∧ c1.cg.code.length ≤ c2.cg.code.length :=
  have e := hx n _ _ _ E.inv (hn.trans E.len) h
  ⟨E.trans e, e.len⟩

theorem emit {i : Instr} {pos : LineCol} {a : Nat} (E : Ext n c c1) (hn : n ≤ c.cg.code.length)
    (hi : ∀ t ∈ i.targets, t ≤ c1.cg.code.length) (h : onCg (EB.emit i pos) c1 = .ok (a, c2))
    (hr : i.constRefs = [] ∧ i.upcallRefs = [] := by exact ⟨rfl, rfl⟩) (he : i ≠ .eof := by simp) :
    Ext n c c2 ∧ a = c1.cg.code.length ∧ c2.cg.code.length = c1.cg.code.length + 1 := by
  have := emit_ok.1 h
  cases this
  exact ⟨E.trans (ext_emit E.inv (hn.trans E.len) hi hr he), rfl, by simp [Codegen.push]⟩

theorem jump {target : Nat} {pos : LineCol} {a : Unit} (E : Ext n c c1) (hn : n ≤ c.cg.code.length)
    (ht : target ≤ c1.cg.code.length) (h : emitJump target pos c1 = .ok (a, c2)) :
    Ext n c c2 ∧ c2.cg.code.length = c1.cg.code.length + 1 := by
  obtain ⟨e, l⟩ := ext_emitJump E.inv (hn.trans E.len) ht h
  exact ⟨E.trans e, l⟩

theorem pJump {addr target : Nat} {pos : LineCol} {a : Unit} (E : Ext n c c1) (ha : n ≤ addr)
    (ht : target ≤ c1.cg.code.length) (h : patchJump addr target pos c1 = .ok (a, c2)) :
    Ext n c c2 ∧ c2.cg.code.length = c1.cg.code.length := by
  obtain ⟨e, l⟩ := ext_patchJump E.inv ha ht h
  exact ⟨E.trans e, l⟩

theorem pJumpIfFalse {addr target : Nat} {cond : Reg} {pos : LineCol} {a : Unit} (E : Ext n c c1) (ha : n ≤ addr)
    (ht : target ≤ c1.cg.code.length) (h : patchJumpIfFalse addr cond target pos c1 = .ok (a, c2)) :
    Ext n c c2 ∧ c2.cg.code.length = c1.cg.code.length := by
  obtain ⟨e, l⟩ := ext_patchJumpIfFalse E.inv ha ht h
  exact ⟨E.trans e, l⟩

theorem pJumps {target : Nat} {l : List (Nat × LineCol)} {a : Unit} (E : Ext n c c1) (ha : ∀ p ∈ l, n ≤ p.1)
    (ht : target ≤ c1.cg.code.length) (h : patchJumps target l c1 = .ok (a, c2)) :
    Ext n c c2 ∧ c2.cg.code.length = c1.cg.code.length := by
  obtain ⟨e, l⟩ := ext_patchJumps l E.inv ha ht h
  exact ⟨E.trans e, l⟩

end Ext

theorem pcNow_eq {c c1 : Ctx} {a : Nat} (h : pcNow c = .ok (a, c1)) : a = c.cg.code.length ∧ c = c1 := by
  have := pcNow_ok.1 h
  cases this; exact ⟨rfl, rfl⟩

/-- The body of a user callable, from the jump over it to its end. -/
theorem ext_callable {n skip start : Nat} {name : VarRef} {pos endPos : LineCol} {params : List VarRef}
    {body : CS Unit} {c c1 c2 c' : Ctx} {u u' : Unit} (hb : SStep body) (hi : Inv c)
    (hn : n ≤ c.cg.code.length) (hcur : c.cur = none) (hdef : symKey name.name ∉ c.defined)
    (h1 : callableProlog name pos params c = .ok ((skip, start), c1)) (h2 : body c1 = .ok (u, c2))
    (h3 : callableEpilog (symKey name.name) skip start endPos c.sy.locals c2 = .ok (u', c')) : Ext n c c' := by
  rw [callableProlog_ok] at h1
  obtain ⟨h1, hr⟩ := h1
  cases hr
  have hc0 : Ext n c { c with cg := c.cg.push .nop pos } := ext_emit hi hn (by simp [Instr.targets])
  obtain ⟨cp, hcp⟩ : ∃ cp : Ctx, cp = { c with cg := c.cg.push .nop pos } := ⟨_, rfl⟩
  have lp : cp.cg.code.length = c.cg.code.length + 1 := by subst hcp; simp [Codegen.push]
  have hcurp : cp.cur = none := by subst hcp; exact hcur
  have hdefp : symKey name.name ∉ cp.defined := by subst hcp; exact hdef
  have hloc : cp.sy.locals = c.sy.locals := by subst hcp; rfl
  rw [← hcp] at h1 hc0
  rw [← hloc] at h3
  have hcal := hc0.inv.calNone hcurp
  have hcs : Inv (enterScope name cp) := { hc0.inv with locals := IdMap.wf_empty, localLimit := Nat.zero_le _, calNone := by simp [enterScope] }
  have hnp : n ≤ (enterScope name cp).cg.code.length := by show n ≤ cp.cg.code.length; omega
  obtain ⟨E1, l1⟩ := (Ext.refl (n := n) hcs).step hnp (SStep.prologBody name pos params) h1
  obtain ⟨E2, l2⟩ := E1.step hnp hb h2
  unfold callableEpilog at h3
  rw [CM.bind_ok] at h3; obtain ⟨ret, c3, h4, h3⟩ := h3
  rw [CM.bind_ok] at h3; obtain ⟨cx, c3', h5, h3⟩ := h3
  have := CM.get_ok.1 h5; cases this
  rw [CM.bind_ok] at h3; obtain ⟨_, c4, h6, h3⟩ := h3
  rw [CM.bind_ok] at h3; obtain ⟨skipAddr, c4', h7, h3⟩ := h3
  obtain ⟨rfl, hc4⟩ := pcNow_eq h7; subst hc4
  rw [CM.bind_ok] at h3; obtain ⟨_, c5, h8, h3⟩ := h3
  have := CM.modify_ok.1 h8; cases this
  rw [CM.bind_ok] at h3; obtain ⟨_, c6, h9, h3⟩ := h3
  have := CM.modify_ok.1 h3; cases this
  obtain ⟨E3, rfl, l3⟩ := E2.emit hnp (by simp [Instr.targets]) h4
  have hm := E3.calExits
  have hex : ∀ p ∈ c3.calExits, n ≤ p.1 := by
    obtain ⟨ex, hex, hge⟩ := hm
    have : c3.calExits = ex := by rw [hex]; show cp.calExits ++ ex = ex; rw [hcal]; rfl
    rw [this]; exact hge
  obtain ⟨E4, l4⟩ := E3.pJumps hex (by omega) h6
  obtain ⟨t, ht, hc6⟩ := patchJump_ok.1 h9
  have hcc : c6 = _ := congrArg Prod.snd hc6
  have hnk : c4.cg.callables.get? (symKey name.name) = none := by
    cases hk : c4.cg.callables.get? (symKey name.name) with
    | none => rfl
    | some v =>
      have := E4.inv.defined _ _ hk
      rw [E4.inside (by simp [enterScope])] at this
      exact absurd this hdefp
  have hl : c.cg.code.length + 1 ≤ c4.cg.code.length := by
    have : (enterScope name cp).cg.code.length = cp.cg.code.length := rfl
    omega
  have E5 := ext_patch (n := n) (addr := c.cg.code.length) (i := .jump t) E4.inv hn (by
    intro t' ht'
    simp only [Instr.targets, List.mem_singleton] at ht'
    rw [ht', mkTarget_ok ht])
  have E6 := E4.trans E5
  have hpl : (c4.cg.patch c.cg.code.length (.jump t)).code.length = c4.cg.code.length := by simp [Codegen.patch]
  have hcal' : ∀ k, (((c4.cg.defineCallable (symKey name.name) (c.cg.code.length + 1) c4.cg.code.length).patch
      c.cg.code.length (.jump t)).callables.get? k) =
      if k = symKey name.name then some (c.cg.code.length + 1, c4.cg.code.length)
      else c4.cg.callables.get? k := by
    intro k
    simp only [Codegen.defineCallable, Codegen.patch, FMap.get?_insert]
  rw [hcc]
  refine hc0.trans ?_
  refine { E6 with
    inv := ?_, callables := ?_, locals := .refl _, cur := ?_, defined := ?_, inside := ?_, calExits := ?_ }
  · refine { E6.inv with
      refs := fun i h => ⟨(E6.inv.refs i h).1, (E6.inv.refs i h).2⟩
      locals := hc0.inv.locals, localLimit := hc0.inv.localLimit, callables := ?_, calExits := by simp, calNone := fun _ => rfl, defined := ?_ }
    · intro k s e hk
      rw [hcal'] at hk
      split at hk
      · cases hk; exact hl.trans (Nat.le_of_eq hpl.symm)
      · exact E6.inv.callables k s e hk
    · intro k v hk
      rw [hcal'] at hk
      split at hk
      next h => rw [h]; exact List.mem_cons_self ..
      next => exact List.mem_cons_of_mem _ (E6.inv.defined k v hk)
  · intro k v hk
    rw [hcal']
    split
    next h =>
      have := E4.callables k v hk
      rw [h, hnk] at this
      cases this
    next => exact E6.callables k v hk
  · exact hcurp.symm
  · intro k hk
    exact List.mem_cons_of_mem _ (E6.defined k hk)
  · intro h; exact absurd hcurp h
  · show More n cp.calExits []
    rw [hcal]; exact .refl _ _

/-! ## All statements -/

/-- `step h x c h1` takes the first action off the sequence `h`. -/
macro "seq" h:ident x:ident c:ident h1:ident : tactic =>
  `(tactic| (rw [CM.bind_ok] at $h:ident; obtain ⟨$x:ident, $c:ident, $h1:ident, $h:ident⟩ := $h:ident))

mutual
theorem SStep.compileStmtBody (s : Stmt) : SStep (compileStmtBody s) := by
  match s with
  | .arrayAssign v pos subs e => unfold EB.compileStmtBody; exact .compileArrayAssign _ _ _ _
  | .assign v pos e => unfold EB.compileStmtBody; exact .compileAssign _ _ _
  | .call v pos args => unfold EB.compileStmtBody; exact .compileCallStmt _ _ _
  | .callable name pos params body endPos =>
    intro n c a c' hi hn h
    unfold EB.compileStmtBody at h
    seq h u c1 h1
    obtain ⟨E1, l1⟩ := (Ext.refl (n := n) hi).step hn (SStep.declareCallable _ _ _) h1
    seq h cc c2 h2
    have := CM.get_ok.1 h2; cases this
    split at h
    · simp [CM.throw] at h
    next hd =>
    split at h
    · simp [CM.throw] at h
    next hc =>
    seq h r c3 h3
    obtain ⟨skip, start⟩ := r
    seq h u2 c4 h4
    refine E1.trans (ext_callable (SStep.compileStmts body) E1.inv (hn.trans E1.len) ?_ ?_ h3 h4 h)
    · simpa using hc
    · simpa using hd
  | .data values =>
    unfold EB.compileStmtBody
    refine .bind (.lift _) fun ds => ?_
    intro n c a c' hi hn h
    have := CM.modify_ok.1 h; cases this
    exact { Ext.refl hi with inv := { hi with }, data := List.prefix_append .. }
  | .declare name pos params =>
    intro n c a c' hi hn h
    unfold EB.compileStmtBody at h
    seq h cc c2 h2
    have := CM.get_ok.1 h2; cases this
    split at h
    · simp [CM.throw] at h
    · exact SStep.declareCallable _ _ _ n _ _ _ hi hn h
  | .dim name pos shared ty =>
    unfold EB.compileStmtBody
    exact .bind (.dimVar _ _ _ _) fun _ => .onCg (.emitDefault _ _ _)
  | .dimArray name pos shared dims ty => unfold EB.compileStmtBody; exact .compileDimArray _ _ _ _ _
  | .doLoop guard body =>
    intro n c a c' hi hn h
    unfold EB.compileStmtBody at h
    have hb := SStep.compileStmts body
    seq h u c1 h1
    have := CM.modify_ok.1 h1; cases this
    have E0 := Ext.refl (n := n) (inv_pushDo hi)
    have hn' : n ≤ ({ c with doExit := [] :: c.doExit } : Ctx).cg.code.length := hn
    generalize hc0 : ({ c with doExit := [] :: c.doExit } : Ctx) = c0 at *
    match guard with
    | .infinite =>
      simp only at h
      seq h start c2 h2
      obtain ⟨rfl, rfl⟩ := pcNow_eq h2
      seq h u1 c3 h3
      obtain ⟨E3, l3⟩ := E0.step hn' hb h3
      seq h u2 c4 h4
      obtain ⟨E4, l4⟩ := E3.jump hn' (by omega) h4
      seq h stop c5 h5
      obtain ⟨rfl, rfl⟩ := pcNow_eq h5
      rw [← hc0] at E4
      exact (ext_closeDo E4 (Nat.le_refl _) h).1
    | .preUntil e =>
      simp only at h
      seq h start c2 h2
      obtain ⟨rfl, rfl⟩ := pcNow_eq h2
      seq h cond c3 h3
      obtain ⟨E3, l3⟩ := E0.step hn' (.compileCond _) h3
      seq h toBody c4 h4
      obtain ⟨E4, rfl, l4⟩ := E3.emit hn' (by simp [Instr.targets]) h4
      seq h toEnd c5 h5
      obtain ⟨E5, rfl, l5⟩ := E4.emit hn' (by simp [Instr.targets]) h5
      seq h here c6 h6
      obtain ⟨rfl, rfl⟩ := pcNow_eq h6
      seq h u1 c7 h7
      obtain ⟨E7, l7⟩ := E5.pJumpIfFalse (by omega) (Nat.le_refl _) h7
      seq h u2 c8 h8
      obtain ⟨E8, l8⟩ := E7.step hn' hb h8
      seq h u3 c9 h9
      obtain ⟨E9, l9⟩ := E8.jump hn' (by omega) h9
      seq h stop c10 h10
      obtain ⟨rfl, rfl⟩ := pcNow_eq h10
      seq h u4 c11 h11
      obtain ⟨E11, l11⟩ := E9.pJump (by omega) (Nat.le_refl _) h11
      rw [← hc0] at E11
      exact (ext_closeDo E11 (by omega) h).1
    | .preWhile e =>
      simp only at h
      seq h start c2 h2
      obtain ⟨rfl, rfl⟩ := pcNow_eq h2
      seq h cond c3 h3
      obtain ⟨E3, l3⟩ := E0.step hn' (.compileCond _) h3
      seq h toEnd c4 h4
      obtain ⟨E4, rfl, l4⟩ := E3.emit hn' (by simp [Instr.targets]) h4
      seq h u2 c8 h8
      obtain ⟨E8, l8⟩ := E4.step hn' hb h8
      seq h u3 c9 h9
      obtain ⟨E9, l9⟩ := E8.jump hn' (by omega) h9
      seq h stop c10 h10
      obtain ⟨rfl, rfl⟩ := pcNow_eq h10
      seq h u4 c11 h11
      obtain ⟨E11, l11⟩ := E9.pJumpIfFalse (by omega) (Nat.le_refl _) h11
      rw [← hc0] at E11
      exact (ext_closeDo E11 (by omega) h).1
    | .postUntil e =>
      simp only at h
      seq h start c2 h2
      obtain ⟨rfl, rfl⟩ := pcNow_eq h2
      seq h u2 c3 h3
      obtain ⟨E3, l3⟩ := E0.step hn' hb h3
      seq h cond c4 h4
      obtain ⟨E4, l4⟩ := E3.step hn' (.compileCond _) h4
      seq h t c5 h5
      obtain ⟨t', ht, h5⟩ := CM.lift_ok.1 h5
      cases h5
      seq h u3 c6 h6
      obtain ⟨E6, _, l6⟩ := E4.emit hn' (by
        intro t'' ht''
        simp only [Instr.targets, List.mem_singleton] at ht''
        rw [ht'', mkTarget_ok ht]; omega) h6
      seq h stop c7 h7
      obtain ⟨rfl, rfl⟩ := pcNow_eq h7
      rw [← hc0] at E6
      exact (ext_closeDo E6 (by omega) h).1
    | .postWhile e =>
      simp only at h
      seq h start c2 h2
      obtain ⟨rfl, rfl⟩ := pcNow_eq h2
      seq h u2 c3 h3
      obtain ⟨E3, l3⟩ := E0.step hn' hb h3
      seq h cond c4 h4
      obtain ⟨E4, l4⟩ := E3.step hn' (.compileCond _) h4
      seq h toEnd c5 h5
      obtain ⟨E5, rfl, l5⟩ := E4.emit hn' (by simp [Instr.targets]) h5
      seq h u3 c6 h6
      obtain ⟨E6, l6⟩ := E5.jump hn' (by omega) h6
      seq h stop c7 h7
      obtain ⟨rfl, rfl⟩ := pcNow_eq h7
      seq h u4 c8 h8
      obtain ⟨E8, l8⟩ := E6.pJumpIfFalse (by omega) (Nat.le_refl _) h8
      rw [← hc0] at E8
      exact (ext_closeDo E8 (by omega) h).1
  | .end code pos => unfold EB.compileStmtBody; exact .compileEnd _ _
  | .exitDo pos => unfold EB.compileStmtBody; exact .compileExitDo _
  | .exitFor pos => unfold EB.compileStmtBody; exact .compileExitFor _
  | .exitFunction pos => unfold EB.compileStmtBody; exact .compileExitCallable _ _ _
  | .exitSub pos => unfold EB.compileStmtBody; exact .compileExitCallable _ _ _
  | .forLoop iter iterPos double start stop next body =>
    intro n c a c' hi hn h
    unfold EB.compileStmtBody at h
    have hb := SStep.compileStmts body
    seq h u c1 h1
    obtain ⟨E1, l1⟩ := (Ext.refl (n := n) hi).step hn (.forIter _ _ _) h1
    seq h u1 c2 h2
    obtain ⟨E2, l2⟩ := E1.step hn (.compileAssign _ _ _) h2
    seq h startPc c3 h3
    obtain ⟨rfl, rfl⟩ := pcNow_eq h3
    seq h cond c4 h4
    obtain ⟨E4, l4⟩ := E2.step hn (.compileCond _) h4
    seq h toEnd c5 h5
    obtain ⟨E5, rfl, l5⟩ := E4.emit hn (by simp [Instr.targets]) h5
    seq h u2 c6 h6
    have := CM.modify_ok.1 h6; cases this
    have em := ext_mark (n := n) (start := c2.cg.code.length) E5.inv (by omega)
    have lm := em.len
    have E6 := E5.trans em
    have hE6 := E6.len
    have E7 := Ext.refl (n := n) (inv_pushFor E6.inv)
    generalize hcm : ({ c5 with cg := c5.cg.markStmt c2.cg.code.length } : Ctx) = cm at *
    generalize hc0 : ({ cm with forExit := [] :: cm.forExit } : Ctx) = c0 at *
    have hcl : c0.cg.code.length = cm.cg.code.length := by rw [← hc0]
    have hc00 : ({ c5 with cg := c5.cg.markStmt c2.cg.code.length, forExit := [] :: c5.forExit } : Ctx) = c0 := by
      rw [← hc0, ← hcm]
    rw [hc00] at h
    have hn' : n ≤ c0.cg.code.length := by omega
    seq h u3 c7 h7
    obtain ⟨E8, l8⟩ := E7.step hn' hb h7
    seq h u4 c8 h8
    obtain ⟨E9, l9⟩ := E8.step hn' (.compileAssign _ _ _) h8
    seq h u5 c9 h9
    obtain ⟨E10, l10⟩ := E9.jump hn' (by omega) h9
    seq h endAddr c10 h10
    obtain ⟨rfl, rfl⟩ := pcNow_eq h10
    seq h u6 c11 h11
    obtain ⟨E11, l11⟩ := E10.pJumpIfFalse (by omega) (Nat.le_refl _) h11
    rw [← hc0] at E11
    exact E6.trans (ext_closeFor E11 (by omega) h).1
  | .gosub label pos => unfold EB.compileStmtBody; exact .emitFixup _ _
  | .goto label pos => unfold EB.compileStmtBody; exact .emitFixup _ _
  | .ifs branches =>
    intro n c a c' hi hn h
    unfold EB.compileStmtBody at h
    seq h ends c1 h1
    obtain ⟨E1, he⟩ := ext_compileBranches branches hi hn h1
    seq h stop c2 h2
    obtain ⟨rfl, rfl⟩ := pcNow_eq h2
    refine (E1.pJumps ?_ (Nat.le_refl _) h).1
    intro p hp
    obtain ⟨a, ha, rfl⟩ := List.mem_map.1 hp
    exact he a ha
  | .label name pos =>
    intro n c a c' hi hn h
    unfold EB.compileStmtBody at h
    simp only at h
    split at h
    · simp at h
    next hk =>
      cases h
      refine { Ext.refl hi with inv := { hi with refs := fun i h => ⟨(hi.refs i h).1, (hi.refs i h).2⟩, labels := ?_ }, labels := ?_, newLabels := ?_ }
      · intro k a ha
        simp only [FMap.get?_insert] at ha
        split at ha
        · cases ha; exact Nat.le_refl _
        · exact hi.labels k a ha
      · intro k a ha
        simp only [FMap.get?_insert]
        split
        next h => rw [h, hk] at ha; simp at ha
        next => exact ha
      · intro k a ha hno
        simp only [FMap.get?_insert] at ha
        split at ha
        · cases ha; exact Nat.le_refl _
        · rw [hno] at ha; simp at ha
  | .onError (.goto label _ pos) => unfold EB.compileStmtBody; exact .emitFixup _ _
  | .onError (.reset pos) =>
    unfold EB.compileStmtBody
    refine .bind (.emit _ _ ?_) fun _ => .pure _
    rfl
  | .onError (.resumeNext pos) =>
    unfold EB.compileStmtBody
    refine .bind (.emit _ _ ?_) fun _ => .pure _
    rfl
  | .ret pos =>
    unfold EB.compileStmtBody
    refine .bind (.emit _ _ ?_) fun _ => .pure _
    rfl
  | .select e cases endPos =>
    intro n c a c' hi hn h
    unfold EB.compileStmtBody at h
    seq h test c1 h1
    obtain ⟨E1, l1⟩ := (Ext.refl (n := n) hi).step hn (.withSyms fun _ => .lift _) h1
    seq h testTy c2 h2
    obtain ⟨E2, l2⟩ := E1.step hn (.withSyms fun _ => .compileExpr _ _ _ _) h2
    seq h jp c3 h3
    obtain ⟨jumps, pending⟩ := jp
    obtain ⟨e3, hj, hp⟩ := ext_compileDispatch (n := n) cases E2.inv (hn.trans E2.len) (by simp) h3
    have E3 := E2.trans e3
    have l3 := E3.len
    seq h toEnd c4 h4
    obtain ⟨E4, rfl, l4⟩ := E3.emit hn (by simp [Instr.targets]) h4
    have key : ∃ c5, Ext n c c5 ∧ c4.cg.code.length = c5.cg.code.length ∧ (do
        let ends ← compileBodies cases jumps endPos
        let stop ← pcNow
        patchJump c3.cg.code.length stop endPos
        patchJumps stop (ends.map fun a => (a, endPos)) : CS Unit) c5 = .ok (a, c') := by
      cases pending with
      | none => exact ⟨c4, E4, rfl, h⟩
      | some p =>
        simp only at h
        seq h u c5 h5
        obtain ⟨E5, l5⟩ := E4.pJump (hp p rfl).1 (by omega) h5
        exact ⟨c5, E5, l5.symm, h⟩
    obtain ⟨c5, E5, l5, h⟩ := key
    seq h ends c6 h6
    obtain ⟨e6, he⟩ := ext_compileBodies cases jumps E5.inv (hn.trans E5.len)
      (fun js h p hp => (hj js h p hp).1) h6
    have E6 := E5.trans e6
    have l6 := e6.len
    seq h stop c7 h7
    obtain ⟨rfl, rfl⟩ := pcNow_eq h7
    seq h u c8 h8
    obtain ⟨E8, l8⟩ := E6.pJump (by omega) (Nat.le_refl _) h8
    refine (E8.pJumps ?_ (by omega) h).1
    intro p hp
    obtain ⟨a, ha, rfl⟩ := List.mem_map.1 hp
    exact he a ha
  | .whileLoop e body =>
    intro n c a c' hi hn h
    unfold EB.compileStmtBody at h
    have hb := SStep.compileStmts body
    seq h start c2 h2
    obtain ⟨rfl, rfl⟩ := pcNow_eq h2
    seq h cond c3 h3
    obtain ⟨E3, l3⟩ := (Ext.refl (n := n) hi).step hn (.compileCond _) h3
    seq h toEnd c4 h4
    obtain ⟨E4, rfl, l4⟩ := E3.emit hn (by simp [Instr.targets]) h4
    seq h u2 c8 h8
    obtain ⟨E8, l8⟩ := E4.step hn hb h8
    seq h u3 c9 h9
    obtain ⟨E9, l9⟩ := E8.jump hn (by omega) h9
    seq h stop c10 h10
    obtain ⟨rfl, rfl⟩ := pcNow_eq h10
    exact (E9.pJumpIfFalse (by omega) (Nat.le_refl _) h).1
termination_by structural s

theorem SStep.compileStmts (ss : Stmts) : SStep (compileStmts ss) := by
  match ss with
  | .nil => unfold EB.compileStmts; exact .pure _
  | .cons s rest =>
    intro n c a c' hi hn h
    unfold EB.compileStmts at h
    seq h start c1 h1
    obtain ⟨rfl, rfl⟩ := pcNow_eq h1
    seq h u c2 h2
    obtain ⟨E2, l2⟩ := (Ext.refl (n := n) hi).step hn (SStep.compileStmtBody s) h2
    seq h u1 c3 h3
    have e3 := ext_markIf (n := n) E2.inv hn h3
    have E3 := E2.trans e3
    exact (E3.step hn (SStep.compileStmts rest) h).1
termination_by structural ss

theorem ext_compileBranches {n : Nat} (bs : Branches) {c c' : Ctx} {a : List Nat} (hi : Inv c)
    (hn : n ≤ c.cg.code.length) (h : compileBranches bs c = .ok (a, c')) : Ext n c c' ∧ ∀ p ∈ a, n ≤ p := by
  match bs with
  | .nil =>
    unfold compileBranches at h
    have := CM.pure_ok.1 h; cases this
    exact ⟨.refl hi, by simp⟩
  | .cons guard body rest =>
    unfold compileBranches at h
    seq h cond c1 h1
    obtain ⟨E1, l1⟩ := (Ext.refl (n := n) hi).step hn (.compileCond _) h1
    seq h toNext c2 h2
    obtain ⟨E2, rfl, l2⟩ := E1.emit hn (by simp [Instr.targets]) h2
    seq h u c3 h3
    obtain ⟨E3, l3⟩ := E2.step hn (SStep.compileStmts body) h3
    split at h
    · seq h next c4 h4
      obtain ⟨rfl, rfl⟩ := pcNow_eq h4
      seq h u1 c5 h5
      obtain ⟨E5, l5⟩ := E3.pJumpIfFalse (by omega) (Nat.le_refl _) h5
      have := CM.pure_ok.1 h; cases this
      exact ⟨E5, by simp⟩
    · seq h toEnd c4 h4
      obtain ⟨E4, rfl, l4⟩ := E3.emit hn (by simp [Instr.targets]) h4
      seq h next c5 h5
      obtain ⟨rfl, rfl⟩ := pcNow_eq h5
      seq h u1 c6 h6
      obtain ⟨E6, l6⟩ := E4.pJumpIfFalse (by omega) (Nat.le_refl _) h6
      seq h ends c7 h7
      have := CM.pure_ok.1 h; cases this
      obtain ⟨e7, he⟩ := ext_compileBranches rest E6.inv (hn.trans E6.len) h7
      refine ⟨E6.trans e7, ?_⟩
      intro p hp
      rcases List.mem_cons.1 hp with rfl | hp
      · omega
      · exact he p hp
termination_by structural bs

theorem ext_compileBodies {n : Nat} {endPos : LineCol} (cs : Cases) (jumps : List (List (Nat × LineCol)))
    {c c' : Ctx} {a : List Nat} (hi : Inv c) (hn : n ≤ c.cg.code.length)
    (hj : ∀ js ∈ jumps, ∀ p ∈ js, n ≤ p.1)
    (h : compileBodies cs jumps endPos c = .ok (a, c')) : Ext n c c' ∧ ∀ p ∈ a, n ≤ p := by
  match cs, jumps with
  | .nil, _ =>
    unfold compileBodies at h
    have := CM.pure_ok.1 h; cases this
    exact ⟨.refl hi, by simp⟩
  | .cons .., [] =>
    unfold compileBodies at h
    simp [CM.throw] at h
  | .cons _ body rest, js :: jumps =>
    unfold compileBodies at h
    seq h here c1 h1
    obtain ⟨rfl, rfl⟩ := pcNow_eq h1
    seq h u c2 h2
    obtain ⟨E2, l2⟩ := (Ext.refl (n := n) hi).pJumps (hj js (List.mem_cons_self ..)) (Nat.le_refl _) h2
    seq h u1 c3 h3
    obtain ⟨E3, l3⟩ := E2.step hn (SStep.compileStmts body) h3
    split at h
    · have := CM.pure_ok.1 h; cases this
      exact ⟨E3, by simp⟩
    · seq h toEnd c4 h4
      obtain ⟨E4, rfl, l4⟩ := E3.emit hn (by simp [Instr.targets]) h4
      seq h ends c5 h5
      have := CM.pure_ok.1 h; cases this
      obtain ⟨e7, he⟩ := ext_compileBodies rest jumps E4.inv (hn.trans E4.len)
        (fun js hjs => hj js (List.mem_cons_of_mem _ hjs)) h5
      refine ⟨E4.trans e7, ?_⟩
      intro p hp
      rcases List.mem_cons.1 hp with rfl | hp
      · omega
      · exact he p hp
termination_by structural cs
end

end EB
