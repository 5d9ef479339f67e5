import Verif.Lemmas.StmtCode
/-!
# From the compiler to the code of statements in the image
-/

namespace EB

open Spec (Opened)

/-! ## Compilation functions that leave the pending exits alone -/

/-- The pending exits stay, and new instructions are not marked. -/
def Quiet {α : Type} (x : CS α) : Prop := ∀ c a c', c.cg.instrs.length = c.cg.code.length → x c = .ok (a, c') →
  c'.exits = c.exits ∧ c'.cg.instrs.length = c'.cg.code.length ∧
    ∃ t, c'.cg.instrs = c.cg.instrs ++ t ∧ ∀ m ∈ t, m.isStmtStart = false

namespace Quiet
variable {α β : Type}

theorem bind {x : CS α} {f : α → CS β} (hx : Quiet x) (hf : ∀ a, Quiet (f a)) : Quiet (x >>= f) := by
  intro c b c' hl h
  obtain ⟨a, c1, h1, h2⟩ := CM.bind_ok.1 h
  obtain ⟨p1, p2, t, p3, p4⟩ := hx _ _ _ hl h1
  obtain ⟨q1, q2, u, q3, q4⟩ := hf a _ _ _ p2 h2
  refine ⟨q1.trans p1, q2, t ++ u, by rw [q3, p3, List.append_assoc], fun m hm => ?_⟩
  rcases List.mem_append.1 hm with hm | hm
  · exact p4 m hm
  · exact q4 m hm

theorem of_sy {x : CS α} (h : ∀ c a c', x c = .ok (a, c') → ∃ sy, c' = { c with sy := sy }) : Quiet x := by
  intro c a c' hl hx
  obtain ⟨sy, rfl⟩ := h _ _ _ hx
  exact ⟨rfl, hl, [], by simp, by simp⟩

theorem pure (a : α) : Quiet (Pure.pure a : CS α) := of_sy fun c b c' h => by
  have := CM.pure_ok.1 h
  cases this; exact ⟨c.sy, rfl⟩

theorem throw (e : CErr) : Quiet (CM.throw e : CS α) := by
  intro c b c' _ h
  simp [CM.throw] at h

theorem lift (x : Except CErr α) : Quiet (CM.lift x : CS α) := of_sy fun c a c' h => by
  cases x with
  | error e => simp [CM.lift] at h
  | ok v => cases h; exact ⟨c.sy, rfl⟩

theorem get : Quiet (CM.get : CS Ctx) := of_sy fun c a c' h => by
  have := CM.get_ok.1 h
  cases this; exact ⟨c.sy, rfl⟩

theorem of_gext {c : Ctx} {g : Codegen} (hl : c.cg.instrs.length = c.cg.code.length) (e : GExt c.cg g) :
    ({ c with cg := g } : Ctx).exits = c.exits ∧ g.instrs.length = g.code.length ∧
      ∃ t, g.instrs = c.cg.instrs ++ t ∧ ∀ m ∈ t, m.isStmtStart = false := by
  refine ⟨rfl, e.lens_eq hl, ?_⟩
  obtain ⟨t, ht⟩ := e.instrs
  refine ⟨t, ht.symm, fun m hm => ?_⟩
  obtain ⟨i, hi⟩ := List.getElem?_of_mem hm
  exact e.unmarked (c.cg.instrs.length + i) m (by omega) (by rw [← ht, List.getElem?_append_right (by omega)]; simpa using hi)

theorem onCg {x : CG α} (hs : GStep x) : Quiet (onCg x) := by
  intro c a c' hl h
  obtain ⟨g, hg, rfl⟩ := onCg_ok.1 h
  exact of_gext hl (hs _ _ _ hl hg)

theorem withSyms {f : Syms → CG α} (hs : ∀ sy, GStep (f sy)) : Quiet (withSyms f) := by
  intro c a c' hl h
  obtain ⟨g, hg, rfl⟩ := withSyms_ok.1 h
  exact of_gext hl (hs _ _ _ _ hl hg)

theorem emit (i : Instr) (pos : LineCol) (ht : i.plain = true) : Quiet (EB.onCg (EB.emit i pos)) :=
  .onCg (.emit i pos ht)

theorem assignErr {x : CS α} (hx : Quiet x) : Quiet (assignErr x) := by
  intro c a c' hl h
  unfold EB.assignErr at h
  split at h
  · simp at h
  · exact hx c a c' hl h

theorem putLocalS (key : Str) (p : Proto) (pos : LineCol) : Quiet (putLocalS key p pos) :=
  of_sy fun _ _ _ h => by obtain ⟨sy, _, rfl⟩ := putLocalS_ok.1 h; exact ⟨_, rfl⟩

theorem putGlobalS (key : Str) (p : Proto) (pos : LineCol) : Quiet (putGlobalS key p pos) :=
  of_sy fun _ _ _ h => by obtain ⟨sy, _, rfl⟩ := putGlobalS_ok.1 h; exact ⟨_, rfl⟩

theorem assignDest (v : VarRef) (pos : LineCol) : Quiet (assignDest v pos) :=
  of_sy fun c _ _ h => by
    rcases assignDest_ok h with ⟨_, _, _, _, rfl⟩ | ⟨_, _, sy, _, _, _, _, rfl⟩
    · exact ⟨_, rfl⟩
    · exact ⟨sy, rfl⟩

theorem fixupTypeS (v : VarRef) (t : ExprType) (pos : LineCol) : Quiet (fixupTypeS v t pos) :=
  of_sy fun _ _ _ h => by obtain ⟨_, _, _, rfl⟩ := fixupTypeS_ok h; exact ⟨_, rfl⟩

theorem compileAssign (v : VarRef) (pos : LineCol) (e : Expr) : Quiet (compileAssign v pos e) := by
  refine .bind (.assignDest _ _) fun r => ?_
  obtain ⟨reg, et, wd⟩ := r
  cases et with
  | none => exact .bind (.withSyms fun _ => .compileExpr _ _ _ _) fun _ => .fixupTypeS _ _ _
  | some t =>
    simp only
    split
    · exact .assignErr (.withSyms fun sy => .bind (.lift _) fun _ => .bind (.compileExprAs _ _ _ _ _) fun _ => .bind (.emit _ _ rfl) fun _ => .pure _)
    · exact .assignErr (.withSyms fun sy => .compileExprAs _ _ _ _ _)

theorem defineIfNew (v : VarRef) (pos : LineCol) : Quiet (defineIfNew v pos) := by
  intro c a c' hl h
  unfold EB.defineIfNew at h
  split at h
  · split at h
    · cases h; exact Quiet.pure () c () c hl rfl
    · exact (Quiet.bind (.putLocalS _ _ _) fun _ => .onCg (.emitDefault _ _ _)) c a c' hl h
  · cases h; exact Quiet.pure () c () c hl rfl

theorem defineNewArgs (rep : Option RepSyn) (syns : List SingSyn) (args : Args) : Quiet (defineNewArgs rep syns args) := by
  match args with
  | .nil => unfold EB.defineNewArgs; split <;> first | exact .throw _ | exact .pure _ | contradiction
  | .skip _ _ rest =>
    cases syns with
    | nil => unfold EB.defineNewArgs; exact Quiet.defineNewArgs rep _ rest
    | cons s syns => cases s <;> (unfold EB.defineNewArgs; exact Quiet.defineNewArgs rep _ rest)
  | .cons e _ _ rest =>
    unfold EB.defineNewArgs
    split
    · rename_i h; cases h
    · rename_i h; cases h
    · rename_i h; cases h
    · rename_i h; cases h; exact .bind (.defineIfNew _ _) fun _ => Quiet.defineNewArgs rep _ rest
    · rename_i h; cases h; exact Quiet.defineNewArgs rep _ rest
    · rename_i h; cases h
    · rename_i h; cases h
      simp only
      split
      · exact .bind (.defineIfNew _ _) fun _ => Quiet.defineNewArgs rep _ rest
      · exact Quiet.defineNewArgs rep _ rest
    · rename_i h; cases h; exact Quiet.defineNewArgs rep _ rest
    · rename_i h; cases h
termination_by structural args

theorem compileCallStmt (v : VarRef) (pos : LineCol) (args : Args) : Quiet (compileCallStmt v pos args) := by
  intro c a c' hl h
  unfold EB.compileCallStmt at h
  split at h
  · simp at h
  · split at h
    · simp at h
    · split at h
      · simp at h
      · refine (Quiet.bind (.defineNewArgs _ _ _) fun _ => .withSyms fun sy => ?_) c a c' hl h
        exact .bind (.compileArgs _ _ _ _ _) fun _ => .emitCall _ _ _ _ _ _

theorem dimVar (name : Str) (pos : LineCol) (shared : Bool) (p : Proto) : Quiet (dimVar name pos shared p) := by
  intro c a c' hl h
  unfold EB.dimVar at h
  split at h
  · simp at h
  · split at h
    · split at h
      · simp at h
      · exact Quiet.putGlobalS _ _ _ c a c' hl h
    · split at h
      · simp at h
      · exact Quiet.putLocalS _ _ _ c a c' hl h

theorem compileArrayAssign (v : VarRef) (pos : LineCol) (subs : List Expr) (e : Expr) : Quiet (compileArrayAssign v pos subs e) := by
  refine .withSyms fun sy => ?_
  split
  · split
    · exact .throw _
    · exact .bind (.lift _) fun _ => .bind (.compileExprAs _ _ _ _ _) fun _ => .bind (.compileSubs _ _ _ _) fun _ =>
        .bind (.lift _) fun _ => .bind (.emit _ _ rfl) fun _ => .pure _
  · exact .throw _
  · exact .throw _
  · exact .throw _

theorem compileDimArray (name : Str) (pos : LineCol) (shared : Bool) (dims : List Expr) (ty : ExprType) :
    Quiet (compileDimArray name pos shared dims ty) := by
  refine .bind (.dimVar _ _ _ _) fun _ => .withSyms fun sy => .bind (.compileSubs _ _ _ _) fun _ =>
    .bind (.lift _) fun _ => ?_
  split
  · exact .throw _
  · exact .bind (.emit _ _ rfl) fun _ => .pure _
  · exact .throw _

theorem compileEnd (code : Option Expr) (pos : LineCol) : Quiet (compileEnd code pos) := by
  have h : Quiet (EB.withSyms fun sy => do
      let reg ← CM.lift (allocTemp sy 0 pos)
      match code with
      | some e => EB.compileExprAs sy e 1 reg .integer
      | none => do let _ ← EB.emit (.loadInt reg 0#16) pos
      let _ ← EB.emit (.end reg) pos : CS Unit) := by
    refine .withSyms fun sy => .bind (.lift _) fun _ => ?_
    cases code with
    | some e => exact .bind (.compileExprAs _ _ _ _ _) fun _ => .bind (.emit _ _ rfl) fun _ => .pure _
    | none => exact .bind (.emit _ _ rfl) fun _ => .bind (.emit _ _ rfl) fun _ => .pure _
  unfold EB.compileEnd
  generalize code.bind staticEndCode = o
  cases o with
  | none => exact h
  | some p =>
    simp only
    split
    · exact .bind (.throw _) fun _ => h
    · exact h

theorem emitFixup (pos : LineCol) (f : Fixup) : Quiet (emitFixup pos f) := by
  intro c a c' hl h
  have := emitFixup_ok.1 h
  cases this
  exact of_gext hl (gext_fixup (GStep.emit .nop pos rfl _ _ _ hl rfl) (Nat.le_refl _) (by simp [Codegen.push]) f)

theorem forIter (v : VarRef) (pos : LineCol) (d : Bool) : Quiet (forIter v pos d) := by
  intro c a c' hl h
  unfold EB.forIter at h
  split at h
  · split at h
    · cases h; exact Quiet.pure () c () c hl rfl
    · split at h
      · simp at h
      · exact (Quiet.bind (.putLocalS _ _ _) fun _ => .pure _) c a c' hl h
    · simp at h
  · cases h; exact Quiet.pure () c () c hl rfl

theorem declareCallable (v : VarRef) (pos : LineCol) (ps : List VarRef) : Quiet (declareCallable v pos ps) :=
  of_sy fun _ _ _ h => by
    unfold EB.declareCallable at h
    split at h
    · cases h; exact ⟨_, rfl⟩
    · simp at h

theorem putParams (pos : LineCol) : ∀ ps, Quiet (putParams pos ps)
  | [] => .pure _
  | _ :: ps => .bind (.putLocalS _ _ _) fun _ => putParams pos ps

theorem prologBody (name : VarRef) (pos : LineCol) (ps : List VarRef) : Quiet (prologBody name pos ps) := by
  unfold EB.prologBody
  generalize name.ty = ty
  match ty with
  | none => exact .putParams _ _
  | some .boolean =>
    exact .bind (.putLocalS _ _ _) fun _ => .bind (.pure _) fun _ => .bind (.emit _ _ rfl) fun _ => .putParams _ _
  | some .integer =>
    exact .bind (.putLocalS _ _ _) fun _ => .bind (.pure _) fun _ => .bind (.emit _ _ rfl) fun _ => .putParams _ _
  | some .double =>
    exact .bind (.putLocalS _ _ _) fun _ => .bind (.onCg (.getConstant _ _)) fun _ => .bind (.emit _ _ rfl) fun _ => .putParams _ _
  | some .text =>
    exact .bind (.putLocalS _ _ _) fun _ => .bind (.onCg (.getConstant _ _)) fun _ => .bind (.emit _ _ rfl) fun _ => .putParams _ _

theorem of_cg {c c' : Ctx} (hl : c.cg.instrs.length = c.cg.code.length) (h1 : c'.exits = c.exits) (h2 : c'.cg.instrs = c.cg.instrs)
    (h3 : c'.cg.code = c.cg.code) : c'.exits = c.exits ∧ c'.cg.instrs.length = c'.cg.code.length ∧
      ∃ t, c'.cg.instrs = c.cg.instrs ++ t ∧ ∀ m ∈ t, m.isStmtStart = false :=
  ⟨h1, by rw [h2, h3]; exact hl, [], by simp [h2], by simp⟩

theorem simple (s : Stmt) (h : s.simple = true) : Quiet (compileStmtBody s) := by
  match s, h with
  | .arrayAssign v pos subs e, _ => unfold compileStmtBody; exact .compileArrayAssign _ _ _ _
  | .assign v pos e, _ => unfold compileStmtBody; exact .compileAssign _ _ _
  | .call v pos args, _ => unfold compileStmtBody; exact .compileCallStmt _ _ _
  | .data values, _ =>
    unfold compileStmtBody
    refine .bind (.lift _) fun _ => fun c a c' hl h => ?_
    have := CM.modify_ok.1 h
    cases this
    exact of_cg hl rfl rfl rfl
  | .declare name pos params, _ =>
    unfold compileStmtBody
    refine .bind .get fun c => ?_
    split
    · exact .throw _
    · exact .declareCallable _ _ _
  | .dim name pos shared ty, _ => unfold compileStmtBody; exact .bind (.dimVar _ _ _ _) fun _ => .onCg (.emitDefault _ _ _)
  | .dimArray name pos shared dims ty, _ => unfold compileStmtBody; exact .compileDimArray _ _ _ _ _
  | .end code pos, _ => unfold compileStmtBody; exact .compileEnd _ _
  | .label name pos, _ =>
    unfold compileStmtBody
    intro c a c' hl h
    simp only at h
    split at h
    · simp at h
    · cases h; exact of_cg hl rfl rfl rfl
  | .onError (.goto label _ pos), _ => unfold compileStmtBody; exact .emitFixup _ _
  | .onError (.reset pos), _ => unfold compileStmtBody; exact .bind (.emit _ _ rfl) fun _ => .pure _
  | .onError (.resumeNext pos), _ => unfold compileStmtBody; exact .bind (.emit _ _ rfl) fun _ => .pure _

theorem wild (s : Stmt) (h : s.wild = true) : Quiet (compileStmtBody s) := by
  match s, h with
  | .gosub label pos, _ => unfold compileStmtBody; exact .emitFixup _ _
  | .goto label pos, _ => unfold compileStmtBody; exact .emitFixup _ _
  | .ret pos, _ => unfold compileStmtBody; exact .bind (.onCg (.emit _ _ rfl)) fun _ => .pure _

end Quiet

theorem Wired.part {L : Link} {X : Nat → Prop} {lo : Nat} {c c' : Ctx} {T : Targets} {x : CS Unit} (hw : Wired L X lo c' T)
    (hg : Good c) (hq : Quiet x) (he : x c = .ok ((), c')) (hlo : lo ≤ c.cg.code.length)
    (hx : ∀ i, c.cg.code.length ≤ i → i < c'.cg.code.length → ¬ X i) :
    Part L x c.sy c.cg.code.length c'.cg.code.length c'.sy := by
  obtain ⟨q1, q2, t, q3, q4⟩ := hq _ _ _ hg.inv.lens he
  refine ⟨c, c', he, hg.inv, rfl, rfl, rfl, rfl, hg.inv.gok, hw.linked hlo (fun i h1 h2 => ⟨hx i h1 h2, fun hi => ?_⟩) q2
    (fun i m h1 h2 => ?_), hw.within⟩
  · rw [q1] at hi
    have := hg.ex.lt i hi
    omega
  · have hl := hg.inv.lens
    rw [q3, List.getElem?_append_right (by omega)] at h2
    exact q4 m (List.mem_of_getElem? h2)

/-! ## SELECT: what the dispatch leaves behind -/

theorem withSyms_sy {α : Type} {f : Syms → CG α} {c c' : Ctx} {a : α} (h : withSyms f c = .ok (a, c')) : c'.sy = c.sy := by
  obtain ⟨g, _, rfl⟩ := withSyms_ok.1 h
  rfl

theorem onCg_sy {α : Type} {f : CG α} {c c' : Ctx} {a : α} (h : onCg f c = .ok (a, c')) : c'.sy = c.sy := by
  obtain ⟨g, _, rfl⟩ := onCg_ok.1 h
  rfl

theorem emitJump_sy {t : Nat} {pos : LineCol} {c c' : Ctx} {a : Unit} (h : emitJump t pos c = .ok (a, c')) : c'.sy = c.sy := by
  obtain ⟨v, hv, h3⟩ := emitJump_ok.1 h
  cases h3; rfl

theorem nodup_flatten_cons {a b : List Nat} (ha : a.Nodup) (hb : b.Nodup) {n : Nat} (h1 : ∀ i ∈ a, i < n) (h2 : ∀ i ∈ b, n ≤ i) :
    (a ++ b).Nodup := by
  refine List.nodup_append.2 ⟨ha, hb, fun x hx y hy e => ?_⟩
  have := h1 x hx
  have := h2 y hy
  omega

theorem guards_facts {test : Reg} {tt : ExprType} : ∀ {gs : List CaseGuard} {c c' : Ctx} {js : List (Nat × LineCol)},
    compileGuards test tt gs c = .ok (js, c') → Good c →
    Good c' ∧ Ext c.cg.code.length c c' ∧ c'.sy = c.sy ∧ (∀ p ∈ js, Hole c' p.1 ∧ c.cg.code.length ≤ p.1) ∧ (js.map (·.1)).Nodup
  | [], c, c', js, h, hg => by
    have := CM.pure_ok.1 h
    cases this
    exact ⟨hg, .refl hg.inv, rfl, by simp, by simp⟩
  | g :: gs, c, c', js, h, hg => by
    unfold compileGuards at h
    seq h r c1 h1
    obtain ⟨cond, pos⟩ := r
    seq h next c2 h2
    seq h body c3 h3
    seq h here c4 h4
    obtain ⟨rfl, rfl⟩ := pcNow_eq h4
    seq h u c5 h5
    seq h rest c6 h6
    have := CM.pure_ok.1 h; cases this
    obtain ⟨g1, e1⟩ := hg.step (.withSyms fun sy => .compileGuard sy 1 test tt g) (.withSyms fun sy => .compileGuard sy 1 test tt g) h1
    obtain ⟨g2, e2, rfl, l2, o2⟩ := g1.emit (by simp [Instr.targets]) h2
    obtain ⟨g3, e3, rfl, l3, o3⟩ := g2.emit (by simp [Instr.targets]) h3
    obtain ⟨g5, l5, s5⟩ := g3.pSkip (Nat.le_refl _) h5
    obtain ⟨g6, e6, s6, p6, n6⟩ := guards_facts h6 g5
    have l1 := e1.len
    have l6 := e6.len
    have e5 := (ext_patchJumpIfFalse (n := c.cg.code.length) g3.inv (by omega) (Nat.le_refl _) h5).1
    refine ⟨g6, e1.trans ((e2.weaken (by omega)).trans ((e3.weaken (by omega)).trans (e5.trans (e6.weaken (by omega))))), ?_, ?_, ?_⟩
    · rw [s6, s5, onCg_sy h3, onCg_sy h2, withSyms_sy h1]
    · intro p hp
      rcases List.mem_cons.1 hp with rfl | hp
      · exact ⟨(o3.pSkip h5).ext e6, by show _ ≤ c2.cg.code.length; omega⟩
      · exact ⟨(p6 p hp).1, by have := (p6 p hp).2; omega⟩
    · simp only [List.map_cons, List.nodup_cons]
      refine ⟨fun hm => ?_, n6⟩
      obtain ⟨p, hp, he⟩ := List.mem_map.1 hm
      have := (p6 p hp).2
      omega

theorem guardCode {L : Link} {X : Nat → Prop} {lo : Nat} {T : Targets} {test : Reg} {tt : ExprType} {body : Nat} :
    ∀ {gs : List CaseGuard} {c c' : Ctx} {js : List (Nat × LineCol)},
    compileGuards test tt gs c = .ok (js, c') → Good c → Wired L X lo c' T → lo ≤ c.cg.code.length →
    (∀ i, c.cg.code.length ≤ i → i < c'.cg.code.length → X i → i ∈ js.map (·.1)) → (∀ p ∈ js, Jumps L p.1 body) →
    GuardCode L c.sy test tt body c.cg.code.length gs c'.cg.code.length
  | [], c, c', js, h, hg, hw, hlo, hx, hj => by
    have := CM.pure_ok.1 h
    cases this
    exact .nil
  | g :: gs, c, c', js, h, hg, hw, hlo, hx, hj => by
    unfold compileGuards at h
    seq h r c1 h1
    obtain ⟨cond, pos⟩ := r
    seq h next c2 h2
    seq h bd c3 h3
    seq h here c4 h4
    obtain ⟨rfl, rfl⟩ := pcNow_eq h4
    seq h u c5 h5
    seq h rest c6 h6
    have := CM.pure_ok.1 h; cases this
    obtain ⟨g1, e1⟩ := hg.step (.withSyms fun sy => .compileGuard sy 1 test tt g) (.withSyms fun sy => .compileGuard sy 1 test tt g) h1
    obtain ⟨g2, e2, rfl, l2, o2⟩ := g1.emit (by simp [Instr.targets]) h2
    obtain ⟨g3, e3, rfl, l3, o3⟩ := g2.emit (by simp [Instr.targets]) h3
    obtain ⟨g5, l5, s5⟩ := g3.pSkip (Nat.le_refl _) h5
    obtain ⟨g6, e6, s6, p6, n6⟩ := guards_facts h6 g5
    have l1 := e1.len
    have l6 := e6.len
    have hxx : ∀ i, c.cg.code.length ≤ i → i < c'.cg.code.length → X i → c2.cg.code.length = i ∨ c5.cg.code.length ≤ i := by
      intro i h1 h2 h3
      have := hx i h1 h2 h3
      simp only [List.map_cons, List.mem_cons] at this
      rcases this with rfl | h
      · exact .inl rfl
      · obtain ⟨p, hp, rfl⟩ := List.mem_map.1 h
        exact .inr (p6 p hp).2
    have w5 := hw.ext e6
    obtain ⟨sk, w3⟩ := w5.pSkip h5 (o2.ext e3) (by omega) (fun hX => by
      rcases hxx _ (by omega) (by omega) hX with h | h <;> omega)
    have w1 := (w3.ext e3).ext e2
    have hs : c5.sy = c.sy := by rw [s5, onCg_sy h3, onCg_sy h2, withSyms_sy h1]
    have ih := guardCode h6 g5 hw (by omega) (fun i h1 h2 h3 => by
      have := hx i (by omega) h2 h3
      simp only [List.map_cons, List.mem_cons] at this
      rcases this with rfl | h
      · omega
      · exact h) (fun p hp => hj p (List.mem_cons_of_mem _ hp))
    rw [hs, l5, l3, l2] at ih
    have pc := w1.piece hg h1 (fun sy => .compileGuard sy 1 test tt g) hlo (fun i h1 h2 h3 => by
      rcases h3 with h3 | h3
      · rcases hxx i h1 (by omega) h3 with h | h <;> omega
      · omega)
    have j := hj _ (List.mem_cons_self ..)
    simp only [l2] at j
    rw [l3, l2] at sk
    exact .cons pc sk j ih

theorem dispatch_cons {test : Reg} {tt : ExprType} {endPos : LineCol} {gs : List CaseGuard} {body : Stmts} {rest : Cases}
    {pending : Option Nat} {c c' : Ctx} {jumps : List (List (Nat × LineCol))} {pending' : Option Nat}
    (h : compileDispatch test tt endPos (.cons gs body rest) pending c = .ok ((jumps, pending'), c')) :
    ∃ c1, (match pending with
        | some p => ∃ u, patchJump p c.cg.code.length endPos c = .ok (u, c1)
        | none => c1 = c) ∧
      ((gs = [] ∧ ∃ a c2 js, onCg (emit .nop endPos) c1 = .ok (a, c2) ∧
          compileDispatch test tt endPos rest none c2 = .ok ((js, pending'), c') ∧ jumps = [(a, endPos)] :: js) ∨
        (gs ≠ [] ∧ ∃ b c2 a c3 js, compileGuards test tt gs c1 = .ok (b, c2) ∧ onCg (emit .nop endPos) c2 = .ok (a, c3) ∧
          compileDispatch test tt endPos rest (some a) c3 = .ok ((js, pending'), c') ∧ jumps = b :: js)) := by
  unfold compileDispatch at h
  seq h here c0 h0
  obtain ⟨rfl, rfl⟩ := pcNow_eq h0
  have key : ∀ c1, ((match gs with
      | [] => (do
        let body ← onCg (emit .nop endPos)
        let (jumps, pending') ← compileDispatch test tt endPos rest none
        pure ([(body, endPos)] :: jumps, pending') : CS (List (List (Nat × LineCol)) × Option Nat))
      | guards => do
        let body ← compileGuards test tt guards
        let next ← onCg (emit .nop endPos)
        let (jumps, pending') ← compileDispatch test tt endPos rest (some next)
        pure (body :: jumps, pending')) c1 = .ok ((jumps, pending'), c')) →
      ((gs = [] ∧ ∃ a c2 js, onCg (emit .nop endPos) c1 = .ok (a, c2) ∧
          compileDispatch test tt endPos rest none c2 = .ok ((js, pending'), c') ∧ jumps = [(a, endPos)] :: js) ∨
        (gs ≠ [] ∧ ∃ b c2 a c3 js, compileGuards test tt gs c1 = .ok (b, c2) ∧ onCg (emit .nop endPos) c2 = .ok (a, c3) ∧
          compileDispatch test tt endPos rest (some a) c3 = .ok ((js, pending'), c') ∧ jumps = b :: js)) := by
    intro c1 h
    cases gs with
    | nil =>
      simp only at h
      seq h a c2 h2
      seq h r c3 h3
      obtain ⟨js, p'⟩ := r
      have := CM.pure_ok.1 h; cases this
      exact .inl ⟨rfl, a, c2, js, h2, h3, rfl⟩
    | cons g gs =>
      simp only at h
      seq h b c2 h2
      seq h a c3 h3
      seq h r c4 h4
      obtain ⟨js, p'⟩ := r
      have := CM.pure_ok.1 h; cases this
      exact .inr ⟨by simp, b, c2, a, c3, js, h2, h3, h4, rfl⟩
  cases pending with
  | none => exact ⟨c, rfl, key c h⟩
  | some p =>
    simp only at h
    seq h u c1 h1
    exact ⟨c1, ⟨u, h1⟩, key c1 h⟩

/-- The number of cases. -/
def Cases.count : Cases → Nat
  | .nil => 0
  | .cons _ _ rest => rest.count + 1

structure DispatchFacts (cs : Cases) (pending : Option Nat) (c c' : Ctx) (jumps : List (List (Nat × LineCol)))
    (pending' : Option Nat) : Prop where
  good : Good c'
  len : c.cg.code.length ≤ c'.cg.code.length
  sy : c'.sy = c.sy
  holes : ∀ l ∈ jumps, ∀ p ∈ l, Hole c' p.1 ∧ c.cg.code.length ≤ p.1
  once : (jumps.flatten.map (·.1)).Nodup
  count : jumps.length = cs.count
  next : ∀ p, pending' = some p → Hole c' p ∧ (∀ l ∈ jumps, ∀ q ∈ l, q.1 < p) ∧
    ((cs = .nil ∧ pending = some p) ∨ (c.cg.code.length ≤ p))
  keep : ∀ a, Hole c a → Hole c' a

theorem dispatch_facts {test : Reg} {tt : ExprType} {endPos : LineCol} (cs : Cases) {pending : Option Nat} {c c' : Ctx}
    {jumps : List (List (Nat × LineCol))} {pending' : Option Nat}
    (h : compileDispatch test tt endPos cs pending c = .ok ((jumps, pending'), c')) (hg : Good c)
    (hp : ∀ p, pending = some p → Hole c p) : DispatchFacts cs pending c c' jumps pending' := by
  match cs with
  | .nil =>
    have := CM.pure_ok.1 h
    cases this
    exact ⟨hg, Nat.le_refl _, rfl, by simp, by simp, rfl, fun p h => ⟨hp p h, by simp, .inl ⟨rfl, h⟩⟩, fun _ h => h⟩
  | .cons gs body rest =>
    obtain ⟨c1, h1, h2⟩ := dispatch_cons h
    have f1 : Good c1 ∧ c1.cg.code.length = c.cg.code.length ∧ c1.sy = c.sy ∧ ∀ a, Hole c a → Hole c1 a := by
      cases pending with
      | none => simp only at h1; subst h1; exact ⟨hg, rfl, rfl, fun _ h => h⟩
      | some p =>
        obtain ⟨u, h1⟩ := h1
        obtain ⟨a1, a2, a3⟩ := hg.pJump (Nat.le_refl _) h1
        exact ⟨a1, a2, a3, fun a h => h.pJump h1⟩
    obtain ⟨g1, l1, s1, k1⟩ := f1
    rcases h2 with ⟨rfl, a, c2, js, h2, h3, rfl⟩ | ⟨hne, b, c2, a, c3, js, h2, h3, h4, rfl⟩
    · obtain ⟨g2, e2, rfl, l2, o2⟩ := g1.emit (by simp [Instr.targets]) h2
      have f := dispatch_facts rest h3 g2 (by simp)
      have fl := f.len
      refine ⟨f.good, by omega, ?_, ?_, ?_, ?_, ?_, ?_⟩
      · rw [f.sy, onCg_sy h2, s1]
      · intro l hl p hp
        rcases List.mem_cons.1 hl with rfl | hl
        · simp only [List.mem_singleton] at hp
          subst hp
          exact ⟨f.keep _ o2, by show _ ≤ c1.cg.code.length; omega⟩
        · have := f.holes l hl p hp
          exact ⟨this.1, by omega⟩
      · simp only [List.flatten_cons, List.map_append]
        refine nodup_flatten_cons (n := c2.cg.code.length) (by simp) f.once (by simp; omega) ?_
        intro i hi
        obtain ⟨p, hp, rfl⟩ := List.mem_map.1 hi
        obtain ⟨l, hl, hp⟩ := List.mem_flatten.1 hp
        exact (f.holes l hl p hp).2
      · simp [f.count, Cases.count]
      · intro p hp
        obtain ⟨a1, a2, a3⟩ := f.next p hp
        have hp2 : c2.cg.code.length ≤ p := by
          rcases a3 with ⟨_, a3⟩ | a3
          · cases a3
          · exact a3
        refine ⟨a1, ?_, .inr (by omega)⟩
        intro l hl q hq
        rcases List.mem_cons.1 hl with rfl | hl
        · simp only [List.mem_singleton] at hq
          subst hq
          show c1.cg.code.length < p
          omega
        · exact a2 l hl q hq
      · intro a ha
        exact f.keep a ((k1 a ha).ext e2)
    · obtain ⟨g2, e2, s2, o2, n2⟩ := guards_facts h2 g1
      obtain ⟨g3, e3, rfl, l3, o3⟩ := g2.emit (by simp [Instr.targets]) h3
      have f := dispatch_facts rest h4 g3 (by intro p hp; cases hp; exact o3)
      have fl := f.len
      have l2 := e2.len
      refine ⟨f.good, by omega, ?_, ?_, ?_, ?_, ?_, ?_⟩
      · rw [f.sy, onCg_sy h3, s2, s1]
      · intro l hl p hp
        rcases List.mem_cons.1 hl with rfl | hl
        · exact ⟨f.keep _ ((o2 p hp).1.ext e3), by have := (o2 p hp).2; omega⟩
        · have := f.holes l hl p hp
          exact ⟨this.1, by omega⟩
      · simp only [List.flatten_cons, List.map_append]
        refine nodup_flatten_cons (n := c2.cg.code.length) n2 f.once ?_ ?_
        · intro i hi
          obtain ⟨p, hp, rfl⟩ := List.mem_map.1 hi
          exact (o2 p hp).1.lt
        · intro i hi
          obtain ⟨p, hp, rfl⟩ := List.mem_map.1 hi
          obtain ⟨l, hl, hp⟩ := List.mem_flatten.1 hp
          have := (f.holes l hl p hp).2
          omega
      · simp [f.count, Cases.count]
      · intro p hp
        obtain ⟨a1, a2, a3⟩ := f.next p hp
        have hp2 : c2.cg.code.length ≤ p := by
          rcases a3 with ⟨_, a3⟩ | a3
          · cases a3; exact Nat.le_refl _
          · omega
        refine ⟨a1, ?_, .inr (by omega)⟩
        intro l hl q hq
        rcases List.mem_cons.1 hl with rfl | hl
        · have := (o2 q hq).1.lt
          omega
        · exact a2 l hl q hq
      · intro a ha
        exact f.keep a (((k1 a ha).ext e2).ext e3)
termination_by structural cs

theorem dispatchCode {L : Link} {lo : Nat} {T : Targets} {test : Reg} {tt : ExprType} {endPos : LineCol} (cs : Cases)
    {X : Nat → Prop} {pending : Option Nat} {c c' : Ctx} {jumps : List (List (Nat × LineCol))} {pending' : Option Nat} {ts : List Nat}
    (h : compileDispatch test tt endPos cs pending c = .ok ((jumps, pending'), c')) (hg : Good c)
    (hp : ∀ p, pending = some p → Hole c p ∧ lo ≤ p ∧ (cs ≠ .nil → ¬ X p)) (hw : Wired L X lo c' T) (hlo : lo ≤ c.cg.code.length)
    (hx : ∀ i, c.cg.code.length ≤ i → i < c'.cg.code.length → X i → (∃ l ∈ jumps, ∃ p ∈ l, p.1 = i) ∨ pending' = some i)
    (hj : List.Forall₂ (fun l t => ∀ p ∈ l, Jumps L p.1 t) jumps ts)
    (hn : ∀ p, pending' = some p → Jumps L p c'.cg.code.length) :
    DispatchCode L c.sy test tt c.cg.code.length cs ts c'.cg.code.length ∧ (∀ p, pending = some p → Jumps L p c.cg.code.length) ∧
      Wired L (fun i => X i ∨ pending = some i) lo c T := by
  match cs with
  | .nil =>
    have := CM.pure_ok.1 h
    cases this
    cases hj
    exact ⟨.nil, hn, { hw with code := fun i h1 h2 h3 => hw.code i h1 h2 fun h => h3 (.inl h) }⟩
  | .cons gs body rest =>
    have F := dispatch_facts _ h hg fun p h => (hp p h).1
    obtain ⟨c1, h1, h2⟩ := dispatch_cons h
    have f1 : Good c1 ∧ c1.cg.code.length = c.cg.code.length ∧ c1.sy = c.sy ∧
        (∀ Y, Wired L Y lo c1 T → (∀ p, pending = some p → ¬ Y p) → (∀ p, pending = some p → Jumps L p c.cg.code.length) ∧
          Wired L (fun i => Y i ∨ pending = some i) lo c T) := by
      cases pending with
      | none =>
        simp only at h1; subst h1
        refine ⟨hg, rfl, rfl, fun Y w hy => ⟨by simp, { w with code := fun i h1 h2 h3 => w.code i h1 h2 fun h => h3 (.inl h) }⟩⟩
      | some p =>
        obtain ⟨u, h1⟩ := h1
        obtain ⟨a1, a2, a3⟩ := hg.pJump (Nat.le_refl _) h1
        refine ⟨a1, a2, a3, fun Y w hy => ?_⟩
        obtain ⟨b1, b2⟩ := w.pJump h1 (hp p rfl).1 (hp p rfl).2.1 (hy p rfl)
        refine ⟨fun q hq => by cases hq; exact b1, { b2 with code := fun i h1 h2 h3 => b2.code i h1 h2 fun h => h3 ?_ }⟩
        rcases h with h | rfl
        · exact .inl h
        · exact .inr rfl
    obtain ⟨g1, l1, s1, k1⟩ := f1
    have hxp : ∀ p, pending = some p → ¬ X p := fun p h => (hp p h).2.2 (by simp)
    rcases h2 with ⟨rfl, a, c2, js, h2, h3, rfl⟩ | ⟨hne, b, c2, a, c3, js, h2, h3, h4, rfl⟩
    · obtain ⟨g2, e2, rfl, l2, o2⟩ := g1.emit (by simp [Instr.targets]) h2
      cases hj with
      | cons hj1 hj2 =>
        obtain ⟨d, _, w⟩ := dispatchCode rest h3 g2 (by simp) hw (by omega) (fun i q1 q2 q3 => by
          rcases hx i (by omega) q2 q3 with ⟨l, hl, p, hp, rfl⟩ | h
          · rcases List.mem_cons.1 hl with rfl | hl
            · simp only [List.mem_singleton] at hp
              subst hp
              simp only at q1
              omega
            · exact .inl ⟨l, hl, p, hp, rfl⟩
          · exact .inr h) hj2 hn
        have w2 : Wired L X lo c2 T := { w with code := fun i h1 h2 h3 => w.code i h1 h2 fun h => h3 (h.elim (fun h => h) (by simp)) }
        obtain ⟨q1, q2⟩ := k1 X (w2.ext e2) hxp
        refine ⟨?_, q1, q2⟩
        have j := hj1 _ (List.mem_singleton.2 rfl)
        simp only [l1] at j
        rw [onCg_sy h2, s1, l2, l1] at d
        exact .other j d
    · obtain ⟨g2, e2, s2, o2, n2⟩ := guards_facts h2 g1
      obtain ⟨g3, e3, rfl, l3, o3⟩ := g2.emit (by simp [Instr.targets]) h3
      have f := dispatch_facts rest h4 g3 (by intro p hp; cases hp; exact o3)
      have l2 := e2.len
      have fl := f.len
      have hxx : ∀ i, c.cg.code.length ≤ i → i < c'.cg.code.length → X i →
          i ∈ b.map (·.1) ∨ c3.cg.code.length ≤ i ∨ (rest = .nil ∧ i = c2.cg.code.length) := by
        intro i q1 q2 q3
        rcases hx i q1 q2 q3 with ⟨l, hl, p, hp, rfl⟩ | h
        · rcases List.mem_cons.1 hl with rfl | hl
          · exact .inl (List.mem_map.2 ⟨p, hp, rfl⟩)
          · exact .inr (.inl (f.holes l hl p hp).2)
        · rcases (f.next i h).2.2 with ⟨e1, e2⟩ | e
          · cases e2; exact .inr (.inr ⟨e1, rfl⟩)
          · exact .inr (.inl e)
      cases hj with
      | cons hj1 hj2 =>
        obtain ⟨d, q, w⟩ := dispatchCode rest h4 g3 (by
            intro p hp
            cases hp
            refine ⟨o3, by omega, fun hn hX => ?_⟩
            rcases hxx _ (by omega) (by omega) hX with h | h | h
            · obtain ⟨p, hp, he⟩ := List.mem_map.1 h
              have := (o2 p hp).1.lt
              omega
            · omega
            · exact hn h.1) hw (by omega) (fun i q1 q2 q3 => by
          rcases hx i (by omega) q2 q3 with ⟨l, hl, p, hp, rfl⟩ | h
          · rcases List.mem_cons.1 hl with rfl | hl
            · have := (o2 p hp).1.lt
              omega
            · exact .inl ⟨l, hl, p, hp, rfl⟩
          · exact .inr h) hj2 hn
        have w2 := w.ext e3
        have gc := guardCode h2 g1 w2 (by omega) (fun i q1 q2 q3 => by
          rcases q3 with q3 | q3
          · rcases hxx i (by omega) (by omega) q3 with h | h | h
            · exact h
            · omega
            · omega
          · cases q3; omega) hj1
        have w1 := w2.ext e2
        have w1' : Wired L X lo c1 T := { w1 with code := fun i h1 h2 h3 => w1.code i h1 h2 fun h => h.elim h3 fun h => (by cases h; omega) }
        obtain ⟨q1, q2⟩ := k1 X w1' hxp
        refine ⟨?_, q1, q2⟩
        rw [onCg_sy h3, s2, s1, l3] at d
        rw [s1, l1] at gc
        have j := q _ rfl
        rw [l3] at j
        cases gs with
        | nil => exact absurd rfl hne
        | cons g gs => exact .cons gc j d
termination_by structural cs

end EB
