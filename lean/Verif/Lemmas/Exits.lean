import Verif.Lemmas.CompStmt
/-!
# Pending exits

The placeholders of `EXIT` statements are all different, and none of them is filled in as a jump to a label.
-/

namespace EB

/-- The addresses of the pending exits. -/
def Ctx.exits (c : Ctx) : List Nat := ((c.doExit.flatten ++ c.forExit.flatten) ++ c.calExits).map (·.1)

/-- They are in order. -/
structure ExitsOk (c : Ctx) : Prop where
  lens : c.cg.instrs.length = c.cg.code.length
  lt : ∀ a ∈ c.exits, a < c.cg.code.length
  once : c.exits.Nodup
  nofix : ∀ a ∈ c.exits, c.cg.fixups.get? a = none
  fixlt : ∀ a f, c.cg.fixups.get? a = some f → a < c.cg.code.length

/-- This keeps them in order. -/
def XStep {α : Type} (x : CS α) : Prop := ∀ c a c', ExitsOk c → x c = .ok (a, c') → ExitsOk c'

namespace XStep
variable {α β : Type}

theorem bind {x : CS α} {f : α → CS β} (hx : XStep x) (hf : ∀ a, XStep (f a)) : XStep (x >>= f) := by
  intro c b c' ho h
  obtain ⟨a, c1, h1, h2⟩ := CM.bind_ok.1 h
  exact hf a _ _ _ (hx _ _ _ ho h1) h2

theorem pure (a : α) : XStep (Pure.pure a : CS α) := by
  intro c b c' ho h
  have := CM.pure_ok.1 h
  cases this; exact ho

theorem throw (e : CErr) : XStep (CM.throw e : CS α) := by
  intro c b c' _ h
  exact absurd h (by simp [CM.throw])

theorem lift (x : Except CErr α) : XStep (CM.lift x : CS α) := by
  intro c b c' ho h
  obtain ⟨a, _, h⟩ := CM.lift_ok.1 h
  cases h; exact ho

theorem get : XStep (CM.get : CS Ctx) := by
  intro c b c' ho h
  have := CM.get_ok.1 h
  cases this; exact ho

theorem pcNow : XStep pcNow := by
  intro c b c' ho h
  have := pcNow_ok.1 h
  cases this; exact ho

theorem of_gext {c : Ctx} {g : Codegen} (ho : ExitsOk c) (h : GExt c.cg g) : ExitsOk { c with cg := g } := by
  have hlen := h.len
  have hl := h.lens
  refine ⟨by have := ho.lens; show g.instrs.length = g.code.length; omega,
    fun a ha => Nat.lt_of_lt_of_le (ho.lt a ha) hlen, ho.once, ?_, ?_⟩
  · intro a ha
    show g.fixups.get? a = none
    by_contra hn
    have h1 := h.fixups a (by rw [ho.nofix a ha]; exact hn)
    have := ho.lt a ha
    omega
  · intro a f hf
    by_cases he : g.fixups.get? a = c.cg.fixups.get? a
    · exact Nat.lt_of_lt_of_le (ho.fixlt a f (he ▸ hf)) hlen
    · exact (h.fixups a he).2

theorem onCg {x : CG α} (hx : GStep x) : XStep (onCg x) := by
  intro c a c' ho h
  obtain ⟨g, h1, rfl⟩ := onCg_ok.1 h
  exact of_gext ho (hx _ _ _ ho.lens h1)

theorem withSyms {f : Syms → CG α} (hx : ∀ sy, GStep (f sy)) : XStep (withSyms f) := by
  intro c a c' ho h
  obtain ⟨g, h1, rfl⟩ := withSyms_ok.1 h
  exact of_gext ho (hx _ _ _ _ ho.lens h1)

theorem emit (i : Instr) (pos : LineCol) (ht : i.plain = true) : XStep (EB.onCg (EB.emit i pos)) := .onCg (.emit i pos ht)

theorem assignErr {x : CS α} (hx : XStep x) : XStep (assignErr x) := by
  intro c a c' ho h
  unfold EB.assignErr at h
  split at h
  · simp at h
  · exact hx c a c' ho h

/-- Only the symbol table changes. -/
theorem of_sy {x : CS α} (h : ∀ c a c', x c = .ok (a, c') → ∃ sy, c' = { c with sy := sy }) : XStep x := by
  intro c a c' ho hx
  obtain ⟨sy, rfl⟩ := h _ _ _ hx
  exact ⟨ho.lens, ho.lt, ho.once, ho.nofix, ho.fixlt⟩

theorem putLocalS (key : Str) (p : Proto) (pos : LineCol) : XStep (putLocalS key p pos) :=
  of_sy fun _ _ _ h => by obtain ⟨sy, _, rfl⟩ := putLocalS_ok.1 h; exact ⟨_, rfl⟩

theorem putGlobalS (key : Str) (p : Proto) (pos : LineCol) : XStep (putGlobalS key p pos) :=
  of_sy fun _ _ _ h => by obtain ⟨sy, _, rfl⟩ := putGlobalS_ok.1 h; exact ⟨_, rfl⟩

theorem assignDest (v : VarRef) (pos : LineCol) : XStep (assignDest v pos) :=
  of_sy fun c _ _ h => by
    rcases assignDest_ok h with ⟨_, _, _, _, rfl⟩ | ⟨_, _, sy, _, _, _, _, rfl⟩
    · exact ⟨_, rfl⟩
    · exact ⟨sy, rfl⟩

theorem fixupTypeS (v : VarRef) (t : ExprType) (pos : LineCol) : XStep (fixupTypeS v t pos) :=
  of_sy fun _ _ _ h => by obtain ⟨_, _, _, rfl⟩ := fixupTypeS_ok h; exact ⟨_, rfl⟩

theorem compileAssign (v : VarRef) (pos : LineCol) (e : Expr) : XStep (compileAssign v pos e) := by
  refine .bind (.assignDest _ _) fun r => ?_
  obtain ⟨reg, et, wd⟩ := r
  cases et with
  | none => exact .bind (.withSyms fun _ => .compileExpr _ _ _ _) fun _ => .fixupTypeS _ _ _
  | some t =>
    simp only
    split
    · exact .assignErr (.withSyms fun _ => .bind (.lift _) fun _ => .bind (.compileExprAs _ _ _ _ _) fun _ =>
        .bind (.emit _ _ rfl) fun _ => .pure _)
    · exact .assignErr (.withSyms fun _ => .compileExprAs _ _ _ _ _)

theorem compileCond (e : Expr) : XStep (compileCond e) :=
  .withSyms fun _ => .bind (.lift _) fun _ => .bind (.compileExprAs _ _ _ _ _) fun _ => .pure _

theorem defineNewArg (v : VarRef) (pos : LineCol) : XStep (defineNewArg v pos) :=
  .bind (.putLocalS _ _ _) fun _ => .onCg (.emitDefault _ _ _)

theorem defineIfNew (v : VarRef) (pos : LineCol) : XStep (defineIfNew v pos) := by
  intro c a c' ho h
  unfold EB.defineIfNew at h
  split at h
  · split at h
    · cases h; exact ho
    · exact XStep.defineNewArg _ _ c a c' ho h
  · cases h; exact ho

theorem defineNewArgs (rep : Option RepSyn) (syns : List SingSyn) (args : Args) : XStep (defineNewArgs rep syns args) := by
  match args with
  | .nil => unfold EB.defineNewArgs; split <;> first | exact .throw _ | exact .pure _ | contradiction
  | .skip _ _ rest =>
    cases syns with
    | nil => unfold EB.defineNewArgs; exact XStep.defineNewArgs rep _ rest
    | cons s syns => cases s <;> (unfold EB.defineNewArgs; exact XStep.defineNewArgs rep _ rest)
  | .cons e _ _ rest =>
    unfold EB.defineNewArgs
    split
    · rename_i h; cases h
    · rename_i h; cases h
    · rename_i h; cases h
    · rename_i h; cases h; exact .bind (.defineIfNew _ _) fun _ => XStep.defineNewArgs rep _ rest
    · rename_i h; cases h; exact XStep.defineNewArgs rep _ rest
    · rename_i h; cases h
    · rename_i h; cases h
      simp only
      split
      · exact .bind (.defineIfNew _ _) fun _ => XStep.defineNewArgs rep _ rest
      · exact XStep.defineNewArgs rep _ rest
    · rename_i h; cases h; exact XStep.defineNewArgs rep _ rest
    · rename_i h; cases h
termination_by structural args

theorem compileCallStmt (v : VarRef) (pos : LineCol) (args : Args) : XStep (compileCallStmt v pos args) := by
  intro c a c' ho h
  unfold EB.compileCallStmt at h
  split at h
  · simp at h
  · split at h
    · simp at h
    · split at h
      · simp at h
      · refine (XStep.bind (.defineNewArgs _ _ _) fun _ => .withSyms fun sy => ?_) c a c' ho h
        exact .bind (.compileArgs _ _ _ _ _) fun _ => .emitCall _ _ _ _ _ _

theorem dimVar (name : Str) (pos : LineCol) (shared : Bool) (p : Proto) : XStep (dimVar name pos shared p) := by
  intro c a c' ho h
  unfold EB.dimVar at h
  split at h
  · simp at h
  · split at h
    · split at h
      · simp at h
      · exact XStep.putGlobalS _ _ _ c a c' ho h
    · split at h
      · simp at h
      · exact XStep.putLocalS _ _ _ c a c' ho h

theorem compileArrayAssign (v : VarRef) (pos : LineCol) (subs : List Expr) (e : Expr) :
    XStep (compileArrayAssign v pos subs e) := by
  refine .withSyms fun sy => ?_
  split
  · split
    · exact .throw _
    · exact .bind (.lift _) fun _ => .bind (.compileExprAs _ _ _ _ _) fun _ => .bind (.compileSubs _ _ _ _) fun _ =>
        .bind (.lift _) fun _ => .bind (.emit _ _ rfl) fun _ => .pure _
  · exact .throw _
  · exact .throw _
  · exact .throw _

theorem compileDimArray (name : Str) (pos : LineCol) (shared : Bool) (dims : List Expr) (ty : ExprType) :
    XStep (compileDimArray name pos shared dims ty) := by
  refine .bind (.dimVar _ _ _ _) fun _ => .withSyms fun sy => .bind (.compileSubs _ _ _ _) fun _ =>
    .bind (.lift _) fun _ => ?_
  split
  · exact .throw _
  · exact .bind (.emit _ _ rfl) fun _ => .pure _
  · exact .throw _

theorem compileEnd (code : Option Expr) (pos : LineCol) : XStep (compileEnd code pos) := by
  have h : XStep (EB.withSyms fun sy => do
      let reg ← CM.lift (allocTemp sy 0 pos)
      match code with
      | some e => EB.compileExprAs sy e 1 reg .integer
      | none => do let _ ← EB.emit (.loadInt reg 0#16) pos
      let _ ← EB.emit (.end reg) pos : CS Unit) := by
    refine .withSyms fun sy => .bind (.lift _) fun _ => ?_
    cases code with
    | some e => exact .bind (.compileExprAs _ _ _ _ _) fun _ => .bind (.emit _ _ rfl) fun _ => .pure _
    | none => exact .bind (.emit _ _ rfl) fun _ => .bind (.emit _ _ rfl) fun _ => .pure _
  unfold EB.compileEnd
  generalize code.bind staticEndCode = o
  cases o with
  | none => exact h
  | some p =>
    simp only
    split
    · exact .bind (.throw _) fun _ => h
    · exact h

theorem forIter (v : VarRef) (pos : LineCol) (d : Bool) : XStep (forIter v pos d) := by
  intro c a c' ho h
  unfold EB.forIter at h
  split at h
  · split at h
    · cases h; exact ho
    · split at h
      · simp at h
      · exact (XStep.bind (.putLocalS _ _ _) fun _ => .pure _) c a c' ho h
    · simp at h
  · cases h; exact ho

theorem declareCallable (v : VarRef) (pos : LineCol) (ps : List VarRef) : XStep (declareCallable v pos ps) :=
  of_sy fun _ _ _ h => by
    unfold EB.declareCallable at h
    split at h
    · cases h; exact ⟨_, rfl⟩
    · simp at h

theorem patch {c : Ctx} (ho : ExitsOk c) (addr : Nat) (i : Instr) : ExitsOk { c with cg := c.cg.patch addr i } := by
  have hl : (c.cg.patch addr i).code.length = c.cg.code.length := by simp [Codegen.patch]
  exact ⟨by show c.cg.instrs.length = _; rw [hl]; exact ho.lens, fun a ha => by show a < (c.cg.patch addr i).code.length; rw [hl]; exact ho.lt a ha, ho.once,
    ho.nofix, fun a f hf => by show a < (c.cg.patch addr i).code.length; rw [hl]; exact ho.fixlt a f hf⟩

theorem patchJump (addr target : Nat) (pos : LineCol) : XStep (patchJump addr target pos) := by
  intro c a c' ho h
  obtain ⟨t, _, h⟩ := patchJump_ok.1 h
  cases h; exact patch ho _ _

theorem patchJumpIfFalse (addr : Nat) (cond : Reg) (target : Nat) (pos : LineCol) : XStep (patchJumpIfFalse addr cond target pos) := by
  intro c a c' ho h
  obtain ⟨t, _, h⟩ := patchJumpIfFalse_ok.1 h
  cases h; exact patch ho _ _

theorem patchJumps (target : Nat) : ∀ l : List (Nat × LineCol), XStep (patchJumps target l)
  | [] => .pure _
  | (_, _) :: rest => .bind (.patchJump _ _ _) fun _ => patchJumps target rest

theorem push {c : Ctx} (ho : ExitsOk c) (i : Instr) (pos : LineCol) : ExitsOk { c with cg := c.cg.push i pos } := by
  have hl : (c.cg.push i pos).code.length = c.cg.code.length + 1 := by simp [Codegen.push]
  refine ⟨?_, fun a ha => ?_, ho.once, ho.nofix, fun a f hf => ?_⟩
  · show (c.cg.instrs ++ [_]).length = (c.cg.code ++ [_]).length
    simp [ho.lens]
  · have := ho.lt a ha
    show a < (c.cg.push i pos).code.length
    omega
  · have := ho.fixlt a f hf
    show a < (c.cg.push i pos).code.length
    omega

theorem emitJump (target : Nat) (pos : LineCol) : XStep (emitJump target pos) := by
  intro c a c' ho h
  obtain ⟨t, _, h⟩ := emitJump_ok.1 h
  cases h; exact push ho _ _

theorem emitAny (i : Instr) (pos : LineCol) : XStep (EB.onCg (EB.emit i pos)) := by
  intro c a c' ho h
  have := emit_ok.1 h
  cases this; exact push ho _ _

theorem emitFixup (pos : LineCol) (f : Fixup) : XStep (emitFixup pos f) := by
  intro c a c' ho h
  have := emitFixup_ok.1 h
  cases this
  exact of_gext ho (gext_fixup (GStep.emit .nop pos rfl _ _ _ ho.lens rfl) (Nat.le_refl _) (by simp [Codegen.push]) f)

/-- One more exit, at the end of the code. -/
theorem snoc {c c' : Ctx} (ho : ExitsOk c) (pos : LineCol) (hg : c'.cg = c.cg.push .nop pos)
    (hp : c'.exits.Perm (c.cg.code.length :: c.exits)) : ExitsOk c' := by
  have hl : (c.cg.push .nop pos).code.length = c.cg.code.length + 1 := by simp [Codegen.push]
  have hf : (c.cg.push .nop pos).fixups = c.cg.fixups := rfl
  refine ⟨?_, fun a ha => ?_, ?_, fun a ha => ?_, fun a f h => ?_⟩
  · rw [hg]
    show (c.cg.instrs ++ [_]).length = (c.cg.code ++ [_]).length
    simp [ho.lens]
  · rw [hg, hl]
    rcases List.mem_cons.1 (hp.mem_iff.1 ha) with rfl | ha
    · omega
    · have := ho.lt a ha; omega
  · rw [hp.nodup_iff, List.nodup_cons]
    exact ⟨fun h => by have := ho.lt _ h; omega, ho.once⟩
  · rw [hg, hf]
    rcases List.mem_cons.1 (hp.mem_iff.1 ha) with rfl | ha
    · cases hx : c.cg.fixups.get? c.cg.code.length with
      | none => rfl
      | some f => have := ho.fixlt _ _ hx; omega
    · exact ho.nofix a ha
  · rw [hg, hl]
    rw [hg, hf] at h
    have := ho.fixlt a f h
    omega

theorem compileExitDo (pos : LineCol) : XStep (compileExitDo pos) := by
  intro c a c' ho h
  unfold EB.compileExitDo at h
  split at h
  · simp at h
  next top rest hd =>
    cases h
    refine snoc ho pos rfl ?_
    simp only [Ctx.exits, hd, List.flatten_cons, List.append_assoc, List.map_append, List.map_cons, List.map_nil, List.cons_append, List.nil_append]
    exact List.perm_middle

theorem compileExitFor (pos : LineCol) : XStep (compileExitFor pos) := by
  intro c a c' ho h
  unfold EB.compileExitFor at h
  split at h
  · simp at h
  next top rest hd =>
    cases h
    refine snoc ho pos rfl ?_
    simp only [Ctx.exits, hd, List.flatten_cons, List.append_assoc, List.map_append, List.map_cons, List.map_nil, List.cons_append, List.nil_append]
    rw [← List.append_assoc, ← List.append_assoc]
    exact List.perm_middle

theorem compileExitCallable (kind : CallableKind) (what : String) (pos : LineCol) : XStep (compileExitCallable kind what pos) := by
  intro c a c' ho h
  unfold EB.compileExitCallable at h
  split at h
  · simp at h
  · cases h
    refine snoc ho pos rfl ?_
    simp only [Ctx.exits, List.append_assoc, List.map_append, List.map_cons, List.map_nil]
    rw [← List.append_assoc, ← List.append_assoc, ← List.append_assoc]
    exact List.perm_append_singleton _ _

/-- Fewer exits. -/
theorem less {c c' : Ctx} (ho : ExitsOk c) (hg : c'.cg = c.cg) (hs : c'.exits.Sublist c.exits) : ExitsOk c' :=
  ⟨by rw [hg]; exact ho.lens, fun a ha => by rw [hg]; exact ho.lt a (hs.subset ha), ho.once.sublist hs,
    fun a ha => by rw [hg]; exact ho.nofix a (hs.subset ha), by rw [hg]; exact ho.fixlt⟩

theorem closeDo (stop : Nat) : XStep (closeDo stop) := by
  intro c a c' ho h
  unfold EB.closeDo at h
  split at h
  · simp at h
  next top rest hd =>
    refine XStep.patchJumps _ _ { c with doExit := rest } _ _ (less (c := c) ho rfl ?_) h
    simp only [Ctx.exits, hd, List.flatten_cons, List.append_assoc, List.map_append]
    exact List.sublist_append_right _ _

theorem closeFor (stop : Nat) : XStep (closeFor stop) := by
  intro c a c' ho h
  unfold EB.closeFor at h
  split at h
  · simp at h
  next top rest hd =>
    refine XStep.patchJumps _ _ { c with forExit := rest } _ _ (less (c := c) ho rfl ?_) h
    simp only [Ctx.exits, hd, List.flatten_cons, List.append_assoc, List.map_append]
    exact (List.sublist_append_right _ _).append_left _

theorem markIf (b : Bool) (start : Nat) : XStep (markIf b start) := by
  intro c a c' ho h
  unfold EB.markIf at h
  split at h
  · cases h
    exact ⟨by show (c.cg.instrs.modify start _).length = _; rw [List.length_modify]; exact ho.lens, ho.lt, ho.once, ho.nofix, ho.fixlt⟩
  · cases h; exact ho

theorem putParams (pos : LineCol) : ∀ ps, XStep (putParams pos ps)
  | [] => .pure _
  | _ :: ps => .bind (.putLocalS _ _ _) fun _ => putParams pos ps

theorem prologBody (name : VarRef) (pos : LineCol) (ps : List VarRef) : XStep (prologBody name pos ps) := by
  unfold EB.prologBody
  generalize name.ty = ty
  match ty with
  | none => exact .putParams _ _
  | some .boolean =>
    exact .bind (.putLocalS _ _ _) fun _ => .bind (.pure _) fun _ => .bind (.emit _ _ rfl) fun _ => .putParams _ _
  | some .integer =>
    exact .bind (.putLocalS _ _ _) fun _ => .bind (.pure _) fun _ => .bind (.emit _ _ rfl) fun _ => .putParams _ _
  | some .double =>
    exact .bind (.putLocalS _ _ _) fun _ => .bind (.onCg (.getConstant _ _)) fun _ =>
      .bind (.emit _ _ rfl) fun _ => .putParams _ _
  | some .text =>
    exact .bind (.putLocalS _ _ _) fun _ => .bind (.onCg (.getConstant _ _)) fun _ =>
      .bind (.emit _ _ rfl) fun _ => .putParams _ _

theorem callableProlog (name : VarRef) (pos : LineCol) (ps : List VarRef) : XStep (callableProlog name pos ps) := by
  refine .bind (.emitAny _ _) fun _ => .bind .pcNow fun _ => .bind ?_ fun _ => .bind (.prologBody _ _ _) fun _ => .pure _
  intro c a c' ho h
  have := CM.modify_ok.1 h
  cases this
  exact ⟨ho.lens, ho.lt, ho.once, ho.nofix, ho.fixlt⟩

theorem callableEpilog (key : Str) (skip start : Nat) (pos : LineCol) (saved : IdMap Str Proto) :
    XStep (callableEpilog key skip start pos saved) := by
  refine .bind (.emitAny _ _) fun _ => .bind .get fun cx => .bind (.patchJumps _ _) fun _ => .bind .pcNow fun _ =>
    .bind ?_ fun _ => .bind (.patchJump _ _ _) fun _ => ?_
  · intro c a c' ho h
    have := CM.modify_ok.1 h
    cases this
    have := less (c := c) (c' := { c with calExits := [] }) ho rfl (by
      simp only [Ctx.exits, List.map_append, List.map_nil, List.append_nil]
      exact List.sublist_append_left _ _)
    exact ⟨this.lens, this.lt, this.once, this.nofix, this.fixlt⟩
  · intro c a c' ho h
    have := CM.modify_ok.1 h
    cases this
    exact ⟨ho.lens, ho.lt, ho.once, ho.nofix, ho.fixlt⟩

theorem compileGuards (test : Reg) (tt : ExprType) : ∀ gs, XStep (compileGuards test tt gs)
  | [] => .pure _
  | _ :: gs => .bind (.withSyms fun _ => .compileGuard _ _ _ _ _) fun _ => .bind (.emitAny _ _) fun _ =>
      .bind (.emitAny _ _) fun _ => .bind .pcNow fun _ => .bind (.patchJumpIfFalse _ _ _ _) fun _ =>
      .bind (compileGuards test tt gs) fun _ => .pure _

theorem compileDispatch (test : Reg) (tt : ExprType) (pos : LineCol) :
    ∀ (cs : Cases) (p : Option Nat), XStep (compileDispatch test tt pos cs p)
  | .nil, _ => .pure _
  | .cons guards _ rest, p => by
    have key : XStep (match guards with
      | [] => do
        let body ← EB.onCg (EB.emit .nop pos)
        let (jumps, pending') ← EB.compileDispatch test tt pos rest none
        Pure.pure ([(body, pos)] :: jumps, pending')
      | guards => do
        let body ← EB.compileGuards test tt guards
        let next ← EB.onCg (EB.emit .nop pos)
        let (jumps, pending') ← EB.compileDispatch test tt pos rest (some next)
        Pure.pure (body :: jumps, pending') : CS (List (List (Nat × LineCol)) × Option Nat)) := by
      cases guards with
      | nil => exact .bind (.emitAny _ _) fun _ => .bind (compileDispatch test tt pos rest _) fun _ => .pure _
      | cons g gs =>
        exact .bind (.compileGuards _ _ _) fun _ => .bind (.emitAny _ _) fun _ => .bind (compileDispatch test tt pos rest _) fun _ => .pure _
    unfold EB.compileDispatch
    refine .bind .pcNow fun _ => ?_
    cases p with
    | none => exact key
    | some p => exact .bind (.patchJump _ _ _) fun _ => key

theorem modify {f : Ctx → Ctx} (h : ∀ c, ExitsOk c → ExitsOk (f c)) : XStep (CM.modify f : CS Unit) := by
  intro c a c' ho hx
  have := CM.modify_ok.1 hx
  cases this
  exact h c ho

end XStep

theorem exits_pushDo {c : Ctx} (ho : ExitsOk c) : ExitsOk { c with doExit := [] :: c.doExit } :=
  ⟨ho.lens, ho.lt, ho.once, ho.nofix, ho.fixlt⟩

mutual
theorem XStep.compileStmtBody (s : Stmt) : XStep (compileStmtBody s) := by
  match s with
  | .arrayAssign v pos subs e => unfold EB.compileStmtBody; exact .compileArrayAssign _ _ _ _
  | .assign v pos e => unfold EB.compileStmtBody; exact .compileAssign _ _ _
  | .call v pos args => unfold EB.compileStmtBody; exact .compileCallStmt _ _ _
  | .callable name pos params body endPos =>
    have hb := XStep.compileStmts body
    unfold EB.compileStmtBody
    refine .bind (.declareCallable _ _ _) fun _ => .bind .get fun c => ?_
    split
    · exact .throw _
    · split
      · exact .throw _
      · exact .bind (.callableProlog _ _ _) fun _ => .bind hb fun _ => .callableEpilog _ _ _ _ _
  | .data values =>
    unfold EB.compileStmtBody
    exact .bind (.lift _) fun _ => .modify fun c ho => ⟨ho.lens, ho.lt, ho.once, ho.nofix, ho.fixlt⟩
  | .declare name pos params =>
    unfold EB.compileStmtBody
    refine .bind .get fun c => ?_
    split
    · exact .throw _
    · exact .declareCallable _ _ _
  | .dim name pos shared ty =>
    unfold EB.compileStmtBody
    exact .bind (.dimVar _ _ _ _) fun _ => .onCg (.emitDefault _ _ _)
  | .dimArray name pos shared dims ty => unfold EB.compileStmtBody; exact .compileDimArray _ _ _ _ _
  | .doLoop guard body =>
    have hb := XStep.compileStmts body
    unfold EB.compileStmtBody
    refine .bind (.modify fun c ho => exits_pushDo ho) fun _ => ?_
    match guard with
    | .infinite => exact .bind .pcNow fun _ => .bind hb fun _ => .bind (.emitJump _ _) fun _ => .bind .pcNow fun _ => .closeDo _
    | .preUntil e =>
      exact .bind .pcNow fun _ => .bind (.compileCond _) fun _ => .bind (.emitAny _ _) fun _ => .bind (.emitAny _ _) fun _ =>
        .bind .pcNow fun _ => .bind (.patchJumpIfFalse _ _ _ _) fun _ => .bind hb fun _ => .bind (.emitJump _ _) fun _ =>
        .bind .pcNow fun _ => .bind (.patchJump _ _ _) fun _ => .closeDo _
    | .preWhile e =>
      exact .bind .pcNow fun _ => .bind (.compileCond _) fun _ => .bind (.emitAny _ _) fun _ => .bind hb fun _ =>
        .bind (.emitJump _ _) fun _ => .bind .pcNow fun _ => .bind (.patchJumpIfFalse _ _ _ _) fun _ => .closeDo _
    | .postUntil e =>
      exact .bind .pcNow fun _ => .bind hb fun _ => .bind (.compileCond _) fun _ => .bind (.lift _) fun _ =>
        .bind (.emitAny _ _) fun _ => .bind .pcNow fun _ => .closeDo _
    | .postWhile e =>
      exact .bind .pcNow fun _ => .bind hb fun _ => .bind (.compileCond _) fun _ => .bind (.emitAny _ _) fun _ =>
        .bind (.emitJump _ _) fun _ => .bind .pcNow fun _ => .bind (.patchJumpIfFalse _ _ _ _) fun _ => .closeDo _
  | .end code pos => unfold EB.compileStmtBody; exact .compileEnd _ _
  | .exitDo pos => unfold EB.compileStmtBody; exact .compileExitDo _
  | .exitFor pos => unfold EB.compileStmtBody; exact .compileExitFor _
  | .exitFunction pos => unfold EB.compileStmtBody; exact .compileExitCallable _ _ _
  | .exitSub pos => unfold EB.compileStmtBody; exact .compileExitCallable _ _ _
  | .forLoop iter iterPos double start stop next body =>
    have hb := XStep.compileStmts body
    unfold EB.compileStmtBody
    refine .bind (.forIter _ _ _) fun _ => .bind (.compileAssign _ _ _) fun _ => .bind .pcNow fun _ => .bind (.compileCond _) fun _ =>
      .bind (.emitAny _ _) fun _ => .bind (.modify fun c ho => ?_) fun _ => .bind hb fun _ => .bind (.compileAssign _ _ _) fun _ =>
      .bind (.emitJump _ _) fun _ => .bind .pcNow fun _ => .bind (.patchJumpIfFalse _ _ _ _) fun _ => .closeFor _
    exact ⟨by show (c.cg.instrs.modify _ _).length = _; rw [List.length_modify]; exact ho.lens, ho.lt, ho.once, ho.nofix, ho.fixlt⟩
  | .gosub label pos => unfold EB.compileStmtBody; exact .emitFixup _ _
  | .goto label pos => unfold EB.compileStmtBody; exact .emitFixup _ _
  | .ifs branches =>
    have hb := XStep.compileBranches branches
    unfold EB.compileStmtBody
    exact .bind hb fun _ => .bind .pcNow fun _ => .patchJumps _ _
  | .label name pos =>
    unfold EB.compileStmtBody
    intro c a c' ho h
    simp only at h
    split at h
    · simp at h
    · cases h; exact ⟨ho.lens, ho.lt, ho.once, ho.nofix, ho.fixlt⟩
  | .onError (.goto label _ pos) => unfold EB.compileStmtBody; exact .emitFixup _ _
  | .onError (.reset pos) => unfold EB.compileStmtBody; exact .bind (.emitAny _ _) fun _ => .pure _
  | .onError (.resumeNext pos) => unfold EB.compileStmtBody; exact .bind (.emitAny _ _) fun _ => .pure _
  | .ret pos => unfold EB.compileStmtBody; exact .bind (.emitAny _ _) fun _ => .pure _
  | .select e cases endPos =>
    have hb := XStep.compileBodies cases
    unfold EB.compileStmtBody
    refine .bind (.withSyms fun _ => .lift _) fun _ => .bind (.withSyms fun _ => .compileExpr _ _ _ _) fun _ =>
      .bind (.compileDispatch _ _ _ _ _) fun jp => .bind (.emitAny _ _) fun toEnd => ?_
    have key : XStep (do
        let ends ← EB.compileBodies cases jp.1 endPos
        let stop ← EB.pcNow
        EB.patchJump toEnd stop endPos
        EB.patchJumps stop (ends.map fun a => (a, endPos)) : CS Unit) :=
      .bind (hb _ _) fun _ => .bind .pcNow fun _ => .bind (.patchJump _ _ _) fun _ => .patchJumps _ _
    obtain ⟨js, p⟩ := jp
    cases p with
    | none => exact key
    | some p => exact .bind (.patchJump _ _ _) fun _ => key
  | .whileLoop e body =>
    have hb := XStep.compileStmts body
    unfold EB.compileStmtBody
    exact .bind .pcNow fun _ => .bind (.compileCond _) fun _ => .bind (.emitAny _ _) fun _ => .bind hb fun _ =>
      .bind (.emitJump _ _) fun _ => .bind .pcNow fun _ => .patchJumpIfFalse _ _ _ _
termination_by structural s

theorem XStep.compileStmts (ss : Stmts) : XStep (compileStmts ss) := by
  match ss with
  | .nil => unfold EB.compileStmts; exact .pure _
  | .cons s rest =>
    have h1 := XStep.compileStmtBody s
    have h2 := XStep.compileStmts rest
    unfold EB.compileStmts
    exact .bind .pcNow fun _ => .bind h1 fun _ => .bind (.markIf _ _) fun _ => h2
termination_by structural ss

theorem XStep.compileBranches (bs : Branches) : XStep (compileBranches bs) := by
  match bs with
  | .nil => unfold EB.compileBranches; exact .pure _
  | .cons guard body rest =>
    have h1 := XStep.compileStmts body
    have h2 := XStep.compileBranches rest
    unfold EB.compileBranches
    refine .bind (.compileCond _) fun _ => .bind (.emitAny _ _) fun _ => .bind h1 fun _ => ?_
    split
    · exact .bind .pcNow fun _ => .bind (.patchJumpIfFalse _ _ _ _) fun _ => .pure _
    · exact .bind (.emitAny _ _) fun _ => .bind .pcNow fun _ => .bind (.patchJumpIfFalse _ _ _ _) fun _ => .bind h2 fun _ => .pure _
termination_by structural bs

theorem XStep.compileBodies (cs : Cases) (jumps : List (List (Nat × LineCol))) (pos : LineCol) :
    XStep (compileBodies cs jumps pos) := by
  match cs, jumps with
  | .nil, _ => unfold EB.compileBodies; exact .pure _
  | .cons .., [] => unfold EB.compileBodies; exact .throw _
  | .cons _ body rest, js :: jumps =>
    have h1 := XStep.compileStmts body
    have h2 := XStep.compileBodies rest
    unfold EB.compileBodies
    refine .bind .pcNow fun _ => .bind (.patchJumps _ _) fun _ => .bind h1 fun _ => ?_
    split
    · exact .pure _
    · exact .bind (.emitAny _ _) fun _ => .bind (h2 _ _) fun _ => .pure _
termination_by structural cs
end

end EB
