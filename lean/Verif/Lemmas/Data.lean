import Verif.Spec.Data
import Verif.Lemmas.Session
/-!
# The items of `DATA` statements in the image
-/

namespace EB
open Spec

/-- Compiling adds these items. -/
def AddsData {α : Type} (ds : List (Option ConstantDatum)) (x : CS α) : Prop := ∀ c a c', x c = .ok (a, c') → c'.data = c.data ++ ds

namespace AddsData
variable {α β : Type} {ds : List (Option ConstantDatum)}

/-- First something that adds nothing. -/
theorem after {x : CS α} {f : α → CS β} (hx : AddsData [] x) (hf : ∀ a, AddsData ds (f a)) : AddsData ds (x >>= f) := by
  intro c a c' h
  obtain ⟨b, c1, h1, h2⟩ := CM.bind_ok.1 h
  rw [hf b _ _ _ h2, hx _ _ _ h1, List.append_nil]

/-- Both add something. -/
theorem both {x : CS α} {f : α → CS β} {es : List (Option ConstantDatum)} (hx : AddsData ds x) (hf : ∀ a, AddsData es (f a)) : AddsData (ds ++ es) (x >>= f) := by
  intro c a c' h
  obtain ⟨b, c1, h1, h2⟩ := CM.bind_ok.1 h
  rw [hf b _ _ _ h2, hx _ _ _ h1, List.append_assoc]

/-- Something that adds nothing follows. -/
theorem next {x : CS α} {f : α → CS β} (hx : AddsData ds x) (hf : ∀ a, AddsData [] (f a)) : AddsData ds (x >>= f) := by
  have := both hx hf
  rwa [List.append_nil] at this

theorem of_eq {x : CS α} (h : ∀ c a c', x c = .ok (a, c') → c'.data = c.data) : AddsData [] x := by
  intro c a c' hx
  rw [h c a c' hx, List.append_nil]

theorem pure (a : α) : AddsData [] (Pure.pure a : CS α) := of_eq fun c b c' h => by cases h; rfl

theorem throw (e : CErr) : AddsData ds (CM.throw e : CS α) := by
  intro c a c' h; simp [CM.throw] at h

theorem lift (x : Except CErr α) : AddsData [] (CM.lift x : CS α) := of_eq fun c a c' h => by
  obtain ⟨_, _, h⟩ := CM.lift_ok.1 h; cases h; rfl

theorem get : AddsData [] (CM.get : CS Ctx) := of_eq fun c a c' h => by cases h; rfl

theorem pcNow : AddsData [] pcNow := of_eq fun c a c' h => by cases h; rfl

theorem modify {f : Ctx → Ctx} (h : ∀ c, (f c).data = c.data) : AddsData [] (CM.modify f : CS Unit) := of_eq fun c a c' hx => by
  have := CM.modify_ok.1 hx
  cases this
  exact h c

theorem onCg (x : CG α) : AddsData [] (onCg x) := of_eq fun c a c' h => by
  unfold EB.onCg at h; split at h
  · cases h; rfl
  · simp at h

theorem withSyms (f : Syms → CG α) : AddsData [] (withSyms f) := of_eq fun c a c' h => by
  unfold EB.withSyms at h; split at h
  · cases h; rfl
  · simp at h

theorem assignErr {x : CS α} (hx : AddsData [] x) : AddsData [] (assignErr x) := by
  intro c a c' h
  unfold EB.assignErr at h
  split at h
  · simp at h
  · exact hx c a c' h

/-- Only the symbol table changes. -/
theorem of_sy {x : CS α} (h : ∀ c a c', x c = .ok (a, c') → ∃ sy, c' = { c with sy := sy }) : AddsData [] x := of_eq fun c a c' hx => by
  obtain ⟨sy, rfl⟩ := h _ _ _ hx; rfl

theorem putLocalS (key : Str) (p : Proto) (pos : LineCol) : AddsData [] (putLocalS key p pos) :=
  of_sy fun _ _ _ h => by obtain ⟨sy, _, rfl⟩ := putLocalS_ok.1 h; exact ⟨_, rfl⟩

theorem putGlobalS (key : Str) (p : Proto) (pos : LineCol) : AddsData [] (putGlobalS key p pos) :=
  of_sy fun _ _ _ h => by obtain ⟨sy, _, rfl⟩ := putGlobalS_ok.1 h; exact ⟨_, rfl⟩

theorem assignDest (v : VarRef) (pos : LineCol) : AddsData [] (assignDest v pos) :=
  of_sy fun c _ _ h => by
    rcases assignDest_ok h with ⟨_, _, _, _, rfl⟩ | ⟨_, _, sy, _, _, _, _, rfl⟩
    · exact ⟨_, rfl⟩
    · exact ⟨sy, rfl⟩

theorem fixupTypeS (v : VarRef) (t : ExprType) (pos : LineCol) : AddsData [] (fixupTypeS v t pos) :=
  of_sy fun _ _ _ h => by obtain ⟨_, _, _, rfl⟩ := fixupTypeS_ok h; exact ⟨_, rfl⟩

theorem compileAssign (v : VarRef) (pos : LineCol) (e : Expr) : AddsData [] (compileAssign v pos e) := by
  refine .after (.assignDest _ _) fun r => ?_
  obtain ⟨reg, et, wd⟩ := r
  cases et with
  | none => exact .after (.withSyms _) fun _ => .fixupTypeS _ _ _
  | some t =>
    simp only
    split
    · exact .assignErr (.withSyms _)
    · exact .assignErr (.withSyms _)

theorem compileCond (e : Expr) : AddsData [] (compileCond e) := .withSyms _

theorem defineNewArg (v : VarRef) (pos : LineCol) : AddsData [] (defineNewArg v pos) :=
  .after (.putLocalS _ _ _) fun _ => .onCg _

theorem defineIfNew (v : VarRef) (pos : LineCol) : AddsData [] (defineIfNew v pos) := by
  intro c a c' h
  unfold EB.defineIfNew at h
  split at h
  · split at h
    · cases h; simp
    · exact AddsData.defineNewArg _ _ c a c' h
  · cases h; simp

theorem defineNewArgs (rep : Option RepSyn) (syns : List SingSyn) (args : Args) : AddsData [] (defineNewArgs rep syns args) := by
  match args with
  | .nil => unfold EB.defineNewArgs; split <;> first | exact .throw _ | exact .pure _ | contradiction
  | .skip _ _ rest =>
    cases syns with
    | nil => unfold EB.defineNewArgs; exact AddsData.defineNewArgs rep _ rest
    | cons s syns => cases s <;> (unfold EB.defineNewArgs; exact AddsData.defineNewArgs rep _ rest)
  | .cons e _ _ rest =>
    unfold EB.defineNewArgs
    split
    · rename_i h; cases h
    · rename_i h; cases h
    · rename_i h; cases h
    · rename_i h; cases h; exact .after (.defineIfNew _ _) fun _ => AddsData.defineNewArgs rep _ rest
    · rename_i h; cases h; exact AddsData.defineNewArgs rep _ rest
    · rename_i h; cases h
    · rename_i h; cases h
      simp only
      split
      · exact .after (.defineIfNew _ _) fun _ => AddsData.defineNewArgs rep _ rest
      · exact AddsData.defineNewArgs rep _ rest
    · rename_i h; cases h; exact AddsData.defineNewArgs rep _ rest
    · rename_i h; cases h
termination_by structural args

theorem compileCallStmt (v : VarRef) (pos : LineCol) (args : Args) : AddsData [] (compileCallStmt v pos args) := by
  intro c a c' h
  unfold EB.compileCallStmt at h
  split at h
  · simp at h
  · split at h
    · simp at h
    · split at h
      · simp at h
      · exact (AddsData.after (.defineNewArgs _ _ _) fun _ => .withSyms _) c a c' h

theorem dimVar (name : Str) (pos : LineCol) (shared : Bool) (p : Proto) : AddsData [] (dimVar name pos shared p) := by
  intro c a c' h
  unfold EB.dimVar at h
  split at h
  · simp at h
  · split at h
    · split at h
      · simp at h
      · exact AddsData.putGlobalS _ _ _ c a c' h
    · split at h
      · simp at h
      · exact AddsData.putLocalS _ _ _ c a c' h

theorem compileEnd (code : Option Expr) (pos : LineCol) : AddsData [] (compileEnd code pos) := by
  unfold EB.compileEnd
  generalize code.bind staticEndCode = o
  cases o with
  | none => exact .withSyms _
  | some p =>
    simp only
    split
    · exact .after (.throw _) fun _ => .withSyms _
    · exact .withSyms _

theorem forIter (v : VarRef) (pos : LineCol) (d : Bool) : AddsData [] (forIter v pos d) := by
  intro c a c' h
  unfold EB.forIter at h
  split at h
  · split at h
    · cases h; simp
    · split at h
      · simp at h
      · exact (AddsData.after (.putLocalS _ _ _) fun _ => .pure _) c a c' h
    · simp at h
  · cases h; simp

theorem declareCallable (v : VarRef) (pos : LineCol) (ps : List VarRef) : AddsData [] (declareCallable v pos ps) :=
  of_sy fun _ _ _ h => by
    unfold EB.declareCallable at h
    split at h
    · cases h; exact ⟨_, rfl⟩
    · simp at h

theorem patchJump (addr target : Nat) (pos : LineCol) : AddsData [] (patchJump addr target pos) := of_eq fun c a c' h => by
  obtain ⟨t, _, h⟩ := patchJump_ok.1 h
  cases h; rfl

theorem patchJumpIfFalse (addr : Nat) (cond : Reg) (target : Nat) (pos : LineCol) : AddsData [] (patchJumpIfFalse addr cond target pos) :=
  of_eq fun c a c' h => by
    obtain ⟨t, _, h⟩ := patchJumpIfFalse_ok.1 h
    cases h; rfl

theorem patchJumps (target : Nat) : ∀ l : List (Nat × LineCol), AddsData [] (patchJumps target l)
  | [] => .pure _
  | (_, _) :: rest => .after (.patchJump _ _ _) fun _ => patchJumps target rest

theorem emitJump (target : Nat) (pos : LineCol) : AddsData [] (emitJump target pos) := of_eq fun c a c' h => by
  obtain ⟨t, _, h⟩ := emitJump_ok.1 h
  cases h; rfl

theorem emitFixup (pos : LineCol) (f : Fixup) : AddsData [] (emitFixup pos f) := of_eq fun c a c' h => by
  have := emitFixup_ok.1 h
  cases this; rfl

theorem compileExitDo (pos : LineCol) : AddsData [] (compileExitDo pos) := of_eq fun c a c' h => by
  unfold EB.compileExitDo at h
  split at h
  · simp at h
  · cases h; rfl

theorem compileExitFor (pos : LineCol) : AddsData [] (compileExitFor pos) := of_eq fun c a c' h => by
  unfold EB.compileExitFor at h
  split at h
  · simp at h
  · cases h; rfl

theorem compileExitCallable (kind : CallableKind) (what : String) (pos : LineCol) : AddsData [] (compileExitCallable kind what pos) :=
  of_eq fun c a c' h => by
    unfold EB.compileExitCallable at h
    split at h
    · simp at h
    · cases h; rfl

theorem closeDo (stop : Nat) : AddsData [] (closeDo stop) := by
  intro c a c' h
  unfold EB.closeDo at h
  split at h
  · simp at h
  next top rest hd => exact AddsData.patchJumps _ _ { c with doExit := rest } _ _ h

theorem closeFor (stop : Nat) : AddsData [] (closeFor stop) := by
  intro c a c' h
  unfold EB.closeFor at h
  split at h
  · simp at h
  next top rest hd => exact AddsData.patchJumps _ _ { c with forExit := rest } _ _ h

theorem markIf (b : Bool) (start : Nat) : AddsData [] (markIf b start) := of_eq fun c a c' h => by
  unfold EB.markIf at h
  split at h
  · cases h; rfl
  · cases h; rfl

theorem putParams (pos : LineCol) : ∀ ps, AddsData [] (putParams pos ps)
  | [] => .pure _
  | _ :: ps => .after (.putLocalS _ _ _) fun _ => putParams pos ps

theorem prologBody (name : VarRef) (pos : LineCol) (ps : List VarRef) : AddsData [] (prologBody name pos ps) := by
  unfold EB.prologBody
  generalize name.ty = ty
  match ty with
  | none => exact .putParams _ _
  | some .boolean =>
    exact .after (.putLocalS _ _ _) fun _ => .after (.pure _) fun _ => .after (.onCg _) fun _ => .putParams _ _
  | some .integer =>
    exact .after (.putLocalS _ _ _) fun _ => .after (.pure _) fun _ => .after (.onCg _) fun _ => .putParams _ _
  | some .double =>
    exact .after (.putLocalS _ _ _) fun _ => .after (.onCg _) fun _ => .after (.onCg _) fun _ => .putParams _ _
  | some .text =>
    exact .after (.putLocalS _ _ _) fun _ => .after (.onCg _) fun _ => .after (.onCg _) fun _ => .putParams _ _

theorem callableProlog (name : VarRef) (pos : LineCol) (ps : List VarRef) : AddsData [] (callableProlog name pos ps) :=
  .after (.onCg _) fun _ => .after .pcNow fun _ => .after (.modify fun _ => rfl) fun _ => .after (.prologBody _ _ _) fun _ => .pure _

theorem callableEpilog (key : Str) (skip start : Nat) (pos : LineCol) (saved : IdMap Str Proto) :
    AddsData [] (callableEpilog key skip start pos saved) :=
  .after (.onCg _) fun _ => .after .get fun _ => .after (.patchJumps _ _) fun _ => .after .pcNow fun _ =>
    .after (.modify fun _ => rfl) fun _ => .after (.patchJump _ _ _) fun _ => .modify fun _ => rfl

theorem compileGuards (test : Reg) (tt : ExprType) : ∀ gs, AddsData [] (compileGuards test tt gs)
  | [] => .pure _
  | _ :: gs => .after (.withSyms _) fun _ => .after (.onCg _) fun _ =>
      .after (.onCg _) fun _ => .after .pcNow fun _ => .after (.patchJumpIfFalse _ _ _ _) fun _ =>
      .after (compileGuards test tt gs) fun _ => .pure _

theorem compileDispatch (test : Reg) (tt : ExprType) (pos : LineCol) :
    ∀ (cs : Cases) (p : Option Nat), AddsData [] (compileDispatch test tt pos cs p)
  | .nil, _ => .pure _
  | .cons guards _ rest, p => by
    have key : AddsData [] (match guards with
      | [] => do
        let body ← EB.onCg (EB.emit .nop pos)
        let (jumps, pending') ← EB.compileDispatch test tt pos rest none
        Pure.pure ([(body, pos)] :: jumps, pending')
      | guards => do
        let body ← EB.compileGuards test tt guards
        let next ← EB.onCg (EB.emit .nop pos)
        let (jumps, pending') ← EB.compileDispatch test tt pos rest (some next)
        Pure.pure (body :: jumps, pending') : CS (List (List (Nat × LineCol)) × Option Nat)) := by
      cases guards with
      | nil => exact .after (.onCg _) fun _ => .after (compileDispatch test tt pos rest _) fun _ => .pure _
      | cons g gs =>
        exact .after (.compileGuards _ _ _) fun _ => .after (.onCg _) fun _ => .after (compileDispatch test tt pos rest _) fun _ => .pure _
    unfold EB.compileDispatch
    refine .after .pcNow fun _ => ?_
    cases p with
    | none => exact key
    | some p => exact .after (.patchJump _ _ _) fun _ => key

end AddsData

theorem dataConsts_items : ∀ (vs : List (Option Expr)) {ds : List (Option ConstantDatum)}, dataConsts vs = .ok ds →
    ds = vs.map fun v => v.bind constantOf
  | [], ds, h => by cases h; rfl
  | none :: vs, ds, h => by
    unfold dataConsts at h
    split at h
    next ds' h' => cases h; rw [dataConsts_items vs h']; rfl
    next => cases h
  | some e :: vs, ds, h => by
    unfold dataConsts at h
    split at h
    next => cases h
    next d hd =>
      split at h
      next ds' h' =>
        cases h
        rw [dataConsts_items vs h']
        have : constantOf e = some d := by
          cases e <;> simp [dataConst] at hd <;> subst hd <;> rfl
        simp [this]
      next => cases h

mutual
theorem AddsData.compileStmtBody (s : Stmt) : AddsData (Stmt.items s) (compileStmtBody s) := by
  match s with
  | .arrayAssign v pos subs e => unfold EB.compileStmtBody; exact .withSyms _
  | .assign v pos e => unfold EB.compileStmtBody; exact .compileAssign _ _ _
  | .call v pos args => unfold EB.compileStmtBody; exact .compileCallStmt _ _ _
  | .callable name pos params body endPos =>
    have hb := AddsData.compileStmts body
    unfold EB.compileStmtBody
    refine .after (.declareCallable _ _ _) fun _ => .after .get fun c => ?_
    split
    · exact .throw _
    · split
      · exact .throw _
      · exact .after (.callableProlog _ _ _) fun _ => .next hb fun _ => .callableEpilog _ _ _ _ _
  | .data values =>
    unfold EB.compileStmtBody
    intro c a c' h
    obtain ⟨ds, c1, h1, h2⟩ := CM.bind_ok.1 h
    obtain ⟨_, h3, h1⟩ := CM.lift_ok.1 h1
    cases h1
    have := CM.modify_ok.1 h2
    cases this
    rw [dataConsts_items _ h3]
    rfl
  | .declare name pos params =>
    unfold EB.compileStmtBody
    refine .after .get fun c => ?_
    split
    · exact .throw _
    · exact .declareCallable _ _ _
  | .dim name pos shared ty =>
    unfold EB.compileStmtBody
    exact .after (.dimVar _ _ _ _) fun _ => .onCg _
  | .dimArray name pos shared dims ty =>
    unfold EB.compileStmtBody
    exact .after (.dimVar _ _ _ _) fun _ => .withSyms _
  | .doLoop guard body =>
    have hb := AddsData.compileStmts body
    unfold EB.compileStmtBody
    refine .after (.modify fun c => rfl) fun _ => ?_
    match guard with
    | .infinite => exact .after .pcNow fun _ => .next hb fun _ => .after (.emitJump _ _) fun _ => .after .pcNow fun _ => .closeDo _
    | .preUntil e =>
      exact .after .pcNow fun _ => .after (.compileCond _) fun _ => .after (.onCg _) fun _ => .after (.onCg _) fun _ =>
        .after .pcNow fun _ => .after (.patchJumpIfFalse _ _ _ _) fun _ => .next hb fun _ => .after (.emitJump _ _) fun _ =>
        .after .pcNow fun _ => .after (.patchJump _ _ _) fun _ => .closeDo _
    | .preWhile e =>
      exact .after .pcNow fun _ => .after (.compileCond _) fun _ => .after (.onCg _) fun _ => .next hb fun _ =>
        .after (.emitJump _ _) fun _ => .after .pcNow fun _ => .after (.patchJumpIfFalse _ _ _ _) fun _ => .closeDo _
    | .postUntil e =>
      exact .after .pcNow fun _ => .next hb fun _ => .after (.compileCond _) fun _ => .after (.lift _) fun _ =>
        .after (.onCg _) fun _ => .after .pcNow fun _ => .closeDo _
    | .postWhile e =>
      exact .after .pcNow fun _ => .next hb fun _ => .after (.compileCond _) fun _ => .after (.onCg _) fun _ =>
        .after (.emitJump _ _) fun _ => .after .pcNow fun _ => .after (.patchJumpIfFalse _ _ _ _) fun _ => .closeDo _
  | .end code pos => unfold EB.compileStmtBody; exact .compileEnd _ _
  | .exitDo pos => unfold EB.compileStmtBody; exact .compileExitDo _
  | .exitFor pos => unfold EB.compileStmtBody; exact .compileExitFor _
  | .exitFunction pos => unfold EB.compileStmtBody; exact .compileExitCallable _ _ _
  | .exitSub pos => unfold EB.compileStmtBody; exact .compileExitCallable _ _ _
  | .forLoop iter iterPos double start stop next body =>
    have hb := AddsData.compileStmts body
    unfold EB.compileStmtBody
    exact .after (.forIter _ _ _) fun _ => .after (.compileAssign _ _ _) fun _ => .after .pcNow fun _ => .after (.compileCond _) fun _ =>
      .after (.onCg _) fun _ => .after (.modify fun c => rfl) fun _ => .next hb fun _ => .after (.compileAssign _ _ _) fun _ =>
      .after (.emitJump _ _) fun _ => .after .pcNow fun _ => .after (.patchJumpIfFalse _ _ _ _) fun _ => .closeFor _
  | .gosub label pos => unfold EB.compileStmtBody; exact .emitFixup _ _
  | .goto label pos => unfold EB.compileStmtBody; exact .emitFixup _ _
  | .ifs branches =>
    have hb := AddsData.compileBranches branches
    unfold EB.compileStmtBody
    exact .next hb fun _ => .after .pcNow fun _ => .patchJumps _ _
  | .label name pos =>
    unfold EB.compileStmtBody
    intro c a c' h
    simp only at h
    split at h
    · simp at h
    · cases h; simp [Stmt.items]
  | .onError (.goto label _ pos) => unfold EB.compileStmtBody; exact .emitFixup _ _
  | .onError (.reset pos) => unfold EB.compileStmtBody; exact .after (.onCg _) fun _ => .pure _
  | .onError (.resumeNext pos) => unfold EB.compileStmtBody; exact .after (.onCg _) fun _ => .pure _
  | .ret pos => unfold EB.compileStmtBody; exact .after (.onCg _) fun _ => .pure _
  | .select e cases endPos =>
    have hb := AddsData.compileBodies cases
    unfold EB.compileStmtBody
    refine .after (.withSyms _) fun _ => .after (.withSyms _) fun _ =>
      .after (.compileDispatch _ _ _ _ _) fun jp => .after (.onCg _) fun toEnd => ?_
    have key : AddsData (Cases.items cases) (do
        let ends ← EB.compileBodies cases jp.1 endPos
        let stop ← EB.pcNow
        EB.patchJump toEnd stop endPos
        EB.patchJumps stop (ends.map fun a => (a, endPos)) : CS Unit) :=
      .next (hb _ _) fun _ => .after .pcNow fun _ => .after (.patchJump _ _ _) fun _ => .patchJumps _ _
    obtain ⟨js, p⟩ := jp
    cases p with
    | none => exact key
    | some p => exact .after (.patchJump _ _ _) fun _ => key
  | .whileLoop e body =>
    have hb := AddsData.compileStmts body
    unfold EB.compileStmtBody
    exact .after .pcNow fun _ => .after (.compileCond _) fun _ => .after (.onCg _) fun _ => .next hb fun _ =>
      .after (.emitJump _ _) fun _ => .after .pcNow fun _ => .patchJumpIfFalse _ _ _ _
termination_by structural s

theorem AddsData.compileStmts (ss : Stmts) : AddsData (Stmts.items ss) (compileStmts ss) := by
  match ss with
  | .nil => unfold EB.compileStmts; exact .pure _
  | .cons s rest =>
    have h1 := AddsData.compileStmtBody s
    have h2 := AddsData.compileStmts rest
    unfold EB.compileStmts
    exact .after .pcNow fun _ => .both h1 fun _ => .after (.markIf _ _) fun _ => h2
termination_by structural ss

theorem AddsData.compileBranches (bs : Branches) : AddsData (Branches.items bs) (compileBranches bs) := by
  match bs with
  | .nil => unfold EB.compileBranches; exact .pure _
  | .cons guard body rest =>
    have h1 := AddsData.compileStmts body
    have h2 := AddsData.compileBranches rest
    unfold EB.compileBranches
    refine .after (.compileCond _) fun _ => .after (.onCg _) fun _ => .both h1 fun _ => ?_
    split
    next hn =>
      cases rest with
      | nil => exact .after .pcNow fun _ => .after (.patchJumpIfFalse _ _ _ _) fun _ => .pure _
      | cons => cases hn
    next => exact .after (.onCg _) fun _ => .after .pcNow fun _ => .after (.patchJumpIfFalse _ _ _ _) fun _ => .next h2 fun _ => .pure _
termination_by structural bs

theorem AddsData.compileBodies (cs : Cases) (jumps : List (List (Nat × LineCol))) (pos : LineCol) :
    AddsData (Cases.items cs) (compileBodies cs jumps pos) := by
  match cs, jumps with
  | .nil, _ => unfold EB.compileBodies; exact .pure _
  | .cons .., [] => unfold EB.compileBodies; exact .throw _
  | .cons _ body rest, js :: jumps =>
    have h1 := AddsData.compileStmts body
    have h2 := AddsData.compileBodies rest
    unfold EB.compileBodies
    refine .after .pcNow fun _ => .after (.patchJumps _ _) fun _ => .both h1 fun _ => ?_
    split
    next hn =>
      cases rest with
      | nil => exact .pure _
      | cons => cases hn
    next => exact .after (.onCg _) fun _ => .next (h2 _ _) fun _ => .pure _
termination_by structural cs
end

/-- A chunk that is accepted adds its items. -/
theorem items_top {src : Source} {img : Image} {c c' : Ctx} {d : ImageDelta} (hi : Idle c) (h : compileTop src img c = .ok (d, c')) :
    c'.data = c.data ++ Stmts.items src.stmts := by
  obtain ⟨c1, h1, _, _, _, code, _, rfl, _⟩ := compileTop_ok hi h
  have := AddsData.compileStmts src.stmts _ _ _ h1
  exact this

theorem items_more {src : Source} {c c' : Ctx} {img img' : Image} {u : Unit} (hs : Synced c img)
    (h : compileMore src c img = (.ok u, c', img')) :
    img'.data = c'.data ∧ c'.data = c.data ++ Stmts.items src.stmts := by
  obtain ⟨d, hc, rfl⟩ := compileMore_ok h
  exact ⟨(synced_more hs hc).2.data, items_top hs.idle hc⟩

/-- The items of a session. -/
theorem items_session : ∀ (srcs : List Source) (c : Ctx) (img : Image), Synced c img → (img.data = c.data) →
    (session srcs (c, img)).2.data = img.data ++ (acceptedChunks srcs (c, img)).flatMap fun src => Stmts.items src.stmts
  | [], _, _, _, _ => by simp [session, acceptedChunks]
  | src :: srcs, c, img, hs, hd => by
    cases hm : compileMore src c img with
    | mk r s =>
      obtain ⟨c', img'⟩ := s
      have hs' : Synced c' img' := synced_of_later (s := (c, img)) (s' := (c', img')) (.more (.refl _) ⟨r, hm⟩) hs
      cases r with
      | error e =>
        obtain ⟨rfl, rfl⟩ := compileMore_err hm
        have := items_session srcs c' img' hs hd
        simp only [session, acceptedChunks, accepted, hm, Bool.false_eq_true, if_false]
        exact this
      | ok u =>
        obtain ⟨h1, h2⟩ := items_more hs hm
        have := items_session srcs c' img' hs' h1
        simp only [session, acceptedChunks, accepted, hm, if_true]
        rw [this, h1, h2, hd, List.flatMap_cons, List.append_assoc]

theorem AddsData.prepareScalars (defs : List GlobalDef) : AddsData [] (prepareScalars defs) := by
  induction defs with
  | nil => exact .pure _
  | cons d defs ih =>
    cases d with
    | scalar name ty init =>
      unfold EB.prepareScalars
      refine .after (.putGlobalS _ _ _) fun _ => ?_
      cases init with
      | none => exact .after (.onCg _) fun _ => ih
      | some d =>
        simp only
        split
        · exact .after (.throw _) fun _ => ih
        · exact .after (.onCg _) fun _ => ih
    | array name ty dims =>
      unfold EB.prepareScalars
      split
      · exact .throw _
      · exact .after (.putGlobalS _ _ _) fun _ => .after ih fun _ => .pure _

theorem AddsData.prepareDims (i : Nat) (ds : List Nat) : AddsData [] (prepareDims i ds) := by
  induction ds generalizing i with
  | nil => exact .pure _
  | cons d ds ih =>
    unfold EB.prepareDims
    split
    · exact .throw _
    · split
      · exact .after (.onCg _) fun _ => ih _
      · exact .throw _

theorem AddsData.prepareArrays (l : List (Reg × ExprType × List Nat)) : AddsData [] (prepareArrays l) := by
  induction l with
  | nil => exact .pure _
  | cons d l ih =>
    obtain ⟨reg, ty, dims⟩ := d
    unfold EB.prepareArrays
    refine .after (.prepareDims _ _) fun _ => ?_
    split
    · exact .after (.onCg _) fun _ => ih
    · exact .after (.throw _) fun _ => ih
    · exact .after (.throw _) fun _ => ih

theorem new_data {upcalls : FMap Str Md} {defs : List GlobalDef} {c : Ctx} (h : Compiler.new upcalls defs = .ok c) : c.data = [] := by
  unfold Compiler.new at h
  simp only at h
  split at h
  next u c' hx =>
    cases h
    exact AddsData.after (.prepareScalars defs) (fun _ => .after (.prepareArrays _) fun _ => .after (.onCg _) fun _ => .pure _) _ _ _ hx
  next => cases h

/-- The items of a program. -/
theorem items_program {up : FMap Str Md} {defs : List GlobalDef} {src : Source} {img : Image} (h : compileProgram up defs src = .ok img) :
    img.data = Stmts.items src.stmts := by
  unfold compileProgram at h
  split at h
  · cases h
  next c hn =>
    split at h
    next c' img' hm =>
      cases h
      obtain ⟨h1, h2⟩ := items_more ⟨idle_new hn, .inl rfl⟩ hm
      rw [h1, h2, new_data hn, List.nil_append]
    next => cases h

end EB
