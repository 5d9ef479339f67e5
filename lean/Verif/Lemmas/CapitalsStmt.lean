import Verif.Lemmas.Capitals
/-!
# The compiler and the case of names: statements
-/

namespace EB.Caps
open Spec

section
variable {α β : Type} {b : Bool}

theorem Same.get {σ : Type} {up : σ → σ} {f f' : σ → CM σ β} (h : ∀ s, Same b up (f s) (f' (up s))) :
    Same b up (CM.get >>= f) (CM.get >>= f') := ⟨fun s => (h s).run s⟩

theorem onCg_same {x x' : CG α} (h : Same b code x x') : Same b (ctx b) (onCg x) (onCg x') := by
  refine ⟨fun c => ?_⟩
  simp only [onCg, ctx]
  rcases h.run c.cg with h | ⟨hb, p, v, h⟩
  · rw [h]
    refine .inl ?_
    cases x c.cg with
    | ok r => rfl
    | error e => rfl
  · exact .inr ⟨hb, p, v, by rw [h]⟩

theorem withSyms_same {f f' : Syms → CG α} (h : ∀ sy, Same b code (f sy) (f' (syms b sy))) : Same b (ctx b) (withSyms f) (withSyms f') := by
  refine ⟨fun c => ?_⟩
  simp only [withSyms, ctx]
  rcases (h c.sy).run c.cg with h | ⟨hb, p, v, h⟩
  · rw [h]
    refine .inl ?_
    cases f c.sy c.cg with
    | ok r => rfl
    | error e => rfl
  · exact .inr ⟨hb, p, v, by rw [h]⟩

theorem pcNow_same : Same b (ctx b) pcNow pcNow := ⟨fun _ => .inl rfl⟩

theorem patchS_same (a : Nat) (i : Instr) : Same b (ctx b) (patchS a i) (patchS a i) := .modify fun _ => rfl

theorem mkTarget_same {σ : Type} {up : σ → σ} (t : Nat) (p : LineCol) : Same b up (CM.lift (mkTarget t p)) (CM.lift (mkTarget t p)) := by
  refine .lift ?_
  unfold mkTarget
  split <;> rfl

theorem patchJump_same (a t : Nat) (p : LineCol) : Same b (ctx b) (patchJump a t p) (patchJump a t p) :=
  .bind (mkTarget_same ..) fun _ => patchS_same ..

theorem patchJumpIfFalse_same (a : Nat) (r : Reg) (t : Nat) (p : LineCol) :
    Same b (ctx b) (patchJumpIfFalse a r t p) (patchJumpIfFalse a r t p) :=
  .bind (mkTarget_same ..) fun _ => patchS_same ..

theorem emitS_same (i : Instr) (p : LineCol) : Same b (ctx b) (onCg (emit i p)) (onCg (emit i p)) := onCg_same (emit_same ..)

theorem emitJump_same (t : Nat) (p : LineCol) : Same b (ctx b) (emitJump t p) (emitJump t p) :=
  .bind (mkTarget_same ..) fun _ => .bind (emitS_same ..) fun _ => .pure _

theorem patchJumps_same (t : Nat) : ∀ l : List (Nat × LineCol), Same b (ctx b) (patchJumps t l) (patchJumps t l)
  | [] => .pure _
  | (_, _) :: r => .bind (patchJump_same ..) fun _ => patchJumps_same t r

theorem putVar_err {k : Str} {p : Proto} {t : IdMap Str Proto} {mk : Nat → Option Reg} {sc : RegScope} {e : SymErr}
    (h : putVar k p t mk sc = .error e) : symErr e = e := by
  unfold putVar at h
  split at h
  · split at h
    · cases h
    · cases h; rfl
  · cases h; rfl
  · cases h; rfl

theorem putLocal_cap (s : Syms) (k : Str) (p : Proto) :
    (syms b s).putLocal k p = (match s.putLocal k p with | .ok (r, s') => .ok (r, syms b s') | .error e => .error (symErr e)) := by
  simp only [Syms.putLocal, syms]
  cases h : putVar k p s.locals mkLocal .local with
  | ok r => rfl
  | error e => simp only [putVar_err h]

theorem putGlobal_cap (s : Syms) (k : Str) (p : Proto) :
    (syms b s).putGlobal k p = (match s.putGlobal k p with | .ok (r, s') => .ok (r, syms b s') | .error e => .error (symErr e)) := by
  simp only [Syms.putGlobal, syms]
  cases h : putVar k p s.globals mkGlobal .global with
  | ok r => rfl
  | error e => simp only [putVar_err h]

theorem putLocalS_same (k : Str) (p : Proto) (q : LineCol) : Same b (ctx b) (putLocalS k p q) (putLocalS k p q) := by
  refine ⟨fun c => .inl ?_⟩
  simp only [putLocalS, ctx, putLocal_cap]
  cases c.sy.putLocal k p with
  | ok r => rfl
  | error e => simp only [res, cap_at]

theorem putGlobalS_same (k : Str) (p : Proto) (q : LineCol) : Same b (ctx b) (putGlobalS k p q) (putGlobalS k p q) := by
  refine ⟨fun c => .inl ?_⟩
  simp only [putGlobalS, ctx, putGlobal_cap]
  cases c.sy.putGlobal k p with
  | ok r => rfl
  | error e => simp only [res, cap_at]

theorem dataConst_cap (e : Expr) : dataConst (capExpr e) = plain (dataConst e) := by cases e <;> rfl

theorem dataConsts_cap : ∀ l : List (Option Expr), dataConsts (l.map (Option.map capExpr)) = plain (dataConsts l)
  | [] => rfl
  | none :: r => by
    simp only [List.map_cons, Option.map_none, dataConsts, dataConsts_cap r]
    cases dataConsts r <;> rfl
  | some e :: r => by
    simp only [List.map_cons, Option.map_some, dataConsts, dataConst_cap, dataConsts_cap r]
    cases dataConst e with
    | error e => rfl
    | ok d => cases dataConsts r <;> rfl

theorem static_cap (e : Expr) : staticEndCode (capExpr e) = staticEndCode e := by
  cases e with
  | un op e p => cases op <;> cases e <;> rfl
  | _ => rfl

mutual
theorem refers_cap (k : Str) : ∀ e : Expr, refersTo k (capExpr e) = refersTo k e
  | .bool .. | .dbl .. | .int .. | .text .. => rfl
  | .sym v p => by simp only [capExpr, refersTo, cap_name, key_cap]
  | .un _ e _ => by simp only [capExpr, refersTo, refers_cap k e]
  | .bin _ l r _ => by simp only [capExpr, refersTo, refers_cap k l, refers_cap k r]
  | .call _ _ a => by simp only [capExpr, refersTo, refersArgs_cap k a]

theorem refersArgs_cap (k : Str) : ∀ a : Args, refersToArgs k (capArgs a) = refersToArgs k a
  | .nil => rfl
  | .cons e _ _ r => by simp only [capArgs, refersToArgs, refers_cap k e, refersArgs_cap k r]
  | .skip _ _ r => by simp only [capArgs, refersToArgs, refersArgs_cap k r]
end

theorem assignDest_same (v : VarRef) (p : LineCol) : Same b (ctx b) (assignDest v p) (assignDest (capVar v) p) := by
  refine ⟨fun c => .inl ?_⟩
  simp only [assignDest, ctx, getVar_cap, cap_name, key_cap, getCallable_cap, cap_ty, putLocal_cap]
  cases c.sy.getVar v with
  | ok x => obtain ⟨x, q⟩ := x; cases q <;> rfl
  | error e =>
    cases e with
    | undefinedSymbol w =>
      simp only [symErr]
      cases c.sy.getCallable (symKey v.name) with
      | some m => rfl
      | none =>
        simp only [Option.map_none]
        cases c.sy.putLocal (symKey v.name) (.scalar (v.ty.getD .integer)) with
        | ok r => rfl
        | error e => simp only [res, cap_at]; rfl
    | _ => rfl

theorem assignErr_same {x x' : CS α} (h : Same b (ctx b) x x') : Same b (ctx b) (assignErr x) (assignErr x') := by
  refine ⟨fun c => ?_⟩
  simp only [assignErr]
  rcases h.run c with h | ⟨hb, p, v, h⟩
  · rw [h]
    refine .inl ?_
    cases x c with
    | ok r => rfl
    | error e => cases e <;> rfl
  · exact .inr ⟨hb, p, v, by rw [h]⟩

theorem fixupTypeS_same (v : VarRef) (t : ExprType) (p : LineCol) : Same b (ctx b) (fixupTypeS v t p) (fixupTypeS (capVar v) t p) := by
  refine ⟨fun c => .inl ?_⟩
  simp only [fixupTypeS, Syms.fixupLocalType, ctx, syms, cap_name, key_cap]
  cases c.sy.locals.get? (symKey v.name) with
  | none => rfl
  | some x => obtain ⟨q, i⟩ := x; cases q <;> rfl

theorem assign_same (v : VarRef) (p : LineCol) (e : Expr) : Same b (ctx b) (compileAssign v p e) (compileAssign (capVar v) p (capExpr e)) := by
  unfold compileAssign
  refine .bind (assignDest_same ..) fun a => ?_
  obtain ⟨r, t, d⟩ := a
  cases t with
  | some t =>
    simp only [cap_name, key_cap, refers_cap]
    exact .ite Iff.rfl (assignErr_same (withSyms_same fun sy => .bind (allocTemp_same ..) fun _ => .bind (exprAs_same ..) fun _ =>
      .bind (emit_same _ _) fun _ => .pure _)) (assignErr_same (withSyms_same fun sy => exprAs_same ..))
  | none => exact .bind (withSyms_same fun sy => expr_same ..) fun _ => fixupTypeS_same ..

theorem relop_same (p : LineCol) (r : Reg) (t : ExprType) (r' : Reg) (t' : ExprType) (op : CaseRelOp) (d : Reg) :
    Same b code (compileCaseRelop p r t r' t' op d) (compileCaseRelop p r t r' t' op d) := by
  unfold compileCaseRelop
  have fin : ∀ o : BinOp, Same b code (do let _ ← emit (.bin o d r r') p : CG Unit) (do let _ ← emit (.bin o d r r') p : CG Unit) :=
    fun o => .bind (emit_same _ _) fun _ => .pure _
  cases t <;> cases t' <;> simp only <;> first
    | (refine .bind (emit_same _ _) fun _ => .bind (.pure _) fun o => ?_
       cases o with
       | some o => exact fin o
       | none => exact .throw rfl)
    | (refine .bind (.pure _) fun o => ?_
       cases o with
       | some o => exact fin o
       | none => exact .throw rfl)

theorem guard_same (sy : Syms) (n : Nat) (r : Reg) (t : ExprType) (g : CaseGuard) :
    Same b code (compileGuard sy n r t g) (compileGuard (syms b sy) n r t (capCase g)) := by
  cases g with
  | is op e =>
    simp only [compileGuard, capCase, start_cap]
    exact .bind (allocTemp_same ..) fun _ => .bind (allocTemp_same ..) fun _ => .bind (allocTemp_same ..) fun _ => .bind (emit_same _ _) fun _ =>
      .bind (expr_same ..) fun _ => .bind (relop_same ..) fun _ => .pure _
  | to lo hi =>
    simp only [compileGuard, capCase, start_cap]
    exact .bind (allocTemp_same ..) fun _ => .bind (allocTemp_same ..) fun _ => .bind (allocTemp_same ..) fun _ => .bind (allocTemp_same ..) fun _ =>
      .bind (allocTemp_same ..) fun _ => .bind (allocTemp_same ..) fun _ => .bind (allocTemp_same ..) fun _ => .bind (emit_same _ _) fun _ =>
      .bind (expr_same ..) fun _ => .bind (relop_same ..) fun _ => .bind (emit_same _ _) fun _ => .bind (expr_same ..) fun _ =>
      .bind (relop_same ..) fun _ => .bind (emit_same _ _) fun _ => .pure _

theorem guards_same (r : Reg) (t : ExprType) : ∀ l : List CaseGuard, Same b (ctx b) (compileGuards r t l) (compileGuards r t (l.map capCase))
  | [] => .pure _
  | g :: gs => by
    simp only [List.map_cons, compileGuards]
    refine .bind (withSyms_same fun sy => guard_same ..) fun a => ?_
    obtain ⟨c, p⟩ := a
    exact .bind (emitS_same ..) fun _ => .bind (emitS_same ..) fun _ => .bind pcNow_same fun _ => .bind (patchJumpIfFalse_same ..) fun _ =>
      .bind (guards_same r t gs) fun _ => .pure _

theorem dispatch_same (r : Reg) (t : ExprType) (p : LineCol) : ∀ (l : Cases) (o : Option Nat),
    Same b (ctx b) (compileDispatch r t p l o) (compileDispatch r t p (capCases b l) o)
  | .nil, _ => .pure _
  | .cons gs body rest, o => by
    simp only [capCases, compileDispatch]
    refine .bind pcNow_same fun here => ?_
    have main : Same b (ctx b)
        (match gs with
          | [] => do
            let body ← onCg (emit .nop p)
            let (jumps, pending') ← compileDispatch r t p rest none
            pure ([(body, p)] :: jumps, pending')
          | guards => do
            let body ← compileGuards r t guards
            let next ← onCg (emit .nop p)
            let (jumps, pending') ← compileDispatch r t p rest (some next)
            pure (body :: jumps, pending'))
        (match gs.map capCase with
          | [] => do
            let body ← onCg (emit .nop p)
            let (jumps, pending') ← compileDispatch r t p (capCases b rest) none
            pure ([(body, p)] :: jumps, pending')
          | guards => do
            let body ← compileGuards r t guards
            let next ← onCg (emit .nop p)
            let (jumps, pending') ← compileDispatch r t p (capCases b rest) (some next)
            pure (body :: jumps, pending')) := by
      cases gs with
      | nil =>
        exact .bind (emitS_same ..) fun _ => .bind (dispatch_same r t p rest _) fun a => .pure _
      | cons g gs =>
        exact .bind (guards_same r t (g :: gs)) fun _ => .bind (emitS_same ..) fun _ => .bind (dispatch_same r t p rest _) fun a => .pure _
    cases o with
    | some a => exact .bind (patchJump_same ..) fun _ => main
    | none => exact main

theorem cond_same (e : Expr) : Same b (ctx b) (compileCond e) (compileCond (capExpr e)) := by
  simp only [compileCond, start_cap]
  exact withSyms_same fun sy => .bind (allocTemp_same ..) fun _ => .bind (exprAs_same ..) fun _ => .pure _

theorem paramSyntax_cap : ∀ l : List VarRef, paramSyntax (capParams b l) = (paramSyntax l).map (sing b)
  | [] => by cases b <;> rfl
  | [v] => by cases b <;> rfl
  | v :: w :: l => by
    have h := paramSyntax_cap (w :: l)
    cases b with
    | false => exact congrArg (_ :: ·) h
    | true => exact congrArg (_ :: ·) h

theorem userMd_cap (v : VarRef) (l : List VarRef) : userMd (capVar v) (capParams b l) = md b (userMd v l) := by
  simp only [userMd, md, cap_name, key_cap, cap_ty, paramSyntax_cap]
  rfl

theorem syms_false (s : Syms) : syms false s = s := by
  have h1 : ∀ x : SingSyn, sing false x = x := fun x => by cases x <;> rfl
  have h2 : ∀ x : Syntax, syn false x = x := fun x => by
    have : x.singular.map (sing false) = x.singular := by rw [funext h1 (g := id)]; exact List.map_id _
    simp only [syn, this]
  have h3 : ∀ x : Md, md false x = x := fun x => by
    have : x.syntaxes.map (syn false) = x.syntaxes := by rw [funext h2 (g := id)]; exact List.map_id _
    simp only [md, this]
  have h4 : ∀ t : FMap Str Md, table false t = t := fun t => by
    unfold table
    rw [show (fun e : Str × Md => (e.1, md false e.2)) = id from funext fun e => by rw [h3]; rfl]
    exact List.map_id _
  simp only [syms, h4]

theorem md_false (m : Md) : md false m = m := by
  have h1 : ∀ x : SingSyn, sing false x = x := fun x => by cases x <;> rfl
  have h2 : ∀ x : Syntax, syn false x = x := fun x => by
    have : x.singular.map (sing false) = x.singular := by rw [funext h1 (g := id)]; exact List.map_id _
    simp only [syn, this]
  have : m.syntaxes.map (syn false) = m.syntaxes := by rw [funext h2 (g := id)]; exact List.map_id _
  simp only [md, this]

/-- This is the only place where the case of names matters: the two descriptions of a callable that is declared twice are compared with
the spelling of the parameters. -/
theorem declare_same (v : VarRef) (p : LineCol) (l : List VarRef) :
    Same b (ctx b) (declareCallable v p l) (declareCallable (capVar v) p (capParams b l)) := by
  refine ⟨fun c => ?_⟩
  simp only [declareCallable, ctx, userMd_cap, Syms.declareCallable, cap_name, key_cap]
  have hg : (syms b c.sy).globals = c.sy.globals := rfl
  have hu : (syms b c.sy).user = table b c.sy.user := rfl
  rw [hg, hu, get_table]
  by_cases h : (c.sy.globals.get? (symKey v.name)).isSome = true
  · rw [if_pos h, if_pos h]; exact .inl rfl
  · rw [if_neg h, if_neg h]
    cases hp : FMap.get? c.sy.user (symKey v.name) with
    | none =>
      simp only [Option.map_none, insert_table]
      exact .inl rfl
    | some prev =>
      simp only [Option.map_some]
      by_cases e : prev = userMd v l
      · rw [if_neg (by simp [e]), if_neg (by simp [e])]
        simp only [insert_table]
        exact .inl rfl
      · rw [if_pos e]
        cases b with
        | true => exact .inr ⟨rfl, _, _, rfl⟩
        | false =>
          rw [md_false, md_false, if_pos e]
          exact .inl rfl

theorem key_params (p : LineCol) : ∀ l : List VarRef, Same b (ctx b) (putParams p l) (putParams p (capParams b l))
  | [] => by cases b <;> exact .pure _
  | v :: l => by
    have h := key_params p l
    cases b with
    | false => exact .bind (putLocalS_same ..) fun _ => h
    | true =>
      show Same true (ctx true) (putParams p (v :: l)) (putParams p (capVar v :: capParams true l))
      simp only [putParams, cap_name, key_cap, cap_ty]
      exact .bind (putLocalS_same ..) fun _ => h

theorem defineNewArg_same (v : VarRef) (p : LineCol) : Same b (ctx b) (defineNewArg v p) (defineNewArg (capVar v) p) := by
  simp only [defineNewArg, cap_ty, cap_name, key_cap]
  exact .bind (putLocalS_same ..) fun _ => onCg_same (emitDefault_same ..)

theorem defineIfNew_same (v : VarRef) (p : LineCol) : Same b (ctx b) (defineIfNew v p) (defineIfNew (capVar v) p) := by
  refine ⟨fun c => ?_⟩
  have h := (defineNewArg_same (b := b) v p).run c
  simp only [defineIfNew]
  have hs : (ctx b c).sy = syms b c.sy := rfl
  rw [hs, getVar_cap, cap_name, key_cap, getCallable_cap]
  cases c.sy.getVar v with
  | ok x => exact .inl rfl
  | error e =>
    cases e with
    | undefinedSymbol w =>
      simp only [symErr]
      cases c.sy.getCallable (symKey v.name) with
      | some m => exact .inl rfl
      | none => exact h
    | _ => exact .inl rfl

theorem defineNewArgs_same (rep : Option RepSyn) : ∀ (l : List SingSyn) (a : Args),
    Same b (ctx b) (defineNewArgs rep l a) (defineNewArgs rep (l.map (sing b)) (capArgs a))
  | [], .nil => .pure _
  | s :: l, .nil => by
    cases s <;> first | exact .throw rfl | exact .pure _
  | [], .skip _ _ rest => by
    simp only [List.map_nil, capArgs, defineNewArgs]
    exact defineNewArgs_same rep [] rest
  | s :: l, .skip _ _ rest => by
    have h := defineNewArgs_same rep l rest
    cases s <;> simp only [List.map_cons, sing, capArgs, defineNewArgs] <;> exact h
  | [], .cons e _ _ rest => by
    have h := defineNewArgs_same rep [] rest
    cases e with
    | sym v p =>
      simp only [List.map_nil, capArgs, capExpr, defineNewArgs]
      cases repIsRef rep with
      | true => exact .bind (defineIfNew_same ..) fun _ => h
      | false => exact h
    | _ => simp only [List.map_nil, capArgs, capExpr, defineNewArgs]; exact h
  | s :: l, .cons e _ _ rest => by
    have h := defineNewArgs_same rep l rest
    cases s with
    | reqRef nm x z s =>
      cases z <;> cases e <;> simp only [List.map_cons, sing, capArgs, capExpr, defineNewArgs] <;>
        first | exact h | exact .bind (defineIfNew_same ..) fun _ => h
    | _ => simp only [List.map_cons, sing, capArgs, defineNewArgs]; exact h

theorem callStmt_same (v : VarRef) (p : LineCol) (a : Args) : Same b (ctx b) (compileCallStmt v p a) (compileCallStmt (capVar v) p (capArgs a)) := by
  refine ⟨fun c => ?_⟩
  simp only [compileCallStmt]
  have hs : (ctx b c).sy = syms b c.sy := rfl
  rw [hs, cap_name, key_cap, getCallable_cap, length_cap]
  cases c.sy.getCallable (symKey v.name) with
  | none => exact .inl rfl
  | some m =>
    simp only [Option.map_some, md_ret, md_find, md_name]
    by_cases h : m.returnType.isSome = true
    · rw [if_pos h, if_pos h]; exact .inl rfl
    · rw [if_neg h, if_neg h]
      cases m.findSyntax a.length with
      | none => exact .inl rfl
      | some s =>
        refine (Same.bind (defineNewArgs_same s.repeated s.singular a) fun _ => withSyms_same fun sy => .bind (compileArgs_same sy m p a 0) fun x => ?_).run c
        obtain ⟨f, lcs⟩ := x
        exact emitCall_same ..

theorem dimVar_same (n : Str) (p : LineCol) (sh : Bool) (q : Proto) : Same b (ctx b) (dimVar n p sh q) (dimVar (capName n) p sh q) := by
  refine ⟨fun c => ?_⟩
  have h1 := (putGlobalS_same (b := b) (symKey n) q p).run c
  have h2 := (putLocalS_same (b := b) (symKey n) q p).run c
  simp only [dimVar, key_cap]
  have hs : (ctx b c).sy = syms b c.sy := rfl
  have hg : (syms b c.sy).globals = c.sy.globals := rfl
  have hl : (syms b c.sy).locals = c.sy.locals := rfl
  rw [hs, getCallable_cap, hg, hl]
  cases c.sy.getCallable (symKey n) with
  | some m => exact .inl rfl
  | none =>
    simp only [Option.map_none]
    cases sh with
    | true =>
      simp only [if_true]
      cases c.sy.globals.get? (symKey n) with
      | some x => exact .inl rfl
      | none => exact h1
    | false =>
      simp only [Bool.false_eq_true, if_false]
      cases c.sy.locals.get? (symKey n) with
      | some x => exact .inl rfl
      | none => exact h2

theorem ofList_cap : ∀ l : List Expr, Args.ofList (l.map capExpr) = capArgs (Args.ofList l)
  | [] => rfl
  | e :: l => by simp only [List.map_cons, Args.ofList, capArgs, start_cap, ofList_cap l]

theorem arrayAssign_same (v : VarRef) (p : LineCol) (l : List Expr) (e : Expr) :
    Same b (ctx b) (compileArrayAssign v p l e) (compileArrayAssign (capVar v) p (l.map capExpr) (capExpr e)) := by
  refine withSyms_same fun sy => ?_
  rw [getVar_cap]
  cases sy.getVar v with
  | ok x =>
    obtain ⟨x, q⟩ := x
    cases q with
    | scalar t => exact .throw rfl
    | array t k =>
      simp only [List.length_map, ofList_cap]
      exact .ite Iff.rfl (.throw rfl) (.bind (allocTemp_same ..) fun _ => .bind (exprAs_same ..) fun _ => .bind (subs_same ..) fun _ =>
        .bind (firstTemp_same ..) fun _ => .bind (emit_same _ _) fun _ => .pure _)
  | error e => cases e <;> exact .throw rfl

theorem dimArray_same (n : Str) (p : LineCol) (sh : Bool) (l : List Expr) (t : ExprType) :
    Same b (ctx b) (compileDimArray n p sh l t) (compileDimArray (capName n) p sh (l.map capExpr) t) := by
  simp only [compileDimArray, List.length_map, ofList_cap]
  refine .bind (dimVar_same ..) fun r => withSyms_same fun sy => .bind (subs_same ..) fun _ => .bind (firstTemp_same ..) fun f => ?_
  cases l with
  | nil => exact .throw rfl
  | cons e l =>
    simp only [List.map_cons]
    cases PackedArrayType.new t (e :: l).length with
    | some k => exact .bind (emit_same _ _) fun _ => .pure _
    | none => exact .throw rfl

theorem end_same (o : Option Expr) (p : LineCol) : Same b (ctx b) (compileEnd o p) (compileEnd (o.map capExpr) p) := by
  have h : (o.map capExpr).bind staticEndCode = o.bind staticEndCode := by
    cases o with
    | none => rfl
    | some e => exact static_cap e
  simp only [compileEnd, h]
  have main : Same b (ctx b)
      (withSyms fun sy => do
        let reg ← CM.lift (allocTemp sy 0 p)
        match o with
        | some e => compileExprAs sy e 1 reg .integer
        | none => do let _ ← emit (.loadInt reg 0#16) p
        let _ ← emit (.end reg) p)
      (withSyms fun sy => do
        let reg ← CM.lift (allocTemp sy 0 p)
        match o.map capExpr with
        | some e => compileExprAs sy e 1 reg .integer
        | none => do let _ ← emit (.loadInt reg 0#16) p
        let _ ← emit (.end reg) p) := by
    refine withSyms_same fun sy => .bind (allocTemp_same ..) fun r => ?_
    cases o with
    | none => exact .bind (emit_same _ _) fun _ => .bind (emit_same _ _) fun _ => .pure _
    | some e => exact .bind (exprAs_same ..) fun _ => .bind (emit_same _ _) fun _ => .pure _
  cases o.bind staticEndCode with
  | none => exact main
  | some x =>
    simp only
    split
    · exact .bind (.throw rfl) fun _ => main
    · exact main

theorem forIter_same (v : VarRef) (p : LineCol) (d : Bool) : Same b (ctx b) (forIter v p d) (forIter (capVar v) p d) := by
  refine ⟨fun c => ?_⟩
  simp only [forIter]
  have hs : (ctx b c).sy = syms b c.sy := rfl
  rw [hs, getVar_cap, cap_name, key_cap, getCallable_cap, cap_ty]
  by_cases h : (d && v.ty.isNone) = true
  · rw [if_pos h, if_pos h]
    cases c.sy.getVar v with
    | ok x => exact .inl rfl
    | error e =>
      cases e with
      | undefinedSymbol w =>
        simp only [symErr]
        cases c.sy.getCallable (symKey v.name) with
        | some m => exact .inl rfl
        | none => exact (Same.bind (putLocalS_same ..) fun _ => .pure _).run c
      | _ => exact .inl rfl
  · rw [if_neg h, if_neg h]; exact .inl rfl

theorem emitFixup_same (p : LineCol) (f : Fixup) : Same b (ctx b) (emitFixup p f) (emitFixup p (fix f)) := by
  refine .bind (emitS_same ..) fun a => .modify fun c => ?_
  simp only [ctx, addFixup_same]

theorem exitDo_same (p : LineCol) : Same b (ctx b) (compileExitDo p) (compileExitDo p) := by
  refine ⟨fun c => .inl ?_⟩
  simp only [compileExitDo, ctx]
  cases c.doExit <;> rfl

theorem exitFor_same (p : LineCol) : Same b (ctx b) (compileExitFor p) (compileExitFor p) := by
  refine ⟨fun c => .inl ?_⟩
  simp only [compileExitFor, ctx]
  cases c.forExit <;> rfl

theorem exitCallable_same (k : CallableKind) (w : String) (p : LineCol) : Same b (ctx b) (compileExitCallable k w p) (compileExitCallable k w p) := by
  refine ⟨fun c => .inl ?_⟩
  simp only [compileExitCallable]
  have hd : (ctx b c).cur = c.cur := rfl
  rw [hd]
  split <;> rfl

theorem closeDo_same (a : Nat) : Same b (ctx b) (closeDo a) (closeDo a) := by
  refine ⟨fun c => ?_⟩
  simp only [closeDo]
  have hd : (ctx b c).doExit = c.doExit := rfl
  rw [hd]
  cases c.doExit with
  | nil => exact .inl rfl
  | cons t r => exact (patchJumps_same a t).run { c with doExit := r }

theorem closeFor_same (a : Nat) : Same b (ctx b) (closeFor a) (closeFor a) := by
  refine ⟨fun c => ?_⟩
  simp only [closeFor]
  have hd : (ctx b c).forExit = c.forExit := rfl
  rw [hd]
  cases c.forExit with
  | nil => exact .inl rfl
  | cons t r => exact (patchJumps_same a t).run { c with forExit := r }

theorem markIf_same (m : Bool) (a : Nat) : Same b (ctx b) (markIf m a) (markIf m a) := by
  refine ⟨fun c => .inl ?_⟩
  simp only [markIf]
  have hd : (ctx b c).cg.code = c.cg.code := rfl
  rw [hd]
  split <;> rfl

@[simp] theorem marks_cap (s : Stmt) : (capStmt b s).marks = s.marks := by cases s <;> rfl

theorem prologBody_same (v : VarRef) (p : LineCol) (l : List VarRef) :
    Same b (ctx b) (prologBody v p l) (prologBody (capVar v) p (capParams b l)) := by
  simp only [prologBody, cap_ty, cap_name, key_cap]
  have h := key_params (b := b) p l
  cases v.ty with
  | none => exact h
  | some t =>
    refine .bind (putLocalS_same ..) fun r => ?_
    cases t <;> first
      | exact .bind (.pure _) fun _ => .bind (emitS_same ..) fun _ => h
      | exact .bind (onCg_same (getConstant_same ..)) fun _ => .bind (emitS_same ..) fun _ => h

theorem prolog_same (v : VarRef) (p : LineCol) (l : List VarRef) :
    Same b (ctx b) (callableProlog v p l) (callableProlog (capVar v) p (capParams b l)) := by
  unfold callableProlog
  exact .bind (emitS_same ..) fun _ => .bind pcNow_same fun _ => .bind (.modify fun _ => rfl) fun _ => .bind (prologBody_same ..) fun _ => .pure _

theorem epilog_same (k : Str) (a s : Nat) (p : LineCol) (l : IdMap Str Proto) :
    Same b (ctx b) (callableEpilog k a s p l) (callableEpilog k a s p l) := by
  unfold callableEpilog
  exact .bind (emitS_same ..) fun _ => .get fun c => .bind (patchJumps_same _ c.calExits) fun _ => .bind pcNow_same fun _ =>
    .bind (.modify fun _ => rfl) fun _ => .bind (patchJump_same ..) fun _ => .modify fun _ => rfl

@[simp] theorem isNil_branches (l : Branches) : (capBranches b l).isNil = l.isNil := by cases l <;> rfl
@[simp] theorem isNil_cases (l : Cases) : (capCases b l).isNil = l.isNil := by cases l <;> rfl

end

section
variable {b : Bool}

mutual
theorem stmt_same : ∀ s : Stmt, Same b (ctx b) (compileStmtBody s) (compileStmtBody (capStmt b s))
  | .arrayAssign v p subs e => by simp only [compileStmtBody, capStmt]; exact arrayAssign_same ..
  | .assign v p e => by simp only [compileStmtBody, capStmt]; exact assign_same ..
  | .call v p args => by simp only [compileStmtBody, capStmt]; exact callStmt_same ..
  | .callable name p vs body q => by
    simp only [compileStmtBody, capStmt, cap_name, key_cap]
    exact .bind (declare_same ..) fun _ => .get fun c => .ite Iff.rfl (.throw rfl) (.ite Iff.rfl (.throw rfl)
      (.bind (prolog_same ..) fun x => .bind (stmts_same body) fun _ => epilog_same ..))
  | .data values => by
    simp only [compileStmtBody, capStmt]
    exact .bind (.lift (dataConsts_cap values)) fun _ => .modify fun _ => rfl
  | .declare name p vs => by
    simp only [compileStmtBody, capStmt]
    exact .get fun c => .ite Iff.rfl (.throw rfl) (declare_same ..)
  | .dim name p sh ty => by
    simp only [compileStmtBody, capStmt]
    exact .bind (dimVar_same ..) fun _ => onCg_same (emitDefault_same ..)
  | .dimArray name p sh dims ty => by simp only [compileStmtBody, capStmt]; exact dimArray_same ..
  | .doLoop g body => by
    have hb := stmts_same body
    simp only [compileStmtBody, capStmt]
    refine .bind (.modify fun _ => rfl) fun _ => ?_
    cases g with
    | infinite =>
      exact .bind pcNow_same fun _ => .bind hb fun _ => .bind (emitJump_same ..) fun _ => .bind pcNow_same fun _ => closeDo_same _
    | preUntil e =>
      simp only [capDo, start_cap]
      exact .bind pcNow_same fun _ => .bind (cond_same e) fun _ => .bind (emitS_same ..) fun _ => .bind (emitS_same ..) fun _ =>
        .bind pcNow_same fun _ => .bind (patchJumpIfFalse_same ..) fun _ => .bind hb fun _ => .bind (emitJump_same ..) fun _ =>
        .bind pcNow_same fun _ => .bind (patchJump_same ..) fun _ => closeDo_same _
    | preWhile e =>
      simp only [capDo, start_cap]
      exact .bind pcNow_same fun _ => .bind (cond_same e) fun _ => .bind (emitS_same ..) fun _ => .bind hb fun _ => .bind (emitJump_same ..) fun _ =>
        .bind pcNow_same fun _ => .bind (patchJumpIfFalse_same ..) fun _ => closeDo_same _
    | postUntil e =>
      simp only [capDo, start_cap]
      exact .bind pcNow_same fun _ => .bind hb fun _ => .bind (cond_same e) fun _ => .bind (mkTarget_same ..) fun _ => .bind (emitS_same ..) fun _ =>
        .bind pcNow_same fun _ => closeDo_same _
    | postWhile e =>
      simp only [capDo, start_cap]
      exact .bind pcNow_same fun _ => .bind hb fun _ => .bind (cond_same e) fun _ => .bind (emitS_same ..) fun _ => .bind (emitJump_same ..) fun _ =>
        .bind pcNow_same fun _ => .bind (patchJumpIfFalse_same ..) fun _ => closeDo_same _
  | .end c p => by simp only [compileStmtBody, capStmt]; exact end_same ..
  | .exitDo p => by simp only [compileStmtBody, capStmt]; exact exitDo_same p
  | .exitFor p => by simp only [compileStmtBody, capStmt]; exact exitFor_same p
  | .exitFunction p => by simp only [compileStmtBody, capStmt]; exact exitCallable_same ..
  | .exitSub p => by simp only [compileStmtBody, capStmt]; exact exitCallable_same ..
  | .forLoop v p dbl start stop next body => by
    simp only [compileStmtBody, capStmt, start_cap]
    exact .bind (forIter_same ..) fun _ => .bind (assign_same ..) fun _ => .bind pcNow_same fun _ => .bind (cond_same stop) fun _ =>
      .bind (emitS_same ..) fun _ => .bind (.modify fun _ => rfl) fun _ => .bind (stmts_same body) fun _ => .bind (assign_same ..) fun _ =>
      .bind (emitJump_same ..) fun _ => .bind pcNow_same fun _ => .bind (patchJumpIfFalse_same ..) fun _ => closeFor_same _
  | .gosub l p => by simp only [compileStmtBody, capStmt]; exact emitFixup_same p (.gosub l)
  | .goto l p => by simp only [compileStmtBody, capStmt]; exact emitFixup_same p (.goto l)
  | .ifs bs => by
    simp only [compileStmtBody, capStmt]
    exact .bind (branches_same bs) fun _ => .bind pcNow_same fun _ => patchJumps_same ..
  | .label n p => by
    simp only [compileStmtBody, capStmt, key_cap]
    refine ⟨fun c => .inl ?_⟩
    have hd : (ctx b c).cg.labels = c.cg.labels := rfl
    rw [hd]
    cases c.cg.labels.get? (symKey n) <;> rfl
  | .onError (.goto l lp p) => by simp only [compileStmtBody, capStmt, capOnError]; exact emitFixup_same p (.onErrorGoto l)
  | .onError (.reset p) => by simp only [compileStmtBody, capStmt, capOnError]; exact .bind (emitS_same ..) fun _ => .pure _
  | .onError (.resumeNext p) => by simp only [compileStmtBody, capStmt, capOnError]; exact .bind (emitS_same ..) fun _ => .pure _
  | .ret p => by simp only [compileStmtBody, capStmt]; exact .bind (emitS_same ..) fun _ => .pure _
  | .select e cs p => by
    simp only [compileStmtBody, capStmt, start_cap]
    refine .bind (withSyms_same fun sy => allocTemp_same ..) fun t => .bind (withSyms_same fun sy => expr_same ..) fun ty =>
      .bind (dispatch_same ..) fun x => .bind (emitS_same ..) fun a => ?_
    obtain ⟨j, o⟩ := x
    have h := bodies_same cs j p
    cases o with
    | some q =>
      exact .bind (patchJump_same ..) fun _ => .bind h fun _ => .bind pcNow_same fun _ => .bind (patchJump_same ..) fun _ => patchJumps_same ..
    | none => exact .bind h fun _ => .bind pcNow_same fun _ => .bind (patchJump_same ..) fun _ => patchJumps_same ..
  | .whileLoop e body => by
    simp only [compileStmtBody, capStmt, start_cap]
    exact .bind pcNow_same fun _ => .bind (cond_same e) fun _ => .bind (emitS_same ..) fun _ => .bind (stmts_same body) fun _ =>
      .bind (emitJump_same ..) fun _ => .bind pcNow_same fun _ => patchJumpIfFalse_same ..

theorem stmts_same : ∀ s : Stmts, Same b (ctx b) (compileStmts s) (compileStmts (capStmts b s))
  | .nil => by simp only [compileStmts, capStmts]; exact .pure _
  | .cons s rest => by
    simp only [compileStmts, capStmts, marks_cap]
    exact .bind pcNow_same fun _ => .bind (stmt_same s) fun _ => .bind (markIf_same ..) fun _ => stmts_same rest

theorem branches_same : ∀ l : Branches, Same b (ctx b) (compileBranches l) (compileBranches (capBranches b l))
  | .nil => by simp only [compileBranches, capBranches]; exact .pure _
  | .cons g body rest => by
    simp only [compileBranches, capBranches, start_cap, isNil_branches]
    exact .bind (cond_same g) fun _ => .bind (emitS_same ..) fun _ => .bind (stmts_same body) fun _ => .ite Iff.rfl
      (.bind pcNow_same fun _ => .bind (patchJumpIfFalse_same ..) fun _ => .pure _)
      (.bind (emitS_same ..) fun _ => .bind pcNow_same fun _ => .bind (patchJumpIfFalse_same ..) fun _ => .bind (branches_same rest) fun _ => .pure _)

theorem bodies_same : ∀ (l : Cases) (j : List (List (Nat × LineCol))) (p : LineCol),
    Same b (ctx b) (compileBodies l j p) (compileBodies (capCases b l) j p)
  | .nil, _, _ => by simp only [compileBodies, capCases]; exact .pure _
  | .cons .., [], _ => by simp only [compileBodies, capCases]; exact .throw rfl
  | .cons gs body rest, js :: j, p => by
    simp only [compileBodies, capCases, isNil_cases]
    exact .bind pcNow_same fun _ => .bind (patchJumps_same ..) fun _ => .bind (stmts_same body) fun _ => .ite Iff.rfl (.pure _)
      (.bind (emitS_same ..) fun _ => .bind (bodies_same rest j p) fun _ => .pure _)
end

/-! ## Programs -/

theorem fixupInstr_cap (g : Codegen) (p : LineCol) (f : Fixup) : (code g).fixupInstr p (fix f) = plain (g.fixupInstr p f) := by
  have ht : ∀ (t : Nat) (k : U16 → Instr),
      (match mkTarget t p with | .ok t => .ok (k t) | .error e => .error e : Except CErr Instr) =
        plain (match mkTarget t p with | .ok t => .ok (k t) | .error e => .error e) := by
    intro t k
    cases h : mkTarget t p with
    | ok t => rfl
    | error e =>
      unfold mkTarget at h
      split at h <;> cases h
      rfl
  have hc : (code g).callables = g.callables := rfl
  have hl : (code g).labels = g.labels := rfl
  cases f with
  | call r k =>
    simp only [fix, Codegen.fixupInstr, hc]
    cases g.callables.get? k with
    | none => rfl
    | some t => exact ht ..
  | gosub l =>
    simp only [fix, Codegen.fixupInstr, hl, key_cap]
    cases g.labels.get? (symKey l) with
    | none => rfl
    | some t => exact ht ..
  | goto l =>
    simp only [fix, Codegen.fixupInstr, hl, key_cap]
    cases g.labels.get? (symKey l) with
    | none => rfl
    | some t => exact ht ..
  | onErrorGoto l =>
    simp only [fix, Codegen.fixupInstr, hl, key_cap]
    cases g.labels.get? (symKey l) with
    | none => rfl
    | some t => exact ht ..

theorem applyFixups_cap (g : Codegen) : ∀ t : FMap Nat Fixup, (code g).applyFixups (t.map fun e => (e.1, fix e.2)) = plain (g.applyFixups t)
  | [] => rfl
  | (a, f) :: t => by
    have hi : (code g).instrs = g.instrs := rfl
    simp only [List.map_cons, Codegen.applyFixups, hi, fixupInstr_cap, applyFixups_cap g t]
    cases g.instrs[a]? with
    | none => rfl
    | some m =>
      simp only
      cases g.fixupInstr m.linecol f with
      | error e => rfl
      | ok i => simp only [plain]; cases g.applyFixups t <;> rfl

theorem buildDelta_cap (img : Image) (c : Ctx) : buildDelta img (ctx b c) = res (ctx b) (buildDelta img c) := by
  simp only [buildDelta]
  have hf : (ctx b c).cg.fixups = c.cg.fixups.map fun e => (e.1, fix e.2) := rfl
  have hg : (ctx b c).cg = code c.cg := rfl
  rw [hf, hg, applyFixups_cap]
  cases c.cg.applyFixups c.cg.fixups with
  | error e => rfl
  | ok l => rfl

/-- A source in capitals. -/
def source (b : Bool) (s : Source) : Source := ⟨capStmts b s.stmts, s.err.map capErr⟩

theorem compileTop_cap (src : Source) (img : Image) (c : Ctx) :
    compileTop (source b src) img (ctx b c) = res (ctx b) (compileTop src img c) ∨ (b = true ∧ ∃ p v, compileTop src img c = .error (.alreadyDefined p v)) := by
  simp only [compileTop, source]
  have hp : ({ ctx b c with cg := (ctx b c).cg.popEof } : Ctx) = ctx b { c with cg := c.cg.popEof } := rfl
  rw [hp]
  rcases (stmts_same (b := b) src.stmts).run { c with cg := c.cg.popEof } with h | ⟨hb, p, v, h⟩
  · rw [h]
    cases compileStmts src.stmts { c with cg := c.cg.popEof } with
    | error e => exact .inl rfl
    | ok r =>
      obtain ⟨_, c'⟩ := r
      simp only [res]
      cases src.err with
      | some e => exact .inl rfl
      | none => exact .inl (buildDelta_cap img { c' with cg := c'.cg.push .eof ⟨0, 0⟩ })
  · exact .inr ⟨hb, p, v, by rw [h]⟩

theorem scalars_same : ∀ l : List GlobalDef, Same b (ctx b) (prepareScalars l) (prepareScalars l)
  | [] => .pure _
  | .scalar n t d :: l => by
    have h := scalars_same l
    simp only [prepareScalars]
    refine .bind (putGlobalS_same ..) fun r => ?_
    cases d with
    | none => exact .bind (onCg_same (emitDefault_same ..)) fun _ => h
    | some d =>
      simp only
      split
      · exact .bind (.throw rfl) fun _ => h
      · exact .bind (onCg_same (emitValue_same ..)) fun _ => h
  | .array n t d :: l => by
    simp only [prepareScalars]
    exact .ite Iff.rfl (.throw rfl) (.bind (putGlobalS_same ..) fun _ => .bind (scalars_same l) fun _ => .pure _)

theorem dims_same : ∀ (i : Nat) (l : List Nat), Same b (ctx b) (prepareDims i l) (prepareDims i l)
  | _, [] => .pure _
  | i, d :: l => by
    simp only [prepareDims]
    cases mkLocal i with
    | none => exact .throw rfl
    | some r => exact .ite Iff.rfl (.bind (emitS_same ..) fun _ => dims_same _ l) (.throw rfl)

theorem arrays_same : ∀ l : List (Reg × ExprType × List Nat), Same b (ctx b) (prepareArrays l) (prepareArrays l)
  | [] => .pure _
  | (r, t, d) :: l => by
    have h := arrays_same l
    simp only [prepareArrays]
    refine .bind (dims_same ..) fun _ => ?_
    cases mkLocal 0 with
    | none =>
      cases PackedArrayType.new t d.length with
      | none => exact .bind (.throw rfl) fun _ => h
      | some k => exact .bind (.throw rfl) fun _ => h
    | some f =>
      cases PackedArrayType.new t d.length with
      | none => exact .bind (.throw rfl) fun _ => h
      | some k => exact .bind (emitS_same ..) fun _ => h

theorem new_cap (up : FMap Str Md) (defs : List GlobalDef) :
    (match Compiler.new up defs with
      | .ok c => Compiler.new (table b up) defs = .ok (ctx b c)
      | .error e => Compiler.new (table b up) defs = .error (capErr e)) ∨ (b = true ∧ ∃ p v, Compiler.new up defs = .error (.alreadyDefined p v)) := by
  have h := (Same.bind (scalars_same (b := b) defs) fun a => .bind (arrays_same a) fun _ => .bind (emitS_same .eof ⟨0, 0⟩) fun _ => .pure ()).run
    ⟨.empty, [], [], [], none, [], [], ⟨.empty, up, [], .empty⟩⟩
  have hi : ctx b ⟨.empty, [], [], [], none, [], [], ⟨.empty, up, [], .empty⟩⟩ = ⟨.empty, [], [], [], none, [], [], ⟨.empty, table b up, [], .empty⟩⟩ := rfl
  rw [hi] at h
  simp only [Compiler.new]
  rcases h with h | ⟨hb, p, v, h⟩
  · refine .inl ?_
    rw [h]
    cases (prepareScalars defs >>= fun a => prepareArrays a >>= fun _ => onCg (emit .eof ⟨0, 0⟩) >>= fun _ => (pure () : CS Unit))
      ⟨.empty, [], [], [], none, [], [], ⟨.empty, up, [], .empty⟩⟩ with
    | error e => rfl
    | ok r => rfl
  · exact .inr ⟨hb, p, v, by rw [h]⟩

theorem compileMore_cap (src : Source) (img : Image) (c : Ctx) :
    ((compileMore (source b src) (ctx b c) img).1 = plain (compileMore src c img).1 ∧
      (compileMore (source b src) (ctx b c) img).2.1 = ctx b (compileMore src c img).2.1 ∧
      (compileMore (source b src) (ctx b c) img).2.2 = (compileMore src c img).2.2) ∨ (b = true ∧ ∃ p v, (compileMore src c img).1 = .error (.alreadyDefined p v)) := by
  simp only [compileMore]
  rcases compileTop_cap (b := b) src img c with h | ⟨hb, p, v, h⟩
  · rw [h]
    cases compileTop src img c with
    | error e => exact .inl ⟨rfl, rfl, rfl⟩
    | ok r => exact .inl ⟨rfl, rfl, rfl⟩
  · exact .inr ⟨hb, p, v, by rw [h]⟩

theorem compileProgram_cap (up : FMap Str Md) (defs : List GlobalDef) (src : Source) :
    compileProgram (table b up) defs (source b src) = plain (compileProgram up defs src) ∨
      (b = true ∧ ∃ p v, compileProgram up defs src = .error (.alreadyDefined p v)) := by
  simp only [compileProgram]
  rcases new_cap (b := b) up defs with hn | ⟨hb, p, v, h⟩
  · cases hc : Compiler.new up defs with
    | error e => rw [hc] at hn; simp only at hn; rw [hn]; exact .inl rfl
    | ok c =>
      rw [hc] at hn; simp only at hn; rw [hn]
      simp only
      rcases compileMore_cap (b := b) src .default c with ⟨h1, h2, h3⟩ | ⟨hb, p, v, h⟩
      · refine .inl ?_
        rcases hm : compileMore (source b src) (ctx b c) .default with ⟨r, c1, i1⟩
        rcases hm' : compileMore src c .default with ⟨r', c2, i2⟩
        rw [hm, hm'] at h1 h2 h3
        simp only at h1 h2 h3
        subst h1 h2 h3
        cases r' <;> rfl
      · refine .inr ⟨hb, p, v, ?_⟩
        rcases hm' : compileMore src c .default with ⟨r', c2, i2⟩
        rw [hm'] at h
        simp only at h
        subst h
        rfl
  · exact .inr ⟨hb, p, v, by rw [h]⟩

end

end EB.Caps
