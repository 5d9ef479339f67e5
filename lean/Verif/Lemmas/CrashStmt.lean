import Verif.Lemmas.Crash
/-!
# The compiler does not crash: statements
-/

namespace EB
open Spec

/-- Everything is allowed. -/
abbrev Any : Str → Prop := fun _ => True

section
variable {α β : Type}

/-- A step that leads elsewhere. -/
theorem SafeAt.to {x : CS α} {f : α → CS β} {c : Ctx} {S' : Spot} {Q R : Prop} {P : α → Prop} (h : SafeAt x c)
    (j : Judged (x c) Q fun a c' => P a ∧ Here c' S' ∧ Fixes Any Any c.cg c'.cg R) (k : ∀ a c', P a → Here c' S' → SafeAt (f a) c') :
    SafeAt (x >>= f) c :=
  h.bind fun a c' hx => k a c' (j.ofOk hx).1 (j.ofOk hx).2.1

/-- … that changes only the code. -/
theorem SafeAt.stay {x : CS α} {f : α → CS β} {c : Ctx} {S : Spot} {Q R : Prop} {P : α → Prop} (h : SafeAt x c)
    (j : Judged (x c) Q fun a c' => P a ∧ Still Any Any c c' R) (H : Here c S) (k : ∀ a c', P a → Here c' S → SafeAt (f a) c') :
    SafeAt (x >>= f) c :=
  h.bind fun a c' hx => k a c' (j.ofOk hx).1 (H.still (j.ofOk hx).2)

/-- … that fails only because of limits. -/
theorem FreeS.then {x : CS α} {f : α → CS β} {c : Ctx} {S : Spot} (h : FreeS Any Any x) (H : Here c S)
    (k : ∀ a c', Here c' S → SafeAt (f a) c') : SafeAt (x >>= f) c :=
  (FreeS.safe h c).bind fun a c' hx => k a c' (H.free h hx)

theorem onCg_safe {x : CG α} (h : Safe x) : Safe (onCg x) := by
  intro c he
  unfold onCg at he
  split at he
  · cases he
  next hx => cases he; exact h _ hx

theorem withSyms_safe {f : Syms → CG α} {c : Ctx} (h : Safe (f c.sy)) : SafeAt (withSyms f) c := by
  intro he
  unfold withSyms at he
  split at he
  · cases he
  next hx => cases he; exact h _ hx
end

theorem putLocal_panic {sy : Syms} {k : Str} {p : Proto} (h : sy.locals.get? k = none) : sy.putLocal k p ≠ .error .panic := by
  intro hp
  unfold Syms.putLocal putVar at hp
  cases hi : sy.locals.insert 256 k p with
  | none => rw [hi] at hp; cases hp
  | some r =>
    obtain ⟨⟨o, id⟩, t⟩ := r
    rw [hi] at hp
    cases o with
    | none =>
      simp only at hp
      cases hm : mkLocal id <;> rw [hm] at hp <;> cases hp
    | some q =>
      replace h : sy.locals.map.get? k = none := h
      unfold IdMap.insert at hi
      rw [h] at hi
      simp at hi

theorem putGlobal_panic {sy : Syms} {k : Str} {p : Proto} (h : sy.globals.get? k = none) : sy.putGlobal k p ≠ .error .panic := by
  intro hp
  unfold Syms.putGlobal putVar at hp
  cases hi : sy.globals.insert 256 k p with
  | none => rw [hi] at hp; cases hp
  | some r =>
    obtain ⟨⟨o, id⟩, t⟩ := r
    rw [hi] at hp
    cases o with
    | none =>
      simp only at hp
      cases hm : mkGlobal id <;> rw [hm] at hp <;> cases hp
    | some q =>
      replace h : sy.globals.map.get? k = none := h
      unfold IdMap.insert at hi
      rw [h] at hi
      simp at hi

theorem putLocalS_safe {c : Ctx} {k : Str} {p : Proto} {pos : LineCol} (h : c.sy.locals.get? k = none) : SafeAt (putLocalS k p pos) c := by
  intro he
  unfold putLocalS at he
  cases hp : c.sy.putLocal k p with
  | ok r => rw [hp] at he; cases he
  | error e =>
    rw [hp] at he
    exact at_panic (e := e) (pos := pos) (fun h' => putLocal_panic h (h' ▸ hp)) (by injection he)

theorem putGlobalS_safe {c : Ctx} {k : Str} {p : Proto} {pos : LineCol} (h : c.sy.globals.get? k = none) : SafeAt (putGlobalS k p pos) c := by
  intro he
  unfold putGlobalS at he
  cases hp : c.sy.putGlobal k p with
  | ok r => rw [hp] at he; cases he
  | error e =>
    rw [hp] at he
    exact at_panic (e := e) (pos := pos) (fun h' => putGlobal_panic h (h' ▸ hp)) (by injection he)

theorem getVar_undefined {sy : Syms} {v v' : VarRef} (h : sy.getVar v = .error (.undefinedSymbol v')) :
    sy.locals.get? (symKey v.name) = none ∧ sy.globals.get? (symKey v.name) = none := by
  have key : ∀ {t : IdMap Str Proto} {mk : Nat → Option Reg} {sc : RegScope} {v' : VarRef},
      EB.getVar v t mk sc = .error (.undefinedSymbol v') → t.get? (symKey v.name) = none := by
    intro t mk sc v' h
    unfold EB.getVar at h
    cases ht : t.get? (symKey v.name) with
    | none => rfl
    | some r =>
      rw [ht] at h
      simp only at h
      split at h
      · cases h
      · split at h <;> cases h
  unfold Syms.getVar at h
  cases hl : EB.getVar v sy.locals mkLocal .local with
  | ok r => rw [hl] at h; cases h
  | error e =>
    rw [hl] at h
    cases e with
    | undefinedSymbol v'' => exact ⟨key hl, key h⟩
    | alreadyDefined | incompatibleAnnotation | outOfRegisters | panic => cases h

/-! ## Variables of output arguments -/

/-- The name is in use. -/
def InUse (sy : Syms) (v : VarRef) : Prop :=
  sy.locals.get? (symKey v.name) ≠ none ∨ sy.globals.get? (symKey v.name) ≠ none ∨ sy.getCallable (symKey v.name) ≠ none

theorem InUse.found {sy : Syms} {v : VarRef} (h : InUse sy v) : VarFound sy v := by
  rcases h with h | h | h
  · exact .inl fun v' hv => h (getVar_undefined hv).1
  · exact .inl fun v' hv => h (getVar_undefined hv).2
  · exact .inr h

theorem VarFound.inUse {sy : Syms} {v : VarRef} (h : VarFound sy v) : InUse sy v := by
  rcases h with h | h
  · by_contra hn
    simp only [InUse, not_or, Classical.not_not] at hn
    refine h v ?_
    unfold Syms.getVar EB.getVar
    rw [hn.1, hn.2.1]
  · exact .inr (.inr h)

/-- More names are in use. -/
def UseMore (sy sy' : Syms) : Prop := ∀ v, InUse sy v → InUse sy' v

theorem defineIfNew_uses {v : VarRef} {pos : LineCol} {c c' : Ctx} {u : Unit} (h : defineIfNew v pos c = .ok (u, c')) :
    UseMore c.sy c'.sy ∧ VarFound c'.sy v := by
  unfold defineIfNew at h
  cases hv : c.sy.getVar v with
  | ok r =>
    rw [hv] at h; cases h
    exact ⟨fun _ h => h, .inl fun v' hv' => by rw [hv] at hv'; cases hv'⟩
  | error e =>
    rw [hv] at h
    cases e with
    | undefinedSymbol v' =>
      simp only at h
      cases hc : c.sy.getCallable (symKey v.name) with
      | some md => rw [hc] at h; cases h; exact ⟨fun _ h => h, .inr (by rw [hc]; simp)⟩
      | none =>
        rw [hc] at h
        unfold defineNewArg at h
        obtain ⟨r, c1, h1, h⟩ := CM.bind_ok.1 h
        have hs := FreeS.onCg (Free.emitDefault (L := Any) (D := Any) r (v.ty.getD .integer) pos) c1
        rw [h] at hs
        have hs' : c'.sy = c1.sy := hs.sy
        unfold putLocalS at h1
        cases hp : c.sy.putLocal (symKey v.name) (.scalar (v.ty.getD .integer)) with
        | error e => rw [hp] at h1; cases h1
        | ok q =>
          obtain ⟨r', sy⟩ := q
          rw [hp] at h1
          cases h1
          obtain ⟨q1, q2, rfl⟩ := putLocal_ok hp
          have hg : ∀ w : VarRef, c'.sy.locals.get? (symKey w.name) =
              if symKey w.name = symKey v.name then some (.scalar (v.ty.getD .integer), c.sy.locals.len) else c.sy.locals.get? (symKey w.name) := by
            intro w
            rw [hs']
            exact IdMap.get?_insert_new ..
          refine ⟨fun w hw => ?_, InUse.found (.inl ?_)⟩
          · rcases hw with hw | hw | hw
            · refine .inl ?_
              rw [hg]
              split
              · simp
              · exact hw
            · exact .inr (.inl (by rw [hs']; exact hw))
            · exact .inr (.inr (by rw [hs']; exact hw))
          · rw [hg, if_pos rfl]; simp
    | alreadyDefined | incompatibleAnnotation | outOfRegisters | panic =>
      cases h
      exact ⟨fun _ h => h, .inl fun v' hv' => by rw [hv] at hv'; cases hv'⟩

theorem defineNewArgs_uses (rep : Option RepSyn) (args : Args) (syns : List SingSyn) {c c' : Ctx} {u : Unit}
    (h : defineNewArgs rep syns args c = .ok (u, c')) : UseMore c.sy c'.sy ∧ OutsFound c'.sy rep syns args := by
  match args with
  | .nil =>
    have : c' = c := by
      cases syns with
      | nil => cases h; rfl
      | cons s syns => cases s <;> cases h <;> rfl
    subst this
    exact ⟨fun _ h => h, by unfold OutsFound; trivial⟩
  | .skip _ _ rest =>
    cases syns with
    | nil =>
      unfold EB.defineNewArgs at h
      have := defineNewArgs_uses rep rest _ h
      exact ⟨this.1, by simp only [OutsFound]; exact this.2⟩
    | cons s syns =>
      have h' : EB.defineNewArgs rep syns rest c = .ok (u, c') := by cases s <;> (unfold EB.defineNewArgs at h; exact h)
      have := defineNewArgs_uses rep rest _ h'
      refine ⟨this.1, ?_⟩
      cases s with
      | reqRef _ _ define _ => cases define <;> exact this.2
      | reqValue | optValue | anyValue => exact this.2
  | .cons e _ _ rest =>
    have ih : ∀ {syns : List SingSyn} {c : Ctx}, EB.defineNewArgs rep syns rest c = .ok (u, c') →
      UseMore c.sy c'.sy ∧ OutsFound c'.sy rep syns rest := fun h => defineNewArgs_uses rep rest _ h
    cases syns with
    | nil =>
      cases e with
      | sym v pos =>
        unfold EB.defineNewArgs at h
        by_cases hr : repIsRef rep = true
        · rw [if_pos hr] at h
          obtain ⟨_, c1, h1, h2⟩ := CM.bind_ok.1 h
          have a := defineIfNew_uses h1
          have b := ih h2
          exact ⟨fun v hv => b.1 v (a.1 v hv), fun _ => (b.1 v a.2.inUse).found, b.2⟩
        · rw [if_neg hr] at h
          have b := ih h
          exact ⟨b.1, fun h => absurd h hr, b.2⟩
      | bool | dbl | int | text | un | bin | call =>
        unfold EB.defineNewArgs at h
        have b := ih h
        exact ⟨b.1, by simp only [OutsFound]; exact b.2⟩
    | cons s syns =>
      cases s with
      | reqRef _ _ define _ =>
        cases define with
        | false =>
          have h' : EB.defineNewArgs rep syns rest c = .ok (u, c') := by cases e <;> (unfold EB.defineNewArgs at h; exact h)
          have b := ih h'
          exact ⟨b.1, by cases e <;> exact b.2⟩
        | true =>
          cases e with
          | sym v pos =>
            unfold EB.defineNewArgs at h
            obtain ⟨_, c1, h1, h2⟩ := CM.bind_ok.1 h
            have a := defineIfNew_uses h1
            have b := ih h2
            exact ⟨fun v hv => b.1 v (a.1 v hv), (b.1 v a.2.inUse).found, b.2⟩
          | bool | dbl | int | text | un | bin | call =>
            unfold EB.defineNewArgs at h
            exact ih h
      | reqValue | optValue | anyValue =>
        have h' : EB.defineNewArgs rep syns rest c = .ok (u, c') := by cases e <;> (unfold EB.defineNewArgs at h; exact h)
        have b := ih h'
        exact ⟨b.1, by cases e <;> exact b.2⟩
termination_by structural args

/-! ## Which functions there are -/

theorem paramValues_values (ps : List VarRef) : ∀ s ∈ paramValues ps, ∃ n t sep, s = .reqValue n t sep := by
  induction ps with
  | nil => intro s h; cases h
  | cons p ps ih =>
    cases ps with
    | nil => intro s h; simp only [paramValues, List.mem_singleton] at h; exact ⟨_, _, _, h⟩
    | cons q qs =>
      intro s h
      simp only [paramValues, List.mem_cons] at h
      rcases h with h | h
      · exact ⟨_, _, _, h⟩
      · exact ih s (by simpa [paramValues] using h)

theorem funs_declare {Γ : Env} (F : FunsOk Γ.md) (name : VarRef) (params : List VarRef) : FunsOk (Γ.declare name params).md := by
  intro k m hk hr syn hs
  replace hk : (if k = symKey name.name then some (declared name params) else Γ.md k) = some m := hk
  by_cases he : k = symKey name.name
  · rw [if_pos he] at hk
    cases hk
    simp only [declared, List.mem_singleton] at hs
    subst hs
    refine ⟨fun s hs n a sep he => ?_, nofun⟩
    obtain ⟨_, _, _, rfl⟩ := paramValues_values params s hs
    cases he
  · rw [if_neg he] at hk
    exact F k m hk hr syn hs

theorem afterAssign_md (Γ : Env) (v : VarRef) (e : Expr) : (afterAssign Γ v e).md = Γ.md := by
  unfold afterAssign
  split <;> rfl

theorem forVar_md (Γ : Env) (v : VarRef) (b : Bool) : (forVar Γ v b).md = Γ.md := by
  unfold forVar
  split <;> rfl

theorem add_md (Γ : Env) (b : Bool) (k : Str) (p : Proto) : (Γ.add b k p).md = Γ.md := by
  unfold Env.add
  split <;> rfl

mutual
theorem funs_stmt (s : Stmt) {Γ : Env} (F : FunsOk Γ.md) : FunsOk (afterStmt Γ s).md := by
  match s with
  | .assign v _ e => simp only [afterStmt, afterAssign_md]; exact F
  | .call v _ args => simp only [afterStmt, defineOuts_md]; exact F
  | .callable name _ params body _ =>
    simp only [afterStmt]
    exact funs_stmts body (Γ := (Γ.declare name params).body name params) (funs_declare F name params)
  | .declare name _ params => exact funs_declare F name params
  | .dim name _ shared ty => simp only [afterStmt, add_md]; exact F
  | .dimArray name _ shared dims ty => simp only [afterStmt, add_md]; exact F
  | .doLoop _ body => exact funs_stmts body F
  | .forLoop iter _ double start _ next body =>
    simp only [afterStmt, afterAssign_md]
    exact funs_stmts body (Γ := afterAssign (forVar Γ iter double) iter start) (by rw [afterAssign_md, forVar_md]; exact F)
  | .ifs bs => exact funs_branches bs F
  | .select _ cs _ => exact funs_cases cs F
  | .whileLoop _ body => exact funs_stmts body F
  | .arrayAssign .. | .data .. | .end .. | .exitDo .. | .exitFor .. | .exitFunction .. | .exitSub .. | .gosub ..
  | .goto .. | .label .. | .onError .. | .ret .. => exact F
termination_by structural s

theorem funs_stmts (ss : Stmts) {Γ : Env} (F : FunsOk Γ.md) : FunsOk (afterStmts Γ ss).md := by
  match ss with
  | .nil => exact F
  | .cons s rest => exact funs_stmts rest (funs_stmt s F)
termination_by structural ss

theorem funs_branches (bs : Branches) {Γ : Env} (F : FunsOk Γ.md) : FunsOk (afterBranches Γ bs).md := by
  match bs with
  | .nil => exact F
  | .cons _ body rest => exact funs_branches rest (funs_stmts body F)
termination_by structural bs

theorem funs_cases (cs : Cases) {Γ : Env} (F : FunsOk Γ.md) : FunsOk (afterCases Γ cs).md := by
  match cs with
  | .nil => exact F
  | .cons _ body rest => exact funs_cases rest (funs_stmts body F)
termination_by structural cs
end

/-! ## Statements -/

theorem Here.funs {c : Ctx} {S : Spot} (H : Here c S) (F : FunsOk S.env.md) : FunsOk c.sy.getCallable := by
  have : S.env.md = c.sy.getCallable := funext H.scope.md
  rw [← this]
  exact F

theorem cond_safe {c : Ctx} {e : Expr} (F : FunsOk c.sy.getCallable) (T : TidyExpr e) : SafeAt (compileCond e) c :=
  withSyms_safe (.bind (allocTemp_safe _ _ _) fun _ => .bind (exprAs_safe F _ _ _ _ T) fun _ => .pure _)

theorem assignErr_safe {α : Type} {x : CS α} {c : Ctx} (h : SafeAt x c) : SafeAt (assignErr x) c := by
  intro he
  unfold assignErr at he
  split at he
  · cases he
  · exact h he

theorem assign_safe {c : Ctx} (v : VarRef) (pos : LineCol) {e : Expr} (F : FunsOk c.sy.getCallable) (T : TidyExpr e) :
    SafeAt (compileAssign v pos e) c := by
  unfold compileAssign
  have hd : SafeAt (assignDest v pos) c := by
    intro he
    unfold assignDest at he
    cases hv : c.sy.getVar v with
    | ok r =>
      obtain ⟨r, p⟩ := r
      rw [hv] at he
      cases p <;> cases he
    | error e =>
      rw [hv] at he
      cases e with
      | undefinedSymbol v' =>
        simp only at he
        cases hc : c.sy.getCallable (symKey v.name) with
        | some md => rw [hc] at he; cases he
        | none =>
          rw [hc] at he
          simp only at he
          cases hp : c.sy.putLocal (symKey v.name) (.scalar (v.ty.getD .integer)) with
          | ok r => rw [hp] at he; cases he
          | error e =>
            rw [hp] at he
            exact at_panic (e := e) (pos := pos) (fun h' => putLocal_panic (getVar_undefined hv).1 (h' ▸ hp)) (by injection he)
      | panic => exact getVar_panic _ _ hv
      | alreadyDefined | incompatibleAnnotation | outOfRegisters => cases he
  refine hd.bind fun r c1 hx => ?_
  have F1 : FunsOk c1.sy.getCallable := by
    unfold assignDest at hx
    cases hv : c.sy.getVar v with
    | ok r =>
      obtain ⟨r, p⟩ := r
      rw [hv] at hx
      cases p <;> cases hx
      exact F
    | error e =>
      rw [hv] at hx
      cases e with
      | undefinedSymbol v' =>
        simp only at hx
        cases hc : c.sy.getCallable (symKey v.name) with
        | some md => rw [hc] at hx; cases hx
        | none =>
          rw [hc] at hx
          simp only at hx
          cases hp : c.sy.putLocal (symKey v.name) (.scalar (v.ty.getD .integer)) with
          | error e => rw [hp] at hx; cases hx
          | ok q =>
            obtain ⟨r', sy⟩ := q
            rw [hp] at hx
            cases hx
            obtain ⟨_, _, rfl⟩ := putLocal_ok hp
            exact F
      | panic | alreadyDefined | incompatibleAnnotation | outOfRegisters => cases hx
  obtain ⟨reg, etype, was⟩ := r
  cases etype with
  | some t =>
    simp only
    by_cases hw : (was && refersTo (symKey v.name) e) = true
    · rw [if_pos hw]
      exact assignErr_safe (withSyms_safe (.bind (allocTemp_safe _ _ _) fun _ => .bind (exprAs_safe F1 _ _ _ _ T) fun _ =>
        .bind (Free.safe (.emit _ _)) fun _ => .pure _))
    · rw [if_neg hw]
      exact assignErr_safe (withSyms_safe (exprAs_safe F1 _ _ _ _ T))
  | none =>
    refine (withSyms_safe (expr_safe F1 _ _ _ T)).bind fun t c2 _ => ?_
    intro he
    unfold fixupTypeS at he
    cases hf : c2.sy.fixupLocalType v t with
    | ok sy => rw [hf] at he; cases he
    | error e =>
      rw [hf] at he
      unfold Syms.fixupLocalType at hf
      split at hf
      · cases hf
      · cases hf; cases he

theorem tidy_ofList : ∀ {l : List Expr}, (∀ x ∈ l, TidyExpr x) → NoSkip (Args.ofList l) ∧ TidyArgs (Args.ofList l)
  | [], _ => ⟨trivial, trivial⟩
  | e :: l, h => ⟨(tidy_ofList fun x hx => h x (List.mem_cons_of_mem _ hx)).1, h e (List.mem_cons_self ..),
      (tidy_ofList fun x hx => h x (List.mem_cons_of_mem _ hx)).2⟩

theorem arrayAssign_safe {c : Ctx} (v : VarRef) (pos : LineCol) {subs : List Expr} {e : Expr} (F : FunsOk c.sy.getCallable)
    (T1 : ∀ x ∈ subs, TidyExpr x) (T : TidyExpr e) : SafeAt (compileArrayAssign v pos subs e) c := by
  refine withSyms_safe ?_
  cases hv : c.sy.getVar v with
  | ok r =>
    obtain ⟨r, p⟩ := r
    cases p with
    | scalar t => exact .throw nofun
    | array t n =>
      exact .ite (fun _ => .throw nofun) fun _ => .bind (allocTemp_safe _ _ _) fun _ => .bind (exprAs_safe F _ _ _ _ T) fun _ =>
        .bind (subs_safe F _ _ _ (tidy_ofList T1).1 (tidy_ofList T1).2) fun _ => .bind (firstTemp_safe _ _ _) fun _ =>
        .bind (Free.safe (.emit _ _)) fun _ => .pure _
  | error e =>
    cases e with
    | undefinedSymbol v' => exact .throw nofun
    | panic => exact absurd hv (getVar_panic _ _)
    | alreadyDefined | incompatibleAnnotation | outOfRegisters => exact .throw nofun

theorem dimVar_safe (c : Ctx) (name : Str) (pos : LineCol) (shared : Bool) (p : Proto) : SafeAt (dimVar name pos shared p) c := by
  intro he
  unfold dimVar at he
  cases hc : c.sy.getCallable (symKey name) with
  | some md => rw [hc] at he; cases he
  | none =>
    rw [hc] at he
    cases shared with
    | true =>
      simp only [if_true] at he
      cases hg : c.sy.globals.get? (symKey name) with
      | some r => rw [hg] at he; cases he
      | none => rw [hg] at he; exact putGlobalS_safe hg he
    | false =>
      simp only [Bool.false_eq_true, if_false] at he
      cases hg : c.sy.locals.get? (symKey name) with
      | some r => rw [hg] at he; cases he
      | none => rw [hg] at he; exact putLocalS_safe hg he

theorem dimArray_safe {c : Ctx} {S : Spot} (H : Here c S) (name : Str) (pos : LineCol) (shared : Bool) {dims : List Expr} (ty : ExprType)
    (F : FunsOk S.env.md) (T1 : dims ≠ []) (T : ∀ x ∈ dims, TidyExpr x) : SafeAt (compileDimArray name pos shared dims ty) c := by
  refine (dimVar_safe c name pos shared _).to (dimVar_judged H name pos shared _) fun reg c1 _ H1 => withSyms_safe ?_
  have F1 := H1.funs (by simp only [add_md]; exact F)
  refine .bind (subs_safe F1 _ _ _ (tidy_ofList T).1 (tidy_ofList T).2) fun _ => .bind (firstTemp_safe _ _ _) fun _ => ?_
  cases dims with
  | nil => exact absurd rfl T1
  | cons d ds =>
    cases PackedArrayType.new ty (d :: ds).length with
    | some packed => exact .bind (Free.safe (.emit _ _)) fun _ => .pure _
    | none => exact .throw nofun

theorem callStmt_safe {c : Ctx} {S : Spot} (H : Here c S) (v : VarRef) (pos : LineCol) {args : Args} (F : FunsOk S.env.md)
    (T : TidyArgs args) : SafeAt (compileCallStmt v pos args) c := by
  intro he
  unfold compileCallStmt at he
  cases hc : c.sy.getCallable (symKey v.name) with
  | none => rw [hc] at he; cases he
  | some md =>
    rw [hc] at he
    simp only at he
    by_cases hr : md.returnType.isSome = true
    · rw [if_pos hr] at he; cases he
    · rw [if_neg hr] at he
      cases hf : md.findSyntax args.length with
      | none => rw [hf] at he; cases he
      | some syn =>
        rw [hf] at he
        simp only at he
        have J := defineNewArgs_judged (L := Any) (D := Any) syn.repeated syn.singular args H.scope (findSyntax_le hf) True
        refine SafeAt.bind (s := c) (x := EB.defineNewArgs syn.repeated syn.singular args) ?_ ?_ he
        · intro hp
          rw [hp] at J
          exact J.elim id fun h => h trivial
        · intro _ c1 hx
          have hsc := defineNewArgs_scope _ _ _ H.scope hx
          have F1 : FunsOk c1.sy.getCallable := by
            have : c1.sy.getCallable = S.env.md := by rw [← funext hsc.md, defineOuts_md]
            rw [this]; exact F
          refine withSyms_safe (.bind (compileArgs_safe F1 md pos args 0 T fun syn' hs => ?_) fun _ => emitCall_safe _ _ _ _ _ _)
          rw [hf] at hs
          cases hs
          exact (defineNewArgs_uses _ _ _ hx).2

theorem end_safe {c : Ctx} {code : Option Expr} (pos : LineCol) (F : FunsOk c.sy.getCallable) (T : ∀ e, code = some e → TidyExpr e) :
    SafeAt (compileEnd code pos) c := by
  have key : SafeAt (withSyms fun sy => do
      let reg ← CM.lift (allocTemp sy 0 pos)
      match code with
      | some e => compileExprAs sy e 1 reg .integer
      | none => do let _ ← emit (.loadInt reg 0#16) pos
      let _ ← emit (.end reg) pos : CS Unit) c := by
    refine withSyms_safe (.bind (allocTemp_safe _ _ _) fun _ => ?_)
    cases code with
    | some e => exact .bind (exprAs_safe F _ _ _ _ (T e rfl)) fun _ => .bind (Free.safe (.emit _ _)) fun _ => .pure _
    | none => exact .bind (Free.safe (.emit _ _)) fun _ => .bind (Free.safe (.emit _ _)) fun _ => .pure _
  unfold compileEnd
  cases ho : code.bind staticEndCode with
  | none => exact key
  | some o =>
    obtain ⟨x, vpos⟩ := o
    simp only
    by_cases hv : (exitCodeTryNew x.toInt).isNone = true
    · rw [if_pos hv]
      exact SafeAt.bind (fun h => by cases h) fun _ _ h => by cases h
    · rw [if_neg hv]
      exact key

theorem dataConsts_safe : ∀ {l : List (Option Expr)}, (∀ e, some e ∈ l → IsLiteral e) → dataConsts l ≠ .error .panic := by
  intro l h hp
  rcases dataConsts_judged l with ⟨ds, h1, _⟩ | ⟨er, h1, h2⟩
  · rw [h1] at hp; cases hp
  · exact h2 h

theorem forIter_safe (c : Ctx) (v : VarRef) (pos : LineCol) (double : Bool) : SafeAt (forIter v pos double) c := by
  intro he
  unfold forIter at he
  split at he
  · cases hv : c.sy.getVar v with
    | ok r => rw [hv] at he; cases he
    | error e =>
      rw [hv] at he
      cases e with
      | undefinedSymbol v' =>
        simp only at he
        cases hc : c.sy.getCallable (symKey v.name) with
        | some md => rw [hc] at he; cases he
        | none =>
          rw [hc] at he
          exact (putLocalS_safe (getVar_undefined hv).1).bind (fun _ _ _ h => by cases h) he
      | panic => exact getVar_panic _ _ hv
      | alreadyDefined | incompatibleAnnotation | outOfRegisters => cases he
  · cases he

theorem fixup_safe (pos : LineCol) (f : Fixup) (c : Ctx) : SafeAt (emitFixup pos f) c :=
  SafeAt.bind (FreeS.safe (.emit _ _) c) fun _ _ _ h => by cases h

theorem declare_safe (name : VarRef) (pos : LineCol) (params : List VarRef) (c : Ctx) : SafeAt (declareCallable name pos params) c := by
  intro he
  unfold declareCallable at he
  cases hd : c.sy.declareCallable name (userMd name params) with
  | ok sy => rw [hd] at he; cases he
  | error e =>
    rw [hd] at he
    refine at_panic (e := e) (pos := pos) (fun h => ?_) (by injection he)
    subst h
    unfold Syms.declareCallable at hd
    split at hd
    · cases hd
    · split at hd
      · split at hd <;> cases hd
      · cases hd

/-! ## Callables -/

theorem Judged.safe {α : Type} {x : CS α} {c : Ctx} {Q : Prop} {P : α → Ctx → Prop} (h : Judged (x c) Q P) (q : Q) : SafeAt x c := by
  intro he
  rw [he] at h
  exact h.elim id fun h => h q

theorem body_locals (Γ : Env) (name : VarRef) (params : List VarRef) :
    (Γ.body name params).locals.map (·.1) = callVars name params := by
  unfold Env.body callVars
  cases name.ty <;> simp

theorem prolog_safe {c : Ctx} {S : Spot} (H : Here c S) (name : VarRef) (pos : LineCol) (params : List VarRef)
    (N : (callVars name params).Nodup) : SafeAt (callableProlog name pos params) c :=
  (prolog_judged (L := Any) (D := Any) H name pos params).safe (by rw [body_locals]; exact N)

/-! ## `SELECT` -/

theorem caseRelop_safe (pos : LineCol) (test : Reg) (tt : ExprType) (rhs : Reg) (rt : ExprType) (op : CaseRelOp) (dest : Reg) :
    Safe (compileCaseRelop pos test tt rhs rt op dest) := by
  have he : ∀ i, Safe (emit i pos) := fun i => Free.safe (.emit i pos)
  intro g
  cases tt <;> cases rt <;> cases op <;> intro h <;> cases h

theorem guard_safe {sy : Syms} (F : FunsOk sy.getCallable) (nt : Nat) (test : Reg) (tt : ExprType) {gd : CaseGuard} (T : TidyCase gd) :
    Safe (compileGuard sy nt test tt gd) := by
  cases gd with
  | is op e =>
    exact .bind (allocTemp_safe _ _ _) fun _ => .bind (allocTemp_safe _ _ _) fun _ => .bind (allocTemp_safe _ _ _) fun _ =>
      .bind (Free.safe (.emit _ _)) fun _ => .bind (expr_safe F _ _ _ T) fun _ => .bind (caseRelop_safe _ _ _ _ _ _ _) fun _ => .pure _
  | «to» lo hi =>
    exact .bind (allocTemp_safe _ _ _) fun _ => .bind (allocTemp_safe _ _ _) fun _ => .bind (allocTemp_safe _ _ _) fun _ =>
      .bind (allocTemp_safe _ _ _) fun _ => .bind (allocTemp_safe _ _ _) fun _ => .bind (allocTemp_safe _ _ _) fun _ =>
      .bind (allocTemp_safe _ _ _) fun _ =>
      .bind (Free.safe (.emit _ _)) fun _ => .bind (expr_safe F _ _ _ T.1) fun _ => .bind (caseRelop_safe _ _ _ _ _ _ _) fun _ =>
      .bind (Free.safe (.emit _ _)) fun _ => .bind (expr_safe F _ _ _ T.2) fun _ => .bind (caseRelop_safe _ _ _ _ _ _ _) fun _ =>
      .bind (Free.safe (.emit _ _)) fun _ => .pure _

theorem guards_safe (test : Reg) (tt : ExprType) {S : Spot} (F : FunsOk S.env.md) : ∀ (gs : List CaseGuard) {c : Ctx}, Here c S →
    (∀ g ∈ gs, TidyCase g) → SafeAt (compileGuards test tt gs) c
  | [], c, H, _ => Safe.pure _ c
  | gd :: gs, c, H, T => by
    refine (withSyms_safe (guard_safe (H.funs F) 1 test tt (T gd (List.mem_cons_self ..)))).stay
      (Judged.withSyms (P := fun _ => GuardOk S.env tt gd) (guard_judged (L := Any) (D := Any) H.scope 1 test tt gd c.cg)) H fun r c1 _ H1 => ?_
    obtain ⟨cond, pos⟩ := r
    refine (FreeS.emit _ _).then H1 fun next c2 H2 => (FreeS.emit _ _).then H2 fun body c3 H3 => FreeS.pcNow.then H3 fun here c4 H4 =>
      (FreeS.patchJumpIfFalse _ _ _ _).then H4 fun _ c5 H5 => ?_
    exact (guards_safe test tt F gs H5 fun g hg => T g (List.mem_cons_of_mem _ hg)).bind fun _ c6 _ => Safe.pure _ c6

theorem dispatch_safe (test : Reg) (tt : ExprType) (endPos : LineCol) {S : Spot} (F : FunsOk S.env.md) (cs : Cases) (pending : Option Nat)
    {c : Ctx} (H : Here c S) (T : TidyCases cs) : SafeAt (compileDispatch test tt endPos cs pending) c := by
  match cs with
  | .nil => exact Safe.pure _ c
  | .cons guards body rest =>
    simp only [TidyCases] at T
    obtain ⟨T1, _, T3⟩ := T
    unfold compileDispatch
    refine FreeS.pcNow.then H fun here c1 H1 => ?_
    have key : ∀ {c2 : Ctx}, Here c2 S → SafeAt (match (generalizing := false) guards with
        | [] => do
          let body ← onCg (emit .nop endPos)
          let (jumps, pending') ← compileDispatch test tt endPos rest none
          pure ([(body, endPos)] :: jumps, pending')
        | guards => do
          let body ← compileGuards test tt guards
          let next ← onCg (emit .nop endPos)
          let (jumps, pending') ← compileDispatch test tt endPos rest (some next)
          pure (body :: jumps, pending') : CS (List (List (Nat × LineCol)) × Option Nat)) c2 := by
      intro c2 H2
      cases guards with
      | nil =>
        refine (FreeS.emit _ _).then H2 fun next c3 H3 => ?_
        exact (dispatch_safe test tt endPos F rest none H3 T3).bind fun _ c6 _ => Safe.pure _ c6
      | cons gd gs =>
        refine (guards_safe test tt F _ H2 T1).to (guards_judged (L := Any) (D := Any) test tt (gd :: gs) H2) fun body c3 _ H3 => ?_
        refine (FreeS.emit _ _).then H3 fun next c4 H4 => ?_
        exact (dispatch_safe test tt endPos F rest (some next) H4 T3).bind fun _ c6 _ => Safe.pure _ c6
    cases pending with
    | none => exact key H1
    | some p => exact (FreeS.patchJump _ _ _).then H1 fun _ c2 H2 => key H2
termination_by structural cs


/-! ## All statements -/

mutual
theorem stmt_safe (s : Stmt) {c : Ctx} {S : Spot} (H : Here c S) (F : FunsOk S.env.md) (T : TidyStmt s) (N : DistinctStmt s) :
    SafeAt (compileStmtBody s) c := by
  match s with
  | .assign v pos e => exact assign_safe v pos (H.funs F) T
  | .arrayAssign v pos subs e => exact arrayAssign_safe v pos (H.funs F) T.1 T.2
  | .call v pos args => exact callStmt_safe H v pos F T
  | .callable name pos params body endPos =>
    simp only [TidyStmt] at T
    simp only [DistinctStmt] at N
    unfold compileStmtBody
    refine (declare_safe name pos params c).to (declare_judged H name pos params) fun _ c1 h1 H1 => ?_
    show SafeAt (if c1.defined.contains (symKey name.name) then CM.throw (.alreadyDefined pos name) else _ : CS Unit) c1
    by_cases hd : c1.defined.contains (symKey name.name) = true
    · rw [if_pos hd]; exact Safe.throw (by simp) c1
    · rw [if_neg hd]
      have hkey : symKey name.name ∉ S.bodies := fun hm => hd (List.contains_iff_mem.2 ((H1.defined _).2 hm))
      have hcur : c1.cur = S.inside := H1.inside
      by_cases hc : c1.cur.isSome = true
      · rw [if_pos hc]; exact Safe.throw (by simp) c1
      · rw [if_neg hc]
        have hin : S.inside = none := by rw [← hcur]; simpa using hc
        refine (prolog_safe H1 name pos params N.1).to (prolog_judged H1 name pos params) fun r c2 h2 H2 => ?_
        obtain ⟨skip, start⟩ := r
        simp only
        refine (stmts_safe body H2 (funs_declare F name params) T N.2).to (stmts_judged body H2) fun _ c3 h3 H3 => ?_
        have hb : bodiesStmts body = [] := inside_stmts (by simp [Spot.around]) body h3
        refine (epilog_judged (S := { S.stmt (.callable name pos params body endPos) with
            env := afterStmts ((S.env.declare name params).body name params) body, bodies := S.bodies })
          (k0 := some (kindOf name)) (L := Any) (D := Any) ?_ H1.wf H1.scope hin (symKey name.name) hkey skip start endPos True).safe trivial
        have : (S.bodies ++ bodiesStmts body) = S.bodies := by rw [hb]; simp
        simpa [Spot.stmts, Spot.stmt, labelsStmt, this] using H3
  | .data values =>
    unfold compileStmtBody
    exact SafeAt.bind (Safe.lift (dataConsts_safe T) c) fun _ _ _ h => by cases h
  | .declare name pos params =>
    unfold compileStmtBody
    show SafeAt (if c.cur.isSome then CM.throw (.cannotNest pos) else _ : CS Unit) c
    by_cases hc : c.cur.isSome = true
    · rw [if_pos hc]; exact Safe.throw (by simp) c
    · rw [if_neg hc]; exact declare_safe name pos params c
  | .dim name pos shared ty =>
    unfold compileStmtBody
    exact (dimVar_safe c name pos shared _).bind fun _ c1 _ => FreeS.safe (.onCg (.emitDefault _ _ _)) c1
  | .dimArray name pos shared dims ty => exact dimArray_safe H name pos shared ty F T.1 T.2
  | .doLoop guard body =>
    simp only [TidyStmt] at T
    simp only [DistinctStmt] at N
    have H0 : Here { c with doExit := [] :: c.doExit } { S with dos := S.dos + 1 } :=
      ⟨H.wf, H.scope, H.user, by simp [H.dos], H.fors, H.inside, H.labels, H.defined, H.callables, H.onceLabels, H.onceBodies⟩
    have hbody := fun {c1 : Ctx} (H1 : Here c1 { S with dos := S.dos + 1 }) => stmts_safe body H1 F T.2 N
    have hj := fun {c1 : Ctx} (H1 : Here c1 { S with dos := S.dos + 1 }) => stmts_judged (L := Any) (D := Any) body H1
    have hclose := fun {c1 : Ctx} (H1 : Here c1 (({ S with dos := S.dos + 1 } : Spot).stmts body)) (n : Nat) =>
      (closeDo_judged (L := Any) (D := Any) (c := c1) (S := S.stmt (.doLoop guard body)) H1 n True).safe trivial
    unfold compileStmtBody
    refine SafeAt.bind (fun h => by cases h) fun _ c0 hx => ?_
    cases hx
    cases guard with
    | infinite =>
      exact FreeS.pcNow.then H0 fun start c1 H1 => (hbody H1).to (hj H1) fun _ c2 _ H2 => (FreeS.emitJump _ _).then H2 fun _ c3 H3 =>
        FreeS.pcNow.then H3 fun stop c4 H4 => hclose H4 stop
    | preUntil e =>
      exact FreeS.pcNow.then H0 fun start c1 H1 => (cond_safe (H1.funs F) T.1).stay (cond_judged H1 e) H1 fun cond c2 _ H2 =>
        (FreeS.emit _ _).then H2 fun toBody c3 H3 => (FreeS.emit _ _).then H3 fun toEnd c4 H4 => FreeS.pcNow.then H4 fun here c5 H5 =>
        (FreeS.patchJumpIfFalse _ _ _ _).then H5 fun _ c6 H6 => (hbody H6).to (hj H6) fun _ c7 _ H7 =>
        (FreeS.emitJump _ _).then H7 fun _ c8 H8 => FreeS.pcNow.then H8 fun stop c9 H9 =>
        (FreeS.patchJump _ _ _).then H9 fun _ c10 H10 => hclose H10 stop
    | preWhile e =>
      exact FreeS.pcNow.then H0 fun start c1 H1 => (cond_safe (H1.funs F) T.1).stay (cond_judged H1 e) H1 fun cond c2 _ H2 =>
        (FreeS.emit _ _).then H2 fun toEnd c3 H3 => (hbody H3).to (hj H3) fun _ c7 _ H7 =>
        (FreeS.emitJump _ _).then H7 fun _ c8 H8 => FreeS.pcNow.then H8 fun stop c9 H9 =>
        (FreeS.patchJumpIfFalse _ _ _ _).then H9 fun _ c10 H10 => hclose H10 stop
    | postUntil e =>
      refine FreeS.pcNow.then H0 fun start c1 H1 => (hbody H1).to (hj H1) fun _ c2 _ H2 => ?_
      have F2 : FunsOk (({ S with dos := S.dos + 1 } : Spot).stmts body).env.md := funs_stmts body F
      exact (cond_safe (H2.funs F2) T.1).stay (cond_judged H2 e) H2 fun cond c3 _ H3 => (FreeS.target _ _).then H3 fun _ c4 H4 =>
        (FreeS.emit _ _).then H4 fun _ c5 H5 => FreeS.pcNow.then H5 fun stop c6 H6 => hclose H6 stop
    | postWhile e =>
      refine FreeS.pcNow.then H0 fun start c1 H1 => (hbody H1).to (hj H1) fun _ c2 _ H2 => ?_
      have F2 : FunsOk (({ S with dos := S.dos + 1 } : Spot).stmts body).env.md := funs_stmts body F
      exact (cond_safe (H2.funs F2) T.1).stay (cond_judged H2 e) H2 fun cond c3 _ H3 => (FreeS.emit _ _).then H3 fun _ c4 H4 =>
        (FreeS.emitJump _ _).then H4 fun _ c5 H5 => FreeS.pcNow.then H5 fun stop c6 H6 =>
        (FreeS.patchJumpIfFalse _ _ _ _).then H6 fun _ c7 H7 => hclose H7 stop
  | .end code pos => exact end_safe pos (H.funs F) T
  | .exitDo pos =>
    intro he
    simp only [compileStmtBody, compileExitDo] at he
    split at he <;> cases he
  | .exitFor pos =>
    intro he
    simp only [compileStmtBody, compileExitFor] at he
    split at he <;> cases he
  | .exitFunction pos =>
    intro he
    simp only [compileStmtBody, compileExitCallable] at he
    split at he <;> cases he
  | .exitSub pos =>
    intro he
    simp only [compileStmtBody, compileExitCallable] at he
    split at he <;> cases he
  | .forLoop iter iterPos double start stop next body =>
    simp only [TidyStmt] at T
    simp only [DistinctStmt] at N
    obtain ⟨T1, T2, T3, T4⟩ := T
    unfold compileStmtBody
    refine (forIter_safe c iter iterPos double).to (forIter_judged H iter iterPos double) fun _ c1 _ H1 => ?_
    have F1 : FunsOk (forVar S.env iter double).md := by rw [forVar_md]; exact F
    refine (assign_safe iter iterPos (H1.funs F1) T1).to (assign_here H1 iter iterPos start) fun _ c2 _ H2 => ?_
    have F2 : FunsOk (afterAssign (forVar S.env iter double) iter start).md := by rw [afterAssign_md]; exact F1
    refine FreeS.pcNow.then H2 fun startPc c3 H3 => ?_
    refine (cond_safe (H3.funs F2) T2).stay (cond_judged H3 stop) H3 fun cond c4 _ H4 => ?_
    refine (FreeS.emit _ _).then H4 fun toEnd c5 H5 => ?_
    refine SafeAt.bind (fun h => by cases h) fun _ c0 hx => ?_
    cases hx
    have H6 : Here { c5 with cg := c5.cg.markStmt startPc, forExit := [] :: c5.forExit }
        { S with env := afterAssign (forVar S.env iter double) iter start, fors := S.fors + 1 } :=
      ⟨H5.wf, H5.scope, H5.user, H5.dos, by simp [H5.fors], H5.inside, H5.labels, H5.defined, H5.callables, H5.onceLabels, H5.onceBodies⟩
    refine (stmts_safe body H6 F2 T4 N).to (stmts_judged body H6) fun _ c7 _ H7 => ?_
    have F7 : FunsOk (afterStmts (afterAssign (forVar S.env iter double) iter start) body).md := funs_stmts body F2
    refine (assign_safe iter iterPos (H7.funs F7) T3).to (assign_here H7 iter iterPos next) fun _ c8 _ H8 => ?_
    exact (FreeS.emitJump _ _).then H8 fun _ c9 H9 => FreeS.pcNow.then H9 fun endAddr c10 H10 =>
      (FreeS.patchJumpIfFalse _ _ _ _).then H10 fun _ c11 H11 =>
      (closeFor_judged (L := Any) (D := Any) (S := S.stmt (.forLoop iter iterPos double start stop next body)) H11 endAddr True).safe trivial
  | .gosub label pos => exact fixup_safe _ _ c
  | .goto label pos => exact fixup_safe _ _ c
  | .ifs branches =>
    unfold compileStmtBody
    refine (branches_safe branches H F T N).to (branches_judged branches H) fun ends c1 _ H1 => ?_
    exact FreeS.pcNow.then H1 fun stop c2 H2 => FreeS.safe (.patchJumps _ _) c2
  | .label name pos =>
    intro he
    simp only [compileStmtBody] at he
    split at he <;> cases he
  | .onError (.goto label _ pos) => exact fixup_safe _ _ c
  | .onError (.reset pos) => exact FreeS.safe ((FreeS.emit _ _).bind fun _ => .pure _) c
  | .onError (.resumeNext pos) => exact FreeS.safe ((FreeS.emit _ _).bind fun _ => .pure _) c
  | .ret pos => exact FreeS.safe ((FreeS.emit _ _).bind fun _ => .pure _) c
  | .select e cases endPos =>
    simp only [TidyStmt] at T
    simp only [DistinctStmt] at N
    unfold compileStmtBody
    refine (FreeS.withSyms fun sy => Free.allocTemp sy _ _).then H fun test c1 H1 => ?_
    refine (withSyms_safe (expr_safe (H1.funs F) e 1 test T.1)).stay (Judged.withSyms (L := Any) (D := Any) (expr_judged H1.scope e 1 test c1.cg)) H1
      fun testTy c2 _ H2 => ?_
    refine (dispatch_safe test testTy endPos F cases none H2 T.2).to (dispatch_judged test testTy endPos cases none H2) fun r c3 h3 H3 => ?_
    obtain ⟨jumps, pending⟩ := r
    simp only
    refine (FreeS.emit _ _).then H3 fun toEnd c4 H4 => ?_
    have key : ∀ {c5 : Ctx}, Here c5 S → SafeAt (do
        let ends ← compileBodies cases jumps endPos
        let stop ← pcNow
        patchJump toEnd stop endPos
        patchJumps stop (ends.map fun a => (a, endPos)) : CS Unit) c5 := by
      intro c5 H5
      refine (cases_safe cases jumps endPos h3.2 H5 F T.2 N).to (cases_judged cases jumps endPos h3.2 H5) fun ends c6 _ H6 => ?_
      exact FreeS.pcNow.then H6 fun stop c7 H7 => (FreeS.patchJump _ _ _).then H7 fun _ c8 H8 => FreeS.safe (.patchJumps _ _) c8
    cases pending with
    | none => exact key H4
    | some p => exact (FreeS.patchJump _ _ _).then H4 fun _ c5 H5 => key H5
  | .whileLoop e body =>
    simp only [TidyStmt] at T
    simp only [DistinctStmt] at N
    unfold compileStmtBody
    exact FreeS.pcNow.then H fun start c1 H1 => (cond_safe (H1.funs F) T.1).stay (cond_judged H1 e) H1 fun cond c2 _ H2 =>
      (FreeS.emit _ _).then H2 fun toEnd c3 H3 => (stmts_safe body H3 F T.2 N).to (stmts_judged body H3) fun _ c7 _ H7 =>
      (FreeS.emitJump _ _).then H7 fun _ c8 H8 => FreeS.pcNow.then H8 fun stop c9 H9 => FreeS.safe (.patchJumpIfFalse _ _ _ _) c9
termination_by structural s

theorem stmts_safe (ss : Stmts) {c : Ctx} {S : Spot} (H : Here c S) (F : FunsOk S.env.md) (T : TidyStmts ss) (N : DistinctStmts ss) :
    SafeAt (compileStmts ss) c := by
  match ss with
  | .nil => exact Safe.pure _ c
  | .cons s rest =>
    unfold compileStmts
    exact FreeS.pcNow.then H fun start c1 H1 => (stmt_safe s H1 F T.1 N.1).to (stmt_judged s H1) fun _ c2 _ H2 =>
      (FreeS.markIf _ _).then H2 fun _ c3 H3 => stmts_safe rest H3 (funs_stmt s F) T.2 N.2
termination_by structural ss

theorem branches_safe (bs : Branches) {c : Ctx} {S : Spot} (H : Here c S) (F : FunsOk S.env.md) (T : TidyBranches bs) (N : DistinctBranches bs) :
    SafeAt (compileBranches bs) c := by
  match bs with
  | .nil => exact Safe.pure _ c
  | .cons guard body rest =>
    obtain ⟨T1, T2, T3⟩ := T
    unfold compileBranches
    refine (cond_safe (H.funs F) T1).stay (cond_judged H guard) H fun cond c2 _ H2 => ?_
    refine (FreeS.emit _ _).then H2 fun toNext c3 H3 => ?_
    refine (stmts_safe body H3 F T2 N.1).to (stmts_judged body H3) fun _ c4 _ H4 => ?_
    cases hr : rest.isNil with
    | true =>
      simp only [if_true]
      exact FreeS.pcNow.then H4 fun next c5 H5 => (FreeS.patchJumpIfFalse _ _ _ _).then H5 fun _ c6 H6 => Safe.pure _ c6
    | false =>
      simp only [Bool.false_eq_true, if_false]
      exact (FreeS.emit _ _).then H4 fun toEnd c5 H5 => FreeS.pcNow.then H5 fun next c6 H6 =>
        (FreeS.patchJumpIfFalse _ _ _ _).then H6 fun _ c7 H7 =>
        (branches_safe rest H7 (funs_stmts body F) T3 N.2).bind fun _ c8 _ => Safe.pure _ c8
termination_by structural bs

theorem cases_safe (cs : Cases) (jumps : List (List (Nat × LineCol))) (endPos : LineCol) (hlen : jumps.length = caseLen cs) {c : Ctx} {S : Spot}
    (H : Here c S) (F : FunsOk S.env.md) (T : TidyCases cs) (N : DistinctCases cs) : SafeAt (compileBodies cs jumps endPos) c := by
  match cs, jumps with
  | .nil, _ => exact Safe.pure _ c
  | .cons .., [] => simp [caseLen] at hlen
  | .cons guards body rest, js :: jumps =>
    simp only [TidyCases] at T
    simp only [DistinctCases] at N
    unfold compileBodies
    refine FreeS.pcNow.then H fun here c1 H1 => (FreeS.patchJumps _ _).then H1 fun _ c2 H2 => ?_
    refine (stmts_safe body H2 F T.2.1 N.1).to (stmts_judged body H2) fun _ c4 _ H4 => ?_
    cases hr : rest.isNil with
    | true => exact Safe.pure _ c4
    | false =>
      simp only [Bool.false_eq_true, if_false]
      exact (FreeS.emit _ _).then H4 fun toEnd c5 H5 =>
        (cases_safe rest jumps endPos (by simpa [caseLen] using hlen) H5 (funs_stmts body F) T.2.2 N.2).bind fun _ c8 _ => Safe.pure _ c8
termination_by structural cs
end

/-- A chunk. -/
theorem compileTop_safe {src : Source} {img : Image} {c : Ctx} {B : Before} (hi : Idle c) (H : Here c B.spot) (F : FunsOk B.env.md)
    (T : TidyStmts src.stmts) (N : DistinctStmts src.stmts) (E : src.err ≠ some .panic)
    (C : StmtsResolved Any (· ∈ B.bodies ++ bodiesStmts src.stmts) B.env src.stmts) : compileTop src img c ≠ .error .panic := by
  intro hp
  have H0 : Here { c with cg := c.cg.popEof } B.spot :=
    ⟨H.wf, H.scope, H.user, H.dos, H.fors, H.inside, H.labels, H.defined, H.callables, H.onceLabels, H.onceBodies⟩
  have S0 := stmts_safe src.stmts H0 F T N
  let D : Str → Prop := (· ∈ B.bodies ++ bodiesStmts src.stmts)
  have J := stmts_judged (L := Any) (D := D) src.stmts H0
  have hf0 : c.cg.popEof.fixups = [] := hi.fixups
  unfold compileTop at hp
  cases hc : compileStmts src.stmts { c with cg := c.cg.popEof } with
  | error e =>
    rw [hc] at hp
    cases hp
    exact S0 hc
  | ok r =>
    obtain ⟨⟨⟩, c1⟩ := r
    rw [hc] at hp J
    obtain ⟨J1, J2, J3⟩ := J
    simp only at hp
    cases he : src.err with
    | some e => rw [he] at hp; cases hp; exact E he
    | none =>
      rw [he] at hp
      simp only at hp
      have hin0 : FixupsIn c.cg.popEof := fun a f h => by rw [hf0] at h; cases h
      obtain ⟨hin, hall⟩ := J3 hin0
      have hall : AllKnown Any D c1.cg := hall.2 ⟨fun a f ha => (by rw [hf0] at ha; cases ha), C⟩
      have hinv : Inv { c with cg := c.cg.popEof } := idle_pop hi
      have E := SStep.compileStmts src.stmts _ _ _ _ hinv (Nat.le_refl _) hc
      unfold buildDelta at hp
      simp only at hp
      have hpf : (c1.cg.push .eof ⟨0, 0⟩).fixups = c1.cg.fixups := rfl
      rw [hpf] at hp
      have hlens : ∀ a f, (a, f) ∈ c1.cg.fixups → a < (c1.cg.push .eof ⟨0, 0⟩).instrs.length := fun a f hm => by
        have := hin a f hm
        have h2 := E.inv.lens
        simp only [Codegen.push, List.length_append]
        omega
      have hcal : ∀ k, (∃ v, (c1.cg.push .eof ⟨0, 0⟩).callables.get? k = some v) ↔ D k := J2.callables
      have key : ∀ fs : FMap Nat Fixup, (∀ a f, (a, f) ∈ fs → f.Known Any D) → (∀ a f, (a, f) ∈ fs → a < (c1.cg.push .eof ⟨0, 0⟩).instrs.length) →
          (c1.cg.push .eof ⟨0, 0⟩).applyFixups fs ≠ .error .panic := by
        intro fs
        generalize c1.cg.push .eof ⟨0, 0⟩ = g at hcal
        induction fs with
        | nil => intro _ _ h; cases h
        | cons p fs ih =>
          obtain ⟨a, f⟩ := p
          intro hk hl hx
          have ih := ih (fun a f h => hk a f (List.mem_cons_of_mem _ h)) fun a f h => hl a f (List.mem_cons_of_mem _ h)
          have ha : a < g.instrs.length := hl a f (List.mem_cons_self ..)
          have hkn := hk a f (List.mem_cons_self ..)
          rw [Codegen.applyFixups, List.getElem?_eq_getElem ha] at hx
          simp only at hx
          cases hf : g.fixupInstr g.instrs[a].linecol f with
          | ok i =>
            rw [hf] at hx
            simp only at hx
            cases hy : g.applyFixups fs with
            | ok code => rw [hy] at hx; cases hx
            | error e => rw [hy] at hx; cases hx; exact ih hy
          | error e =>
            rw [hf] at hx
            cases hx
            unfold Codegen.fixupInstr at hf
            have ht : ∀ t pos, mkTarget t pos ≠ .error .panic := fun t pos h => by have := mkTarget_judged h; exact this
            cases f with
            | call r k =>
              obtain ⟨v, hv⟩ := (hcal k).2 hkn
              simp only [hv] at hf
              cases hm : mkTarget v.1 g.instrs[a].linecol with
              | ok t => rw [hm] at hf; cases hf
              | error e => rw [hm] at hf; cases hf; exact ht _ _ hm
            | gosub l | goto l | onErrorGoto l =>
              simp only at hf
              cases hv : g.labels.get? (symKey l) with
              | none => rw [hv] at hf; cases hf
              | some v =>
                rw [hv] at hf
                simp only at hf
                cases hm : mkTarget v g.instrs[a].linecol with
                | ok t => rw [hm] at hf; cases hf
                | error e => rw [hm] at hf; cases hf; exact ht _ _ hm
      cases hx : (c1.cg.push .eof ⟨0, 0⟩).applyFixups c1.cg.fixups with
      | ok code => rw [hx] at hp; cases hp
      | error e => rw [hx] at hp; cases hp; exact key _ hall hlens hx

end EB
