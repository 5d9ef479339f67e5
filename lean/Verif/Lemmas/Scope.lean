import Verif.Lemmas.SimMain
import Verif.Lemmas.Types
import Verif.Lemmas.StmtCodeAll
/-!
# Declarations: the symbol tables follow the text of the program
-/

namespace EB
open Spec

/-- The symbol table says what the environment says, also for output arguments. -/
structure Scope (sy : Syms) (Γ : Env) : Prop where
  syms : SymsAre sy Γ
  ups : ∀ k md, sy.upcalls.get? k = some md → md.userDefined = false
  outs : ∀ k md args syn, sy.getCallable k = some md → md.returnType = none → md.findSyntax (Args.length args) = some syn →
    Γ.outs k args = outVars syn.repeated syn.singular args
  md : ∀ k, Γ.md k = sy.getCallable k

/-! ## Growth -/

/-- More variables. -/
structure Grow (Γ Γ' : Env) : Prop where
  locals : Γ.locals <+: Γ'.locals
  shared : Γ.shared <+: Γ'.shared

theorem Grow.refl (Γ : Env) : Grow Γ Γ := ⟨List.prefix_refl _, List.prefix_refl _⟩
theorem Grow.trans {a b c : Env} (h1 : Grow a b) (h2 : Grow b c) : Grow a c :=
  ⟨h1.locals.trans h2.locals, h1.shared.trans h2.shared⟩

theorem Grow.addLocal (Γ : Env) (k : Str) (p : Proto) : Grow Γ (Γ.addLocal k p) :=
  ⟨List.prefix_append _ _, List.prefix_refl _⟩

theorem Grow.add (Γ : Env) (s : Bool) (k : Str) (p : Proto) : Grow Γ (Γ.add s k p) := by
  unfold Env.add
  split
  · exact ⟨List.prefix_refl _, List.prefix_append _ _⟩
  · exact .addLocal _ _ _

theorem Grow.declare (Γ : Env) (v : VarRef) (ps : List VarRef) : Grow Γ (Γ.declare v ps) := ⟨List.prefix_refl _, List.prefix_refl _⟩

theorem Grow.assign (Γ : Env) (v : VarRef) (e : Expr) : Grow Γ (afterAssign Γ v e) := by
  unfold afterAssign
  split
  · exact .addLocal _ _ _
  · exact .refl _

theorem Grow.forVar (Γ : Env) (v : VarRef) (d : Bool) : Grow Γ (forVar Γ v d) := by
  unfold Spec.forVar
  split
  · exact .addLocal _ _ _
  · exact .refl _

theorem Grow.outs : ∀ (vs : List VarRef) (Γ : Env), Grow Γ (vs.foldl defineOut Γ)
  | [], Γ => .refl _
  | v :: vs, Γ => by
    refine Grow.trans (b := defineOut Γ v) ?_ (Grow.outs vs _)
    unfold defineOut
    split
    · exact .addLocal _ _ _
    · exact .refl _

mutual
theorem grow_stmt (Γ : Env) (s : Stmt) : Grow Γ (afterStmt Γ s) := by
  match s with
  | .assign v _ e => exact .assign _ _ _
  | .call v _ args => exact .outs _ _
  | .callable name _ params body _ =>
    exact ⟨List.prefix_refl _, (grow_stmts ((Γ.declare name params).body name params) body).shared⟩
  | .declare name _ params => exact .declare _ _ _
  | .dim name _ shared ty => exact .add _ _ _ _
  | .dimArray name _ shared dims ty => exact .add _ _ _ _
  | .doLoop _ body => exact grow_stmts Γ body
  | .forLoop iter _ double start _ next body =>
    exact (((Grow.forVar _ _ _).trans (.assign _ _ _)).trans (grow_stmts _ body)).trans (.assign _ _ _)
  | .ifs branches => exact grow_branches Γ branches
  | .select _ cases _ => exact grow_cases Γ cases
  | .whileLoop _ body => exact grow_stmts Γ body
  | .arrayAssign .. | .data .. | .end .. | .exitDo .. | .exitFor .. | .exitFunction .. | .exitSub .. | .gosub ..
  | .goto .. | .label .. | .onError .. | .ret .. => exact .refl _
termination_by structural s

theorem grow_stmts (Γ : Env) (ss : Stmts) : Grow Γ (afterStmts Γ ss) := by
  match ss with
  | .nil => exact .refl _
  | .cons s rest => exact (grow_stmt Γ s).trans (grow_stmts _ rest)
termination_by structural ss

theorem grow_branches (Γ : Env) (bs : Branches) : Grow Γ (afterBranches Γ bs) := by
  match bs with
  | .nil => exact .refl _
  | .cons _ body rest => exact (grow_stmts Γ body).trans (grow_branches _ rest)
termination_by structural bs

theorem grow_cases (Γ : Env) (cs : Cases) : Grow Γ (afterCases Γ cs) := by
  match cs with
  | .nil => exact .refl _
  | .cons _ body rest => exact (grow_stmts Γ body).trans (grow_cases _ rest)
termination_by structural cs
end

/-! ## Types -/

theorem typeOf_eq {Γ : Env} : ∀ {e : Expr} {t : ExprType}, HasType Γ e t → typeOf Γ e = t
  | _, _, .bool .. => rfl
  | _, _, .dbl .. => rfl
  | _, _, .int .. => rfl
  | _, _, .text .. => rfl
  | _, _, .var h => by simp only [typeOf, h]; rfl
  | _, _, .argless h1 h2 h3 _ _ => by simp only [typeOf, h1, h2, Option.bind_some, h3, Option.getD_some]
  | _, _, .un h1 h2 => by simp only [typeOf, typeOf_eq h1, h2, Option.getD_some]
  | _, _, .bin h1 h2 h3 => by simp only [typeOf, typeOf_eq h1, typeOf_eq h2, h3, Option.getD_some]
  | _, _, .builtin h1 _ => by simp only [typeOf, h1, Sig.ret, Option.getD_some]
  | _, _, .user h1 _ _ => by simp only [typeOf, h1, Sig.ret, Option.getD_some]
  | _, _, .elem h1 h2 _ => by simp only [typeOf, h1, h2]; rfl

/-! ## Single declarations -/

theorem Scope.sameCallables {sy sy' : Syms} {Γ Γ' : Env} (h : Scope sy Γ) (hu : sy'.user = sy.user) (hup : sy'.upcalls = sy.upcalls)
    (hc : Γ'.callable = Γ.callable) (ho : Γ'.outs = Γ.outs) (hy : Γ'.syn = Γ.syn) (hm : Γ'.md = Γ.md) (hl : Represents sy'.locals Γ'.locals)
    (hg : Represents sy'.globals Γ'.shared) (hs : EnvSmall Γ') : Scope sy' Γ' := by
  have hgc : ∀ k, sy'.getCallable k = sy.getCallable k := by intro k; unfold Syms.getCallable; rw [hu, hup]
  refine ⟨⟨hl, hg, hs, ?_, ?_, ?_⟩, ?_, ?_, fun k => by rw [hm, hgc]; exact h.md k⟩
  · intro k; rw [hgc, hc]; exact h.syms.none k
  · intro k md; rw [hgc, hc]; exact h.syms.user k md
  · intro k md; rw [hgc, hc, hy]; exact h.syms.builtin k md
  · rw [hup]; exact h.ups
  · intro k md args syn; rw [hgc, ho]; exact h.outs k md args syn

theorem Scope.put {sy sy' : Syms} {Γ : Env} {k : Str} {p : Proto} {r : Reg} (h : Scope sy Γ) (hp : sy.putLocal k p = .ok (r, sy')) :
    Scope sy' (Γ.addLocal k p) ∧ r.toNat = 64 + Γ.locals.length ∧ Γ.locals.length < 192 ∧ Spec.position k Γ.locals = none := by
  obtain ⟨h1, h2, rfl⟩ := putLocal_ok hp
  have hk : Spec.position k Γ.locals = none := by rw [← h.syms.locals.get]; exact h1
  have hlt := mkLocal_lt h2
  rw [h.syms.locals.len] at hlt
  refine ⟨h.sameCallables rfl rfl rfl rfl rfl rfl (represents_put h.syms.locals hk p) h.syms.shared ⟨?_, h.syms.small.shared⟩, by omega, hlt.1, hk⟩
  show (Γ.locals ++ [(k, p)]).length ≤ 192
  simp; omega

theorem Scope.putShared {sy sy' : Syms} {Γ : Env} {k : Str} {p : Proto} {r : Reg} (h : Scope sy Γ) (hp : sy.putGlobal k p = .ok (r, sy')) :
    Scope sy' (Γ.add true k p) ∧ r.toNat = Γ.shared.length ∧ Γ.shared.length < 64 ∧ Spec.position k Γ.shared = none := by
  obtain ⟨h1, h2, rfl⟩ := putGlobal_ok hp
  have hk : Spec.position k Γ.shared = none := by rw [← h.syms.shared.get]; exact h1
  have hlt := mkGlobal_lt h2
  rw [h.syms.shared.len] at hlt
  refine ⟨h.sameCallables rfl rfl rfl rfl rfl rfl h.syms.locals (represents_put h.syms.shared hk p) ⟨h.syms.small.locals, ?_⟩, by omega, hlt.1, hk⟩
  show (Γ.shared ++ [(k, p)]).length ≤ 64
  simp; omega

theorem outVars_values : ∀ {syns : List SingSyn} {args : Args}, (∀ s ∈ syns, ∃ n t sep, s = .reqValue n t sep) →
    outVars none syns args = []
  | [], .nil, _ => by simp [outVars]
  | _ :: _, .nil, _ => by simp [outVars]
  | [], .skip _ _ rest, h => by simp only [outVars]; exact outVars_values (args := rest) h
  | [], .cons e _ _ rest, h => by
    have := outVars_values (args := rest) h
    cases e <;> simp [outVars, repIsRef, this]
  | s :: syns, .skip _ _ rest, h => by
    obtain ⟨n, t, sep, rfl⟩ := h s (by simp)
    simp only [outVars]
    exact outVars_values (args := rest) fun s hs => h s (by simp [hs])
  | s :: syns, .cons e _ _ rest, h => by
    obtain ⟨n, t, sep, rfl⟩ := h s (by simp)
    have := outVars_values (syns := syns) (args := rest) fun s hs => h s (by simp [hs])
    cases e <;> simp [outVars, this]

theorem paramSyntax_values : ∀ (ps : List VarRef),
    List.Forall₂ (fun (s : SingSyn) t => ∃ n sep, s = .reqValue n t sep) (paramSyntax ps) (ps.map fun p => p.ty.getD .integer)
  | [] => .nil
  | [p] => .cons ⟨_, _, rfl⟩ .nil
  | p :: q :: ps => .cons ⟨_, _, rfl⟩ (paramSyntax_values (q :: ps))

theorem paramValues_eq : ∀ ps : List VarRef, paramValues ps = paramSyntax ps
  | [] => rfl
  | [_] => rfl
  | _ :: q :: ps => by
    show _ :: paramValues (q :: ps) = _
    rw [paramValues_eq (q :: ps)]; rfl

theorem declared_eq (v : VarRef) (ps : List VarRef) : declared v ps = userMd v ps := by
  unfold declared userMd
  rw [paramValues_eq]

theorem userMd_ok (v : VarRef) (ps : List VarRef) : UserMd (userMd v ps) (ps.map fun p => p.ty.getD .integer) :=
  ⟨rfl, _, rfl, paramSyntax_values ps⟩

theorem declareCallable_ok {sy sy' : Syms} {v : VarRef} {md : Md} (h : sy.declareCallable v md = .ok sy') :
    sy' = { sy with user := sy.user.insert (symKey v.name) md } ∧
      ∀ prev, sy.user.get? (symKey v.name) = some prev → prev = md := by
  unfold Syms.declareCallable at h
  split at h
  · simp at h
  · split at h
    next prev hp =>
      split at h
      · simp at h
      next hne =>
        cases h
        refine ⟨rfl, fun p h => ?_⟩
        rw [hp] at h; cases h
        exact Classical.not_not.1 hne
    next hp =>
      cases h
      exact ⟨rfl, fun p h => by rw [hp] at h; simp at h⟩

theorem Scope.declare {sy sy' : Syms} {Γ : Env} {v : VarRef} {ps : List VarRef} (h : Scope sy Γ)
    (hd : sy.declareCallable v (userMd v ps) = .ok sy') : Scope sy' (Γ.declare v ps) := by
  obtain ⟨rfl, hprev⟩ := declareCallable_ok hd
  have hgc : ∀ k, ({ sy with user := sy.user.insert (symKey v.name) (userMd v ps) } : Syms).getCallable k =
      if k = symKey v.name then some (userMd v ps) else sy.getCallable k := by
    intro k
    unfold Syms.getCallable
    simp only [FMap.get?_insert]
    by_cases hk : k = symKey v.name
    · simp [hk]
    · simp [hk, Ne.symm hk]
  refine ⟨⟨h.syms.locals, h.syms.shared, ⟨h.syms.small.locals, h.syms.small.shared⟩, ?_, ?_, ?_⟩, h.ups, ?_, fun k => ?_⟩
  · intro k
    rw [hgc]
    show _ → (if k = symKey v.name then _ else _) = _
    split
    · simp
    · exact h.syms.none k
  · intro k md
    rw [hgc]
    show _ → _ → ∃ params, (if k = symKey v.name then _ else _) = _ ∧ _
    split
    · intro h1 _; cases h1; exact ⟨_, rfl, userMd_ok v ps⟩
    · exact h.syms.user k md
  · intro k md
    rw [hgc]
    show _ → _ → (if k = symKey v.name then _ else _) = _ ∧ ∀ n, Γ.syn k n = _
    split
    · intro h1 h2; cases h1; cases h2
    · exact h.syms.builtin k md
  · intro k md args syn
    rw [hgc]
    show _ → _ → _ → (if k = symKey v.name then _ else _) = _
    split
    · intro h1 _ h3
      cases h1
      have : syn = ⟨paramSyntax ps, none⟩ := by
        unfold Md.findSyntax userMd at h3
        simp only [List.find?_cons] at h3
        split at h3
        · cases h3; rfl
        · simp at h3
      subst this
      symm
      apply outVars_values
      intro s hs
      obtain ⟨i, hi, rfl⟩ := List.getElem_of_mem hs
      have hf := paramSyntax_values ps
      have := (List.forall₂_iff_get.1 hf)
      obtain ⟨n, sep, hx⟩ := this.2 i hi (by rw [← this.1]; exact hi)
      exact ⟨n, _, sep, hx⟩
    · exact h.outs k md args syn
  · rw [hgc]
    show (if k = symKey v.name then _ else _) = _
    rw [declared_eq, h.md]

/-! ## Statements without parts -/

theorem lookup_undefined {Γ : Env} {v w : VarRef} (h : Spec.lookup Γ.locals Γ.shared v = .error (.undefinedSymbol w)) :
    nameRef Γ.locals Γ.shared v = .undefined := by
  unfold Spec.lookup at h
  split at h
  · simp at h
  · simp at h
  next hh => exact hh

theorem lookup_ok {Γ : Env} {v : VarRef} {r : Reg} {p : Proto} (h : Spec.lookup Γ.locals Γ.shared v = .ok (r, p)) :
    ∃ place, nameRef Γ.locals Γ.shared v = .var place p ∧ r = BitVec.ofNat 8 place.reg := by
  unfold Spec.lookup at h
  split at h
  next place q hh => cases h; exact ⟨place, hh, rfl⟩
  · simp at h
  · simp at h


theorem Scope.callable_none {sy : Syms} {Γ : Env} (h : Scope sy Γ) (k : Str) : sy.getCallable k = none ↔ Γ.callable k = none := by
  refine ⟨h.syms.none k, fun hk => ?_⟩
  cases hg : sy.getCallable k with
  | none => rfl
  | some md =>
    exfalso
    cases hu : md.userDefined with
    | true =>
      obtain ⟨ps, h1, _⟩ := h.syms.user k md hg hu
      rw [h1] at hk; cases hk
    | false =>
      rw [(h.syms.builtin k md hg hu).1] at hk; cases hk

theorem castTo_same {reg : Reg} {t : ExprType} {pos : LineCol} {g : Codegen} : castTo reg t t pos g = .ok ((), g) := by
  unfold castTo
  rw [if_pos rfl]; rfl

mutual
theorem mentions_eq (k : Str) (e : Expr) : mentions k e = refersTo k e := by
  match e with
  | .bool .. | .dbl .. | .int .. | .text .. => rfl
  | .sym v _ => rfl
  | .un _ e _ => simp only [mentions, refersTo]; exact mentions_eq k e
  | .bin _ l r _ => simp only [mentions, refersTo]; rw [mentions_eq k l, mentions_eq k r]
  | .call _ _ args => simp only [mentions, refersTo]; exact mentionsArgs_eq k args
termination_by structural e

theorem mentionsArgs_eq (k : Str) (args : Args) : mentionsArgs k args = refersToArgs k args := by
  match args with
  | .nil => rfl
  | .cons e _ _ rest => simp only [mentionsArgs, refersToArgs]; rw [mentions_eq k e, mentionsArgs_eq k rest]
  | .skip _ _ rest => simp only [mentionsArgs, refersToArgs]; exact mentionsArgs_eq k rest
termination_by structural args
end

theorem represents_retype {t : IdMap Str Proto} {ds : Decls} {k : Str} {p q : Proto} (hw : t.Wf)
    (h : Represents t (ds ++ [(k, p)])) (hk : Spec.position k ds = none) : Represents (t.update k q) (ds ++ [(k, q)]) := by
  refine ⟨by rw [IdMap.len_update hw, h.len]; simp, ?_, ?_⟩
  · have := h.once
    simpa using this
  · intro k'
    rw [IdMap.get?_update, h.get, h.get, declPos_append, declPos_append, declPos_append]
    by_cases hkk : k' = k
    · subst hkk
      rw [if_pos rfl, hk]; simp [Spec.position]
    · rw [if_neg hkk]
      simp [Spec.position, Ne.symm hkk]

theorem assignErr_ok {α : Type} {x : CS α} {c c' : Ctx} {a : α} (h : assignErr x c = .ok (a, c')) : x c = .ok (a, c') := by
  unfold assignErr at h
  split at h
  · simp at h
  next hne => exact h

/-- The three kinds of assignments. -/
theorem compileAssign_cases {v : VarRef} {pos : LineCol} {e : Expr} {c c' : Ctx} {u : Unit} {Γ : Env} (hw : c.sy.locals.Wf)
    (hs : Scope c.sy Γ) (h : compileAssign v pos e c = .ok (u, c')) :
    (∃ p t temp g1, nameRef Γ.locals Γ.shared v = .var p (.scalar t) ∧ mentions (symKey v.name) e = true ∧ c'.sy = c.sy ∧
      allocTemp c.sy 0 pos = .ok temp ∧ compileExprAs c.sy e 1 temp t c.cg = .ok ((), g1) ∧
      c'.cg = g1.push (.move (BitVec.ofNat 8 p.reg) temp) pos) ∨
    (∃ p t, nameRef Γ.locals Γ.shared v = .var p (.scalar t) ∧ mentions (symKey v.name) e = false ∧ c'.sy = c.sy ∧
      compileExprAs c.sy e 0 (BitVec.ofNat 8 p.reg) t c.cg = .ok ((), c'.cg)) ∨
    (nameRef Γ.locals Γ.shared v = .undefined ∧ ∃ sy1 reg, Scope sy1 (Γ.addLocal (symKey v.name) (.scalar (v.ty.getD .integer))) ∧
      sy1.user = c.sy.user ∧ sy1.globals = c.sy.globals ∧
      reg.toNat = 64 + Γ.locals.length ∧ Γ.locals.length < 192 ∧ Scope c'.sy (Γ.addLocal (symKey v.name) (.scalar (newType Γ v e))) ∧
      compileExprAs sy1 e 0 reg (newType Γ v e) c.cg = .ok ((), c'.cg)) := by
  unfold compileAssign at h
  obtain ⟨⟨reg, et, wd⟩, c1, h1, h2⟩ := CM.bind_ok.1 h
  rcases assignDest_ok h1 with ⟨reg', t, hg, hr, rfl⟩ | ⟨w, reg', sy, hg, hcn, hp, hr, rfl⟩
  · cases hr
    simp only at h2
    rw [hs.syms.lookup] at hg
    obtain ⟨p, hn, rfl⟩ := lookup_ok hg
    rw [← mentions_eq] at h2
    cases hm : mentions (symKey v.name) e with
    | true =>
      left
      rw [hm] at h2
      simp only [Bool.and_self, if_true] at h2
      obtain ⟨g, h3, rfl⟩ := withSyms_ok.1 (assignErr_ok h2)
      obtain ⟨temp, g0, h4, h5⟩ := CM.bind_ok.1 h3
      obtain ⟨_, h6, h4⟩ := CM.lift_ok.1 h4
      cases h4
      obtain ⟨_, g1, h7, h8⟩ := CM.bind_ok.1 h5
      cases h8
      exact ⟨p, t, temp, g1, hn, rfl, rfl, h6, h7, rfl⟩
    | false =>
      right; left
      rw [hm] at h2
      simp only [Bool.and_false, Bool.false_eq_true, if_false] at h2
      obtain ⟨g, h3, rfl⟩ := withSyms_ok.1 (assignErr_ok h2)
      exact ⟨p, t, hn, rfl, rfl, h3⟩
  · cases hr
    right; right
    rw [hs.syms.lookup] at hg
    have hn := lookup_undefined hg
    obtain ⟨hs1, r1, r2, r3⟩ := hs.put hp
    obtain ⟨q1, q2, q3⟩ := putLocal_ok hp
    refine ⟨hn, sy, reg, hs1, by rw [q3], by rw [q3], r1, r2, ?_⟩
    cases ht : v.ty with
    | some t =>
      rw [ht] at h2 hs1
      simp only [Bool.false_and, Bool.false_eq_true, if_false] at h2
      obtain ⟨g, h3, rfl⟩ := withSyms_ok.1 (assignErr_ok h2)
      have : newType Γ v e = t := by unfold newType; rw [ht]; rfl
      rw [this]
      exact ⟨hs1, h3⟩
    | none =>
      rw [ht] at h2 hs1
      simp only at h2
      obtain ⟨t, c2, h3, h4⟩ := CM.bind_ok.1 h2
      obtain ⟨g, h5, rfl⟩ := withSyms_ok.1 h3
      obtain ⟨p, id, hget, rfl⟩ := fixupTypeS_ok h4
      have htt : newType Γ v e = t := by
        unfold newType
        rw [ht]
        exact typeOf_eq (expr_type hs1.syms e h5)
      rw [htt]
      constructor
      · have hwf : sy.locals.Wf := by
          rw [q3]; exact (IdMap.ext_insert_new q1).wf hw
        refine hs1.sameCallables rfl rfl rfl rfl rfl rfl (represents_retype hwf hs1.syms.locals r3) hs1.syms.shared ⟨?_, hs1.syms.small.shared⟩
        show (Γ.locals ++ [_]).length ≤ 192
        simp; omega
      · show (compileExpr sy e 0 reg >>= fun t' => castTo reg t' t e.startPos) c.cg = _
        rw [CM.bind_ok]
        exact ⟨t, g, h5, castTo_same⟩

theorem assign_scope {v : VarRef} {pos : LineCol} {e : Expr} {c c' : Ctx} {u : Unit} {Γ : Env} (hw : c.sy.locals.Wf)
    (hs : Scope c.sy Γ) (h : compileAssign v pos e c = .ok (u, c')) : Scope c'.sy (afterAssign Γ v e) := by
  unfold afterAssign
  rcases compileAssign_cases hw hs h with ⟨p, t, temp, g1, hn, hm, hy, _⟩ | ⟨p, t, hn, hm, hy, _⟩ | ⟨hn, sy1, reg, h1, _, _, h2, h3, h4, h5⟩
  · rw [if_neg (by rw [hn]; simp), hy]; exact hs
  · rw [if_neg (by rw [hn]; simp), hy]; exact hs
  · rw [if_pos hn]; exact h4

theorem defineIfNew_scope {v : VarRef} {pos : LineCol} {c c' : Ctx} {u : Unit} {Γ : Env}
    (hs : Scope c.sy Γ) (h : defineIfNew v pos c = .ok (u, c')) : Scope c'.sy (defineOut Γ v) := by
  unfold defineIfNew at h
  unfold defineOut
  split at h
  next w hg =>
    rw [hs.syms.lookup] at hg
    have hn := lookup_undefined hg
    split at h
    next md hc =>
      cases h
      rw [if_neg]
      · exact hs
      · rintro ⟨_, h2⟩
        rw [← hs.callable_none, hc] at h2; cases h2
    next hc =>
      rw [if_pos ⟨hn, (hs.callable_none _).1 hc⟩]
      unfold defineNewArg at h
      obtain ⟨r, c1, h1, h2⟩ := CM.bind_ok.1 h
      obtain ⟨sy, hp, rfl⟩ := putLocalS_ok.1 h1
      obtain ⟨g, h3, rfl⟩ := onCg_ok.1 h2
      exact (hs.put hp).1
  next hg =>
    cases h
    rw [if_neg]
    · exact hs
    · rintro ⟨h2, _⟩
      rw [hs.syms.lookup] at hg
      unfold Spec.lookup at hg
      rw [h2] at hg
      exact hg _ rfl

theorem defineNewArgs_scope (rep : Option RepSyn) (syns : List SingSyn) (args : Args) {c c' : Ctx} {u : Unit} {Γ : Env}
    (hs : Scope c.sy Γ) (h : defineNewArgs rep syns args c = .ok (u, c')) :
    Scope c'.sy ((outVars rep syns args).foldl defineOut Γ) := by
  match args with
  | .nil =>
    have : c' = c ∧ outVars rep syns .nil = [] := by
      cases syns with
      | nil => cases h; exact ⟨rfl, rfl⟩
      | cons s syns => cases s <;> cases h <;> exact ⟨rfl, rfl⟩
    rw [this.1, this.2]
    exact hs
  | .skip _ _ rest =>
    cases syns with
    | nil => unfold EB.defineNewArgs at h; unfold outVars; exact defineNewArgs_scope rep _ rest hs h
    | cons s syns => cases s <;> (unfold EB.defineNewArgs at h; unfold outVars; exact defineNewArgs_scope rep _ rest hs h)
  | .cons e _ _ rest =>
    cases syns with
    | nil =>
      cases e with
      | sym v pos =>
        unfold EB.defineNewArgs at h
        unfold outVars
        simp only at h
        split at h
        next hr =>
          rw [if_pos hr]
          obtain ⟨_, c1, h1, h2⟩ := CM.bind_ok.1 h
          exact defineNewArgs_scope rep _ rest (defineIfNew_scope hs h1) h2
        next hr =>
          rw [if_neg hr]
          exact defineNewArgs_scope rep _ rest hs h
      | _ => unfold EB.defineNewArgs at h; unfold outVars; exact defineNewArgs_scope rep _ rest hs h
    | cons s syns =>
      cases s with
      | reqRef a b d sep =>
        cases d with
        | false => cases e <;> (unfold EB.defineNewArgs at h; unfold outVars; exact defineNewArgs_scope rep _ rest hs h)
        | true =>
          cases e with
          | sym v pos =>
            unfold EB.defineNewArgs at h
            unfold outVars
            obtain ⟨_, c1, h1, h2⟩ := CM.bind_ok.1 h
            exact defineNewArgs_scope rep _ rest (defineIfNew_scope hs h1) h2
          | _ => unfold EB.defineNewArgs at h; unfold outVars; exact defineNewArgs_scope rep _ rest hs h
      | _ => cases e <;> (unfold EB.defineNewArgs at h; unfold outVars; exact defineNewArgs_scope rep _ rest hs h)
termination_by structural args

theorem dimVar_ok {name : Str} {pos : LineCol} {shared : Bool} {p : Proto} {c c' : Ctx} {r : Reg} {Γ : Env} (hs : Scope c.sy Γ)
    (h : dimVar name pos shared p c = .ok (r, c')) :
    Scope c'.sy (Γ.add shared (symKey name) p) ∧ r.toNat = (Γ.next shared).reg ∧ c'.cg = c.cg := by
  unfold dimVar at h
  split at h
  · simp at h
  · split at h
    next hsh =>
      subst hsh
      split at h
      · simp at h
      · obtain ⟨sy, hp, rfl⟩ := putGlobalS_ok.1 h
        obtain ⟨h1, h2, _⟩ := hs.putShared hp
        exact ⟨h1, h2, rfl⟩
    next hsh =>
      have : shared = false := by simpa using hsh
      subst this
      split at h
      · simp at h
      · obtain ⟨sy, hp, rfl⟩ := putLocalS_ok.1 h
        obtain ⟨h1, h2, _⟩ := hs.put hp
        exact ⟨h1, by rw [h2]; exact Nat.add_comm _ _, rfl⟩

theorem forIter_scope {v : VarRef} {pos : LineCol} {d : Bool} {c c' : Ctx} {u : Unit} {Γ : Env} (hs : Scope c.sy Γ)
    (h : forIter v pos d c = .ok (u, c')) : Scope c'.sy (forVar Γ v d) ∧ c'.cg = c.cg := by
  unfold forIter at h
  unfold Spec.forVar
  split at h
  next hd =>
    simp only [Bool.and_eq_true, Option.isNone_iff_eq_none] at hd
    split at h
    next r hg =>
      cases h
      rw [if_neg]
      · exact ⟨hs, rfl⟩
      · rintro ⟨_, _, h2⟩
        rw [hs.syms.lookup] at hg
        unfold Spec.lookup at hg
        rw [h2] at hg; simp at hg
    next w hg =>
      rw [hs.syms.lookup] at hg
      split at h
      · simp at h
      · rw [if_pos ⟨hd.1, hd.2, lookup_undefined hg⟩]
        obtain ⟨r, c1, h1, h2⟩ := CM.bind_ok.1 h
        cases h2
        obtain ⟨sy, hp, rfl⟩ := putLocalS_ok.1 h1
        exact ⟨(hs.put hp).1, rfl⟩
    · simp at h
  next hd =>
    cases h
    rw [if_neg]
    · exact ⟨hs, rfl⟩
    · rintro ⟨h1, h2, _⟩
      exact hd (by rw [h1, h2]; rfl)

theorem compileEnd_sy {code : Option Expr} {pos : LineCol} {c c' : Ctx} {u : Unit} (h : compileEnd code pos c = .ok (u, c')) :
    ∃ reg g1, allocTemp c.sy 0 pos = .ok reg ∧ c'.sy = c.sy ∧
      (match code with
        | some e => compileExprAs c.sy e 1 reg .integer
        | none => do let _ ← emit (.loadInt reg 0#16) pos : CG Unit) c.cg = .ok ((), g1) ∧ c'.cg = g1.push (.end reg) pos := by
  have key : ∀ {c' : Ctx}, (withSyms fun sy => do
      let reg ← CM.lift (allocTemp sy 0 pos)
      match code with
      | some e => compileExprAs sy e 1 reg .integer
      | none => do let _ ← emit (.loadInt reg 0#16) pos
      let _ ← emit (.end reg) pos : CS Unit) c = .ok (u, c') → ∃ reg g1, allocTemp c.sy 0 pos = .ok reg ∧ c'.sy = c.sy ∧
      (match code with
        | some e => compileExprAs c.sy e 1 reg .integer
        | none => do let _ ← emit (.loadInt reg 0#16) pos : CG Unit) c.cg = .ok ((), g1) ∧ c'.cg = g1.push (.end reg) pos := by
    intro c' h
    obtain ⟨g, h3, rfl⟩ := withSyms_ok.1 h
    obtain ⟨temp, g0, h4, h5⟩ := CM.bind_ok.1 h3
    obtain ⟨_, h6, h4⟩ := CM.lift_ok.1 h4
    cases h4
    cases code with
    | some e =>
      obtain ⟨_, g1, h7, h8⟩ := CM.bind_ok.1 h5
      cases h8
      exact ⟨temp, g1, h6, rfl, h7, rfl⟩
    | none =>
      cases h5
      exact ⟨temp, _, h6, rfl, rfl, rfl⟩
  unfold compileEnd at h
  generalize code.bind staticEndCode = o at h
  cases o with
  | none => exact key h
  | some o =>
    obtain ⟨v, vpos⟩ := o
    simp only at h
    split at h
    · obtain ⟨_, c1, h1, _⟩ := CM.bind_ok.1 h
      cases h1
    · exact key h

theorem arrayAssign_sy {v : VarRef} {pos : LineCol} {subs : List Expr} {e : Expr} {c c' : Ctx} {u : Unit}
    (h : compileArrayAssign v pos subs e c = .ok (u, c')) : c'.sy = c.sy := by
  obtain ⟨g, _, rfl⟩ := withSyms_ok.1 h
  rfl

theorem declareS_ok {name : VarRef} {pos : LineCol} {ps : List VarRef} {c c' : Ctx} {u : Unit}
    (h : declareCallable name pos ps c = .ok (u, c')) : ∃ sy, c.sy.declareCallable name (userMd name ps) = .ok sy ∧ c' = { c with sy := sy } := by
  unfold declareCallable at h
  split at h
  next sy hd => cases h; exact ⟨sy, hd, rfl⟩
  · simp at h

theorem simple_scope {s : Stmt} (hsim : s.simple = true) {c c' : Ctx} {u : Unit} {Γ : Env} (hw : c.sy.locals.Wf)
    (hs : Scope c.sy Γ) (h : compileStmtBody s c = .ok (u, c')) : Scope c'.sy (afterStmt Γ s) := by
  cases s with
  | assign v pos e => exact assign_scope hw hs h
  | arrayAssign v pos subs e => rw [arrayAssign_sy h]; exact hs
  | call v pos args =>
    replace h : compileCallStmt v pos args c = .ok (u, c') := h
    unfold compileCallStmt at h
    split at h
    · simp at h
    next md hmd =>
      split at h
      · simp at h
      next hr =>
        split at h
        · simp at h
        next syn hsyn =>
          obtain ⟨_, c1, h1, h2⟩ := CM.bind_ok.1 h
          obtain ⟨g, h3, rfl⟩ := withSyms_ok.1 h2
          show Scope c1.sy ((Γ.outs (symKey v.name) args).foldl defineOut Γ)
          rw [hs.outs _ md args syn hmd (by simpa using hr) hsyn]
          exact defineNewArgs_scope _ _ _ hs h1
  | data vs =>
    obtain ⟨ds, c1, h1, h2⟩ := CM.bind_ok.1 (show (CM.lift (dataConsts vs) >>= fun ds => CM.modify fun c => { c with data := c.data ++ ds } : CS Unit) c = _ from h)
    obtain ⟨_, h3, h1⟩ := CM.lift_ok.1 h1
    cases h1
    cases h2
    exact hs
  | declare name pos ps =>
    replace h : (do
      let c ← CM.get
      if c.cur.isSome then CM.throw (.cannotNest pos)
      else declareCallable name pos ps : CS Unit) c = .ok (u, c') := h
    obtain ⟨c0, c1, h1, h2⟩ := CM.bind_ok.1 h
    cases h1
    split at h2
    · cases h2
    · obtain ⟨sy, hd, rfl⟩ := declareS_ok h2
      exact hs.declare hd
  | dim name pos shared ty =>
    obtain ⟨r, c1, h1, h2⟩ := CM.bind_ok.1 (show (dimVar name pos shared (.scalar ty) >>= fun reg => onCg (emitDefault reg ty pos) : CS Unit) c = _ from h)
    obtain ⟨g, h3, rfl⟩ := onCg_ok.1 h2
    exact (dimVar_ok hs h1).1
  | dimArray name pos shared dims ty =>
    replace h : compileDimArray name pos shared dims ty c = .ok (u, c') := h
    unfold compileDimArray at h
    obtain ⟨r, c1, h1, h2⟩ := CM.bind_ok.1 h
    obtain ⟨g, h3, rfl⟩ := withSyms_ok.1 h2
    exact (dimVar_ok hs h1).1
  | «end» code pos =>
    obtain ⟨_, _, _, hy, _⟩ := compileEnd_sy h
    rw [hy]; exact hs
  | label name pos =>
    replace h : (match c.cg.labels.get? (symKey name) with
      | some _ => Except.error (CErr.duplicateLabel pos name)
      | none => Except.ok ((), { c with cg := { c.cg with labels := c.cg.labels.insert (symKey name) c.cg.code.length } })) = Except.ok (u, c') := h
    split at h
    · simp at h
    · cases h; exact hs
  | onError o =>
    have : c'.sy = c.sy := by
      cases o with
      | goto label lp pos =>
        have hx := emitFixup_ok.1 (show emitFixup pos (.onErrorGoto label) c = .ok (u, c') from h)
        cases hx; rfl
      | reset pos =>
        obtain ⟨_, c1, h1, h2⟩ := CM.bind_ok.1 (show (onCg (emit (.setErrorHandler .none 0#16) pos) >>= fun _ => pure () : CS Unit) c = _ from h)
        cases h2; exact onCg_sy h1
      | resumeNext pos =>
        obtain ⟨_, c1, h1, h2⟩ := CM.bind_ok.1 (show (onCg (emit (.setErrorHandler .resumeNext 0#16) pos) >>= fun _ => pure () : CS Unit) c = _ from h)
        cases h2; exact onCg_sy h1
    rw [this]; exact hs
  | _ => simp [Stmt.simple] at hsim


/-! ## Callables -/

theorem putParams_scope {pos : LineCol} : ∀ {ps : List VarRef} {c c' : Ctx} {u : Unit} {Γ : Env}, Scope c.sy Γ → putParams pos ps c = .ok (u, c') →
    Scope c'.sy { Γ with locals := Γ.locals ++ ps.map fun p => (symKey p.name, .scalar (p.ty.getD .integer)) } ∧ c'.cg = c.cg
  | [], c, c', u, Γ, hs, h => by
    cases h
    simpa using hs
  | p :: ps, c, c', u, Γ, hs, h => by
    obtain ⟨r, c1, h1, h2⟩ := CM.bind_ok.1 h
    obtain ⟨sy, hp, rfl⟩ := putLocalS_ok.1 h1
    have := putParams_scope (hs.put hp).1 h2
    simpa [Env.addLocal] using this

/-- The value that is loaded into the result variable. -/
def initial (t : ExprType) (pos : LineCol) : CG U16 :=
  match t with
  | .boolean | .integer => pure 0#16
  | .double => getConstant (.double 0#64) pos
  | .text => getConstant (.text []) pos

theorem prologBody_ok {name : VarRef} {pos : LineCol} {ps : List VarRef} {c c' : Ctx} {u : Unit} {Γ : Env} (hs : Scope c.sy Γ)
    (hl : Γ.locals = []) (h : prologBody name pos ps c = .ok (u, c')) :
    Scope c'.sy (Γ.body name ps) ∧
    match name.ty with
    | none => c'.cg = c.cg
    | some t => ∃ value g1, initial t pos c.cg = .ok (value, g1) ∧ c'.cg = g1.push (.loadInt 64#8 value) pos := by
  unfold prologBody at h
  unfold Env.body
  cases ht : name.ty with
  | none =>
    rw [ht] at h
    simp only at h
    obtain ⟨h1, h2⟩ := putParams_scope hs h
    rw [hl] at h1
    exact ⟨by simpa using h1, h2⟩
  | some t =>
    rw [ht] at h
    simp only at h
    obtain ⟨r, c1, h1, h⟩ := CM.bind_ok.1 h
    obtain ⟨sy, hp, rfl⟩ := putLocalS_ok.1 h1
    obtain ⟨hs1, hr, _⟩ := hs.put hp
    have hr : r = 64#8 := by
      apply BitVec.eq_of_toNat_eq
      rw [hr, hl]; rfl
    subst hr
    have key : ∀ (x : CS U16), x { c with sy := sy } = onCg (initial t pos) { c with sy := sy } →
        (x >>= fun value => (onCg (emit (.loadInt 64#8 value) pos) >>= fun _ => putParams pos ps) : CS Unit) { c with sy := sy } = .ok (u, c') →
        Scope c'.sy { Γ with locals := [(symKey name.name, .scalar t)] ++ ps.map fun p => (symKey p.name, .scalar (p.ty.getD .integer)) } ∧
        ∃ value g1, initial t pos c.cg = .ok (value, g1) ∧ c'.cg = g1.push (.loadInt 64#8 value) pos := by
      intro x hx h
      obtain ⟨value, c2, h2, h⟩ := CM.bind_ok.1 h
      rw [hx] at h2
      obtain ⟨g, h3, rfl⟩ := onCg_ok.1 h2
      obtain ⟨_, c3, h4, h⟩ := CM.bind_ok.1 h
      obtain ⟨g4, h5, rfl⟩ := onCg_ok.1 h4
      cases h5
      obtain ⟨p1, p2⟩ := putParams_scope (Γ := Γ.addLocal (symKey name.name) (.scalar t)) hs1 h
      refine ⟨?_, value, g, h3, p2⟩
      simpa [Env.addLocal, hl] using p1
    cases t with
    | boolean => exact key (pure 0#16) rfl h
    | integer => exact key (pure 0#16) rfl h
    | double => exact key _ rfl h
    | text => exact key _ rfl h

theorem Scope.inner {sy : Syms} {Γ : Env} (h : Scope sy Γ) : Scope { sy with locals := .empty } { Γ with locals := [] } := by
  refine h.sameCallables rfl rfl rfl rfl rfl rfl ?_ h.syms.shared ⟨by simp, h.syms.small.shared⟩
  exact ⟨rfl, by simp, fun k => rfl⟩

theorem Scope.outer {sy sy' : Syms} {Γ Γ' : Env} (h : Scope sy Γ) (h' : Scope sy' Γ') :
    Scope { sy' with locals := sy.locals } { Γ' with locals := Γ.locals } :=
  h'.sameCallables rfl rfl rfl rfl rfl rfl h.syms.locals h'.syms.shared ⟨h.syms.small.locals, h'.syms.small.shared⟩

/-! ## All statements -/

theorem forStart_ok {v : VarRef} {pos : LineCol} {d : Bool} {e : Expr} {c c' : Ctx} {u : Unit} {Γ : Env} (hi : Inv c) (hs : Scope c.sy Γ)
    (h : (do forIter v pos d; compileAssign v pos e : CS Unit) c = .ok (u, c')) :
    ∃ c1, Scope c1.sy (forVar Γ v d) ∧ Inv c1 ∧ c1.cg = c.cg ∧ compileAssign v pos e c1 = .ok ((), c') := by
  obtain ⟨_, c1, h1, h2⟩ := CM.bind_ok.1 h
  obtain ⟨p1, p2⟩ := forIter_scope hs h1
  exact ⟨c1, p1, (SStep.forIter _ _ _ _ _ _ _ hi (Nat.le_refl _) h1).inv, p2, h2⟩

section
variable {L : Link}

mutual
theorem stmt_scope {T : Targets} {sy sy' : Syms} {a b : Nat} {s : Stmt} (h : StmtCode L T sy a s b sy') : ∀ {Γ : Env}, Scope sy Γ →
    Scope sy' (afterStmt Γ s) := by
  intro Γ hs
  match h with
  | .simple hsim ⟨c, c', hx, hi, rfl, rfl, _⟩ => exact simple_scope hsim hi.locals hs hx
  | .wild hw _ _ => revert hw; cases s <;> (intro hw; first | exact hs | (simp [Stmt.wild] at hw))
  | .exitDo .. | .exitFor .. | .exitFunction .. | .exitSub .. => exact hs
  | .callable hd _ ⟨c, c', hx, hi, hy, rfl, _⟩ hb _ _ _ =>
    have h1 : Scope c.sy { (Γ.declare _ _) with locals := [] } := hy ▸ (hs.declare hd).inner
    exact hs.outer (stmts_scope hb (prologBody_ok h1 rfl hx).1)
  | .infinite hb _ => exact stmts_scope hb hs
  | .preUntil _ _ _ hb _ => exact stmts_scope hb hs
  | .preWhile _ _ hb _ => exact stmts_scope hb hs
  | .postUntil hb _ _ => exact stmts_scope hb hs
  | .postWhile hb _ _ _ => exact stmts_scope hb hs
  | .forLoop ⟨c, c', hx, hi, rfl, rfl, _⟩ _ _ hb ⟨c2, c3, hx2, hi2, hy2, rfl, _⟩ _ =>
    obtain ⟨c1, p1, p2, p3, p4⟩ := forStart_ok hi hs hx
    exact assign_scope hi2.locals (hy2 ▸ stmts_scope hb (assign_scope p2.locals p1 p4)) hx2
  | .ifs hb => exact branches_scope hb hs
  | .select _ _ _ _ hb => exact cases_scope hb hs
  | .whileLoop _ _ hb _ => exact stmts_scope hb hs
termination_by structural h

theorem stmts_scope {T : Targets} {sy sy' : Syms} {a b : Nat} {ss : Stmts} (h : StmtsCode L T sy a ss b sy') : ∀ {Γ : Env}, Scope sy Γ →
    Scope sy' (afterStmts Γ ss) := by
  intro Γ hs
  match h with
  | .nil => exact hs
  | .cons h1 _ h2 => exact stmts_scope h2 (stmt_scope h1 hs)
termination_by structural h

theorem branches_scope {T : Targets} {sy sy' : Syms} {a b : Nat} {bs : Branches} (h : BranchesCode L T sy a bs b sy') : ∀ {Γ : Env}, Scope sy Γ →
    Scope sy' (afterBranches Γ bs) := by
  intro Γ hs
  match h with
  | .nil => exact hs
  | .last _ _ h1 => exact stmts_scope h1 hs
  | .cons _ _ h1 _ h2 => exact branches_scope h2 (stmts_scope h1 hs)
termination_by structural h

theorem cases_scope {T : Targets} {sy sy' : Syms} {a b : Nat} {cs : Cases} {ts : List Nat} (h : BodiesCode L T sy a cs ts b sy') : ∀ {Γ : Env}, Scope sy Γ →
    Scope sy' (afterCases Γ cs) := by
  intro Γ hs
  match h with
  | .nil => exact hs
  | .last h1 => exact stmts_scope h1 hs
  | .cons h1 _ h2 => exact cases_scope h2 (stmts_scope h1 hs)
termination_by structural h
end

theorem Link.Within.before {c c' : Ctx} {n : Nat} (h : L.Within c'.sy) (e : Ext n c c') : L.Within c.sy :=
  ⟨fun k md hk => h.user k md (e.user k md hk), e.globals.trans h.globals⟩

theorem Link.Within.same {sy sy' : Syms} (h : L.Within sy) (hu : sy'.user = sy.user) (hg : sy'.globals = sy.globals) : L.Within sy' :=
  ⟨by rw [hu]; exact h.user, by rw [hg]; exact h.globals⟩

theorem Part.before {x : CS Unit} {sy sy' : Syms} {a b : Nat} (hx : SStep x) (h : Part L x sy a b sy') : L.Within sy := by
  obtain ⟨c, c', h1, h2, rfl, rfl, _, _, _, _, hw⟩ := h
  exact hw.before (hx _ _ _ _ h2 (Nat.le_refl _) h1)

mutual
theorem stmt_within {T : Targets} {sy sy' : Syms} {a b : Nat} {s : Stmt} (h : StmtCode L T sy a s b sy') (hw : L.Within sy') : L.Within sy := by
  match h with
  | .simple hsim hp => exact hp.before (SStep.compileStmtBody _)
  | .wild _ _ _ => exact hw
  | .exitDo .. | .exitFor .. | .exitFunction .. | .exitSub .. => exact hw
  | .callable hd _ hp hb _ _ h3 =>
    have h1 := hp.before (SStep.prologBody _ _ _)
    obtain ⟨rfl, hprev⟩ := declareCallable_ok hd
    refine ⟨fun k md hk => h1.user k md ?_, h1.globals⟩
    rw [FMap.get?_insert]
    split
    next he => rw [he] at hk; rw [hprev _ hk]
    · exact hk
  | .infinite hb _ => exact stmts_within hb hw
  | .preUntil _ _ _ hb _ => exact stmts_within hb hw
  | .preWhile _ _ hb _ => exact stmts_within hb hw
  | .postUntil hb _ _ => exact stmts_within hb hw
  | .postWhile hb _ _ _ => exact stmts_within hb hw
  | .forLoop hp _ _ _ _ _ => exact hp.before ((SStep.forIter _ _ _).bind fun _ => SStep.compileAssign _ _ _)
  | .ifs hb => exact branches_within hb hw
  | .select _ _ _ _ hb => exact cases_within hb hw
  | .whileLoop _ _ hb _ => exact stmts_within hb hw
termination_by structural h

theorem stmts_within {T : Targets} {sy sy' : Syms} {a b : Nat} {ss : Stmts} (h : StmtsCode L T sy a ss b sy') (hw : L.Within sy') : L.Within sy := by
  match h with
  | .nil => exact hw
  | .cons h1 _ h2 => exact stmt_within h1 (stmts_within h2 hw)
termination_by structural h

theorem branches_within {T : Targets} {sy sy' : Syms} {a b : Nat} {bs : Branches} (h : BranchesCode L T sy a bs b sy') (hw : L.Within sy') : L.Within sy := by
  match h with
  | .nil => exact hw
  | .last _ _ h1 => exact stmts_within h1 hw
  | .cons _ _ h1 _ h2 => exact stmts_within h1 (branches_within h2 hw)
termination_by structural h

theorem cases_within {T : Targets} {sy sy' : Syms} {a b : Nat} {cs : Cases} {ts : List Nat} (h : BodiesCode L T sy a cs ts b sy') (hw : L.Within sy') : L.Within sy := by
  match h with
  | .nil => exact hw
  | .last h1 => exact stmts_within h1 hw
  | .cons h1 _ h2 => exact stmts_within h1 (cases_within h2 hw)
termination_by structural h
end

end

end EB
