import Verif.Lemmas.SettledEval
/-!
# Settled programs have a meaning: declarations
-/

namespace EB.Settle
open Spec

/-! ## What is known about names -/

theorem Wf.same {up : FMap Str Md} {Γ Γ' : Env} (h : Wf up Γ) (hm : Γ'.md = Γ.md) (hc : Γ'.callable = Γ.callable) (ho : Γ'.outs = Γ.outs)
    (hs : Γ'.syn = Γ.syn) : Wf up Γ' := by
  intro k
  cases h k with
  | user name params h1 h2 h3 h4 => exact .user name params h1 (by rw [hm]; exact h2) (by rw [hc]; exact h3) (by rw [ho]; exact h4)
  | builtin md h1 h2 h3 h4 h5 => exact .builtin md h1 (by rw [hm]; exact h2) (by rw [hc]; exact h3) h4 (by rw [hs]; exact h5)
  | none h1 h2 h3 => exact .none (by rw [hm]; exact h1) (by rw [hc]; exact h2) (by rw [ho]; exact h3)

theorem Wf.start {up : FMap Str Md} (hup : ∀ k md, up.get? k = some md → md.userDefined = false) : Wf up (builtins up) := by
  intro k
  cases h : up.get? k with
  | none =>
    refine .none h (by simp [builtins, h]) fun args => ?_
    show (match up.get? k with | some md => _ | none => _) = _
    rw [h]
  | some md =>
    refine .builtin md (hup k md h) h (by simp [builtins, h]) h fun n => ?_
    show (up.get? k).bind _ = _
    rw [h]; rfl

theorem Wf.addLocal {up : FMap Str Md} {Γ : Env} (h : Wf up Γ) (k : Str) (p : Proto) : Wf up (Γ.addLocal k p) := h.same rfl rfl rfl rfl

theorem Wf.add {up : FMap Str Md} {Γ : Env} (h : Wf up Γ) (s : Bool) (k : Str) (p : Proto) : Wf up (Γ.add s k p) := by
  unfold Env.add
  split
  · exact h.same rfl rfl rfl rfl
  · exact h.addLocal k p

theorem Wf.body {up : FMap Str Md} {Γ : Env} (h : Wf up Γ) (name : VarRef) (ps : List VarRef) : Wf up (Γ.body name ps) := h.same rfl rfl rfl rfl

theorem Wf.declare {up : FMap Str Md} {Γ : Env} (h : Wf up Γ) (name : VarRef) (ps : List VarRef) : Wf up (Γ.declare name ps) := by
  intro k
  by_cases hk : k = symKey name.name
  · exact .user name ps hk.symm (by simp [Env.declare, hk]) (by simp [Env.declare, hk]) (fun args => by simp [Env.declare, hk])
  · cases h k with
    | user name' params h1 h2 h3 h4 =>
      exact .user name' params h1 (by simp [Env.declare, hk, h2]) (by simp [Env.declare, hk, h3]) (fun args => by simp [Env.declare, hk, h4])
    | builtin md h1 h2 h3 h4 h5 => exact .builtin md h1 (by simp [Env.declare, hk, h2]) (by simp [Env.declare, hk, h3]) h4 h5
    | none h1 h2 h3 => exact .none (by simp [Env.declare, hk, h1]) (by simp [Env.declare, hk, h2]) (fun args => by simp [Env.declare, hk, h3])

theorem Wf.assign {up : FMap Str Md} {Γ : Env} (h : Wf up Γ) (v : VarRef) (e : Expr) : Wf up (afterAssign Γ v e) := by
  unfold afterAssign
  split
  · exact h.addLocal _ _
  · exact h

theorem Wf.forVar {up : FMap Str Md} {Γ : Env} (h : Wf up Γ) (v : VarRef) (d : Bool) : Wf up (forVar Γ v d) := by
  unfold Spec.forVar
  split
  · exact h.addLocal _ _
  · exact h

theorem Wf.outs {up : FMap Str Md} : ∀ (vs : List VarRef) {Γ : Env}, Wf up Γ → Wf up (vs.foldl defineOut Γ)
  | [], _, h => h
  | v :: vs, Γ, h => by
    refine Wf.outs vs (Γ := defineOut Γ v) ?_
    unfold defineOut
    split
    · exact h.addLocal _ _
    · exact h

mutual
theorem wf_stmt {up : FMap Str Md} {Γ : Env} (h : Wf up Γ) (s : Stmt) : Wf up (afterStmt Γ s) := by
  match s with
  | .assign v _ e => exact h.assign _ _
  | .call v _ args => exact .outs _ h
  | .callable name _ params body _ => exact (wf_stmts ((h.declare name params).body name params) body).same rfl rfl rfl rfl
  | .declare name _ params => exact h.declare _ _
  | .dim name _ shared ty => exact h.add _ _ _
  | .dimArray name _ shared dims ty => exact h.add _ _ _
  | .doLoop _ body => exact wf_stmts h body
  | .forLoop iter _ double start _ next body => exact (wf_stmts ((h.forVar _ _).assign _ _) body).assign _ _
  | .ifs branches => exact wf_branches h branches
  | .select _ cases _ => exact wf_cases h cases
  | .whileLoop _ body => exact wf_stmts h body
  | .arrayAssign .. | .data .. | .end .. | .exitDo .. | .exitFor .. | .exitFunction .. | .exitSub .. | .gosub ..
  | .goto .. | .label .. | .onError .. | .ret .. => exact h
termination_by structural s

theorem wf_stmts {up : FMap Str Md} {Γ : Env} (h : Wf up Γ) (ss : Stmts) : Wf up (afterStmts Γ ss) := by
  match ss with
  | .nil => exact h
  | .cons s rest => exact wf_stmts (wf_stmt h s) rest
termination_by structural ss

theorem wf_branches {up : FMap Str Md} {Γ : Env} (h : Wf up Γ) (bs : Branches) : Wf up (afterBranches Γ bs) := by
  match bs with
  | .nil => exact h
  | .cons _ body rest => exact wf_branches (wf_stmts h body) rest
termination_by structural bs

theorem wf_cases {up : FMap Str Md} {Γ : Env} (h : Wf up Γ) (cs : Cases) : Wf up (afterCases Γ cs) := by
  match cs with
  | .nil => exact h
  | .cons _ body rest => exact wf_cases (wf_stmts h body) rest
termination_by structural cs
end

/-! ## Callables of the program keep their meaning -/

/-- Callables of the program that are declared stay declared in the same way. -/
def Persist (Γ Γ' : Env) : Prop := ∀ k ps r, Γ.callable k = some (.user ps r) → Γ'.callable k = some (.user ps r)

theorem Persist.same {Γ Γ' : Env} (h : Γ'.callable = Γ.callable) : Persist Γ Γ' := fun k ps r hk => by rw [h]; exact hk

theorem Persist.trans {a b c : Env} (h1 : Persist a b) (h2 : Persist b c) : Persist a c := fun k ps r h => h2 k ps r (h1 k ps r h)

theorem paramValues_types {ps qs : List VarRef} (h : paramValues ps = paramValues qs) :
    (ps.map fun p => p.ty.getD .integer) = qs.map fun p => p.ty.getD .integer := by
  have h1 := paramValues_eq ps
  have h2 := paramValues_eq qs
  rw [h] at h1
  have : ∀ {a : List SingSyn} {b c : List ExprType}, List.Forall₂ (fun (s : SingSyn) t => ∃ n sep, s = .reqValue n t sep) a b →
      List.Forall₂ (fun (s : SingSyn) t => ∃ n sep, s = .reqValue n t sep) a c → b = c := by
    intro a
    induction a with
    | nil => intro b c h1 h2; cases h1; cases h2; rfl
    | cons s a ih =>
      intro b c h1 h2
      cases h1 with
      | cons x1 h1 =>
        cases h2 with
        | cons x2 h2 =>
          obtain ⟨_, _, rfl⟩ := x1
          obtain ⟨_, _, x2⟩ := x2
          cases x2
          rw [ih h1 h2]
  exact this h1 h2

theorem persist_declare {up : FMap Str Md} {Γ : Env} (h : Wf up Γ) {name : VarRef} {ps : List VarRef} (hd : DeclareOk Γ name ps) :
    Persist Γ (Γ.declare name ps) := by
  intro k qs r hk
  by_cases hn : k = symKey name.name
  · subst hn
    cases h (symKey name.name) with
    | none _ h2 => rw [h2] at hk; cases hk
    | builtin _ _ _ h2 => rw [h2] at hk; cases hk
    | user name' params h1 h2 h3 _ =>
      rw [h3] at hk
      cases hk
      have he := hd.2 _ h2 rfl
      unfold declared at he
      injection he with _ e1 _ e2 _
      injection e2 with e2 _
      injection e2 with e2 _
      have := paramValues_types e2
      simp only [Env.declare, if_true]
      rw [this, e1]
  · simp only [Env.declare, if_neg hn]
    exact hk

theorem persist_assign (Γ : Env) (v : VarRef) (e : Expr) : Persist Γ (afterAssign Γ v e) := by
  refine .same ?_
  unfold afterAssign
  split <;> rfl

theorem persist_outs : ∀ (vs : List VarRef) (Γ : Env), Persist Γ (vs.foldl defineOut Γ)
  | [], _ => .same rfl
  | v :: vs, Γ => by
    refine Persist.trans (b := defineOut Γ v) (.same ?_) (persist_outs vs _)
    unfold defineOut
    split <;> rfl

theorem persist_forVar (Γ : Env) (v : VarRef) (d : Bool) : Persist Γ (forVar Γ v d) := by
  refine .same ?_
  unfold Spec.forVar
  split <;> rfl

mutual
theorem persist_stmt {up : FMap Str Md} {Γ : Env} {A : Around} (h : Wf up Γ) (s : Stmt) (hs : StmtOk Γ A s) : Persist Γ (afterStmt Γ s) := by
  match s with
  | .assign v _ e => exact persist_assign _ _ _
  | .call v _ args => exact persist_outs _ _
  | .callable name _ params body _ =>
    have h1 := persist_declare h hs.1
    have h2 := persist_stmts ((h.declare name params).body name params) body hs.2.2.2
    exact h1.trans ((Persist.same rfl).trans (h2.trans (.same rfl)))
  | .declare name _ params => exact persist_declare h hs.2
  | .dim name _ shared ty => exact .same (by cases shared <;> rfl)
  | .dimArray name _ shared dims ty => exact .same (by cases shared <;> rfl)
  | .doLoop _ body => exact persist_stmts h body hs.2
  | .forLoop iter _ double start _ next body =>
    exact (((persist_forVar _ _ _).trans (persist_assign _ _ _)).trans
      (persist_stmts ((h.forVar _ _).assign _ _) body hs.2.2.2.1)).trans (persist_assign _ _ _)
  | .ifs branches => exact persist_branches h branches hs
  | .select _ cases _ => exact persist_cases h cases hs.2
  | .whileLoop _ body => exact persist_stmts h body hs.2
  | .arrayAssign .. | .data .. | .end .. | .exitDo .. | .exitFor .. | .exitFunction .. | .exitSub .. | .gosub ..
  | .goto .. | .label .. | .onError .. | .ret .. => exact .same rfl
termination_by structural s

theorem persist_stmts {up : FMap Str Md} {Γ : Env} {A : Around} (h : Wf up Γ) (ss : Stmts) (hs : StmtsOk Γ A ss) : Persist Γ (afterStmts Γ ss) := by
  match ss with
  | .nil => exact .same rfl
  | .cons s rest => exact (persist_stmt h s hs.1).trans (persist_stmts (wf_stmt h s) rest hs.2)
termination_by structural ss

theorem persist_branches {up : FMap Str Md} {Γ : Env} {A : Around} (h : Wf up Γ) (bs : Branches) (hs : BranchesOk Γ A bs) :
    Persist Γ (afterBranches Γ bs) := by
  match bs with
  | .nil => exact .same rfl
  | .cons _ body rest => exact (persist_stmts h body hs.2.1).trans (persist_branches (wf_stmts h body) rest hs.2.2)
termination_by structural bs

theorem persist_cases {up : FMap Str Md} {Γ : Env} {A : Around} (h : Wf up Γ) (cs : Cases) (hs : CasesOk Γ A cs) :
    Persist Γ (afterCases Γ cs) := by
  match cs with
  | .nil => exact .same rfl
  | .cons _ body rest => exact (persist_stmts h body hs.1).trans (persist_cases (wf_stmts h body) rest hs.2)
termination_by structural cs
end

theorem Below.of {fin Γ Γ' : Env} (h : Below fin Γ') (hs : Γ.shared <+: Γ'.shared) (hp : Persist Γ Γ') : Below fin Γ :=
  ⟨hs.trans h.shared, fun k ps r hk => h.user k ps r (hp k ps r hk)⟩

theorem Below.stmt {up : FMap Str Md} {fin Γ : Env} {A : Around} {s : Stmt} (h : Below fin (afterStmt Γ s)) (hw : Wf up Γ) (hs : StmtOk Γ A s) :
    Below fin Γ := h.of (grow_stmt Γ s).shared (persist_stmt hw s hs)

theorem Below.stmts {up : FMap Str Md} {fin Γ : Env} {A : Around} {ss : Stmts} (h : Below fin (afterStmts Γ ss)) (hw : Wf up Γ)
    (hs : StmtsOk Γ A ss) : Below fin Γ := h.of (grow_stmts Γ ss).shared (persist_stmts hw ss hs)

theorem Below.branches {up : FMap Str Md} {fin Γ : Env} {A : Around} {bs : Branches} (h : Below fin (afterBranches Γ bs)) (hw : Wf up Γ)
    (hs : BranchesOk Γ A bs) : Below fin Γ := h.of (grow_branches Γ bs).shared (persist_branches hw bs hs)

theorem Below.cases {up : FMap Str Md} {fin Γ : Env} {A : Around} {cs : Cases} (h : Below fin (afterCases Γ cs)) (hw : Wf up Γ)
    (hs : CasesOk Γ A cs) : Below fin Γ := h.of (grow_cases Γ cs).shared (persist_cases hw cs hs)

theorem Below.same {fin Γ Γ' : Env} (h : Below fin Γ') (hs : Γ.shared = Γ'.shared) (hc : Γ.callable = Γ'.callable) : Below fin Γ :=
  h.of (hs ▸ List.prefix_refl _) (.same hc.symm)

theorem Below.assign {fin Γ : Env} {v : VarRef} {e : Expr} (h : Below fin (afterAssign Γ v e)) : Below fin Γ :=
  h.of (Grow.assign Γ v e).shared (persist_assign _ _ _)

theorem Below.forVar {fin Γ : Env} {v : VarRef} {d : Bool} (h : Below fin (forVar Γ v d)) : Below fin Γ :=
  h.of (Grow.forVar Γ v d).shared (persist_forVar _ _ _)

/-! ## Types -/

theorem typeOf_wellTyped {up : FMap Str Md} {Γ : Env} (hw : Wf up Γ) : ∀ (e : Expr) {t : ExprType}, WellTyped Γ e t → typeOf Γ e = t
  | .bool .., _, h => by cases h; rfl
  | .dbl .., _, h => by cases h; rfl
  | .int .., _, h => by cases h; rfl
  | .text .., _, h => by cases h; rfl
  | .sym v _, _, h => by
    cases h with
    | var h => simp only [typeOf, h]; rfl
    | argless h1 h2 h3 _ _ =>
      simp only [typeOf, h1]
      cases hw (symKey v.name) with
      | none g1 => rw [g1] at h2; cases h2
      | builtin md _ g1 g2 => rw [g1] at h2; cases h2; simp [g2, Sig.ret, h3]
      | user name ps _ g1 g2 =>
        rw [g1] at h2; cases h2
        have h3' : name.ty = _ := h3
        simp [g2, Sig.ret, h3']
  | .un op e _, _, h => by
    cases h with
    | un h1 h2 => simp only [typeOf, typeOf_wellTyped hw e h1, h2, Option.getD_some]
  | .bin op l r _, _, h => by
    cases h with
    | bin h1 h2 h3 => simp only [typeOf, typeOf_wellTyped hw l h1, typeOf_wellTyped hw r h2, h3, Option.getD_some]
  | .call v _ args, _, h => by
    cases h with
    | call h2 h3 =>
      simp only [typeOf]
      cases hw (symKey v.name) with
      | none g1 => rw [g1] at h2; cases h2
      | builtin md _ g1 g2 => rw [g1] at h2; cases h2; simp [g2, Sig.ret, h3]
      | user name ps _ g1 g2 =>
        rw [g1] at h2; cases h2
        have h3' : name.ty = _ := h3
        simp [g2, Sig.ret, h3']
    | elem h1 h2 =>
      have hc : Γ.callable (symKey v.name) = none := by
        cases hw (symKey v.name) with
        | none _ h2 => exact h2
        | builtin md' _ g1 => rw [g1] at h1; cases h1
        | user name params _ g1 => rw [g1] at h1; cases h1
      simp only [typeOf, hc, h2]; rfl

end EB.Settle
