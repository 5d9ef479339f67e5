import Verif.Lemmas.TypingMain
import Verif.Spec.Typing
/-!
# The expressions of accepted programs have types, and their values have them
-/

namespace EB.Typing
open Spec Settle

section
variable {F : FloatOps} {n : Nat} {cl : Calls} {fin : Env} {L : Decls} {up : FMap Str Md}

/-- A value has the type of its expression. -/
theorem eval_type (hcl : CallsRight fin L cl) {L' : Decls} {Γ : Env} (hw : Wf up Γ) (hs : Seat fin L' Γ) :
    ∀ (e : Expr) {t : ExprType} {w w' : World} {v : Val}, WellTyped Γ e t → Right fin.shared L' w → eval F cl Γ e w = .ok v w' → v.ty = t
  | .bool .., _, _, _, _, ht, _, he => by cases ht; simp only [eval] at he; cases he; rfl
  | .dbl .., _, _, _, _, ht, _, he => by cases ht; simp only [eval] at he; cases he; rfl
  | .int .., _, _, _, _, ht, _, he => by cases ht; simp only [eval] at he; cases he; rfl
  | .text .., _, _, _, _, ht, _, he => by cases ht; simp only [eval] at he; cases he; rfl
  | .sym x pos, t, w, w', v, ht, hr, he => by
    cases ht with
    | var h1 =>
      simp only [eval, h1] at he
      next place =>
      cases hc : w.mem place with
      | none => rw [hc] at he; cases he
      | some c =>
        rw [hc] at he
        cases c with
        | arr => cases he
        | scalar y => cases he; exact hr place _ _ (hs.proto (nameRef_var h1)) hc
    | argless h1 h2 h3 h4 h5 =>
      simp only [eval, h1] at he
      cases hw (symKey x.name) with
      | none g1 => rw [g1] at h2; cases h2
      | builtin md _ g1 g2 =>
        rw [g1] at h2; cases h2
        rw [g2, h3] at he
        exact request_type he
      | user name ps _ g1 g2 =>
        rw [g1] at h2; cases h2
        have hps := declared_noArgs h5
        subst hps
        have h3' : name.ty = some t := h3
        rw [g2, h3'] at he
        simp only [List.map_nil] at he
        rw [h3'] at g2
        have := hcl.fn _ _ _ [] pos w (hs.users _ _ _ g2) rfl _ hr
        rw [he] at this
        exact this.1 t rfl
  | .un op e pos, _, w, w', v, ht, hr, he => by
    cases ht with
    | un h1 h2 =>
      simp only [eval] at he
      obtain ⟨x, w1, e1, e2⟩ := bind_ok he
      have := eval_type hcl hw hs e h1 hr e1
      subst this
      exact fine_ok (unVal_typed (F := F) (pos := pos) (w := w1) h2) e2
  | .bin op l r pos, _, w, w', v, ht, hr, he => by
    cases ht with
    | bin h1 h2 h3 =>
      simp only [eval] at he
      obtain ⟨x, w1, e1, e2⟩ := bind_ok he
      obtain ⟨y, w2, e3, e4⟩ := bind_ok e2
      have := eval_type hcl hw hs l h1 hr e1
      subst this
      have hr1 := eval_inv (F := F) hcl hs.users l w hr
      rw [e1] at hr1
      have := eval_type hcl hw hs r h2 hr1.2 e3
      subst this
      exact fine_ok (binVal_typed (F := F) (pos := pos) (w := w2) h3) e4
  | .call x pos args, t, w, w', v, ht, hr, he => by
    cases ht with
    | call h1 h2 h3 h4 h5 h6 =>
      simp only [eval] at he
      cases hw (symKey x.name) with
      | none g1 => rw [g1] at h1; cases h1
      | builtin md _ g1 g2 =>
        rw [g1] at h1; cases h1
        rw [g2, h2] at he
        simp only at he
        split at he
        · obtain ⟨as, w1, e1, e2⟩ := bind_ok he
          exact request_type e2
        · cases he
      | user name ps _ g1 g2 =>
        rw [g1] at h1; cases h1
        have h2' : name.ty = some t := h2
        rw [g2, h2'] at he
        simp only at he
        obtain ⟨vs, w1, e1, e2⟩ := bind_ok he
        have hargs := evalArgs_inv (F := F) hcl hs.users args (ps.map fun p => p.ty.getD .integer) w hr
        rw [e1] at hargs
        rw [h2'] at g2
        have := hcl.fn _ _ _ vs pos w1 (hs.users _ _ _ g2) hargs.1 _ hargs.2
        rw [e2] at this
        exact this.1 t rfl
    | elem h1 h2 h3 =>
      next place =>
      have hc : Γ.callable (symKey x.name) = none := by
        cases hw (symKey x.name) with
        | none _ h2 => exact h2
        | builtin md' _ g1 => rw [g1] at h1; cases h1
        | user name params _ g1 => rw [g1] at h1; cases h1
      simp only [eval, hc, h2] at he
      obtain ⟨subs, w1, e1, e2⟩ := bind_ok he
      have hr1 := evalSubs_inv (F := F) hcl hs.users args w hr
      rw [e1] at hr1
      cases hc : w1.mem place with
      | none => rw [hc] at e2; cases e2
      | some c =>
        rw [hc] at e2
        cases c with
        | scalar y => cases e2
        | arr ty dims elem =>
          simp only at e2
          split at e2
          · cases e2
          · cases e2
            exact (hr1.2 place _ _ (hs.proto (nameRef_var h2)) hc).2.2 _

/-! ## The expressions of a program -/

/-- An expression of the program, where it is evaluated. -/
structure ExprRight (up : FMap Str Md) (fin : Env) (Γ : Env) (e : Expr) : Prop where
  wf : Wf up Γ
  below : Settle.Below fin Γ
  typed : ∃ t, WellTyped Γ e t

theorem wf_assignEnv {Γ : Env} (h : Wf up Γ) (v : VarRef) : Wf up (assignEnv Γ v) := by
  unfold assignEnv
  split
  · exact h.addLocal _ _
  · exact h

theorem below_assignEnv {Γ : Env} (h : Settle.Below fin Γ) (v : VarRef) : Settle.Below fin (assignEnv Γ v) := by
  unfold assignEnv
  split
  · exact ⟨h.shared, h.user⟩
  · exact h

theorem assign_expr {Γ : Env} (hw : Wf up Γ) (hb : Settle.Below fin Γ) {v : VarRef} {e : Expr} (ho : AssignOk Γ v e) : ExprRight up fin (assignEnv Γ v) e := by
  refine ⟨wf_assignEnv hw v, below_assignEnv hb v, ?_⟩
  unfold AssignOk at ho
  unfold assignEnv
  cases hn : nameRef Γ.locals Γ.shared v with
  | var p q =>
    rw [hn] at ho
    rw [if_neg (by simp)]
    cases q with
    | scalar t => obtain ⟨t, h1, _⟩ := ho; exact ⟨t, h1⟩
    | array => exact ho.elim
  | wrongType => rw [hn] at ho; exact ho.elim
  | undefined =>
    rw [hn] at ho
    rw [if_pos rfl]
    cases hv : v.ty with
    | none => rw [hv] at ho; obtain ⟨t, h1⟩ := ho.2; exact ⟨t, h1⟩
    | some t => rw [hv] at ho; obtain ⟨t, h1, _⟩ := ho.2; exact ⟨t, h1⟩

theorem args_typed {Γ : Env} {rep : Option RepSyn} {m : Prop} : ∀ {syns : List SingSyn} {args : Args}, ArgsFit Γ rep m syns args →
    ∀ e ∈ argValues rep syns args, ∃ t, WellTyped Γ e t
  | _, _, .done, e, he => by simp [argValues] at he
  | _, _, .value h1 _ _ h4, e, he => by
    simp only [argValues, List.mem_cons] at he
    rcases he with rfl | he
    · exact ⟨_, h1⟩
    · exact args_typed h4 e he
  | _, _, .ref _ _ _ h4, e, he => by
    simp only [argValues] at he
    exact args_typed h4 e he
  | _, _, .optional h1 _ _ h4, e, he => by
    simp only [argValues, List.mem_cons] at he
    rcases he with rfl | he
    · exact ⟨_, h1⟩
    · exact args_typed h4 e he
  | _, _, .omitted _ h4, e, he => by
    simp only [argValues] at he
    exact args_typed h4 e he
  | _, _, .any h1 _ h4, e, he => by
    simp only [argValues, List.mem_cons] at he
    rcases he with rfl | he
    · exact ⟨_, h1⟩
    · exact args_typed h4 e he
  | _, _, .anyOmitted _ h4, e, he => by
    simp only [argValues] at he
    exact args_typed h4 e he
  | _, _, .more hrep hty h1 _ h4, e, he => by
    simp only [argValues] at he
    rw [if_neg (by simp [hrep, repIsRef, hty])] at he
    rcases List.mem_cons.1 he with rfl | he
    · exact ⟨_, h1⟩
    · exact args_typed h4 e he
  | _, _, .moreValue hrep hty h1 _ _ h4, e, he => by
    simp only [argValues] at he
    rw [if_neg (by simp [hrep, repIsRef, hty])] at he
    rcases List.mem_cons.1 he with rfl | he
    · exact ⟨_, h1⟩
    · exact args_typed h4 e he
  | _, _, .moreRef hrep hty _ _ h4, e, he => by
    simp only [argValues] at he
    rw [if_pos (by simp [hrep, repIsRef, hty])] at he
    exact args_typed h4 e he
  | _, _, .moreOmitted _ _ _ h4, e, he => by
    simp only [argValues] at he
    exact args_typed h4 e he

theorem guards_typed {Γ : Env} {t : ExprType} : ∀ {cs : Cases}, GuardsOk Γ t cs → ∀ e ∈ guardsExprs cs, ∃ t, WellTyped Γ e t
  | .nil, _, e, he => by simp [guardsExprs] at he
  | .cons gs _ rest, ho, e, he => by
    simp only [GuardsOk] at ho
    simp only [guardsExprs, List.mem_append, List.mem_flatMap] at he
    rcases he with ⟨g, hg, he⟩ | he
    · have := ho.1 g hg
      cases g with
      | is op e' =>
        simp only [guardExprs, List.mem_singleton] at he
        subst he
        obtain ⟨t', h, _⟩ := this
        exact ⟨t', h⟩
      | «to» lo hi =>
        simp only [guardExprs, List.mem_cons, List.not_mem_nil, or_false] at he
        obtain ⟨⟨t1, h1, _⟩, t2, h2, _⟩ := this
        rcases he with rfl | rfl
        · exact ⟨t1, h1⟩
        · exact ⟨t2, h2⟩
    · exact guards_typed ho.2 e he

mutual
theorem exprsStmt_right {A : Around} {Γ : Env} (s : Stmt) (hw : Wf up Γ) (hb : Settle.Below fin (afterStmt Γ s)) (ho : StmtOk Γ A s) :
    ∀ x ∈ exprsStmt Γ s, ExprRight up fin x.1 x.2 := by
  intro x hx
  have hb0 := hb.stmt hw ho
  match s with
  | .assign v pos e =>
    simp only [exprsStmt, List.mem_singleton] at hx
    subst hx
    exact assign_expr hw hb0 ho
  | .arrayAssign v pos subs e =>
    simp only [StmtOk] at ho
    obtain ⟨place, t, _, ⟨t', h1, _⟩, h2⟩ := ho
    simp only [exprsStmt, List.mem_map, List.mem_cons] at hx
    obtain ⟨e', he', rfl⟩ := hx
    refine ⟨hw, hb0, ?_⟩
    rcases he' with rfl | he'
    · exact ⟨t', h1⟩
    · obtain ⟨t'', h3, _⟩ := h2 e' he'
      exact ⟨t'', h3⟩
  | .call v pos args =>
    simp only [StmtOk] at ho
    obtain ⟨md, syn, h1, h2, h3, h4⟩ := ho
    simp only [exprsStmt, h1, Option.bind_some] at hx
    rw [(syntaxFor_iff _ _ _).2 h3] at hx
    simp only [List.mem_map] at hx
    obtain ⟨e', he', rfl⟩ := hx
    exact ⟨wf_stmt hw _, hb, args_typed h4 e' he'⟩
  | .callable name pos params body epos =>
    simp only [StmtOk] at ho
    simp only [afterStmt] at hb
    simp only [exprsStmt] at hx
    exact exprsStmts_right body ((hw.declare name params).body name params) ⟨hb.shared, hb.user⟩ ho.2.2.2 x hx
  | .dimArray name pos shared dims ty =>
    simp only [StmtOk] at ho
    simp only [exprsStmt, List.mem_map] at hx
    obtain ⟨e', he', rfl⟩ := hx
    obtain ⟨t, h1, _⟩ := ho.2.2.2 e' he'
    exact ⟨wf_stmt hw _, hb, t, h1⟩
  | .doLoop guard body =>
    simp only [StmtOk] at ho
    simp only [afterStmt] at hb
    simp only [exprsStmt, List.mem_append] at hx
    rcases hx with hx | hx
    · cases guard with
      | infinite => simp at hx
      | preWhile e | preUntil e =>
        simp only [List.mem_singleton] at hx
        subst hx
        exact ⟨hw, hb0, _, ho.1⟩
      | postWhile e | postUntil e =>
        simp only [List.mem_singleton] at hx
        subst hx
        exact ⟨wf_stmts hw body, hb, _, ho.1⟩
    · exact exprsStmts_right body hw hb ho.2 x hx
  | .end code pos =>
    simp only [StmtOk] at ho
    simp only [exprsStmt, List.mem_map, Option.mem_toList] at hx
    obtain ⟨e', he', rfl⟩ := hx
    obtain ⟨⟨t, h1, _⟩, _⟩ := ho e' he'
    exact ⟨hw, hb0, t, h1⟩
  | .forLoop iter pos double start stop next body =>
    simp only [StmtOk] at ho
    simp only [afterStmt] at hb
    have hw1 := hw.forVar iter double
    have hw2 := hw1.assign iter start
    have hb3 := hb.assign
    have hb2 := hb3.stmts hw2 ho.2.2.2.1
    simp only [exprsStmt, List.mem_cons] at hx
    rcases hx with rfl | rfl | rfl | hx
    · exact assign_expr hw1 hb2.assign ho.2.1
    · exact ⟨hw2, hb2, _, ho.2.2.1⟩
    · exact assign_expr (wf_stmts hw2 body) hb3 ho.2.2.2.2
    · exact exprsStmts_right body hw2 hb3 ho.2.2.2.1 x hx
  | .ifs branches =>
    simp only [StmtOk] at ho
    simp only [afterStmt] at hb
    simp only [exprsStmt] at hx
    exact exprsBranches_right branches hw hb ho x hx
  | .select e cases pos =>
    simp only [StmtOk] at ho
    simp only [afterStmt] at hb
    simp only [exprsStmt, List.mem_append, List.mem_map, List.mem_cons] at hx
    obtain ⟨⟨t, h1, h2⟩, h3⟩ := ho
    rcases hx with ⟨e', he', rfl⟩ | hx
    · refine ⟨hw, hb0, ?_⟩
      rcases he' with rfl | he'
      · exact ⟨t, h1⟩
      · exact guards_typed h2 e' he'
    · exact exprsCases_right cases hw hb h3 x hx
  | .whileLoop e body =>
    simp only [StmtOk] at ho
    simp only [afterStmt] at hb
    simp only [exprsStmt, List.mem_cons] at hx
    rcases hx with rfl | hx
    · exact ⟨hw, hb0, _, ho.1⟩
    · exact exprsStmts_right body hw hb ho.2 x hx
  | .data .. | .declare .. | .dim .. | .exitDo .. | .exitFor .. | .exitFunction .. | .exitSub .. | .gosub .. | .goto .. | .label ..
  | .onError .. | .ret .. => simp [exprsStmt] at hx
termination_by structural s

theorem exprsStmts_right {A : Around} {Γ : Env} (ss : Stmts) (hw : Wf up Γ) (hb : Settle.Below fin (afterStmts Γ ss)) (ho : StmtsOk Γ A ss) :
    ∀ x ∈ exprsStmts Γ ss, ExprRight up fin x.1 x.2 := by
  intro x hx
  match ss with
  | .nil => simp [exprsStmts] at hx
  | .cons s rest =>
    simp only [exprsStmts, List.mem_append] at hx
    simp only [afterStmts] at hb
    simp only [StmtsOk] at ho
    have hw1 := wf_stmt hw s
    rcases hx with hx | hx
    · exact exprsStmt_right s hw (hb.stmts hw1 ho.2) ho.1 x hx
    · exact exprsStmts_right rest hw1 hb ho.2 x hx
termination_by structural ss

theorem exprsBranches_right {A : Around} {Γ : Env} (bs : Branches) (hw : Wf up Γ) (hb : Settle.Below fin (afterBranches Γ bs)) (ho : BranchesOk Γ A bs) :
    ∀ x ∈ exprsBranches Γ bs, ExprRight up fin x.1 x.2 := by
  intro x hx
  have hb0 := hb.branches hw ho
  match bs with
  | .nil => simp [exprsBranches] at hx
  | .cons guard body rest =>
    simp only [exprsBranches, List.mem_cons, List.mem_append] at hx
    simp only [afterBranches] at hb
    simp only [BranchesOk] at ho
    have hw1 := wf_stmts hw body
    rcases hx with rfl | hx | hx
    · exact ⟨hw, hb0, _, ho.1⟩
    · exact exprsStmts_right body hw (hb.branches hw1 ho.2.2) ho.2.1 x hx
    · exact exprsBranches_right rest hw1 hb ho.2.2 x hx
termination_by structural bs

theorem exprsCases_right {A : Around} {Γ : Env} (cs : Cases) (hw : Wf up Γ) (hb : Settle.Below fin (afterCases Γ cs)) (ho : CasesOk Γ A cs) :
    ∀ x ∈ exprsCases Γ cs, ExprRight up fin x.1 x.2 := by
  intro x hx
  match cs with
  | .nil => simp [exprsCases] at hx
  | .cons gs body rest =>
    simp only [exprsCases, List.mem_append] at hx
    simp only [afterCases] at hb
    simp only [CasesOk] at ho
    have hw1 := wf_stmts hw body
    rcases hx with hx | hx
    · exact exprsStmts_right body hw (hb.cases hw1 ho.2) ho.1 x hx
    · exact exprsCases_right rest hw1 hb ho.2 x hx
termination_by structural cs
end

end

end EB.Typing

namespace EB.Typing
open Spec Settle

section
variable {F : FloatOps} {up : FMap Str Md}

/-- The calls of an accepted program keep the types. -/
theorem program_calls (hup : ∀ k md, up.get? k = some md → md.userDefined = false) {ss : Stmts} (hv : ValidPart (.start up []) ss) (n d : Nat) (lib : Lib) :
    CallsRight (afterStmts (builtins up) ss) (afterStmts (builtins up) ss).locals (callsOf F n d lib (builtins up) ss) := by
  obtain ⟨h1, _, _, _⟩ := hv
  have h1 : StmtsOk (builtins up) ⟨false, false, none⟩ ss := h1
  have hb : Settle.Below (afterStmts (builtins up) ss) (afterStmts (builtins up) ss) := ⟨List.prefix_refl _, fun _ _ _ h => h⟩
  exact calls_inv (up := up) (fun k f hf => defsStmts_right ss (.start hup) hb h1 k f (findDef_mem hf)) d false (.start hup) hb h1

/-- A run of an accepted program keeps the types. -/
theorem program_right (hup : ∀ k md, up.get? k = some md → md.userDefined = false) {ss : Stmts} (hv : ValidPart (.start up []) ss) (n d : Nat) (lib : Lib) (w : World)
    (hr : Right (afterStmts (builtins up) ss).shared (afterStmts (builtins up) ss).locals w) :
    RRight (afterStmts (builtins up) ss).shared (afterStmts (builtins up) ss).locals (run F n d lib (builtins up) ss w) := by
  have hb : Settle.Below (afterStmts (builtins up) ss) (afterStmts (builtins up) ss) := ⟨List.prefix_refl _, fun _ _ _ h => h⟩
  exact unit_inv (program_calls hup hv n d lib) (up := up) (.start hup) ⟨hb, List.prefix_refl _⟩ hv.1 none hr

/-- The expressions of an accepted program. -/
theorem program_exprs (hup : ∀ k md, up.get? k = some md → md.userDefined = false) {ss : Stmts} (hv : ValidPart (.start up []) ss) :
    ∀ x ∈ exprsStmts (builtins up) ss, ExprRight up (afterStmts (builtins up) ss) x.1 x.2 :=
  exprsStmts_right ss (.start hup) ⟨List.prefix_refl _, fun _ _ _ h => h⟩ hv.1

end

/-- The two ways to say that the variables have their types. -/
theorem right_iff {Γ : Env} {w : World} : RightTypes Γ w ↔ Right Γ.shared Γ.locals w :=
  ⟨fun h p q c hp hc => h p q c (by cases p <;> exact hp) hc, fun h p q c hp hc => h p q c (by cases p <;> exact hp) hc⟩

end EB.Typing
