import Verif.Lemmas.ValidStmt
/-!
# What the compiler accepts: loops, branches and callables
-/

namespace EB
open Spec

section
variable {L D : Str → Prop}

/-! ## `SELECT` -/

theorem caseRelop_judged (pos : LineCol) (test : Reg) (tt : ExprType) (rhs : Reg) (rt : ExprType) (op : CaseRelOp) (dest : Reg) (g : Codegen) :
    Judged (compileCaseRelop pos test tt rhs rt op dest g) (Comparable op tt rt) fun _ g' => Comparable op tt rt ∧ Adds L D g g' True := by
  cases tt <;> cases rt <;> cases op <;> first
    | exact ⟨by simp [Comparable], .push _ _ _⟩
    | exact ⟨by simp [Comparable], (Adds.trans (.push _ _ _) (.push _ _ _)).imp (by simp)⟩
    | exact .inr (by simp [Comparable])

theorem compared_judged {sy : Syms} {Γ : Env} (hs : Scope sy Γ) (e : Expr) (nt : Nat) (reg : Reg) (pos : LineCol) (test : Reg) (tt : ExprType)
    (op : CaseRelOp) (dest : Reg) (g : Codegen) {β : Type} {f : Unit → CG β} {g0 : Codegen} {R Q : Prop} {P : β → Codegen → Prop}
    (hq : Q → ∃ t, WellTyped Γ e t ∧ Comparable op tt t) (hA : Adds L D g0 g R)
    (h : ∀ g', (∃ t, WellTyped Γ e t ∧ Comparable op tt t) → Adds L D g0 g' (R ∧ CallsDefined D Γ e) → Judged (f () g') Q P) :
    Judged ((compileExpr sy e nt reg >>= fun t => compileCaseRelop pos test tt reg t op dest >>= f) g) Q P := by
  refine (expr_judged (L := L) (D := D) hs e nt reg g).part (fun hQ => (hq hQ).imp fun _ h => h.1) hA fun t g1 hty h1 => ?_
  refine (caseRelop_judged (L := L) (D := D) pos test tt reg t op dest g1).part ?_ h1 fun _ g2 hc h2 => ?_
  · intro hQ
    obtain ⟨t', h3, h4⟩ := hq hQ
    rw [(hty _).1 h3] at h4; exact h4
  · exact h g2 ⟨t, (hty _).2 rfl, hc⟩ (h2.imp (by simp))

theorem guard_judged {sy : Syms} {Γ : Env} (hs : Scope sy Γ) (nt : Nat) (test : Reg) (tt : ExprType) (gd : CaseGuard) (g : Codegen) :
    Judged (compileGuard sy nt test tt gd g) (GuardOk Γ tt gd) fun _ g' => GuardOk Γ tt gd ∧ Adds L D g g' (GuardDefined D Γ gd) := by
  have h0 : Adds L D g g True := .refl g
  cases gd with
  | is op e =>
    simp only [compileGuard, GuardOk, GuardDefined]
    refine (Free.allocTemp _ _ _).step h0 fun lhs g1 _ h1 => ?_
    refine (Free.allocTemp _ _ _).step h1 fun rhs g2 _ h2 => ?_
    refine (Free.allocTemp _ _ _).step h2 fun cond g3 _ h3 => ?_
    refine (Free.emit _ _).step h3 fun _ g4 _ h4 => ?_
    refine compared_judged hs e (nt + 3) rhs _ _ tt op cond g4 id h4 fun g5 hc h5 => ?_
    exact ⟨hc, h5.imp (by simp)⟩
  | «to» lo hi =>
    simp only [compileGuard, GuardOk, GuardDefined]
    refine (Free.allocTemp _ _ _).step h0 fun _ g1 _ h1 => ?_
    refine (Free.allocTemp _ _ _).step h1 fun _ g2 _ h2 => ?_
    refine (Free.allocTemp _ _ _).step h2 fun _ g3 _ h3 => ?_
    refine (Free.allocTemp _ _ _).step h3 fun _ g4 _ h4 => ?_
    refine (Free.allocTemp _ _ _).step h4 fun _ g5 _ h5 => ?_
    refine (Free.allocTemp _ _ _).step h5 fun _ g6 _ h6 => ?_
    refine (Free.allocTemp _ _ _).step h6 fun _ g7 _ h7 => ?_
    refine (Free.emit _ _).step h7 fun _ g8 _ h8 => ?_
    refine compared_judged hs lo (nt + 7) _ _ _ tt .ge _ g8 (·.1) h8 fun g9 hc h9 => ?_
    refine (Free.emit _ _).step h9 fun _ g10 _ h10 => ?_
    refine compared_judged hs hi (nt + 7) _ _ _ tt .le _ g10 (·.2) h10 fun g11 hc2 h11 => ?_
    refine (Free.emit _ _).step h11 fun _ g12 _ h12 => ?_
    exact ⟨⟨hc, hc2⟩, h12.imp (by simp)⟩

theorem guards_judged (test : Reg) (tt : ExprType) {S : Spot} : ∀ (gs : List CaseGuard) {c : Ctx}, Here c S →
    Judged (compileGuards test tt gs c) (∀ g ∈ gs, GuardOk S.env tt g)
      fun _ c' => (∀ g ∈ gs, GuardOk S.env tt g) ∧ Here c' S ∧ Fixes L D c.cg c'.cg (∀ g ∈ gs, GuardDefined D S.env g)
  | [], c, H => ⟨by simp, H, (Fixes.refl _).imp (by simp)⟩
  | gd :: gs, c, H => by
    simp only [compileGuards, List.forall_mem_cons]
    refine (Judged.withSyms (P := fun _ => GuardOk S.env tt gd) (guard_judged (L := L) (D := D) H.scope 1 test tt gd c.cg)).stepS (·.1) H
      (Fixes.refl _) fun r c1 h1 H1 F1 => ?_
    obtain ⟨cond, pos⟩ := r
    simp only
    refine (FreeS.emit _ _).step H1 F1 fun next c2 H2 F2 => ?_
    refine (FreeS.emit _ _).step H2 F2 fun body c3 H3 F3 => ?_
    refine FreeS.pcNow.step H3 F3 fun here c4 H4 F4 => ?_
    refine (FreeS.patchJumpIfFalse _ _ _ _).step H4 F4 fun _ c5 H5 F5 => ?_
    refine (guards_judged test tt gs H5).stepTo (·.2) F5 fun _ c6 h6 H6 F6 => ?_
    exact ⟨⟨h1, h6⟩, H6, F6.imp (by simp)⟩

/-- How many cases there are. -/
def caseLen : Cases → Nat
  | .nil => 0
  | .cons _ _ rest => caseLen rest + 1

theorem dispatch_judged (test : Reg) (tt : ExprType) (endPos : LineCol) {S : Spot} (cs : Cases) (pending : Option Nat) {c : Ctx} (H : Here c S) :
    Judged (compileDispatch test tt endPos cs pending c) (GuardsOk S.env tt cs)
      fun r c' => (GuardsOk S.env tt cs ∧ r.1.length = caseLen cs) ∧ Here c' S ∧ Fixes L D c.cg c'.cg (GuardsDefined D S.env cs) := by
  match cs with
  | .nil => exact ⟨⟨trivial, rfl⟩, H, Fixes.refl _⟩
  | .cons guards body rest =>
    simp only [compileDispatch, GuardsOk, GuardsDefined, caseLen]
    refine FreeS.pcNow.step H (Fixes.refl (L := L) (D := D) _) fun here c1 H1 F1 => ?_
    have key : ∀ {c2 : Ctx}, Here c2 S → Fixes L D c.cg c2.cg True → Judged ((match guards with
        | [] => do
          let body ← onCg (emit .nop endPos)
          let (jumps, pending') ← compileDispatch test tt endPos rest none
          pure ([(body, endPos)] :: jumps, pending')
        | guards => do
          let body ← compileGuards test tt guards
          let next ← onCg (emit .nop endPos)
          let (jumps, pending') ← compileDispatch test tt endPos rest (some next)
          pure (body :: jumps, pending') : CS (List (List (Nat × LineCol)) × Option Nat)) c2)
        ((∀ g ∈ guards, GuardOk S.env tt g) ∧ GuardsOk S.env tt rest)
        fun r c' => (((∀ g ∈ guards, GuardOk S.env tt g) ∧ GuardsOk S.env tt rest) ∧ r.1.length = caseLen rest + 1) ∧ Here c' S ∧
          Fixes L D c.cg c'.cg ((∀ g ∈ guards, GuardDefined D S.env g) ∧ GuardsDefined D S.env rest) := by
      intro c2 H2 F2
      cases guards with
      | nil =>
        refine (FreeS.emit _ _).step H2 F2 fun next c3 H3 F3 => ?_
        refine (dispatch_judged test tt endPos rest none H3).stepTo (·.2) F3 fun r c4 h4 H4 F4 => ?_
        obtain ⟨jumps, p⟩ := r
        exact ⟨⟨⟨by simp, h4.1⟩, by simp only [List.length_cons]; rw [h4.2]⟩, H4, F4.imp (by simp)⟩
      | cons gd gs =>
        refine (guards_judged test tt (gd :: gs) H2).stepTo (·.1) F2 fun body c3 h3 H3 F3 => ?_
        refine (FreeS.emit _ _).step H3 F3 fun next c4 H4 F4 => ?_
        refine (dispatch_judged test tt endPos rest (some next) H4).stepTo (·.2) F4 fun r c5 h5 H5 F5 => ?_
        obtain ⟨jumps, p⟩ := r
        exact ⟨⟨⟨h3, h5.1⟩, by simp only [List.length_cons]; rw [h5.2]⟩, H5, F5.imp (by simp)⟩
    cases pending with
    | none => exact key H1 F1
    | some p =>
      refine (FreeS.patchJump _ _ _).step H1 F1 fun _ c2 H2 F2 => ?_
      exact key H2 F2
termination_by structural cs

/-! ## Callables -/

theorem position_nodup {k : Str} {p : Proto} {ds ds' : Decls} (h : ((ds ++ (k, p) :: ds').map (·.1)).Nodup) : Spec.position k ds = none := by
  rw [declPos_none]
  intro d hd he
  rw [List.map_append, List.nodup_append] at h
  exact h.2.2 d.1 (List.mem_map_of_mem hd) k (by simp) he

theorem putParams_judged (pos : LineCol) : ∀ (ps : List VarRef) {c : Ctx} {S : Spot}, Here c S →
    Judged (putParams pos ps c) (((S.env.locals ++ ps.map fun p => (symKey p.name, Proto.scalar (p.ty.getD .integer))).map (·.1)).Nodup)
      fun _ c' => Here c' { S with env := { S.env with locals := S.env.locals ++ ps.map fun p => (symKey p.name, .scalar (p.ty.getD .integer)) } } ∧
        Fixes L D c.cg c'.cg True
  | [], c, S, H => ⟨by simpa using H, .refl _⟩
  | p :: ps, c, S, H => by
    unfold putParams
    refine (putLocal_judged (L := L) (D := D) H.scope (symKey p.name) (.scalar (p.ty.getD .integer)) pos).bind
      (fun h => position_nodup (p := .scalar (p.ty.getD .integer)) (ds' := ps.map fun p => (symKey p.name, Proto.scalar (p.ty.getD .integer))) (by simpa using h)) fun _ c1 _ ⟨_, h2, _, h4⟩ => ?_
    refine (putParams_judged pos ps (H.near h2 h4)).mono (fun h => by simpa [Env.addLocal] using h) fun _ c2 _ ⟨h5, h6⟩ => ?_
    exact ⟨by simpa [Env.addLocal] using h5, (h2.adds.fixes.trans h6).imp (by simp)⟩

/-- The kind of callable with that name. -/
def kindOf (name : VarRef) : CallableKind := if name.ty.isSome then .function else .sub

theorem prolog_judged {c : Ctx} {S : Spot} (H : Here c S) (name : VarRef) (pos : LineCol) (params : List VarRef) :
    Judged (callableProlog name pos params c) (((S.env.body name params).locals.map (·.1)).Nodup)
      fun _ c' => ((S.env.body name params).locals.map (·.1)).Nodup ∧
        Here c' { S with env := S.env.body name params, inside := some (kindOf name) } ∧ Fixes L D c.cg c'.cg True := by
  unfold callableProlog
  refine (FreeS.emit _ _).step H (Fixes.refl (L := L) (D := D) _) fun skip c1 H1 F1 => ?_
  refine FreeS.pcNow.step H1 F1 fun start c2 H2 F2 => ?_
  have H3 : Here (enterScope name c2) { S with env := { S.env with locals := [] }, inside := some (kindOf name) } :=
    ⟨IdMap.wf_empty, H2.scope.inner, H2.user, H2.dos, H2.fors, rfl, H2.labels, H2.defined, H2.callables, H2.onceLabels, H2.onceBodies⟩
  have F3 : Fixes L D c.cg (enterScope name c2).cg True := F2
  show Judged ((prologBody name pos params >>= fun _ => Pure.pure (skip, start)) (enterScope name c2)) _ _
  have key : Judged (prologBody name pos params (enterScope name c2)) (((S.env.body name params).locals.map (·.1)).Nodup)
      fun _ c' => True ∧ Here c' { S with env := S.env.body name params, inside := some (kindOf name) } ∧ Fixes L D (enterScope name c2).cg c'.cg True := by
    unfold prologBody Env.body
    cases ht : name.ty with
    | none =>
      simp only
      refine (putParams_judged (L := L) (D := D) pos params H3).mono (fun h => by simpa using h) fun _ c4 _ ⟨h5, h6⟩ => ?_
      exact ⟨trivial, by simpa using h5, h6⟩
    | some t =>
      simp only
      refine (putLocal_judged (L := L) (D := D) H3.scope (symKey name.name) (.scalar t) pos).bind
        (fun _ => rfl) fun r c4 _ ⟨_, h2, _, h4⟩ => ?_
      have H4 := H3.near h2 h4
      have F4 : Fixes L D (enterScope name c2).cg c4.cg True := h2.adds.fixes
      have fin : ∀ {c5 : Ctx} {value : U16}, Here c5 { S with env := { S.env with locals := [] }.addLocal (symKey name.name) (.scalar t), inside := some (kindOf name) } →
          Fixes L D (enterScope name c2).cg c5.cg True → Judged ((do
            let _ ← onCg (emit (.loadInt r value) pos)
            putParams pos params : CS Unit) c5) ((([(symKey name.name, Proto.scalar t)] ++ params.map fun p => (symKey p.name, Proto.scalar (p.ty.getD .integer))).map (·.1)).Nodup)
          fun _ c' => True ∧ Here c' { S with env := { S.env with locals := [(symKey name.name, Proto.scalar t)] ++ params.map fun p => (symKey p.name, Proto.scalar (p.ty.getD .integer)) }, inside := some (kindOf name) } ∧
            Fixes L D (enterScope name c2).cg c'.cg True := by
        intro c5 value H5 F5
        refine (FreeS.emit _ _).step H5 F5 fun _ c6 H6 F6 => ?_
        refine (putParams_judged (L := L) (D := D) pos params H6).mono (fun h => by simpa [Env.addLocal] using h) fun _ c4 _ ⟨h5, h6⟩ => ?_
        exact ⟨trivial, by simpa [Env.addLocal] using h5, (F6.trans h6).imp (by simp)⟩
      cases t with
      | boolean => exact fin H4 F4
      | integer => exact fin H4 F4
      | double =>
        refine (FreeS.onCg (Free.getConstant _ _)).step H4 F4 fun value c5 H5 F5 => ?_
        exact fin H5 F5
      | text =>
        refine (FreeS.onCg (Free.getConstant _ _)).step H4 F4 fun value c5 H5 F5 => ?_
        exact fin H5 F5
  refine key.stepTo id F3 fun _ c4 _ H4 F4 => ?_
  exact ⟨H4.scope.syms.locals.once, H4, F4.imp (by simp)⟩

theorem epilog_judged {c c0 : Ctx} {S : Spot} {Γ0 : Env} {k0 : Option CallableKind} (H : Here c { S with inside := k0 }) (hw : c0.sy.locals.Wf)
    (hs0 : Scope c0.sy Γ0) (hin : S.inside = none) (key : Str) (hkey : key ∉ S.bodies)
    (skip start : Nat) (endPos : LineCol) (Q : Prop) :
    Judged (callableEpilog key skip start endPos c0.sy.locals c) Q
      fun _ c' => Here c' { S with env := { S.env with locals := Γ0.locals }, bodies := S.bodies ++ [key] } ∧ Fixes L D c.cg c'.cg True := by
  unfold callableEpilog
  refine (FreeS.emit _ _).step H (Fixes.refl (L := L) (D := D) _) fun ret c1 H1 F1 => ?_
  show Judged ((patchJumps ret c1.calExits >>= fun _ => _) c1) _ _
  refine (FreeS.patchJumps _ _).step H1 F1 fun _ c2 H2 F2 => ?_
  refine FreeS.pcNow.step H2 F2 fun stop c3 H3 F3 => ?_
  show Judged ((patchJump skip stop endPos >>= fun _ => _) { c3 with calExits := [], cur := none, cg := c3.cg.defineCallable key start stop }) _ _
  have hp := FreeS.patchJump (L := L) (D := D) skip stop endPos { c3 with calExits := [], cur := none, cg := c3.cg.defineCallable key start stop }
  cases hx : patchJump skip stop endPos { c3 with calExits := [], cur := none, cg := c3.cg.defineCallable key start stop } with
  | error e => rw [hx] at hp; rw [bind_of_error hx]; exact .inl hp
  | ok r =>
    obtain ⟨u, c4⟩ := r
    rw [hx] at hp
    rw [bind_of_ok hx]
    obtain ⟨⟨n1, n2, n3, n4, n5, n6, n7⟩, n8⟩ := hp
    refine ⟨⟨hw, ?_, ?_, n3.trans H3.dos, n4.trans H3.fors, n5.trans hin.symm, ?_, ?_, ?_, H3.onceLabels, ?_⟩, ?_⟩
    · show Scope { c4.sy with locals := c0.sy.locals } _
      rw [n8]
      exact hs0.outer H3.scope
    · intro k md hk
      replace hk : c4.sy.user.get? k = some md := hk
      rw [n8] at hk
      exact H3.user k md hk
    · intro k
      show (∃ a, c4.cg.labels.get? k = some a) ↔ _
      rw [n7.labels]
      exact H3.labels k
    · intro k
      show k ∈ key :: c4.defined ↔ _
      rw [n6]
      have := H3.defined k
      simp only [List.mem_cons, List.mem_append, List.mem_nil_iff, or_false]
      rw [this]
      exact or_comm
    · intro k
      show (∃ a, c4.cg.callables.get? k = some a) ↔ _
      rw [n7.callables]
      show (∃ a, FMap.get? (c3.cg.callables.insert key (start, stop)) k = some a) ↔ _
      rw [FMap.get?_insert]
      by_cases hk : k = key
      · rw [if_pos hk]; simp [hk]
      · rw [if_neg hk, H3.callables]; simp [hk]
    · exact List.nodup_append.2 ⟨H3.onceBodies, by simp, fun a ha b hb => by simp at hb; subst hb; exact fun h => hkey (h ▸ ha)⟩
    · refine ((F3.trans (Fixes.same (L := L) (D := D) (g' := c3.cg.defineCallable key start stop) rfl (Nat.le_refl _))).trans n7.fixes).imp (by simp)

/-! ## Statements -/

mutual
theorem inside_stmt {Γ : Env} {A : Around} (hA : A.inside ≠ none) (s : Stmt) (h : StmtOk Γ A s) : bodiesStmt s = [] := by
  match s with
  | .callable .. => simp only [StmtOk] at h; exact absurd h.2.1 hA
  | .doLoop _ body => simp only [StmtOk] at h; exact inside_stmts (A := { A with inDo := true }) hA body h.2
  | .forLoop _ _ _ _ _ _ body => simp only [StmtOk] at h; exact inside_stmts (A := { A with inFor := true }) hA body h.2.2.2.1
  | .whileLoop _ body => simp only [StmtOk] at h; exact inside_stmts hA body h.2
  | .ifs bs => simp only [StmtOk] at h; exact inside_branches hA bs h
  | .select _ cs _ => simp only [StmtOk] at h; exact inside_cases hA cs h.2
  | .assign .. | .call .. | .declare .. | .dim .. | .dimArray .. | .arrayAssign .. | .data .. | .end .. | .exitDo ..
  | .exitFor .. | .exitFunction .. | .exitSub .. | .gosub .. | .goto .. | .label .. | .onError .. | .ret .. => rfl
termination_by structural s

theorem inside_stmts {Γ : Env} {A : Around} (hA : A.inside ≠ none) (ss : Stmts) (h : StmtsOk Γ A ss) : bodiesStmts ss = [] := by
  match ss with
  | .nil => rfl
  | .cons s rest =>
    simp only [StmtsOk] at h
    simp only [bodiesStmts]
    rw [inside_stmt hA s h.1, inside_stmts hA rest h.2]; rfl
termination_by structural ss

theorem inside_branches {Γ : Env} {A : Around} (hA : A.inside ≠ none) (bs : Branches) (h : BranchesOk Γ A bs) : bodiesBranches bs = [] := by
  match bs with
  | .nil => rfl
  | .cons _ body rest =>
    simp only [BranchesOk] at h
    simp only [bodiesBranches]
    rw [inside_stmts hA body h.2.1, inside_branches hA rest h.2.2]; rfl
termination_by structural bs

theorem inside_cases {Γ : Env} {A : Around} (hA : A.inside ≠ none) (cs : Cases) (h : CasesOk Γ A cs) : bodiesCases cs = [] := by
  match cs with
  | .nil => rfl
  | .cons _ body rest =>
    simp only [CasesOk] at h
    simp only [bodiesCases]
    rw [inside_stmts hA body h.1, inside_cases hA rest h.2]; rfl
termination_by structural cs
end

/-- No label and no callable twice. -/
def Clean (S : Spot) (l b : List Str) : Prop := (S.labels ++ l).Nodup ∧ (S.bodies ++ b).Nodup

theorem Clean.left {S : Spot} {l l' b b' : List Str} (h : Clean S (l ++ l') (b ++ b')) : Clean S l b := by
  unfold Clean at h ⊢
  rw [← List.append_assoc, ← List.append_assoc] at h
  exact ⟨(List.nodup_append.1 h.1).1, (List.nodup_append.1 h.2).1⟩

theorem Clean.right {S T : Spot} {l l' b b' : List Str} (h : Clean S (l ++ l') (b ++ b')) (hl : T.labels = S.labels ++ l) (hb : T.bodies = S.bodies ++ b) :
    Clean T l' b' := by
  unfold Clean at h ⊢
  rw [← List.append_assoc, ← List.append_assoc] at h
  rw [hl, hb]
  exact h

theorem Here.clean {c : Ctx} {S : Spot} (H : Here c S) : Clean S [] [] := by
  unfold Clean
  simpa using ⟨H.onceLabels, H.onceBodies⟩

theorem Spot.stmt_plain {S : Spot} {s : Stmt} (h1 : labelsStmt s = []) (h2 : bodiesStmt s = []) : S.stmt s = { S with env := afterStmt S.env s } := by
  unfold Spot.stmt
  rw [h1, h2]; simp

/-- The judgement about a statement without parts. -/
theorem plain {c : Ctx} {S : Spot} {s : Stmt} {x : Except CErr (Unit × Ctx)} (h1 : labelsStmt s = []) (h2 : bodiesStmt s = [])
    (h : Judged x (StmtOk S.env S.around s) fun _ c' => StmtOk S.env S.around s ∧ Here c' { S with env := afterStmt S.env s } ∧
      Fixes L D c.cg c'.cg (StmtResolved L D S.env s)) :
    Judged x (StmtOk S.env S.around s ∧ Clean S (labelsStmt s) (bodiesStmt s)) fun _ c' => StmtOk S.env S.around s ∧ Here c' (S.stmt s) ∧
      Fixes L D c.cg c'.cg (StmtResolved L D S.env s) := by
  rw [Spot.stmt_plain h1 h2]
  exact h.mono (·.1) fun _ _ _ h => h

/-- … that changes only the code. -/
theorem plainCode {c : Ctx} {S : Spot} {s : Stmt} {x : Except CErr (Unit × Ctx)} (H : Here c S) (h1 : labelsStmt s = []) (h2 : bodiesStmt s = [])
    (h3 : afterStmt S.env s = S.env)
    (h : Judged x (StmtOk S.env S.around s) fun _ c' => StmtOk S.env S.around s ∧ Still L D c c' (StmtResolved L D S.env s)) :
    Judged x (StmtOk S.env S.around s ∧ Clean S (labelsStmt s) (bodiesStmt s)) fun _ c' => StmtOk S.env S.around s ∧ Here c' (S.stmt s) ∧
      Fixes L D c.cg c'.cg (StmtResolved L D S.env s) :=
  plain h1 h2 (h.mono id fun _ _ _ ⟨h4, h5⟩ => ⟨h4, by rw [h3]; exact H.still h5, h5.near.adds.fixes⟩)

theorem FreeS.judged {α : Type} {x : CS α} (hx : FreeS L D x) (c : Ctx) {Q : Prop} {R : Prop} (hR : R) : Judged (x c) Q fun _ c' => True ∧ Still L D c c' R := by
  have h1 := hx c
  cases h : x c with
  | error e => rw [h] at h1; exact .inl h1
  | ok r => rw [h] at h1; exact ⟨trivial, h1.imp ⟨fun _ => hR, fun _ => trivial⟩⟩

theorem Spot.body_do (S : Spot) : ({ S with dos := S.dos + 1 } : Spot).around = { S.around with inDo := true } := by
  simp [Spot.around]

theorem Spot.body_for (S : Spot) : ({ S with fors := S.fors + 1 } : Spot).around = { S.around with inFor := true } := by
  simp [Spot.around]

mutual
theorem stmt_judged (s : Stmt) {c : Ctx} {S : Spot} (H : Here c S) :
    Judged (compileStmtBody s c) (StmtOk S.env S.around s ∧ Clean S (labelsStmt s) (bodiesStmt s))
      fun _ c' => StmtOk S.env S.around s ∧ Here c' (S.stmt s) ∧ Fixes L D c.cg c'.cg (StmtResolved L D S.env s) := by
  have F : Fixes L D c.cg c.cg True := .refl _
  match s with
  | .assign v pos e => exact plain rfl rfl (assign_here H v pos e)
  | .arrayAssign v pos subs e => exact plainCode H rfl rfl rfl (arrayAssign_judged H v pos subs e)
  | .call v pos args => exact plain rfl rfl (callStmt_judged H v pos args)
  | .callable name pos params body endPos =>
    simp only [compileStmtBody, StmtOk, labelsStmt, bodiesStmt, StmtResolved]
    refine (declare_judged H name pos params).stepTo (·.1.1) F fun _ c1 h1 H1 F1 => ?_
    show Judged ((if c1.defined.contains (symKey name.name) then CM.throw (.alreadyDefined pos name) else _ : CS Unit) c1) _ _
    by_cases hd : c1.defined.contains (symKey name.name) = true
    · rw [if_pos hd]
      refine .throw fun hq => ?_
      have hm := (H1.defined _).1 (List.contains_iff_mem.1 hd)
      exact (List.nodup_append.1 hq.2.2).2.2 _ hm _ (by simp) rfl
    · rw [if_neg hd]
      have hkey : symKey name.name ∉ S.bodies := fun hm => hd (List.contains_iff_mem.2 ((H1.defined _).2 hm))
      have hcur : c1.cur = S.inside := H1.inside
      by_cases hc : c1.cur.isSome = true
      · rw [if_pos hc]
        refine .throw fun hq => ?_
        have : S.inside = none := hq.1.2.1
        rw [hcur, this] at hc; cases hc
      · rw [if_neg hc]
        have hin : S.inside = none := by rw [← hcur]; simpa using hc
        refine (prolog_judged H1 name pos params).stepTo (·.1.2.2.1) F1 fun r c2 h2 H2 F2 => ?_
        obtain ⟨skip, start⟩ := r
        simp only
        refine (stmts_judged body H2).stepTo ?_ F2 fun _ c3 h3 H3 F3 => ?_
        · rintro ⟨⟨_, _, _, q1⟩, q2⟩
          refine ⟨q1, ?_⟩
          have q2' : Clean S (labelsStmts body ++ []) (bodiesStmts body ++ [symKey name.name]) := by simpa using q2
          exact q2'.left
        · have hb : bodiesStmts body = [] := inside_stmts (by simp [Spot.around]) body h3
          refine (epilog_judged (S := { S.stmt (.callable name pos params body endPos) with
              env := afterStmts ((S.env.declare name params).body name params) body, bodies := S.bodies })
            (k0 := some (kindOf name)) (L := L) (D := D) ?_ H1.wf H1.scope hin (symKey name.name) hkey skip start endPos _).mono id
            fun _ c4 _ ⟨H4, F4⟩ => ⟨⟨h1, hin, h2, h3⟩, ?_, (F3.trans F4).imp (by simp)⟩
          · have : (S.bodies ++ bodiesStmts body) = S.bodies := by rw [hb]; simp
            simpa [Spot.stmts, Spot.stmt, labelsStmt, this] using H3
          · have : S.bodies ++ bodiesStmt (.callable name pos params body endPos) = S.bodies ++ [symKey name.name] := by
              simp [bodiesStmt, hb]
            unfold Spot.stmt
            rw [this]
            exact H4
  | .data values =>
    refine plainCode H rfl rfl rfl ?_
    simp only [compileStmtBody, StmtOk, StmtResolved]
    rcases dataConsts_judged values with ⟨ds, h1, h2⟩ | ⟨er, h1, h2⟩
    · rw [h1]
      exact ⟨h2, ⟨id, id, rfl, rfl, rfl, rfl, .refl _⟩, rfl⟩
    · rw [h1]
      exact .inr h2
  | .declare name pos params =>
    refine plain rfl rfl ?_
    simp only [compileStmtBody, StmtOk, StmtResolved, afterStmt]
    show Judged ((if c.cur.isSome then CM.throw (.cannotNest pos) else _ : CS Unit) c) _ _
    have hcur : c.cur = S.inside := H.inside
    by_cases hc : c.cur.isSome = true
    · rw [if_pos hc]
      refine .throw fun hq => ?_
      have : S.inside = none := hq.1
      rw [hcur, this] at hc; cases hc
    · rw [if_neg hc]
      have hin : S.inside = none := by rw [← hcur]; simpa using hc
      exact (declare_judged H name pos params).mono (·.2) fun _ _ _ h => ⟨⟨hin, h.1⟩, h.2⟩
  | .dim name pos shared ty =>
    refine plain rfl rfl ?_
    simp only [compileStmtBody, StmtOk, StmtResolved, afterStmt]
    refine (dimVar_judged H name pos shared (.scalar ty)).stepTo id F fun reg c1 h1 H1 F1 => ?_
    exact (FreeS.onCg (Free.emitDefault _ _ _)).last H1 F1 fun _ _ H2 F2 => ⟨h1, H2, F2.imp (by simp)⟩
  | .dimArray name pos shared dims ty => exact plain rfl rfl (dimArray_judged H name pos shared dims ty)
  | .doLoop guard body =>
    have H0 : Here { c with doExit := [] :: c.doExit } { S with dos := S.dos + 1 } :=
      ⟨H.wf, H.scope, H.user, by simp [H.dos], H.fors, H.inside, H.labels, H.defined, H.callables, H.onceLabels, H.onceBodies⟩
    have F0 : Fixes L D c.cg ({ c with doExit := [] :: c.doExit } : Ctx).cg True := F
    have hbody := fun {c1 : Ctx} (H1 : Here c1 { S with dos := S.dos + 1 }) => stmts_judged body H1
    simp only [Spot.body_do] at hbody
    have hclose := fun {c1 : Ctx} (H1 : Here c1 (({ S with dos := S.dos + 1 } : Spot).stmts body)) (n : Nat) =>
      closeDo_judged (L := L) (D := D) (c := c1) (S := S.stmt (.doLoop guard body)) H1 n True
    simp only [compileStmtBody, StmtOk, labelsStmt, bodiesStmt, StmtResolved]
    rw [bind_of_ok (x := (CM.modify fun c => { c with doExit := [] :: c.doExit } : CS Unit)) (a := ()) (s' := { c with doExit := [] :: c.doExit }) rfl]
    cases guard with
    | infinite =>
      simp only [true_and]
      refine FreeS.pcNow.step H0 F0 fun start c1 H1 F1 => ?_
      refine (hbody H1).stepTo id F1 fun _ c2 h2 H2 F2 => ?_
      refine (FreeS.emitJump _ _).step H2 F2 fun _ c3 H3 F3 => ?_
      refine FreeS.pcNow.step H3 F3 fun stop c4 H4 F4 => ?_
      exact (hclose H4 stop).mono (fun _ => trivial) fun _ c5 _ ⟨H5, F5⟩ => ⟨h2, H5, (F4.trans F5).imp (by simp)⟩
    | preUntil e =>
      simp only
      refine FreeS.pcNow.step H0 F0 fun start c1 H1 F1 => ?_
      refine (cond_judged H1 e).stepS (·.1.1) H1 F1 fun cond c2 h2 H2 F2 => ?_
      refine (FreeS.emit _ _).step H2 F2 fun toBody c3 H3 F3 => ?_
      refine (FreeS.emit _ _).step H3 F3 fun toEnd c4 H4 F4 => ?_
      refine FreeS.pcNow.step H4 F4 fun here c5 H5 F5 => ?_
      refine (FreeS.patchJumpIfFalse _ _ _ _).step H5 F5 fun _ c6 H6 F6 => ?_
      refine (hbody H6).stepTo (fun q => ⟨q.1.2, q.2⟩) F6 fun _ c7 h7 H7 F7 => ?_
      refine (FreeS.emitJump _ _).step H7 F7 fun _ c8 H8 F8 => ?_
      refine FreeS.pcNow.step H8 F8 fun stop c9 H9 F9 => ?_
      refine (FreeS.patchJump _ _ _).step H9 F9 fun _ c10 H10 F10 => ?_
      exact (hclose H10 stop).mono (fun _ => trivial) fun _ c5 _ ⟨H5, F5⟩ => ⟨⟨h2, h7⟩, H5, (F10.trans F5).imp (by simp)⟩
    | preWhile e =>
      simp only
      refine FreeS.pcNow.step H0 F0 fun start c1 H1 F1 => ?_
      refine (cond_judged H1 e).stepS (·.1.1) H1 F1 fun cond c2 h2 H2 F2 => ?_
      refine (FreeS.emit _ _).step H2 F2 fun toEnd c3 H3 F3 => ?_
      refine (hbody H3).stepTo (fun q => ⟨q.1.2, q.2⟩) F3 fun _ c7 h7 H7 F7 => ?_
      refine (FreeS.emitJump _ _).step H7 F7 fun _ c8 H8 F8 => ?_
      refine FreeS.pcNow.step H8 F8 fun stop c9 H9 F9 => ?_
      refine (FreeS.patchJumpIfFalse _ _ _ _).step H9 F9 fun _ c10 H10 F10 => ?_
      exact (hclose H10 stop).mono (fun _ => trivial) fun _ c5 _ ⟨H5, F5⟩ => ⟨⟨h2, h7⟩, H5, (F10.trans F5).imp (by simp)⟩
    | postUntil e =>
      simp only
      refine FreeS.pcNow.step H0 F0 fun start c1 H1 F1 => ?_
      refine (hbody H1).stepTo (fun q => ⟨q.1.2, q.2⟩) F1 fun _ c2 h2 H2 F2 => ?_
      refine (cond_judged H2 e).stepS (·.1.1) H2 F2 fun cond c3 h3 H3 F3 => ?_
      refine (FreeS.target _ _).step H3 F3 fun t c4 H4 F4 => ?_
      refine (FreeS.emit _ _).step H4 F4 fun _ c5 H5 F5 => ?_
      refine FreeS.pcNow.step H5 F5 fun stop c6 H6 F6 => ?_
      exact (hclose H6 stop).mono (fun _ => trivial) fun _ c7 _ ⟨H7, F7⟩ => ⟨⟨h3, h2⟩, H7, (F6.trans F7).imp (by simp [Spot.stmts]; tauto)⟩
    | postWhile e =>
      simp only
      refine FreeS.pcNow.step H0 F0 fun start c1 H1 F1 => ?_
      refine (hbody H1).stepTo (fun q => ⟨q.1.2, q.2⟩) F1 fun _ c2 h2 H2 F2 => ?_
      refine (cond_judged H2 e).stepS (·.1.1) H2 F2 fun cond c3 h3 H3 F3 => ?_
      refine (FreeS.emit _ _).step H3 F3 fun _ c4 H4 F4 => ?_
      refine (FreeS.emitJump _ _).step H4 F4 fun _ c5 H5 F5 => ?_
      refine FreeS.pcNow.step H5 F5 fun stop c6 H6 F6 => ?_
      refine (FreeS.patchJumpIfFalse _ _ _ _).step H6 F6 fun _ c7 H7 F7 => ?_
      exact (hclose H7 stop).mono (fun _ => trivial) fun _ c8 _ ⟨H8, F8⟩ => ⟨⟨h3, h2⟩, H8, (F7.trans F8).imp (by simp [Spot.stmts]; tauto)⟩
  | .end code pos => exact plainCode H rfl rfl rfl (end_judged H code pos)
  | .exitDo pos => exact plain rfl rfl (exitDo_judged H pos)
  | .exitFor pos => exact plain rfl rfl (exitFor_judged H pos)
  | .exitFunction pos => exact plain rfl rfl (exitCallable_judged H _ _ pos)
  | .exitSub pos => exact plain rfl rfl (exitCallable_judged H _ _ pos)
  | .forLoop iter iterPos double start stop next body =>
    simp only [compileStmtBody, StmtOk, labelsStmt, bodiesStmt, StmtResolved]
    refine (forIter_judged H iter iterPos double).stepTo ?_ F fun _ c1 h1 H1 F1 => ?_
    · rintro ⟨⟨q1, q2, _⟩, _⟩
      refine ⟨q1, ?_⟩
      by_cases hw : nameRef S.env.locals S.env.shared iter = .wrongType
      · exfalso
        have : forVar S.env iter double = S.env := by unfold forVar; rw [if_neg (by rw [hw]; simp)]
        rw [this] at q2
        unfold AssignOk at q2
        rw [hw] at q2
        exact q2
      · exact .inl hw
    refine (assign_here H1 iter iterPos start).stepTo (·.1.2.1) F1 fun _ c2 h2 H2 F2 => ?_
    refine FreeS.pcNow.step H2 F2 fun startPc c3 H3 F3 => ?_
    refine (cond_judged H3 stop).stepS (·.1.2.2.1) H3 F3 fun cond c4 h4 H4 F4 => ?_
    refine (FreeS.emit _ _).step H4 F4 fun toEnd c5 H5 F5 => ?_
    show Judged ((compileStmts body >>= fun _ => _) { c5 with cg := c5.cg.markStmt startPc, forExit := [] :: c5.forExit }) _ _
    have H6 : Here { c5 with cg := c5.cg.markStmt startPc, forExit := [] :: c5.forExit }
        { S with env := afterAssign (forVar S.env iter double) iter start, fors := S.fors + 1 } :=
      ⟨H5.wf, H5.scope, H5.user, H5.dos, by simp [H5.fors], H5.inside, H5.labels, H5.defined, H5.callables, H5.onceLabels, H5.onceBodies⟩
    have F6 := F5.trans (Fixes.same (L := L) (D := D) (g' := ({ c5 with cg := c5.cg.markStmt startPc, forExit := [] :: c5.forExit } : Ctx).cg) rfl (Nat.le_refl _))
    have hbody := stmts_judged body H6
    have hbf : ({ S with env := afterAssign (forVar S.env iter double) iter start, fors := S.fors + 1 } : Spot).around = { S.around with inFor := true } := by
      simp [Spot.around]
    rw [hbf] at hbody
    refine hbody.stepTo (fun q => ⟨q.1.2.2.2.1, q.2⟩) F6 fun _ c7 h7 H7 F7 => ?_
    refine (assign_here H7 iter iterPos next).stepTo (·.1.2.2.2.2) F7 fun _ c8 h8 H8 F8 => ?_
    refine (FreeS.emitJump _ _).step H8 F8 fun _ c9 H9 F9 => ?_
    refine FreeS.pcNow.step H9 F9 fun endAddr c10 H10 F10 => ?_
    refine (FreeS.patchJumpIfFalse _ _ _ _).step H10 F10 fun _ c11 H11 F11 => ?_
    refine (closeFor_judged (L := L) (D := D) (S := S.stmt (.forLoop iter iterPos double start stop next body)) H11 endAddr True).mono (fun _ => trivial)
      fun _ c12 _ ⟨H12, F12⟩ => ⟨⟨h1, h2, h4, h7, h8⟩, H12, (F11.trans F12).imp ?_⟩
    simp [Spot.stmts]; tauto
  | .gosub label pos =>
    refine plain rfl rfl ?_
    simp only [compileStmtBody, StmtOk, StmtResolved]
    exact (fixup_judged H pos (.gosub label) True).mono id fun _ _ _ h => ⟨trivial, h⟩
  | .goto label pos =>
    refine plain rfl rfl ?_
    simp only [compileStmtBody, StmtOk, StmtResolved]
    exact (fixup_judged H pos (.goto label) True).mono id fun _ _ _ h => ⟨trivial, h⟩
  | .ifs branches =>
    simp only [compileStmtBody, StmtOk, labelsStmt, bodiesStmt, StmtResolved]
    refine (branches_judged branches H).stepTo id F fun ends c1 h1 H1 F1 => ?_
    refine FreeS.pcNow.step H1 F1 fun stop c2 H2 F2 => ?_
    exact (FreeS.patchJumps _ _).last H2 F2 fun _ c3 H3 F3 => ⟨h1, H3, F3.imp (by simp)⟩
  | .label name pos =>
    refine (label_judged (L := L) (D := D) H name pos).mono (fun q => q.2.1) fun _ c1 _ ⟨h1, h2⟩ => ⟨trivial, ?_, h2⟩
    have : S.stmt (.label name pos) = { S with labels := S.labels ++ [symKey name] } := by simp [Spot.stmt, labelsStmt, bodiesStmt, afterStmt]
    rw [this]; exact h1
  | .onError (.goto label _ pos) =>
    refine plain rfl rfl ?_
    simp only [compileStmtBody, StmtOk, StmtResolved]
    exact (fixup_judged H pos (.onErrorGoto label) True).mono id fun _ _ _ h => ⟨trivial, h⟩
  | .onError (.reset pos) =>
    refine plainCode H rfl rfl rfl ?_
    simp only [compileStmtBody, StmtOk, StmtResolved]
    exact (FreeS.emit _ _).bind (fun _ => .pure _) |>.judged c trivial
  | .onError (.resumeNext pos) =>
    refine plainCode H rfl rfl rfl ?_
    simp only [compileStmtBody, StmtOk, StmtResolved]
    exact (FreeS.emit _ _).bind (fun _ => .pure _) |>.judged c trivial
  | .ret pos =>
    refine plainCode H rfl rfl rfl ?_
    simp only [compileStmtBody, StmtOk, StmtResolved]
    exact (FreeS.emit _ _).bind (fun _ => .pure _) |>.judged c trivial
  | .select e cases endPos =>
    simp only [compileStmtBody, StmtOk, labelsStmt, bodiesStmt, StmtResolved]
    refine (FreeS.withSyms fun sy => Free.allocTemp sy _ _).step H F fun test c1 H1 F1 => ?_
    refine (Judged.withSyms (L := L) (D := D) (expr_judged H1.scope e 1 test c1.cg)).stepS ?_ H1 F1 fun testTy c2 h2 H2 F2 => ?_
    · rintro ⟨⟨⟨t, h, _⟩, _⟩, _⟩; exact ⟨t, h⟩
    refine (dispatch_judged test testTy endPos cases none H2).stepTo ?_ F2 fun r c3 h3 H3 F3 => ?_
    · rintro ⟨⟨⟨t, h, h'⟩, _⟩, _⟩
      rw [(h2 _).1 h] at h'; exact h'
    obtain ⟨jumps, pending⟩ := r
    simp only
    refine (FreeS.emit _ _).step H3 F3 fun toEnd c4 H4 F4 => ?_
    have key : ∀ {c5 : Ctx}, Here c5 S → Fixes L D c.cg c5.cg ((True ∧ CallsDefined D S.env e) ∧ GuardsDefined D S.env cases) → Judged ((do
        let ends ← compileBodies cases jumps endPos
        let stop ← pcNow
        patchJump toEnd stop endPos
        patchJumps stop (ends.map fun a => (a, endPos)) : CS Unit) c5)
        (((∃ t, WellTyped S.env e t ∧ GuardsOk S.env t cases) ∧ CasesOk S.env S.around cases) ∧ Clean S (labelsCases cases) (bodiesCases cases))
        fun _ c' => ((∃ t, WellTyped S.env e t ∧ GuardsOk S.env t cases) ∧ CasesOk S.env S.around cases) ∧
          Here c' (S.stmt (.select e cases endPos)) ∧ Fixes L D c.cg c'.cg (CallsDefined D S.env e ∧ GuardsDefined D S.env cases ∧ CasesResolved L D S.env cases) := by
      intro c5 H5 F5
      refine (cases_judged cases jumps endPos h3.2 H5).stepTo (fun q => ⟨q.1.2, q.2⟩) F5 fun ends c6 h6 H6 F6 => ?_
      refine FreeS.pcNow.step H6 F6 fun stop c7 H7 F7 => ?_
      refine (FreeS.patchJump _ _ _).step H7 F7 fun _ c8 H8 F8 => ?_
      exact (FreeS.patchJumps _ _).last H8 F8 fun _ c9 H9 F9 => ⟨⟨⟨testTy, (h2 _).2 rfl, h3.1⟩, h6⟩, H9, F9.imp (by tauto)⟩
    cases pending with
    | none => exact key H4 F4
    | some p =>
      refine (FreeS.patchJump _ _ _).step H4 F4 fun _ c5 H5 F5 => ?_
      exact key H5 F5
  | .whileLoop e body =>
    simp only [compileStmtBody, StmtOk, labelsStmt, bodiesStmt, StmtResolved]
    refine FreeS.pcNow.step H F fun start c1 H1 F1 => ?_
    refine (cond_judged H1 e).stepS (·.1.1) H1 F1 fun cond c2 h2 H2 F2 => ?_
    refine (FreeS.emit _ _).step H2 F2 fun toEnd c3 H3 F3 => ?_
    refine (stmts_judged body H3).stepTo (fun q => ⟨q.1.2, q.2⟩) F3 fun _ c7 h7 H7 F7 => ?_
    refine (FreeS.emitJump _ _).step H7 F7 fun _ c8 H8 F8 => ?_
    refine FreeS.pcNow.step H8 F8 fun stop c9 H9 F9 => ?_
    exact (FreeS.patchJumpIfFalse _ _ _ _).last H9 F9 fun _ c10 H10 F10 => ⟨⟨h2, h7⟩, H10, F10.imp (by simp)⟩
termination_by structural s

theorem stmts_judged (ss : Stmts) {c : Ctx} {S : Spot} (H : Here c S) :
    Judged (compileStmts ss c) (StmtsOk S.env S.around ss ∧ Clean S (labelsStmts ss) (bodiesStmts ss))
      fun _ c' => StmtsOk S.env S.around ss ∧ Here c' (S.stmts ss) ∧ Fixes L D c.cg c'.cg (StmtsResolved L D S.env ss) := by
  have F : Fixes L D c.cg c.cg True := .refl _
  match ss with
  | .nil =>
    refine ⟨trivial, ?_, F⟩
    simpa [Spot.stmts, afterStmts, labelsStmts, bodiesStmts] using H
  | .cons s rest =>
    simp only [compileStmts, StmtsOk, labelsStmts, bodiesStmts, StmtsResolved]
    refine FreeS.pcNow.step H F fun start c1 H1 F1 => ?_
    refine (stmt_judged s H1).stepTo (fun q => ⟨q.1.1, q.2.left⟩) F1 fun _ c2 h2 H2 F2 => ?_
    refine (FreeS.markIf _ _).step H2 F2 fun _ c3 H3 F3 => ?_
    refine (stmts_judged rest H3).mono (fun q => ⟨q.1.2, q.2.right rfl rfl⟩) fun _ c4 _ ⟨h4, H4, F4⟩ => ⟨⟨h2, h4⟩, ?_, (F3.trans F4).imp (by simp [Spot.stmt])⟩
    simpa [Spot.stmts, Spot.stmt, afterStmts, labelsStmts, bodiesStmts] using H4
termination_by structural ss

theorem branches_judged (bs : Branches) {c : Ctx} {S : Spot} (H : Here c S) :
    Judged (compileBranches bs c) (BranchesOk S.env S.around bs ∧ Clean S (labelsBranches bs) (bodiesBranches bs))
      fun _ c' => BranchesOk S.env S.around bs ∧ Here c' (S.branches bs) ∧ Fixes L D c.cg c'.cg (BranchesResolved L D S.env bs) := by
  have F : Fixes L D c.cg c.cg True := .refl _
  match bs with
  | .nil =>
    refine ⟨trivial, ?_, F⟩
    simpa [Spot.branches, afterBranches, labelsBranches, bodiesBranches] using H
  | .cons guard body rest =>
    simp only [compileBranches, BranchesOk, labelsBranches, bodiesBranches, BranchesResolved]
    refine (cond_judged H guard).stepS (·.1.1) H F fun cond c2 h2 H2 F2 => ?_
    refine (FreeS.emit _ _).step H2 F2 fun toNext c3 H3 F3 => ?_
    refine (stmts_judged body H3).stepTo (fun q => ⟨q.1.2.1, q.2.left⟩) F3 fun _ c4 h4 H4 F4 => ?_
    cases hr : rest.isNil with
    | true =>
      cases rest with
      | cons => cases hr
      | nil =>
        simp only [if_true]
        refine FreeS.pcNow.step H4 F4 fun next c5 H5 F5 => ?_
        refine (FreeS.patchJumpIfFalse _ _ _ _).step H5 F5 fun _ c6 H6 F6 => ?_
        refine ⟨⟨h2, h4, trivial⟩, ?_, F6.imp (by simp [BranchesResolved])⟩
        simpa [Spot.stmts, Spot.branches, afterBranches, labelsBranches, bodiesBranches] using H6
    | false =>
      simp only [Bool.false_eq_true, if_false]
      refine (FreeS.emit _ _).step H4 F4 fun toEnd c5 H5 F5 => ?_
      refine FreeS.pcNow.step H5 F5 fun next c6 H6 F6 => ?_
      refine (FreeS.patchJumpIfFalse _ _ _ _).step H6 F6 fun _ c7 H7 F7 => ?_
      refine (branches_judged rest H7).stepTo (fun q => ⟨q.1.2.2, q.2.right rfl rfl⟩) F7 fun ends c8 h8 H8 F8 => ?_
      refine ⟨⟨h2, h4, h8⟩, ?_, F8.imp (by simp [Spot.stmts, and_assoc])⟩
      simpa [Spot.stmts, Spot.branches, afterBranches, labelsBranches, bodiesBranches] using H8
termination_by structural bs

theorem cases_judged (cs : Cases) (jumps : List (List (Nat × LineCol))) (endPos : LineCol) (hlen : jumps.length = caseLen cs) {c : Ctx} {S : Spot} (H : Here c S) :
    Judged (compileBodies cs jumps endPos c) (CasesOk S.env S.around cs ∧ Clean S (labelsCases cs) (bodiesCases cs))
      fun _ c' => CasesOk S.env S.around cs ∧ Here c' (S.cases cs) ∧ Fixes L D c.cg c'.cg (CasesResolved L D S.env cs) := by
  have F : Fixes L D c.cg c.cg True := .refl _
  match cs, jumps with
  | .nil, _ =>
    refine ⟨trivial, ?_, F⟩
    simpa [Spot.cases, afterCases, labelsCases, bodiesCases] using H
  | .cons .., [] => simp [caseLen] at hlen
  | .cons guards body rest, js :: jumps =>
    simp only [compileBodies, CasesOk, labelsCases, bodiesCases, CasesResolved]
    refine FreeS.pcNow.step H F fun here c1 H1 F1 => ?_
    refine (FreeS.patchJumps _ _).step H1 F1 fun _ c2 H2 F2 => ?_
    refine (stmts_judged body H2).stepTo (fun q => ⟨q.1.1, q.2.left⟩) F2 fun _ c4 h4 H4 F4 => ?_
    cases hr : rest.isNil with
    | true =>
      cases rest with
      | cons => cases hr
      | nil =>
        simp only [if_true]
        refine ⟨⟨h4, trivial⟩, ?_, F4.imp (by simp [CasesResolved])⟩
        simpa [Spot.stmts, Spot.cases, afterCases, labelsCases, bodiesCases] using H4
    | false =>
      simp only [Bool.false_eq_true, if_false]
      refine (FreeS.emit _ _).step H4 F4 fun toEnd c5 H5 F5 => ?_
      refine (cases_judged rest jumps endPos (by simpa [caseLen] using hlen) H5).stepTo (fun q => ⟨q.1.2, q.2.right rfl rfl⟩) F5 fun ends c8 h8 H8 F8 => ?_
      refine ⟨⟨h4, h8⟩, ?_, F8.imp (by simp [Spot.stmts])⟩
      simpa [Spot.stmts, Spot.cases, afterCases, labelsCases, bodiesCases] using H8
termination_by structural cs
end

end

end EB
