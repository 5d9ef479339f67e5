import Verif.Lemmas.Valid
import Verif.Lemmas.Names
/-!
# What the compiler accepts: statements
-/

namespace EB
open Spec

/-- Where the compiler is in the program. -/
structure Spot where
  env : Env
  dos : Nat
  fors : Nat
  inside : Option CallableKind
  labels : List Str
  bodies : List Str

def Spot.around (S : Spot) : Around := ⟨decide (0 < S.dos), decide (0 < S.fors), S.inside⟩

def Spot.stmt (S : Spot) (s : Stmt) : Spot :=
  { S with env := afterStmt S.env s, labels := S.labels ++ labelsStmt s, bodies := S.bodies ++ bodiesStmt s }
def Spot.stmts (S : Spot) (ss : Stmts) : Spot :=
  { S with env := afterStmts S.env ss, labels := S.labels ++ labelsStmts ss, bodies := S.bodies ++ bodiesStmts ss }
def Spot.branches (S : Spot) (bs : Branches) : Spot :=
  { S with env := afterBranches S.env bs, labels := S.labels ++ labelsBranches bs, bodies := S.bodies ++ bodiesBranches bs }
def Spot.cases (S : Spot) (cs : Cases) : Spot :=
  { S with env := afterCases S.env cs, labels := S.labels ++ labelsCases cs, bodies := S.bodies ++ bodiesCases cs }

/-- All callables of the program are marked as such. -/
def UserOk (c : Ctx) : Prop := ∀ k md, c.sy.user.get? k = some md → md.userDefined = true

/-- The compiler is there. -/
structure Here (c : Ctx) (S : Spot) : Prop where
  wf : c.sy.locals.Wf
  scope : Scope c.sy S.env
  user : UserOk c
  dos : c.doExit.length = S.dos
  fors : c.forExit.length = S.fors
  inside : c.cur = S.inside
  labels : ∀ k, (∃ a, c.cg.labels.get? k = some a) ↔ k ∈ S.labels
  defined : ∀ k, k ∈ c.defined ↔ k ∈ S.bodies
  callables : ∀ k, (∃ v, c.cg.callables.get? k = some v) ↔ k ∈ S.bodies
  onceLabels : S.labels.Nodup
  onceBodies : S.bodies.Nodup

section
variable (L D : Str → Prop)

/-- A step that changes at most the code and the variables. -/
structure Near (c c' : Ctx) (R : Prop) : Prop where
  wf : c.sy.locals.Wf → c'.sy.locals.Wf
  user : UserOk c → UserOk c'
  dos : c'.doExit.length = c.doExit.length
  fors : c'.forExit.length = c.forExit.length
  cur : c'.cur = c.cur
  defined : c'.defined = c.defined
  adds : Adds L D c.cg c'.cg R

/-- A step that changes only the code. -/
structure Still (c c' : Ctx) (R : Prop) : Prop where
  near : Near L D c c' R
  sy : c'.sy = c.sy

/-- Steps without fixups that fail only because of limits. -/
def FreeS {α : Type} (x : CS α) : Prop :=
  ∀ c, match x c with
    | .ok (_, c') => Still L D c c' True
    | .error e => Limit e
end

section
variable {L D : Str → Prop}

theorem Near.refl (c : Ctx) : Near L D c c True := ⟨id, id, rfl, rfl, rfl, rfl, .refl _⟩
theorem Still.refl (c : Ctx) : Still L D c c True := ⟨.refl c, rfl⟩

theorem Near.trans {a b c : Ctx} {R T : Prop} (h1 : Near L D a b R) (h2 : Near L D b c T) : Near L D a c (R ∧ T) :=
  ⟨fun h => h2.wf (h1.wf h), fun h => h2.user (h1.user h), h2.dos.trans h1.dos, h2.fors.trans h1.fors, h2.cur.trans h1.cur,
    h2.defined.trans h1.defined, h1.adds.trans h2.adds⟩

theorem Near.imp {a b : Ctx} {R T : Prop} (h : Near L D a b R) (hrt : R ↔ T) : Near L D a b T := by rw [← hrt]; exact h

theorem Still.trans {a b c : Ctx} {R T : Prop} (h1 : Still L D a b R) (h2 : Still L D b c T) : Still L D a c (R ∧ T) :=
  ⟨h1.near.trans h2.near, h2.sy.trans h1.sy⟩

theorem Still.imp {a b : Ctx} {R T : Prop} (h : Still L D a b R) (hrt : R ↔ T) : Still L D a b T := by rw [← hrt]; exact h

theorem Still.code {c : Ctx} {g : Codegen} {R : Prop} (h : Adds L D c.cg g R) : Still L D c { c with cg := g } R :=
  ⟨⟨id, id, rfl, rfl, rfl, rfl, h⟩, rfl⟩

theorem Here.near {c c' : Ctx} {S : Spot} {Γ : Env} {R : Prop} (h : Here c S) (n : Near L D c c' R) (hs : Scope c'.sy Γ) :
    Here c' { S with env := Γ } :=
  ⟨n.wf h.wf, hs, n.user h.user, n.dos.trans h.dos, n.fors.trans h.fors, n.cur.trans h.inside,
    fun k => by rw [n.adds.labels]; exact h.labels k, fun k => by rw [n.defined]; exact h.defined k,
    fun k => by rw [n.adds.callables]; exact h.callables k, h.onceLabels, h.onceBodies⟩

theorem Here.still {c c' : Ctx} {S : Spot} {R : Prop} (h : Here c S) (n : Still L D c c' R) : Here c' S :=
  h.near n.near (by rw [n.sy]; exact h.scope)

/-! ## Steps of the compiler that change only the code -/

theorem FreeS.pure {α : Type} (a : α) : FreeS L D (Pure.pure a : CS α) := fun c => .refl c

theorem FreeS.bind {α β : Type} {x : CS α} {f : α → CS β} (hx : FreeS L D x) (hf : ∀ a, FreeS L D (f a)) : FreeS L D (x >>= f) := by
  intro g
  have h1 := hx g
  cases hxg : x g with
  | error e => rw [hxg] at h1; rw [bind_of_error hxg]; exact h1
  | ok r =>
    rw [hxg] at h1
    simp only at h1
    have h2 := hf r.1 r.2
    rw [bind_of_ok hxg]
    cases hfg : f r.1 r.2 with
    | error e => rw [hfg] at h2; exact h2
    | ok r' => rw [hfg] at h2; exact (h1.trans h2).imp (by simp)

theorem FreeS.onCg {α : Type} {x : CG α} (hx : Free L D x) : FreeS L D (onCg x) := by
  intro c
  have h1 := hx c.cg
  unfold EB.onCg
  cases h : x c.cg with
  | error e => rw [h] at h1; exact h1
  | ok r => rw [h] at h1; exact .code h1

theorem FreeS.withSyms {α : Type} {f : Syms → CG α} (hx : ∀ sy, Free L D (f sy)) : FreeS L D (withSyms f) := by
  intro c
  have h1 := hx c.sy c.cg
  unfold EB.withSyms
  cases h : f c.sy c.cg with
  | error e => rw [h] at h1; exact h1
  | ok r => rw [h] at h1; exact .code h1

theorem FreeS.emit (i : Instr) (pos : LineCol) : FreeS L D (EB.onCg (emit i pos)) := .onCg (.emit i pos)

theorem FreeS.pcNow : FreeS L D pcNow := fun c => .refl c

theorem FreeS.target (t : Nat) (pos : LineCol) : FreeS L D (CM.lift (mkTarget t pos) : CS U16) := by
  intro c
  unfold mkTarget
  by_cases h : t < 65536
  · rw [if_pos h]; exact Still.refl c
  · rw [if_neg h]; exact trivial

theorem FreeS.patch (a : Nat) (i : Instr) : FreeS L D (patchS a i) := fun c =>
  .code (.same rfl (by simp [Codegen.patch]) rfl rfl)

theorem FreeS.patchJump (a t : Nat) (pos : LineCol) : FreeS L D (patchJump a t pos) := .bind (.target t pos) fun _ => .patch a _

theorem FreeS.patchJumpIfFalse (a : Nat) (r : Reg) (t : Nat) (pos : LineCol) : FreeS L D (patchJumpIfFalse a r t pos) :=
  .bind (.target t pos) fun _ => .patch a _

theorem FreeS.emitJump (t : Nat) (pos : LineCol) : FreeS L D (emitJump t pos) :=
  .bind (.target t pos) fun _ => .bind (.emit _ _) fun _ => .pure _

theorem FreeS.patchJumps (t : Nat) : ∀ l, FreeS L D (patchJumps t l)
  | [] => .pure _
  | (a, pos) :: rest => .bind (.patchJump a t pos) fun _ => patchJumps t rest

theorem FreeS.markIf (m : Bool) (s : Nat) : FreeS L D (markIf m s) := by
  intro c
  unfold EB.markIf
  by_cases h : (m && decide (s ≠ c.cg.code.length)) = true
  · rw [if_pos h]; exact Still.code (.same rfl (Nat.le_refl _) rfl rfl)
  · rw [if_neg h]; exact Still.refl c

/-- Such a step within a larger one. -/
theorem FreeS.step {α β : Type} {x : CS α} {f : α → CS β} {c : Ctx} {S : Spot} {g0 : Codegen} {R Q : Prop} {P : β → Ctx → Prop}
    (hx : FreeS L D x) (H : Here c S) (F : Fixes L D g0 c.cg R)
    (k : ∀ a c', Here c' S → Fixes L D g0 c'.cg R → Judged (f a c') Q P) : Judged ((x >>= f) c) Q P := by
  have h1 := hx c
  cases hxc : x c with
  | error e => rw [hxc] at h1; rw [bind_of_error hxc]; exact .inl h1
  | ok r =>
    rw [hxc] at h1
    rw [bind_of_ok hxc]
    exact k r.1 r.2 (H.still h1) ((F.trans h1.near.adds.fixes).imp (by simp))

/-- … as the last one. -/
theorem FreeS.last {α : Type} {x : CS α} {c : Ctx} {S : Spot} {g0 : Codegen} {R Q : Prop} {P : α → Ctx → Prop}
    (hx : FreeS L D x) (H : Here c S) (F : Fixes L D g0 c.cg R)
    (k : ∀ a c', Here c' S → Fixes L D g0 c'.cg R → P a c') : Judged (x c) Q P := by
  have h1 := hx c
  cases hxc : x c with
  | error e => rw [hxc] at h1; exact .inl h1
  | ok r =>
    rw [hxc] at h1
    exact k r.1 r.2 (H.still h1) ((F.trans h1.near.adds.fixes).imp (by simp))

theorem Judged.onCg {α : Type} {x : CG α} {c : Ctx} {Q R : Prop} {P : α → Prop}
    (h : Judged (x c.cg) Q fun a g' => P a ∧ Adds L D c.cg g' R) : Judged (onCg x c) Q fun a c' => P a ∧ Still L D c c' R := by
  unfold EB.onCg
  cases hx : x c.cg with
  | error e => rw [hx] at h; exact h
  | ok r => rw [hx] at h; exact ⟨h.1, .code h.2⟩

theorem Judged.withSyms {α : Type} {f : Syms → CG α} {c : Ctx} {Q R : Prop} {P : α → Prop}
    (h : Judged (f c.sy c.cg) Q fun a g' => P a ∧ Adds L D c.cg g' R) : Judged (withSyms f c) Q fun a c' => P a ∧ Still L D c c' R := by
  unfold EB.withSyms
  cases hx : f c.sy c.cg with
  | error e => rw [hx] at h; exact h
  | ok r => rw [hx] at h; exact ⟨h.1, .code h.2⟩

/-- A part that changes only the code, within a larger step. -/
theorem Judged.stepS {α β : Type} {x : CS α} {f : α → CS β} {c : Ctx} {S : Spot} {g0 : Codegen} {R R1 Q Q1 : Prop} {P1 : α → Prop}
    {P : β → Ctx → Prop} (hx : Judged (x c) Q1 fun a c' => P1 a ∧ Still L D c c' R1) (hq : Q → Q1) (H : Here c S)
    (F : Fixes L D g0 c.cg R) (k : ∀ a c', P1 a → Here c' S → Fixes L D g0 c'.cg (R ∧ R1) → Judged (f a c') Q P) :
    Judged ((x >>= f) c) Q P :=
  hx.bind hq fun a c' _ ⟨h1, h2⟩ => k a c' h1 (H.still h2) (F.trans h2.near.adds.fixes)

/-- A part that leads elsewhere. -/
theorem Judged.stepTo {α β : Type} {x : CS α} {f : α → CS β} {c : Ctx} {S' : Spot} {g0 : Codegen} {R R1 Q Q1 : Prop} {P1 : α → Prop}
    {P : β → Ctx → Prop} (hx : Judged (x c) Q1 fun a c' => P1 a ∧ Here c' S' ∧ Fixes L D c.cg c'.cg R1) (hq : Q → Q1)
    (F : Fixes L D g0 c.cg R) (k : ∀ a c', P1 a → Here c' S' → Fixes L D g0 c'.cg (R ∧ R1) → Judged (f a c') Q P) :
    Judged ((x >>= f) c) Q P :=
  hx.bind hq fun a c' _ ⟨h1, h2, h3⟩ => k a c' h1 h2 (F.trans h3)

/-! ## Expressions in statements -/

theorem exprAs_judged {sy : Syms} {Γ : Env} (hs : Scope sy Γ) (e : Expr) (nt : Nat) (reg : Reg) (want : ExprType) (g : Codegen) :
    Judged (compileExprAs sy e nt reg want g) (Usable Γ e want) fun _ g' => Usable Γ e want ∧ Adds L D g g' (CallsDefined D Γ e) := by
  refine (expr_judged (L := L) (D := D) hs e nt reg g).bind (fun ⟨t, h, _⟩ => ⟨t, h⟩) fun t g1 _ ⟨h1, h2⟩ => ?_
  refine (castTo_judged (L := L) (D := D) reg t want e.startPos g1).mono ?_ ?_
  · rintro ⟨t', h3, h4⟩
    rw [h1] at h3; subst h3; exact h4
  · intro _ g2 _ ⟨h3, h4⟩
    exact ⟨⟨t, (h1 t).2 rfl, h3⟩, (h2.trans h4).imp (by simp)⟩

theorem usable_boolean {Γ : Env} {e : Expr} : Usable Γ e .boolean ↔ WellTyped Γ e .boolean := by
  constructor
  · rintro ⟨t, h1, h2⟩
    cases t with
    | boolean => exact h1
    | _ => exact absurd h2 (by decide)
  · exact fun h => ⟨_, h, by decide⟩

theorem cond_judged {c : Ctx} {S : Spot} (H : Here c S) (e : Expr) :
    Judged (compileCond e c) (WellTyped S.env e .boolean) fun _ c' => WellTyped S.env e .boolean ∧ Still L D c c' (CallsDefined D S.env e) := by
  refine Judged.withSyms (P := fun _ => WellTyped S.env e .boolean) ?_
  refine (Free.allocTemp _ _ _).step (Adds.refl (L := L) (D := D) _) fun reg g1 _ h1 => ?_
  refine (exprAs_judged (L := L) (D := D) H.scope e 1 reg .boolean g1).part usable_boolean.2 h1 fun _ g2 h2 h3 => ?_
  exact ⟨usable_boolean.1 h2, h3.imp (by simp)⟩

/-! ## New variables -/

theorem putLocal_judged {c : Ctx} {Γ : Env} (hs : Scope c.sy Γ) (k : Str) (p : Proto) (pos : LineCol) :
    Judged (putLocalS k p pos c) (Spec.position k Γ.locals = none) fun _ c' => Spec.position k Γ.locals = none ∧ Near L D c c' True ∧
      c'.cg = c.cg ∧ Scope c'.sy (Γ.addLocal k p) := by
  cases hp : c.sy.putLocal k p with
  | ok r =>
    obtain ⟨r, sy⟩ := r
    have : putLocalS k p pos c = .ok (r, { c with sy := sy }) := by unfold putLocalS; rw [hp]
    rw [this]
    obtain ⟨h1, _, _, h2⟩ := hs.put hp
    obtain ⟨q1, q2, rfl⟩ := putLocal_ok hp
    exact ⟨h2, ⟨fun hw => (IdMap.ext_insert_new q1).wf hw, fun h => h, rfl, rfl, rfl, rfl, .refl _⟩, rfl, h1⟩
  | error e =>
    have : putLocalS k p pos c = .error (e.at pos) := by unfold putLocalS; rw [hp]
    rw [this]
    unfold Syms.putLocal putVar at hp
    cases hi : c.sy.locals.insert 256 k p with
    | none =>
      rw [hi] at hp
      cases hp
      exact .inl trivial
    | some r =>
      obtain ⟨⟨o, id⟩, t⟩ := r
      rw [hi] at hp
      cases o with
      | none =>
        simp only at hp
        cases hm : mkLocal id with
        | none => rw [hm] at hp; cases hp; exact .inl trivial
        | some r => rw [hm] at hp; cases hp
      | some q =>
        refine .inr fun hk => ?_
        rw [← hs.syms.locals.get] at hk
        replace hk : c.sy.locals.map.get? k = none := hk
        unfold IdMap.insert at hi
        rw [hk] at hi
        simp at hi

theorem putGlobal_judged {c : Ctx} {Γ : Env} (hs : Scope c.sy Γ) (k : Str) (p : Proto) (pos : LineCol) :
    Judged (putGlobalS k p pos c) (Spec.position k Γ.shared = none) fun _ c' => Spec.position k Γ.shared = none ∧ Near L D c c' True ∧
      c'.cg = c.cg ∧ Scope c'.sy (Γ.add true k p) := by
  cases hp : c.sy.putGlobal k p with
  | ok r =>
    obtain ⟨r, sy⟩ := r
    have : putGlobalS k p pos c = .ok (r, { c with sy := sy }) := by unfold putGlobalS; rw [hp]
    rw [this]
    obtain ⟨h1, _, _, h2⟩ := hs.putShared hp
    obtain ⟨q1, q2, rfl⟩ := putGlobal_ok hp
    exact ⟨h2, ⟨fun hw => hw, fun h => h, rfl, rfl, rfl, rfl, .refl _⟩, rfl, h1⟩
  | error e =>
    have : putGlobalS k p pos c = .error (e.at pos) := by unfold putGlobalS; rw [hp]
    rw [this]
    unfold Syms.putGlobal putVar at hp
    cases hi : c.sy.globals.insert 256 k p with
    | none =>
      rw [hi] at hp
      cases hp
      exact .inl trivial
    | some r =>
      obtain ⟨⟨o, id⟩, t⟩ := r
      rw [hi] at hp
      cases o with
      | none =>
        simp only at hp
        cases hm : mkGlobal id with
        | none => rw [hm] at hp; cases hp; exact .inl trivial
        | some r => rw [hm] at hp; cases hp
      | some q =>
        refine .inr fun hk => ?_
        rw [← hs.syms.shared.get] at hk
        replace hk : c.sy.globals.map.get? k = none := hk
        unfold IdMap.insert at hi
        rw [hk] at hi
        simp at hi

theorem undefined_position {Γ : Env} {v : VarRef} (h : nameRef Γ.locals Γ.shared v = .undefined) :
    Spec.position (symKey v.name) Γ.locals = none := by
  unfold nameRef at h
  split at h
  · split at h <;> simp at h
  next h1 => exact h1

theorem Scope.md_none {sy : Syms} {Γ : Env} (hs : Scope sy Γ) (k : Str) : sy.getCallable k = none ↔ Γ.md k = none := by
  rw [hs.md]

/-! ## Assignments -/

theorem Judged.assignErr {α : Type} {x : CS α} {c : Ctx} {Q : Prop} {P : α → Ctx → Prop} (h : Judged (x c) Q P) :
    Judged (assignErr x c) Q P := by
  unfold EB.assignErr
  cases hx : x c with
  | ok r => rw [hx] at h; exact h
  | error e =>
    rw [hx] at h
    cases e with
    | typeMismatch => exact .inr (h.resolve_left id)
    | _ => exact h

theorem assign_judged {c : Ctx} {S : Spot} (H : Here c S) (v : VarRef) (pos : LineCol) (e : Expr) :
    Judged (compileAssign v pos e c) (AssignOk S.env v e)
      fun _ c' => AssignOk S.env v e ∧ Near L D c c' (CallsDefined D (assignEnv S.env v) e) := by
  unfold compileAssign
  have hl := H.scope.syms.lookup v
  unfold Spec.lookup at hl
  cases hn : nameRef S.env.locals S.env.shared v with
  | wrongType =>
    rw [hn] at hl
    rw [bind_of_error (e := (SymErr.incompatibleAnnotation v).at pos) (by unfold assignDest; rw [hl])]
    exact .inr (by unfold AssignOk; rw [hn]; exact id)
  | var place p =>
    rw [hn] at hl
    cases p with
    | array t n =>
      rw [bind_of_error (e := .arrayUsedAsScalar pos v) (by unfold assignDest; rw [hl])]
      exact .inr (by unfold AssignOk; rw [hn]; exact id)
    | scalar t =>
      rw [bind_of_ok (a := (BitVec.ofNat 8 place.reg, some t, true)) (s' := c) (by unfold assignDest; rw [hl])]
      simp only [AssignOk, hn]
      have he : assignEnv S.env v = S.env := by unfold assignEnv; rw [if_neg (by rw [hn]; simp)]
      rw [he]
      by_cases hm : refersTo (symKey v.name) e = true
      · simp only [hm, Bool.and_self, if_true]
        refine Judged.mono (Judged.assignErr (Judged.withSyms (P := fun _ => Usable S.env e t) (R := CallsDefined D S.env e) (L := L) (D := D) ?_)) id
          fun _ _ _ h => ⟨h.1, h.2.near⟩
        refine (Free.allocTemp _ _ _).step (Adds.refl (L := L) (D := D) _) fun temp g1 _ h1 => ?_
        refine (exprAs_judged (L := L) (D := D) H.scope e 1 temp t g1).part id h1 fun _ g2 h2 h3 => ?_
        refine (Free.emit _ _).step h3 fun _ g3 _ h4 => ?_
        exact ⟨h2, h4.imp (by simp)⟩
      · simp only [hm, Bool.and_false, Bool.false_eq_true, if_false]
        refine Judged.mono (Judged.assignErr (Judged.withSyms (P := fun _ => Usable S.env e t) (R := CallsDefined D S.env e) (L := L) (D := D) ?_)) id
          fun _ _ _ h => ⟨h.1, h.2.near⟩
        exact exprAs_judged H.scope e 0 _ t c.cg
  | undefined =>
    rw [hn] at hl
    cases hk : c.sy.getCallable (symKey v.name) with
    | some md =>
      rw [bind_of_error (e := .alreadyDefined pos v) (by unfold assignDest; rw [hl]; simp only; rw [hk])]
      refine .inr ?_
      unfold AssignOk
      rw [hn]
      rintro ⟨h, _⟩
      rw [H.scope.md, hk] at h; cases h
    | none =>
      have hp := putLocal_judged (L := L) (D := D) H.scope (symKey v.name) (.scalar (v.ty.getD .integer)) pos
      have he : assignEnv S.env v = S.env.addLocal (symKey v.name) (.scalar (v.ty.getD .integer)) := by unfold assignEnv; rw [if_pos hn]
      rw [he]
      cases hx : c.sy.putLocal (symKey v.name) (.scalar (v.ty.getD .integer)) with
      | error er =>
        have : putLocalS (symKey v.name) (.scalar (v.ty.getD .integer)) pos c = .error (er.at pos) := by unfold putLocalS; rw [hx]
        rw [this] at hp
        rw [bind_of_error (e := er.at pos) (by unfold assignDest; rw [hl]; simp only; rw [hk, hx])]
        exact .inl (hp.resolve_right fun h => h (undefined_position hn))
      | ok r =>
        obtain ⟨reg, sy⟩ := r
        have : putLocalS (symKey v.name) (.scalar (v.ty.getD .integer)) pos c = .ok (reg, { c with sy := sy }) := by unfold putLocalS; rw [hx]
        rw [this] at hp
        obtain ⟨h1, h2, h3, h4⟩ := hp
        rw [bind_of_ok (a := (reg, v.ty, false)) (s' := { c with sy := sy }) (by unfold assignDest; rw [hl]; simp only; rw [hk, hx])]
        simp only [AssignOk, hn]
        have hmd : S.env.md (symKey v.name) = none := by rw [H.scope.md, hk]
        cases ht : v.ty with
        | some t =>
          rw [ht] at h4
          simp only [Option.getD_some, Bool.false_and, Bool.false_eq_true, if_false] at h4 ⊢
          refine Judged.mono (Judged.assignErr (Judged.withSyms (P := fun _ => Usable (S.env.addLocal (symKey v.name) (.scalar t)) e t)
            (R := CallsDefined D (S.env.addLocal (symKey v.name) (.scalar t)) e) (L := L) (D := D) (exprAs_judged h4 e 0 _ t c.cg))) (·.2)
            fun _ _ _ h => ⟨⟨hmd, h.1⟩, (h2.trans h.2.near).imp (by simp)⟩
        | none =>
          rw [ht] at h4
          simp only [Option.getD_none] at h4 ⊢
          refine (Judged.withSyms (c := { c with sy := sy }) (L := L) (D := D) (expr_judged h4 e 0 reg c.cg)).bind (·.2) fun t c2 _ ⟨h5, h6⟩ => ?_
          have hget : ∃ id, c2.sy.locals.get? (symKey v.name) = some (.scalar .integer, id) := by
            rw [h6.sy]
            refine ⟨S.env.locals.length, ?_⟩
            show sy.locals.get? _ = _
            rw [h4.syms.locals.get]
            show Spec.position _ (S.env.locals ++ [_]) = _
            rw [declPos_append, h1]
            simp [Spec.position]
          obtain ⟨id, hget⟩ := hget
          have hf : fixupTypeS v t pos c2 = .ok ((), { c2 with sy := { c2.sy with locals := c2.sy.locals.update (symKey v.name) (.scalar t) } }) := by
            unfold fixupTypeS Syms.fixupLocalType
            rw [hget]
          rw [hf]
          have hup : Near L D c2 { c2 with sy := { c2.sy with locals := c2.sy.locals.update (symKey v.name) (.scalar t) } } True :=
            ⟨fun hw => IdMap.wf_update hw _ _, fun h => h, rfl, rfl, rfl, rfl, .refl _⟩
          exact ⟨⟨hmd, t, (h5 t).2 rfl⟩, ((h2.trans h6.near).trans hup).imp (by simp)⟩

theorem assign_here {c : Ctx} {S : Spot} (H : Here c S) (v : VarRef) (pos : LineCol) (e : Expr) :
    Judged (compileAssign v pos e c) (AssignOk S.env v e)
      fun _ c' => AssignOk S.env v e ∧ Here c' { S with env := afterAssign S.env v e } ∧
        Fixes L D c.cg c'.cg (CallsDefined D (assignEnv S.env v) e) :=
  (assign_judged H v pos e).mono id fun _ _ hx ⟨h1, h2⟩ => ⟨h1, H.near h2 (assign_scope H.wf H.scope hx), h2.adds.fixes⟩

/-! ## Arrays -/

theorem subsFit_ofList {Γ : Env} : ∀ {l : List Expr}, SubsFit Γ (Args.ofList l) ↔ ∀ s ∈ l, Usable Γ s .integer
  | [] => ⟨fun _ => by simp, fun _ => .nil⟩
  | e :: l => by
    simp only [List.forall_mem_cons]
    rw [← subsFit_ofList (l := l)]
    constructor
    · intro h
      cases h with | cons h1 h2 h3 => exact ⟨⟨_, h1, h2⟩, h3⟩
    · rintro ⟨⟨t, h1, h2⟩, h3⟩
      exact .cons h1 h2 h3

theorem argsDefined_ofList {Γ : Env} : ∀ {l : List Expr}, ArgsDefined D Γ (Args.ofList l) ↔ ∀ s ∈ l, CallsDefined D Γ s
  | [] => by simp [Args.ofList, ArgsDefined]
  | e :: l => by
    simp only [List.forall_mem_cons]
    rw [← argsDefined_ofList (l := l)]
    rfl

theorem arrayAssign_judged {c : Ctx} {S : Spot} (H : Here c S) (v : VarRef) (pos : LineCol) (subs : List Expr) (e : Expr) :
    Judged (compileArrayAssign v pos subs e c) (∃ place t, nameRef S.env.locals S.env.shared v = .var place (.array t subs.length) ∧ Usable S.env e t ∧
      ∀ s ∈ subs, Usable S.env s .integer)
      fun _ c' => (∃ place t, nameRef S.env.locals S.env.shared v = .var place (.array t subs.length) ∧ Usable S.env e t ∧
      ∀ s ∈ subs, Usable S.env s .integer) ∧ Still L D c c' (CallsDefined D S.env e ∧ ∀ s ∈ subs, CallsDefined D S.env s) := by
  refine Judged.withSyms (P := fun _ => ∃ place t, nameRef S.env.locals S.env.shared v = .var place (.array t subs.length) ∧ Usable S.env e t ∧
      ∀ s ∈ subs, Usable S.env s .integer) ?_
  simp only [H.scope.syms.lookup v]
  unfold Spec.lookup
  cases hn : nameRef S.env.locals S.env.shared v with
  | wrongType => exact .throw (by simp)
  | undefined => exact .throw (by simp)
  | var place p =>
    cases p with
    | scalar t' => exact .throw (by simp)
    | array t nd =>
      simp only
      by_cases hlen : subs.length ≠ nd
      · rw [if_pos hlen]
        refine .throw ?_
        rintro ⟨_, _, h, _⟩
        cases h; exact hlen rfl
      · rw [if_neg hlen]
        have hlen := Classical.not_not.1 hlen
        refine (Free.allocTemp _ _ _).step (Adds.refl (L := L) (D := D) _) fun val g1 _ h1 => ?_
        refine (exprAs_judged (L := L) (D := D) H.scope e 1 val t g1).part ?_ h1 fun _ g2 hu h2 => ?_
        · rintro ⟨_, _, h, h', _⟩
          cases h; exact h'
        refine (subs_judged (L := L) (D := D) H.scope (Args.ofList subs) 1 pos g2).part ?_ h2 fun _ g3 hsub h3 => ?_
        · rintro ⟨_, _, _, _, h⟩
          exact subsFit_ofList.2 h
        refine (Free.firstTemp _ _ _).step h3 fun _ g4 _ h4 => ?_
        refine (Free.emit _ _).step h4 fun _ g5 _ h5 => ?_
        refine ⟨⟨place, t, by rw [hlen], hu, subsFit_ofList.1 hsub⟩, h5.imp ?_⟩
        rw [argsDefined_ofList]; tauto

theorem dimVar_judged {c : Ctx} {S : Spot} (H : Here c S) (name : Str) (pos : LineCol) (shared : Bool) (p : Proto) :
    Judged (dimVar name pos shared p c) (FreeName S.env shared name)
      fun _ c' => FreeName S.env shared name ∧ Here c' { S with env := S.env.add shared (symKey name) p } ∧ Fixes L D c.cg c'.cg True := by
  cases hk : c.sy.getCallable (symKey name) with
  | some md =>
    unfold dimVar
    rw [hk]
    refine .inr ?_
    rintro ⟨h, _⟩
    rw [H.scope.md, hk] at h; cases h
  | none =>
    have hmd : S.env.md (symKey name) = none := by rw [H.scope.md, hk]
    cases shared with
    | true =>
      cases hg : c.sy.globals.get? (symKey name) with
      | some r =>
        unfold dimVar
        simp only [hk, hg, if_true]
        refine .inr ?_
        rintro ⟨_, h⟩
        simp only [if_true] at h
        rw [← H.scope.syms.shared.get, hg] at h; cases h
      | none =>
        have : dimVar name pos true p c = putGlobalS (symKey name) p pos c := by
          unfold dimVar
          simp only [hk, hg, if_true]
        rw [this]
        refine (putGlobal_judged (L := L) (D := D) H.scope (symKey name) p pos).mono (fun h => by simpa using h.2) ?_
        rintro _ c' _ ⟨h1, h2, h3, h4⟩
        exact ⟨⟨hmd, by simpa using h1⟩, H.near h2 h4, h2.adds.fixes⟩
    | false =>
      cases hg : c.sy.locals.get? (symKey name) with
      | some r =>
        unfold dimVar
        simp only [hk, hg, Bool.false_eq_true, if_false]
        refine .inr ?_
        rintro ⟨_, h⟩
        simp only [Bool.false_eq_true, if_false] at h
        rw [← H.scope.syms.locals.get, hg] at h; cases h
      | none =>
        have : dimVar name pos false p c = putLocalS (symKey name) p pos c := by
          unfold dimVar
          simp only [hk, hg, Bool.false_eq_true, if_false]
        rw [this]
        refine (putLocal_judged (L := L) (D := D) H.scope (symKey name) p pos).mono (fun h => by simpa using h.2) ?_
        rintro _ c' _ ⟨h1, h2, h3, h4⟩
        exact ⟨⟨hmd, by simpa using h1⟩, H.near h2 h4, h2.adds.fixes⟩

theorem dimArray_judged {c : Ctx} {S : Spot} (H : Here c S) (name : Str) (pos : LineCol) (shared : Bool) (dims : List Expr) (ty : ExprType) :
    Judged (compileDimArray name pos shared dims ty c) (StmtOk S.env S.around (.dimArray name pos shared dims ty))
      fun _ c' => StmtOk S.env S.around (.dimArray name pos shared dims ty) ∧
        Here c' { S with env := afterStmt S.env (.dimArray name pos shared dims ty) } ∧
        Fixes L D c.cg c'.cg (StmtResolved L D S.env (.dimArray name pos shared dims ty)) := by
  simp only [StmtOk, StmtResolved]
  refine (dimVar_judged H name pos shared (.array ty dims.length)).stepTo (·.1) (Fixes.refl (L := L) (D := D) _) fun reg c1 h1 H1 F1 => ?_
  have key : Judged ((withSyms fun sy => do
      compileSubs sy (Args.ofList dims) 0 pos
      let first ← CM.lift (firstTemp sy 0 pos)
      match dims, PackedArrayType.new ty dims.length with
      | [], _ => CM.throw .panic
      | _, some packed => do let _ ← emit (.allocArray reg packed first) pos
      | _, none => CM.throw (.tooManyDims pos dims.length)) c1)
      (1 ≤ dims.length ∧ dims.length ≤ 15 ∧ ∀ d ∈ dims, Usable (afterStmt S.env (.dimArray name pos shared dims ty)) d .integer)
      fun _ c' => (1 ≤ dims.length ∧ dims.length ≤ 15 ∧ ∀ d ∈ dims, Usable (afterStmt S.env (.dimArray name pos shared dims ty)) d .integer) ∧
        Still L D c1 c' (∀ d ∈ dims, CallsDefined D (afterStmt S.env (.dimArray name pos shared dims ty)) d) := by
    refine Judged.withSyms (P := fun _ => 1 ≤ dims.length ∧ dims.length ≤ 15 ∧
      ∀ d ∈ dims, Usable (afterStmt S.env (.dimArray name pos shared dims ty)) d .integer) ?_
    refine (subs_judged (L := L) (D := D) H1.scope (Args.ofList dims) 0 pos c1.cg).part ?_ (Adds.refl _) fun _ g1 hsub h2 => ?_
    · rintro ⟨_, _, h⟩
      exact subsFit_ofList.2 h
    refine (Free.firstTemp _ _ _).step h2 fun first g2 _ h3 => ?_
    cases dims with
    | nil => exact .throw (by simp)
    | cons d ds =>
      by_cases hd : (d :: ds).length > 15
      · have : PackedArrayType.new ty (d :: ds).length = none := by unfold PackedArrayType.new; rw [if_pos hd]
        rw [this]
        exact .throw fun h => by omega
      · obtain ⟨pk, hpk⟩ : ∃ pk, PackedArrayType.new ty (d :: ds).length = some pk := by
          unfold PackedArrayType.new; rw [if_neg hd]; exact ⟨_, rfl⟩
        rw [hpk]
        refine (Free.emit _ _).step h3 fun _ g5 _ h5 => ?_
        refine ⟨⟨by simp, by omega, subsFit_ofList.1 hsub⟩, h5.imp ?_⟩
        rw [argsDefined_ofList]
        exact ⟨fun h => h.2, fun h => ⟨trivial, h⟩⟩
  exact key.mono (·.2) fun _ c2 _ ⟨h2, h3⟩ => ⟨⟨h1, h2⟩, H1.still h3, (F1.trans h3.near.adds.fixes).imp (by simp)⟩

/-! ## Calls -/

theorem defineIfNew_judged {c : Ctx} {Γ : Env} (hs : Scope c.sy Γ) (v : VarRef) (pos : LineCol) (Q : Prop) :
    Judged (defineIfNew v pos c) Q fun _ c' => Near L D c c' True := by
  have hl := hs.syms.lookup v
  unfold Spec.lookup at hl
  unfold defineIfNew
  cases hn : nameRef Γ.locals Γ.shared v with
  | wrongType => rw [hn] at hl; rw [hl]; exact Near.refl c
  | var place p => rw [hn] at hl; rw [hl]; exact Near.refl c
  | undefined =>
    rw [hn] at hl
    rw [hl]
    simp only
    cases hk : c.sy.getCallable (symKey v.name) with
    | some md => exact Near.refl c
    | none =>
      simp only
      unfold defineNewArg
      refine (putLocal_judged (L := L) (D := D) hs (symKey v.name) (.scalar (v.ty.getD .integer)) pos).bind (Q := Q)
        (fun _ => undefined_position hn) fun r c1 _ ⟨_, h2, _, _⟩ => ?_
      have h3 := FreeS.onCg (Free.emitDefault (L := L) (D := D) r (v.ty.getD .integer) pos) c1
      cases hx : onCg (emitDefault r (v.ty.getD .integer) pos) c1 with
      | error e => rw [hx] at h3; exact .inl h3
      | ok r' => rw [hx] at h3; exact (h2.trans h3.near).imp (by simp)

theorem defineNewArgs_judged (rep : Option RepSyn) (syns : List SingSyn) (args : Args) {c : Ctx} {Γ : Env} (hs : Scope c.sy Γ)
    (hlen : syns.length ≤ args.length) (Q : Prop) :
    Judged (defineNewArgs rep syns args c) Q fun _ c' => Near L D c c' True := by
  have step : ∀ {v : VarRef} {pos : LineCol} {f : Unit → CS Unit},
      (∀ c1, Scope c1.sy (defineOut Γ v) → Judged (f () c1) Q fun _ c' => Near L D c1 c' True) →
      Judged ((defineIfNew v pos >>= f) c) Q fun _ c' => Near L D c c' True := by
    intro v pos f hf
    refine (defineIfNew_judged (L := L) (D := D) hs v pos Q).bind id fun _ c1 hx h1 => ?_
    exact (hf c1 (defineIfNew_scope hs hx)).mono id fun _ _ _ h2 => (h1.trans h2).imp (by simp)
  match args with
  | .nil =>
    cases syns with
    | nil => exact Near.refl c
    | cons s syns => simp [Args.length] at hlen
  | .skip _ _ rest =>
    have hl : syns.tail.length ≤ rest.length := by simp [Args.length] at hlen ⊢; omega
    cases syns with
    | nil => unfold EB.defineNewArgs; exact defineNewArgs_judged rep _ rest hs (by simp) Q
    | cons s syns => cases s <;> (unfold EB.defineNewArgs; exact defineNewArgs_judged rep _ rest hs hl Q)
  | .cons e _ _ rest =>
    have hl : syns.tail.length ≤ rest.length := by simp [Args.length] at hlen ⊢; omega
    cases syns with
    | nil =>
      cases e with
      | sym v pos =>
        unfold EB.defineNewArgs
        simp only
        by_cases hr : repIsRef rep = true
        · rw [if_pos hr]
          exact step fun c1 h1 => defineNewArgs_judged rep _ rest h1 (by simp) Q
        · rw [if_neg hr]
          exact defineNewArgs_judged rep _ rest hs (by simp) Q
      | _ => unfold EB.defineNewArgs; exact defineNewArgs_judged rep _ rest hs (by simp) Q
    | cons s syns =>
      cases s with
      | reqRef a b d sep =>
        cases d with
        | false => cases e <;> (unfold EB.defineNewArgs; exact defineNewArgs_judged rep _ rest hs hl Q)
        | true =>
          cases e with
          | sym v pos =>
            unfold EB.defineNewArgs
            exact step fun c1 h1 => defineNewArgs_judged rep _ rest h1 hl Q
          | _ => unfold EB.defineNewArgs; exact defineNewArgs_judged rep _ rest hs hl Q
      | _ => cases e <;> (unfold EB.defineNewArgs; exact defineNewArgs_judged rep _ rest hs hl Q)
termination_by structural args

theorem defineOuts_md (l : List VarRef) (Γ : Env) : (l.foldl defineOut Γ).md = Γ.md := by
  induction l generalizing Γ with
  | nil => rfl
  | cons v l ih =>
    rw [List.foldl_cons, ih]
    unfold defineOut
    split <;> rfl

theorem callStmt_judged {c : Ctx} {S : Spot} (H : Here c S) (v : VarRef) (pos : LineCol) (args : Args) :
    Judged (compileCallStmt v pos args c) (StmtOk S.env S.around (.call v pos args))
      fun _ c' => StmtOk S.env S.around (.call v pos args) ∧ Here c' { S with env := afterStmt S.env (.call v pos args) } ∧
        Fixes L D c.cg c'.cg (StmtResolved L D S.env (.call v pos args)) := by
  unfold compileCallStmt
  simp only [StmtOk, StmtResolved]
  cases hk : c.sy.getCallable (symKey v.name) with
  | none =>
    refine .inr ?_
    rintro ⟨md, _, h, _⟩
    rw [H.scope.md, hk] at h; cases h
  | some md =>
    simp only
    cases hrt : md.returnType with
    | some t =>
      refine .inr ?_
      rintro ⟨md, _, h, h', _⟩
      rw [H.scope.md, hk] at h; cases h
      rw [hrt] at h'; cases h'
    | none =>
      simp only [Option.isSome_none, Bool.false_eq_true, if_false]
      cases hf : md.findSyntax args.length with
      | none =>
        refine .inr ?_
        rintro ⟨md, syn, h, _, h', _⟩
        rw [H.scope.md, hk] at h; cases h
        rw [(syntaxFor_iff _ _ _).2 h'] at hf; cases hf
      | some syn =>
        simp only
        have hsf := (syntaxFor_iff _ _ _).1 hf
        have hout : afterStmt S.env (.call v pos args) = (outVars syn.repeated syn.singular args).foldl defineOut S.env := by
          simp only [afterStmt]
          rw [H.scope.outs _ _ _ _ hk hrt hf]
        have hmd : (afterStmt S.env (.call v pos args)).md = S.env.md := by rw [hout, defineOuts_md]
        refine (defineNewArgs_judged (L := L) (D := D) syn.repeated syn.singular args H.scope (counts_le (syntaxFor_counts hsf)) True).bind
          (fun _ => trivial) fun _ c1 hx h1 => ?_
        have hs1 : Scope c1.sy (afterStmt S.env (.call v pos args)) := by
          rw [hout]; exact defineNewArgs_scope _ _ _ H.scope hx
        have hk1 : c1.sy.getCallable (symKey v.name) = some md := by
          rw [← hs1.md, hmd, H.scope.md, hk]
        refine (Judged.withSyms (P := fun _ => ArgsFit (afterStmt S.env (.call v pos args)) syn.repeated (MayEnd syn args.length) syn.singular args)
          (R := ArgsDefined D (afterStmt S.env (.call v pos args)) args ∧ Defined D S.env (symKey v.name)) (L := L) (D := D) (c := c1)
          (Q := ArgsFit (afterStmt S.env (.call v pos args)) syn.repeated (MayEnd syn args.length) syn.singular args) ?_).mono ?_ ?_
        · unfold compileArgs
          rw [hf]
          simp only
          have hA : ∀ {f : Reg × List LineCol → CG Unit}, (do
              let r ← (do
                let (_, lcs) ← compileArgsFrom ⟨c1.sy, md, pos, syn.singular.length, args.length, syn.repeated⟩ args true syn.singular 0 []
                let first ← CM.lift (firstTemp c1.sy 0 pos)
                pure (first, lcs) : CG (Reg × List LineCol))
              f r : CG Unit) = (do
                let (_, lcs) ← compileArgsFrom ⟨c1.sy, md, pos, syn.singular.length, args.length, syn.repeated⟩ args true syn.singular 0 []
                let first ← CM.lift (firstTemp c1.sy 0 pos)
                f (first, lcs)) := by
            intro f
            funext g
            cases hx : compileArgsFrom ⟨c1.sy, md, pos, syn.singular.length, args.length, syn.repeated⟩ args true syn.singular 0 [] g with
            | error e => rw [bind_of_error hx]; rw [bind_of_error (e := e)]; rw [bind_of_error hx]
            | ok r =>
              rw [bind_of_ok hx]
              cases hy : (CM.lift (firstTemp c1.sy 0 pos) : CG Reg) r.2 with
              | error e =>
                rw [bind_of_error (e := e)]
                · simp only; rw [bind_of_error hy]
                · rw [bind_of_ok hx]; simp only; rw [bind_of_error hy]
              | ok r' =>
                rw [bind_of_ok (a := (r'.1, r.1.2)) (s' := r'.2)]
                · simp only; rw [bind_of_ok hy]
                · rw [bind_of_ok hx]; simp only; rw [bind_of_ok hy]; rfl
          refine Eq.mp (congrArg (fun y => Judged (y c1.cg) _ _) (hA (f := fun r => emitCall md (symKey v.name) none r.1 r.2 pos)).symm) ?_
          refine (args_judged hs1 args (A := ⟨c1.sy, md, pos, syn.singular.length, args.length, syn.repeated⟩) rfl (fun _ => mayEnd_iff ..)
            (counts_le ((syntaxFor_counts hsf))) true 0 [] c1.cg).part id (Adds.refl (L := L) (D := D) _) fun r g3 hargs h3 => ?_
          refine (Free.firstTemp _ _ _).step h3 fun _ g4 _ h4 => ?_
          refine (emitCall_judged (L := L) (D := D) md (symKey v.name) none _ r.2 pos g4).mono (fun _ => trivial) fun _ g5 _ h5 => ?_
          refine ⟨hargs, (h4.trans h5).imp ?_⟩
          rw [H.scope.known hk]
          tauto
        · rintro ⟨md', syn', h, _, h', h''⟩
          rw [H.scope.md, hk] at h; cases h
          rw [(syntaxFor_iff _ _ _).2 h'] at hf; cases hf
          exact h''
        · rintro _ c2 _ ⟨h2, h3⟩
          refine ⟨⟨md, syn, by rw [H.scope.md, hk], hrt, hsf, h2⟩, (H.near h1 hs1).still h3, (h1.adds.fixes.trans h3.near.adds.fixes).imp ?_⟩
          tauto

/-! ## Small statements -/

theorem literalCode_eq (e : Expr) : literalCode e = (staticEndCode e).map (·.1.toInt) := by
  have hn : ∀ (v : I32) (pos pos' : LineCol), literalCode (.un .neg (.int v pos) pos') = (staticEndCode (.un .neg (.int v pos) pos')).map (·.1.toInt) := by
    intro v pos pos'
    by_cases h : v = BitVec.intMin 32
    · subst h; rfl
    · have hc : checkedNeg v = .ok (-v) := by unfold checkedNeg; exact if_neg h
      simp only [literalCode, staticEndCode, hc, if_neg h]
      simp only [Option.map_some]
      rw [BitVec.toInt_neg_of_ne_intMin h]
  match e with
  | .int v pos => rfl
  | .un .neg (.int v pos) pos' => exact hn v pos pos'
  | .bool .. | .dbl .. | .text .. | .sym .. | .bin .. | .call .. => rfl
  | .un .not _ _ => rfl
  | .un .neg (.bool ..) _ | .un .neg (.dbl ..) _ | .un .neg (.text ..) _ | .un .neg (.sym ..) _ | .un .neg (.bin ..) _
  | .un .neg (.call ..) _ | .un .neg (.un ..) _ => rfl

theorem end_judged {c : Ctx} {S : Spot} (H : Here c S) (code : Option Expr) (pos : LineCol) :
    Judged (compileEnd code pos c) (∀ e, code = some e → Usable S.env e .integer ∧ ∀ i, literalCode e = some i → 0 ≤ i ∧ i ≤ 127)
      fun _ c' => (∀ e, code = some e → Usable S.env e .integer ∧ ∀ i, literalCode e = some i → 0 ≤ i ∧ i ≤ 127) ∧
        Still L D c c' (∀ e, code = some e → CallsDefined D S.env e) := by
  have key : Judged ((withSyms fun sy => do
      let reg ← CM.lift (allocTemp sy 0 pos)
      match code with
      | some e => compileExprAs sy e 1 reg .integer
      | none => do let _ ← emit (.loadInt reg 0#16) pos
      let _ ← emit (.end reg) pos : CS Unit) c) (∀ e, code = some e → Usable S.env e .integer)
      fun _ c' => (∀ e, code = some e → Usable S.env e .integer) ∧ Still L D c c' (∀ e, code = some e → CallsDefined D S.env e) := by
    refine Judged.withSyms (P := fun _ => ∀ e, code = some e → Usable S.env e .integer) ?_
    refine (Free.allocTemp _ _ _).step (Adds.refl (L := L) (D := D) _) fun reg g1 _ h1 => ?_
    cases code with
    | some e =>
      simp only
      refine (exprAs_judged (L := L) (D := D) H.scope e 1 reg .integer g1).part (fun h => h e rfl) h1 fun _ g2 h2 h3 => ?_
      refine (Free.emit _ _).step h3 fun _ g3 _ h4 => ?_
      exact ⟨fun e' he => by cases he; exact h2, h4.imp (by simp)⟩
    | none =>
      refine (Free.emit _ _).step h1 fun _ g2 _ h2 => ?_
      refine (Free.emit _ _).step h2 fun _ g3 _ h3 => ?_
      exact ⟨nofun, h3.imp (by simp)⟩
  unfold compileEnd
  cases ho : code.bind staticEndCode with
  | none =>
    have hl : ∀ e, code = some e → literalCode e = none := by
      intro e he
      subst he
      rw [literalCode_eq]
      rw [show staticEndCode e = none from ho]; rfl
    refine key.mono (fun h e he => (h e he).1) fun _ _ _ ⟨h1, h2⟩ => ⟨fun e he => ⟨h1 e he, fun i hi => ?_⟩, h2⟩
    rw [hl e he] at hi; cases hi
  | some o =>
    obtain ⟨v, vpos⟩ := o
    obtain ⟨e, rfl, he⟩ := Option.bind_eq_some_iff.1 ho
    have hl : literalCode e = some v.toInt := by rw [literalCode_eq, he]; rfl
    simp only
    by_cases hv : 0 ≤ v.toInt ∧ v.toInt < 128
    · have : (exitCodeTryNew v.toInt).isNone = false := by unfold exitCodeTryNew; rw [if_pos hv]; rfl
      rw [this]
      simp only [Bool.false_eq_true, if_false]
      refine key.mono (fun h e he => (h e he).1) fun _ _ _ ⟨h1, h2⟩ => ⟨fun e' he' => ⟨h1 e' he', fun i hi => ?_⟩, h2⟩
      cases he'
      rw [hl] at hi; cases hi
      omega
    · have : (exitCodeTryNew v.toInt).isNone = true := by unfold exitCodeTryNew; rw [if_neg hv]; rfl
      rw [this]
      simp only [if_true]
      rw [bind_of_error (x := (CM.throw (.invalidEndCode vpos) : CS Unit)) (e := .invalidEndCode vpos) rfl]
      refine .inr fun h => ?_
      have := (h e rfl).2 _ hl
      omega

theorem dataConsts_judged : ∀ (l : List (Option Expr)), (∃ ds, dataConsts l = .ok ds ∧ ∀ e, some e ∈ l → IsLiteral e) ∨
    ∃ er, dataConsts l = .error er ∧ ¬ ∀ e, some e ∈ l → IsLiteral e
  | [] => .inl ⟨[], rfl, by simp⟩
  | none :: l => by
    rcases dataConsts_judged l with ⟨ds, h1, h2⟩ | ⟨er, h1, h2⟩
    · exact .inl ⟨none :: ds, by unfold dataConsts; rw [h1], by simpa using h2⟩
    · exact .inr ⟨er, by unfold dataConsts; rw [h1], by simpa using h2⟩
  | some e :: l => by
    have hc : (∃ d, dataConst e = .ok d ∧ IsLiteral e) ∨ dataConst e = .error .panic ∧ ¬ IsLiteral e := by
      cases e <;> first
        | exact .inl ⟨_, rfl, trivial⟩
        | exact .inr ⟨rfl, id⟩
    rcases hc with ⟨d, h3, h4⟩ | ⟨h3, h4⟩
    · rcases dataConsts_judged l with ⟨ds, h1, h2⟩ | ⟨er, h1, h2⟩
      · refine .inl ⟨some d :: ds, by unfold dataConsts; rw [h3, h1], ?_⟩
        intro e' he'
        rcases List.mem_cons.1 he' with h | h
        · cases h; exact h4
        · exact h2 e' h
      · exact .inr ⟨er, by unfold dataConsts; rw [h3, h1], fun h => h2 fun e' he' => h e' (List.mem_cons_of_mem _ he')⟩
    · exact .inr ⟨.panic, by unfold dataConsts; rw [h3], fun h => h4 (h e (by simp))⟩

theorem forIter_judged {c : Ctx} {S : Spot} (H : Here c S) (v : VarRef) (pos : LineCol) (double : Bool) :
    Judged (forIter v pos double c)
      ((double = true → v.ty = none → nameRef S.env.locals S.env.shared v = .undefined → S.env.md (symKey v.name) = none) ∧
        (nameRef S.env.locals S.env.shared v ≠ .wrongType ∨ v.ty ≠ none))
      fun _ c' => (double = true → v.ty = none → nameRef S.env.locals S.env.shared v = .undefined → S.env.md (symKey v.name) = none) ∧
        Here c' { S with env := forVar S.env v double } ∧ Fixes L D c.cg c'.cg True := by
  have hl := H.scope.syms.lookup v
  unfold Spec.lookup at hl
  unfold forIter
  by_cases hd : (double && v.ty.isNone) = true
  · rw [if_pos hd]
    simp only [Bool.and_eq_true, Option.isNone_iff_eq_none] at hd
    cases hn : nameRef S.env.locals S.env.shared v with
    | wrongType =>
      rw [hn] at hl; rw [hl]
      refine .inr ?_
      rintro ⟨_, h⟩
      rcases h with h | h
      · exact h rfl
      · exact h hd.2
    | var place p =>
      rw [hn] at hl; rw [hl]
      have : forVar S.env v double = S.env := by unfold forVar; rw [if_neg (by rw [hn]; simp)]
      rw [this]
      exact ⟨fun _ _ h => by simp at h, H, .refl _⟩
    | undefined =>
      rw [hn] at hl; rw [hl]
      simp only
      cases hk : c.sy.getCallable (symKey v.name) with
      | some md =>
        refine .inr ?_
        rintro ⟨h, _⟩
        have := h hd.1 hd.2 trivial
        rw [H.scope.md, hk] at this; cases this
      | none =>
        simp only
        have : forVar S.env v double = S.env.addLocal (symKey v.name) (.scalar .double) := by unfold forVar; rw [if_pos ⟨hd.1, hd.2, hn⟩]
        rw [this]
        refine (putLocal_judged (L := L) (D := D) H.scope (symKey v.name) (.scalar .double) pos).bind (fun _ => undefined_position hn)
          fun _ c1 _ ⟨_, h2, _, h4⟩ => ?_
        exact ⟨fun _ _ _ => by rw [H.scope.md, hk], H.near h2 h4, h2.adds.fixes⟩
  · rw [if_neg hd]
    have hd' : ¬ (double = true ∧ v.ty = none) := by simpa using hd
    have : forVar S.env v double = S.env := by unfold forVar; rw [if_neg (fun h => hd' ⟨h.1, h.2.1⟩)]
    rw [this]
    exact ⟨fun h1 h2 => absurd ⟨h1, h2⟩ hd', H, .refl _⟩

theorem fixup_judged {c : Ctx} {S : Spot} (H : Here c S) (pos : LineCol) (f : Fixup) (Q : Prop) :
    Judged (emitFixup pos f c) Q fun _ c' => Here c' S ∧ Fixes L D c.cg c'.cg (f.Known L D) := by
  show Here { c with cg := (c.cg.push .nop pos).addFixup c.cg.code.length f } S ∧ _
  refine ⟨⟨H.wf, H.scope, H.user, H.dos, H.fors, H.inside, H.labels, H.defined, H.callables, H.onceLabels, H.onceBodies⟩, fun hin => ?_⟩
  refine ((Fixes.trans (Adds.push c.cg .nop pos).fixes (Fixes.fixup (f := f) (by simp [Codegen.push]) ?_)).imp (by simp)) hin
  intro f' hf'
  exact absurd (hin _ _ hf') (by omega)

theorem Here.exits {c : Ctx} {S : Spot} {g : Codegen} {d e : List (List (Nat × LineCol))} {x : List (Nat × LineCol)} (H : Here c S)
    (hg : g.labels = c.cg.labels) (hg' : g.callables = c.cg.callables) (hd : d.length = c.doExit.length) (he : e.length = c.forExit.length) :
    Here { c with cg := g, doExit := d, forExit := e, calExits := x } S :=
  ⟨H.wf, H.scope, H.user, hd.trans H.dos, he.trans H.fors, H.inside, fun k => by rw [show ({ c with cg := g, doExit := d, forExit := e, calExits := x } : Ctx).cg.labels = _ from hg]; exact H.labels k, H.defined,
    fun k => by rw [show ({ c with cg := g, doExit := d, forExit := e, calExits := x } : Ctx).cg.callables = _ from hg']; exact H.callables k, H.onceLabels, H.onceBodies⟩

theorem exitDo_judged {c : Ctx} {S : Spot} (H : Here c S) (pos : LineCol) :
    Judged (compileExitDo pos c) (S.around.inDo = true) fun _ c' => S.around.inDo = true ∧ Here c' S ∧ Fixes L D c.cg c'.cg True := by
  have hd := H.dos
  unfold compileExitDo
  cases h : c.doExit with
  | nil =>
    rw [h] at hd
    refine .inr ?_
    simp [Spot.around, ← hd]
  | cons t rest =>
    rw [h] at hd
    refine ⟨?_, H.exits (e := c.forExit) (x := c.calExits) rfl rfl (by rw [h]; rfl) rfl, (Adds.push c.cg .nop pos).fixes⟩
    simp [Spot.around, ← hd]

theorem exitFor_judged {c : Ctx} {S : Spot} (H : Here c S) (pos : LineCol) :
    Judged (compileExitFor pos c) (S.around.inFor = true) fun _ c' => S.around.inFor = true ∧ Here c' S ∧ Fixes L D c.cg c'.cg True := by
  have hd := H.fors
  unfold compileExitFor
  cases h : c.forExit with
  | nil =>
    rw [h] at hd
    refine .inr ?_
    simp [Spot.around, ← hd]
  | cons t rest =>
    rw [h] at hd
    refine ⟨?_, H.exits (d := c.doExit) (x := c.calExits) rfl rfl rfl (by rw [h]; rfl), (Adds.push c.cg .nop pos).fixes⟩
    simp [Spot.around, ← hd]

theorem exitCallable_judged {c : Ctx} {S : Spot} (H : Here c S) (kind : CallableKind) (what : String) (pos : LineCol) :
    Judged (compileExitCallable kind what pos c) (S.around.inside = some kind)
      fun _ c' => S.around.inside = some kind ∧ Here c' S ∧ Fixes L D c.cg c'.cg True := by
  unfold compileExitCallable
  have hi : S.around.inside = c.cur := H.inside.symm
  rw [hi]
  by_cases h : c.cur ≠ some kind
  · rw [if_pos h]; exact .inr h
  · rw [if_neg h]
    exact ⟨Classical.not_not.1 h, H.exits (d := c.doExit) (e := c.forExit) rfl rfl rfl rfl, (Adds.push c.cg .nop pos).fixes⟩

theorem closeDo_judged {c : Ctx} {S : Spot} (H : Here c { S with dos := S.dos + 1 }) (n : Nat) (Q : Prop) :
    Judged (closeDo n c) Q fun _ c' => Here c' S ∧ Fixes L D c.cg c'.cg True := by
  have hd : c.doExit.length = S.dos + 1 := H.dos
  unfold closeDo
  cases h : c.doExit with
  | nil => rw [h] at hd; simp at hd
  | cons t rest =>
    rw [h] at hd
    have H1 : Here { c with doExit := rest } S :=
      ⟨H.wf, H.scope, H.user, by simpa using hd, H.fors, H.inside, H.labels, H.defined, H.callables, H.onceLabels, H.onceBodies⟩
    exact (FreeS.patchJumps n t).last H1 (Fixes.refl (L := L) (D := D) _) fun _ _ h1 h2 => ⟨h1, h2⟩

theorem closeFor_judged {c : Ctx} {S : Spot} (H : Here c { S with fors := S.fors + 1 }) (n : Nat) (Q : Prop) :
    Judged (closeFor n c) Q fun _ c' => Here c' S ∧ Fixes L D c.cg c'.cg True := by
  have hd : c.forExit.length = S.fors + 1 := H.fors
  unfold closeFor
  cases h : c.forExit with
  | nil => rw [h] at hd; simp at hd
  | cons t rest =>
    rw [h] at hd
    have H1 : Here { c with forExit := rest } S :=
      ⟨H.wf, H.scope, H.user, H.dos, by simpa using hd, H.inside, H.labels, H.defined, H.callables, H.onceLabels, H.onceBodies⟩
    exact (FreeS.patchJumps n t).last H1 (Fixes.refl (L := L) (D := D) _) fun _ _ h1 h2 => ⟨h1, h2⟩

theorem label_judged {c : Ctx} {S : Spot} (H : Here c S) (name : Str) (pos : LineCol) :
    Judged (compileStmtBody (.label name pos) c) ((S.labels ++ [symKey name]).Nodup)
      fun _ c' => Here c' { S with labels := S.labels ++ [symKey name] } ∧ Fixes L D c.cg c'.cg True := by
  simp only [compileStmtBody]
  cases h : c.cg.labels.get? (symKey name) with
  | some a =>
    refine .inr fun hn => ?_
    have hm := (H.labels (symKey name)).1 ⟨a, h⟩
    exact (List.nodup_append.1 hn).2.2 _ hm _ (by simp) rfl
  | none =>
    have hm : symKey name ∉ S.labels := fun hm => by
      obtain ⟨a, ha⟩ := (H.labels _).2 hm
      rw [h] at ha; cases ha
    refine ⟨⟨H.wf, H.scope, H.user, H.dos, H.fors, H.inside, fun k => ?_, H.defined, H.callables, ?_, H.onceBodies⟩, .same rfl (Nat.le_refl _)⟩
    · show (∃ a, FMap.get? (c.cg.labels.insert (symKey name) c.cg.code.length) k = some a) ↔ _
      rw [FMap.get?_insert]
      by_cases hk : k = symKey name
      · rw [if_pos hk]; simp [hk]
      · rw [if_neg hk, H.labels]; simp [hk]
    · exact List.nodup_append.2 ⟨H.onceLabels, by simp, fun a ha b hb => by simp at hb; subst hb; exact fun h => hm (h ▸ ha)⟩

theorem declare_judged {c : Ctx} {S : Spot} (H : Here c S) (name : VarRef) (pos : LineCol) (params : List VarRef) :
    Judged (declareCallable name pos params c) (DeclareOk S.env name params)
      fun _ c' => DeclareOk S.env name params ∧ Here c' { S with env := S.env.declare name params } ∧ Fixes L D c.cg c'.cg True := by
  unfold declareCallable
  have hg : ∀ md, c.sy.user.get? (symKey name.name) = some md ↔ S.env.md (symKey name.name) = some md ∧ md.userDefined = true := by
    intro md
    rw [H.scope.md]
    unfold Syms.getCallable
    cases hu : c.sy.user.get? (symKey name.name) with
    | some md' =>
      have := H.user _ _ hu
      simp only [Option.some.injEq]
      exact ⟨fun h => ⟨h, h ▸ this⟩, fun h => h.1⟩
    | none =>
      simp only [reduceCtorEq, false_iff, not_and, Bool.not_eq_true]
      exact fun h => H.scope.ups _ _ h
  cases hd : c.sy.declareCallable name (userMd name params) with
  | ok sy =>
    have hsc := H.scope.declare hd
    obtain ⟨rfl, hprev⟩ := declareCallable_ok hd
    refine ⟨⟨?_, ?_⟩, ?_, .refl _⟩
    · unfold Syms.declareCallable at hd
      split at hd
      · cases hd
      next h => rw [← H.scope.syms.shared.get]; simpa using h
    · intro md h1 h2
      rw [declared_eq]
      exact hprev md ((hg md).2 ⟨h1, h2⟩)
    · refine ⟨H.wf, hsc, fun k md hk => ?_, H.dos, H.fors, H.inside, H.labels, H.defined, H.callables, H.onceLabels, H.onceBodies⟩
      replace hk : FMap.get? (c.sy.user.insert (symKey name.name) (userMd name params)) k = some md := hk
      rw [FMap.get?_insert] at hk
      split at hk
      · cases hk; rfl
      · exact H.user k md hk
  | error e =>
    refine .inr ?_
    rintro ⟨h1, h2⟩
    rw [← H.scope.syms.shared.get] at h1
    unfold Syms.declareCallable at hd
    rw [h1] at hd
    simp only [Option.isSome_none, Bool.false_eq_true, if_false] at hd
    cases hu : c.sy.user.get? (symKey name.name) with
    | none => rw [hu] at hd; cases hd
    | some md =>
      rw [hu] at hd
      simp only at hd
      obtain ⟨h3, h4⟩ := (hg md).1 hu
      rw [if_neg (by rw [h2 md h3 h4, declared_eq]; simp)] at hd
      cases hd

end

end EB
