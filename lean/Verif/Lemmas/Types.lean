import Verif.Lemmas.SimMain
/-!
# Static types
-/

namespace EB
open Spec

/-- The errors that say that a table is full. -/
def Resource : CErr → Prop
  | .outOfConstants _ => True
  | .outOfRegisters _ _ => True
  | _ => False

theorem CM.bind_error {σ α β : Type} {x : CM σ α} {f : α → CM σ β} {s : σ} {e : CErr} (h : (x >>= f) s = .error e) :
    x s = .error e ∨ ∃ a s', x s = .ok (a, s') ∧ f a s' = .error e := by
  replace h : (match x s with
    | .ok (a, s') => f a s'
    | .error e => .error e) = Except.error e := h
  cases hx : x s with
  | error e' => rw [hx] at h; cases h; exact Or.inl rfl
  | ok r => obtain ⟨a, s'⟩ := r; rw [hx] at h; exact Or.inr ⟨a, s', rfl, h⟩

theorem CM.lift_error {σ α : Type} {r : Except CErr α} {s : σ} {e : CErr} (h : (CM.lift r : CM σ α) s = .error e) : r = .error e := by
  cases r with
  | ok a => cases h
  | error e' => cases h; rfl

theorem applyBin_type (op : SrcBin) (reg rtemp : Reg) (lt rt : ExprType) (rpos pos : LineCol) (g : Codegen) :
    match binType op lt rt with
    | some t => ∃ g', applyBin op reg lt rtemp rt rpos pos g = .ok (t, g')
    | none => applyBin op reg lt rtemp rt rpos pos g = .error (.binaryOpType pos op.name lt rt) := by
  cases op <;> cases lt <;> cases rt <;> first | exact ⟨_, rfl⟩ | rfl

theorem allocTemp_error {sy : Syms} {nt : Nat} {pos : LineCol} {e : CErr} (h : allocTemp sy nt pos = .error e) : Resource e := by
  unfold allocTemp at h
  split at h
  · split at h
    · simp at h
    · cases h; trivial
  · cases h; trivial

theorem firstTemp_error {sy : Syms} {nt : Nat} {pos : LineCol} {e : CErr} (h : firstTemp sy nt pos = .error e) : Resource e := by
  unfold firstTemp at h
  split at h
  · simp at h
  · cases h; trivial

theorem getConstant_error {c : ConstantDatum} {pos : LineCol} {g : Codegen} {e : CErr} (h : getConstant c pos g = .error e) : Resource e := by
  unfold getConstant at h
  split at h
  · simp at h
  · split at h
    · simp at h
    · cases h; trivial

theorem emitValue_error {reg : Reg} {c : ConstantDatum} {pos : LineCol} {g : Codegen} {e : CErr} (h : emitValue reg c pos g = .error e) : Resource e := by
  unfold emitValue at h
  have cc : ∀ {α : Type} {f : U16 → CG α} {d : ConstantDatum}, (∀ i g e, f i g ≠ .error e) →
      (getConstant d pos >>= f) g = .error e → Resource e := by
    intro α f d hf h
    rcases CM.bind_error h with h | ⟨a, s', _, h⟩
    · exact getConstant_error h
    · exact absurd h (hf _ _ _)
  cases c with
  | boolean b => cases h
  | integer i =>
    simp only at h
    split at h
    · cases h
    · exact cc (fun _ _ _ h => by cases h) h
  | double b => exact cc (fun _ _ _ h => by cases h) h
  | text b => exact cc (fun _ _ _ h => by cases h) h

theorem applyUn_ok {sy : Syms} {nt : Nat} {op : SrcUn} {reg : Reg} {t t' : ExprType} {pos : LineCol} {g g' : Codegen}
    (h : applyUn sy nt op reg t pos g = .ok (t', g')) : unType op t = some t' := by
  cases op <;> cases t <;> first | (cases h; rfl) | (cases h; done) | skip
  obtain ⟨_, _, h1, h⟩ := CM.bind_ok.1 h
  obtain ⟨_, _, h2, h⟩ := CM.bind_ok.1 h
  cases h
  rfl

theorem applyUn_error {sy : Syms} {nt : Nat} {op : SrcUn} {reg : Reg} {t : ExprType} {pos : LineCol} {g : Codegen} {e : CErr}
    (h : applyUn sy nt op reg t pos g = .error e) : Resource e ∨
      (unType op t = none ∧ e = if op = .neg then .notANumber pos t else .typeMismatch pos t .integer) := by
  cases op <;> cases t <;> first | (cases h; exact Or.inr ⟨rfl, rfl⟩) | (cases h; done) | skip
  rcases CM.bind_error h with h | ⟨a, s', _, h⟩
  · exact Or.inl (allocTemp_error (CM.lift_error h))
  · rcases CM.bind_error h with h | ⟨a, s', _, h⟩
    · exact Or.inl (emitValue_error h)
    · cases h

theorem castTo_type (reg : Reg) (t want : ExprType) (pos : LineCol) (g : Codegen) :
    if Converts t want then ∃ g', castTo reg t want pos g = .ok ((), g')
    else castTo reg t want pos g = .error (if want = .integer ∨ want = .double then .notANumber pos t else .typeMismatch pos t want) := by
  cases t <;> cases want <;> first | exact ⟨_, rfl⟩ | rfl

theorem castTo_ok {reg : Reg} {t want : ExprType} {pos : LineCol} {g g' : Codegen} {u : Unit}
    (h : castTo reg t want pos g = .ok (u, g')) : Converts t want := by
  by_contra hn
  have := castTo_type reg t want pos g
  rw [if_neg hn, h] at this
  simp at this

theorem checkCallee_ok {md : Md} {v : VarRef} {pos : LineCol} {t : ExprType} (h : checkCallee md v pos = .ok t) :
    md.returnType = some t ∧ (v.ty = none ∨ v.ty = some t) := by
  unfold checkCallee at h
  split at h
  · simp at h
  next t' ht' =>
    split at h
    · simp at h
    next h2 =>
      cases h
      refine ⟨ht', ?_⟩
      simp only [VarRef.acceptsCallable] at h2
      split at h2 <;> simp_all

section
variable {sy : Syms} {Γ : Env} (hsy : SymsAre sy Γ)
include hsy

mutual
theorem expr_type (e : Expr) {nt : Nat} {reg : Reg} {g g' : Codegen} {t : ExprType}
    (hc : compileExpr sy e nt reg g = .ok (t, g')) : HasType Γ e t := by
  match e with
  | .bool b pos =>
    simp only [EB.compileExpr] at hc
    obtain ⟨u, g1, h1, h2⟩ := CM.bind_ok.1 hc
    cases h2; exact .bool _ _
  | .dbl b pos =>
    simp only [EB.compileExpr] at hc
    obtain ⟨u, g1, h1, h2⟩ := CM.bind_ok.1 hc
    cases h2; exact .dbl _ _
  | .int b pos =>
    simp only [EB.compileExpr] at hc
    obtain ⟨u, g1, h1, h2⟩ := CM.bind_ok.1 hc
    cases h2; exact .int _ _
  | .text b pos =>
    simp only [EB.compileExpr] at hc
    obtain ⟨u, g1, h1, h2⟩ := CM.bind_ok.1 hc
    cases h2; exact .text _ _
  | .sym v pos =>
    simp only [EB.compileExpr, hsy.lookup v] at hc
    unfold Spec.lookup at hc
    cases hn : nameRef Γ.locals Γ.shared v with
    | wrongType => rw [hn] at hc; cases hc
    | var place p =>
      rw [hn] at hc
      cases p with
      | array => cases hc
      | scalar t' => cases hc; exact .var hn
    | undefined =>
      rw [hn] at hc
      simp only at hc
      unfold compileArgless at hc
      cases hk : sy.getCallable (symKey v.name) with
      | none => simp only [hk] at hc; cases hc
      | some md =>
        simp only [hk] at hc
        obtain ⟨et, g1, h1, hc⟩ := CM.bind_ok.1 hc
        obtain ⟨_, h2, h1⟩ := CM.lift_ok.1 h1
        cases h1
        obtain ⟨q1, q2⟩ := checkCallee_ok h2
        have het : et = t ∧ md.isArgless = true := by
          cases hal : md.isArgless with
          | false => rw [hal] at hc; cases hc
          | true =>
            refine ⟨?_, rfl⟩
            rw [hal] at hc
            simp only [Bool.not_true, Bool.false_eq_true, if_false] at hc
            split at hc
            · obtain ⟨_, _, _, hc⟩ := CM.bind_ok.1 hc
              cases hc; rfl
            · split at hc
              · obtain ⟨_, _, _, hc⟩ := CM.bind_ok.1 hc
                obtain ⟨_, _, _, hc⟩ := CM.bind_ok.1 hc
                obtain ⟨_, _, _, hc⟩ := CM.bind_ok.1 hc
                cases hc; rfl
              · obtain ⟨_, _, _, hc⟩ := CM.bind_ok.1 hc
                cases hc; rfl
        obtain ⟨rfl, hal⟩ := het
        cases hu : md.userDefined with
        | false => exact .argless hn (hsy.builtin _ _ hk hu).1 q1 q2 (by simp)
        | true =>
          obtain ⟨params, hp, hmd⟩ := hsy.user _ _ hk hu
          refine .argless hn hp q1 q2 ?_
          rintro params' r hpr
          cases hpr
          obtain ⟨sing, hs1, hs2⟩ := hmd.syns
          unfold Md.isArgless at hal
          rw [hs1] at hal
          simp at hal
          rw [hal] at hs2
          cases hs2; rfl
  | .un op e pos =>
    simp only [EB.compileExpr] at hc
    obtain ⟨te, g1, h1, hc⟩ := CM.bind_ok.1 hc
    exact .un (expr_type e h1) (applyUn_ok hc)
  | .bin op l r pos =>
    simp only [EB.compileExpr] at hc
    obtain ⟨lt, g1, h1, hc⟩ := CM.bind_ok.1 hc
    obtain ⟨rtemp, g1', h2, hc⟩ := CM.bind_ok.1 hc
    obtain ⟨rt, g2, h4, hc⟩ := CM.bind_ok.1 hc
    refine .bin (expr_type l h1) (expr_type r h4) ?_
    have := applyBin_type op reg rtemp lt rt r.startPos pos g2
    cases hb : binType op lt rt with
    | none => rw [hb, hc] at this; simp at this
    | some t' => rw [hb, hc] at this; obtain ⟨_, h⟩ := this; cases h; rfl
  | .call v pos args =>
    simp only [EB.compileExpr] at hc
    cases hk : sy.getCallable (symKey v.name) with
    | some md =>
      simp only [hk] at hc
      obtain ⟨et, g1, h1, hc⟩ := CM.bind_ok.1 hc
      obtain ⟨_, h2, h1⟩ := CM.lift_ok.1 h1
      cases h1
      obtain ⟨q1, q2⟩ := checkCallee_ok h2
      split at hc
      · cases hc
      · obtain ⟨ret, g1', h3, hc⟩ := CM.bind_ok.1 hc
        cases hsyn : md.findSyntax args.length with
        | none => rw [hsyn] at hc; cases hc
        | some syn =>
          rw [hsyn] at hc
          simp only at hc
          obtain ⟨⟨nt', lcs⟩, g2, h5, hc⟩ := CM.bind_ok.1 hc
          obtain ⟨ft, g2', h6, hc⟩ := CM.bind_ok.1 hc
          obtain ⟨u, g3, h8, hc⟩ := CM.bind_ok.1 hc
          have het : et = t := by split at hc <;> (cases hc; rfl)
          subst het
          cases hu : md.userDefined with
          | false =>
            have := (hsy.builtin _ _ hk hu).1
            rw [q1] at this
            exact .builtin this q2
          | true =>
            obtain ⟨params, hp, hmd⟩ := hsy.user _ _ hk hu
            rw [q1] at hp
            obtain ⟨sing, hs1, hs2⟩ := hmd.syns
            have hsyn' : syn = ⟨sing, none⟩ := by
              unfold Md.findSyntax at hsyn
              rw [hs1] at hsyn
              simp only [List.find?] at hsyn
              split at hsyn <;> simp at hsyn
              exact hsyn.symm
            refine .user hp q2 (args_type args (A := ⟨sy, md, pos, syn.singular.length, args.length, syn.repeated⟩) rfl
              (by rw [hsyn']) ?_ ?_ h5)
            · rw [hsyn']; exact hs2
            · unfold Md.findSyntax at hsyn
              have := List.find?_some hsyn
              rw [hsyn'] at this
              simp only [Syntax.accepts, beq_iff_eq] at this
              rw [this, hsyn']
    | none =>
      simp only [hk, hsy.lookup v] at hc
      unfold Spec.lookup at hc
      cases hn : nameRef Γ.locals Γ.shared v with
      | wrongType => rw [hn] at hc; cases hc
      | undefined => rw [hn] at hc; cases hc
      | var place p =>
        rw [hn] at hc
        cases p with
        | scalar t' => cases hc
        | array t' nd =>
          simp only at hc
          split at hc
          · cases hc
          next hlen =>
            obtain ⟨u, g1, h1, hc⟩ := CM.bind_ok.1 hc
            obtain ⟨first, g1', h2, hc⟩ := CM.bind_ok.1 hc
            cases hc
            refine .elem (hsy.none _ hk) hn ?_
            rw [← Classical.not_not.1 hlen]
            exact subs_type args h1
termination_by structural e

theorem subs_type (args : Args) {nt : Nat} {pos : LineCol} {g g' : Codegen} {u : Unit}
    (hc : compileSubs sy args nt pos g = .ok (u, g')) : ArgsOk Γ args (List.replicate args.length .integer) := by
  match args with
  | .nil => exact .nil
  | .skip .. => simp only [EB.compileSubs] at hc; cases hc
  | .cons e _ _ rest =>
    simp only [EB.compileSubs] at hc
    obtain ⟨r, g0, h1, hc⟩ := CM.bind_ok.1 hc
    obtain ⟨te, g1, h3, hc2⟩ := CM.bind_ok.1 hc
    obtain ⟨_, g2, h4, h5⟩ := CM.bind_ok.1 hc2
    exact .cons (expr_type e h3) (castTo_ok h4) (subs_type rest h5)
termination_by structural args

theorem args_type (args : Args) {A : ArgEnv} {params : List ExprType} {noneYet : Bool} {syns : List SingSyn} {nt : Nat} {lcs : List LineCol}
    {g g' : Codegen} {r : Nat × List LineCol}
    (hA : A.sy = sy) (hrep : A.rep = none) (hsyn : List.Forall₂ (fun (s : SingSyn) t => ∃ n sep, s = .reqValue n t sep) syns params)
    (hlen : args.length = syns.length)
    (hc : compileArgsFrom A args noneYet syns nt lcs g = .ok (r, g')) : ArgsOk Γ args params := by
  match args with
  | .nil =>
    cases hsyn with
    | cons => simp [Args.length] at hlen
    | nil => exact .nil
  | .skip .. =>
    cases hsyn with
    | nil => simp [Args.length] at hlen
    | cons hs =>
      obtain ⟨nm, sep, rfl⟩ := hs
      simp only [EB.compileArgsFrom] at hc
      cases hc
  | .cons e _ _ rest =>
    cases hsyn with
    | nil => simp [Args.length] at hlen
    | @cons s t syns params hs hsyn =>
    obtain ⟨nm, sep, rfl⟩ := hs
    simp only [EB.compileArgsFrom] at hc
    obtain ⟨r, g0, h1, hc0⟩ := CM.bind_ok.1 hc
    obtain ⟨te, g1, h3, hc2⟩ := CM.bind_ok.1 hc0
    obtain ⟨_, g2, h4, hc3⟩ := CM.bind_ok.1 hc2
    obtain ⟨_, g2', h6, h5⟩ := CM.bind_ok.1 hc3
    rw [hA] at h3
    exact .cons (expr_type e h3) (castTo_ok h4) (args_type rest hA hrep hsyn (by simpa [Args.length] using hlen) h5)
termination_by structural args
end

mutual
theorem expr_error (e : Expr) (hcf : CallFree Γ e) (hfull : Full e) {nt : Nat} {reg : Reg} {g : Codegen} {err : CErr}
    (hc : compileExpr sy e nt reg g = .error err) : Resource err ∨ Faulty Γ e err := by
  have lit : ∀ {d : ConstantDatum} {pos : LineCol} {t : ExprType},
      (do emitValue reg d pos; Pure.pure t : CG ExprType) g = .error err → Resource err := by
    intro d pos t h
    rcases CM.bind_error h with h | ⟨a, s', _, h⟩
    · exact emitValue_error h
    · cases h
  match e with
  | .bool b pos => simp only [EB.compileExpr] at hc; exact Or.inl (lit hc)
  | .dbl b pos => simp only [EB.compileExpr] at hc; exact Or.inl (lit hc)
  | .int b pos => simp only [EB.compileExpr] at hc; exact Or.inl (lit hc)
  | .text b pos => simp only [EB.compileExpr] at hc; exact Or.inl (lit hc)
  | .sym v pos =>
    simp only [EB.compileExpr, hsy.lookup v] at hc
    unfold Spec.lookup at hc
    cases hn : nameRef Γ.locals Γ.shared v with
    | wrongType => rw [hn] at hc; cases hc; exact Or.inr (.annotation hn)
    | var place p =>
      rw [hn] at hc
      cases p with
      | array => cases hc; exact Or.inr (.array hn)
      | scalar t' => cases hc
    | undefined =>
      rw [hn] at hc
      simp only at hc
      unfold compileArgless at hc
      have hk' := hcf.resolve_left (fun h => h hn)
      cases hk : sy.getCallable (symKey v.name) with
      | none => simp only [hk] at hc; cases hc; exact Or.inr (.undefined hn hk')
      | some md =>
        cases hu : md.userDefined with
        | false => have := hsy.builtin _ _ hk hu; rw [hk'] at this; simp at this
        | true => obtain ⟨_, this, _⟩ := hsy.user _ _ hk hu; rw [hk'] at this; simp at this
  | .un op e pos =>
    simp only [EB.compileExpr] at hc
    rcases CM.bind_error hc with h | ⟨te, g1, h1, h⟩
    · exact (expr_error e hcf hfull h).imp id .operand
    · rcases applyUn_error h with h | ⟨h2, rfl⟩
      · exact Or.inl h
      · cases op
        · exact Or.inr (.neg (expr_type hsy e h1) h2)
        · exact Or.inr (.not (expr_type hsy e h1) h2)
  | .bin op l r pos =>
    simp only [EB.compileExpr] at hc
    rcases CM.bind_error hc with h | ⟨lt, g1, h1, h⟩
    · exact (expr_error l hcf.1 hfull.1 h).imp id .left
    · rcases CM.bind_error h with h | ⟨rtemp, g1', h2, h⟩
      · exact Or.inl (allocTemp_error (CM.lift_error h))
      · rcases CM.bind_error h with h | ⟨rt, g2, h3, h⟩
        · exact (expr_error r hcf.2 hfull.2 h).imp id (.right (expr_type hsy l h1))
        · have := applyBin_type op reg rtemp lt rt r.startPos pos g2
          cases hb : binType op lt rt with
          | none =>
            rw [hb, h] at this
            cases this
            exact Or.inr (.bin (expr_type hsy l h1) (expr_type hsy r h3) hb)
          | some t' => rw [hb, h] at this; obtain ⟨_, h⟩ := this; cases h
  | .call v pos args =>
    obtain ⟨hk', hcf⟩ := hcf
    simp only [EB.compileExpr] at hc
    cases hk : sy.getCallable (symKey v.name) with
    | some md =>
      cases hu : md.userDefined with
      | false => have := hsy.builtin _ _ hk hu; rw [hk'] at this; simp at this
      | true => obtain ⟨_, this, _⟩ := hsy.user _ _ hk hu; rw [hk'] at this; simp at this
    | none =>
      simp only [hk, hsy.lookup v] at hc
      unfold Spec.lookup at hc
      cases hn : nameRef Γ.locals Γ.shared v with
      | wrongType => rw [hn] at hc; cases hc; exact Or.inr (.arrayType hk' hn)
      | undefined => rw [hn] at hc; cases hc; exact Or.inr (.noArray hk' hn)
      | var place p =>
        rw [hn] at hc
        cases p with
        | scalar t' => cases hc; exact Or.inr (.scalar hk' hn)
        | array t' nd =>
          simp only at hc
          split at hc
          next hlen => cases hc; exact Or.inr (.dimensions hk' hn hlen)
          next hlen =>
            rcases CM.bind_error hc with h | ⟨u, g1, h1, h⟩
            · exact (subs_error args hcf hfull h).imp id (.subscript hk' hn (Classical.not_not.1 hlen))
            · rcases CM.bind_error h with h | ⟨rt, g2, h3, h⟩
              · exact Or.inl (firstTemp_error (CM.lift_error h))
              · cases h
termination_by structural e

theorem subs_error (args : Args) (hcf : CallFreeArgs Γ args) (hfull : FullArgs args) {nt : Nat} {pos : LineCol} {g : Codegen} {err : CErr}
    (hc : compileSubs sy args nt pos g = .error err) : Resource err ∨ FaultySubs Γ args err := by
  match args with
  | .nil => simp only [EB.compileSubs] at hc; cases hc
  | .skip .. => exact hfull.elim
  | .cons e _ _ rest =>
    simp only [EB.compileSubs] at hc
    rcases CM.bind_error hc with h | ⟨r, g1, h1, h⟩
    · exact Or.inl (allocTemp_error (CM.lift_error h))
    · rcases CM.bind_error h with h | ⟨t, g2, h2, h⟩
      · exact (expr_error e hcf.1 hfull.1 h).imp id .expr
      · have ht := expr_type hsy e h2
        rcases CM.bind_error h with h | ⟨_, g3, h3, h⟩
        · have := castTo_type r t .integer e.startPos g2
          by_cases hcv : Converts t .integer
          · rw [if_pos hcv, h] at this; obtain ⟨_, h⟩ := this; cases h
          · rw [if_neg hcv, h] at this
            cases this
            exact Or.inr (.type ht hcv)
        · exact (subs_error rest hcf.2 hfull.2 h).imp id (.rest ht (castTo_ok h3))
termination_by structural args
end
end

/-! ## The rules are consistent -/

section
variable {Γ : Env}

mutual
theorem hasType_unique {e : Expr} {t t' : ExprType} (h : HasType Γ e t) (h' : HasType Γ e t') : t = t' := by
  match e, h, h' with
  | _, .bool .., .bool .. => rfl
  | _, .dbl .., .dbl .. => rfl
  | _, .int .., .int .. => rfl
  | _, .text .., .text .. => rfl
  | _, .var h1, .var h2 => rw [h1] at h2; cases h2; rfl
  | _, .var h1, .argless h2 .. => rw [h1] at h2; cases h2
  | _, .argless h1 .., .var h2 => rw [h1] at h2; cases h2
  | _, .argless _ h1 h2 .., .argless _ h3 h4 .. => rw [h1] at h3; cases h3; rw [h2] at h4; cases h4; rfl
  | _, .un h1 h2, .un h3 h4 =>
    have := hasType_unique h1 h3
    subst this
    rw [h2] at h4; cases h4; rfl
  | _, .bin h1 h2 h3, .bin h4 h5 h6 =>
    have := hasType_unique h1 h4
    subst this
    have := hasType_unique h2 h5
    subst this
    rw [h3] at h6; cases h6; rfl
  | _, .builtin h1 _, .builtin h2 _ => rw [h1] at h2; cases h2; rfl
  | _, .builtin h1 _, .user h2 .. => rw [h1] at h2; cases h2
  | _, .builtin h1 _, .elem h2 .. => rw [h1] at h2; cases h2
  | _, .user h1 .., .builtin h2 _ => rw [h1] at h2; cases h2
  | _, .user h1 .., .user h2 .. => rw [h1] at h2; cases h2; rfl
  | _, .user h1 .., .elem h2 .. => rw [h1] at h2; cases h2
  | _, .elem h1 .., .builtin h2 _ => rw [h1] at h2; cases h2
  | _, .elem h1 .., .user h2 .. => rw [h1] at h2; cases h2
  | _, .elem _ h1 _, .elem _ h2 _ => rw [h1] at h2; cases h2; rfl
end

theorem argsOk_length {args : Args} {ts : List ExprType} (h : ArgsOk Γ args ts) : args.length = ts.length := by
  match args, ts, h with
  | _, _, .nil => rfl
  | _, _, .cons _ _ h => simp [Args.length, argsOk_length h]

mutual
theorem faulty_untyped {e : Expr} {err : CErr} (h : Faulty Γ e err) {t : ExprType} (ht : HasType Γ e t) : False := by
  match e, h, ht with
  | _, .undefined h1 h2, .var h3 => rw [h1] at h3; cases h3
  | _, .undefined h1 h2, .argless _ h3 .. => rw [h2] at h3; cases h3
  | _, .annotation h1, .var h3 => rw [h1] at h3; cases h3
  | _, .annotation h1, .argless h3 .. => rw [h1] at h3; cases h3
  | _, .array h1, .var h3 => rw [h1] at h3; cases h3
  | _, .array h1, .argless h3 .. => rw [h1] at h3; cases h3
  | _, .neg h1 h2, .un h3 h4 => have := hasType_unique h1 h3; subst this; rw [h2] at h4; cases h4
  | _, .not h1 h2, .un h3 h4 => have := hasType_unique h1 h3; subst this; rw [h2] at h4; cases h4
  | _, .bin h1 h2 h3, .bin h4 h5 h6 =>
    have := hasType_unique h1 h4
    subst this
    have := hasType_unique h2 h5
    subst this
    rw [h3] at h6; cases h6
  | _, .operand h1, .un h3 _ => exact faulty_untyped h1 h3
  | _, .left h1, .bin h3 _ _ => exact faulty_untyped h1 h3
  | _, .right _ h1, .bin _ h3 _ => exact faulty_untyped h1 h3
  | _, .noArray h1 h2, .builtin h3 _ => rw [h1] at h3; cases h3
  | _, .noArray h1 h2, .user h3 .. => rw [h1] at h3; cases h3
  | _, .noArray h1 h2, .elem _ h3 _ => rw [h2] at h3; cases h3
  | _, .arrayType h1 h2, .builtin h3 _ => rw [h1] at h3; cases h3
  | _, .arrayType h1 h2, .user h3 .. => rw [h1] at h3; cases h3
  | _, .arrayType h1 h2, .elem _ h3 _ => rw [h2] at h3; cases h3
  | _, .scalar h1 h2, .builtin h3 _ => rw [h1] at h3; cases h3
  | _, .scalar h1 h2, .user h3 .. => rw [h1] at h3; cases h3
  | _, .scalar h1 h2, .elem _ h3 _ => rw [h2] at h3; cases h3
  | _, .dimensions h1 h2 h4, .builtin h3 _ => rw [h1] at h3; cases h3
  | _, .dimensions h1 h2 h4, .user h3 .. => rw [h1] at h3; cases h3
  | _, .dimensions h1 h2 h4, .elem _ h3 h5 =>
    rw [h2] at h3; cases h3
    have := argsOk_length h5
    simp at this
    exact h4 this
  | _, .subscript h1 h2 h4 h5, .builtin h3 _ => rw [h1] at h3; cases h3
  | _, .subscript h1 h2 h4 h5, .user h3 .. => rw [h1] at h3; cases h3
  | _, .subscript h1 h2 h4 h5, .elem _ h3 h6 => rw [h2] at h3; cases h3; exact faultySubs_untyped h5 h6

theorem faultySubs_untyped {args : Args} {err : CErr} (h : FaultySubs Γ args err) {n : Nat} (ht : ArgsOk Γ args (List.replicate n .integer)) : False := by
  match args, h with
  | _, .expr h1 =>
    cases n with
    | zero => cases ht
    | succ n => cases ht with | cons h2 _ _ => exact faulty_untyped h1 h2
  | _, .type h1 h2 =>
    cases n with
    | zero => cases ht
    | succ n => cases ht with | cons h3 h4 _ => have := hasType_unique h1 h3; subst this; exact h2 h4
  | _, .rest _ _ h1 =>
    cases n with
    | zero => cases ht
    | succ n => cases ht with | cons _ _ h4 => exact faultySubs_untyped h1 h4
end

/-! ## Evaluation follows the types -/

/-- Not unspecified; no variable changes. -/
def Fine {α : Type} (P : α → Prop) (w : World) : Out α → Prop
  | .ok v w' => P v ∧ w'.mem = w.mem
  | .err _ _ w' => w'.mem = w.mem
  | .ended .. => False
  | .going _ => False
  | .stuck => False

theorem Fine.bind {α β : Type} {x : Out α} {f : α → World → Out β} {w : World} {P : α → Prop} {Q : β → Prop}
    (hx : Fine P w x) (hf : ∀ a w1, P a → w1.mem = w.mem → Fine Q w1 (f a w1)) : Fine Q w (x.bind f) := by
  cases x with
  | stuck => exact hx
  | err => exact hx
  | ended => exact hx
  | going => exact hx
  | ok a w1 =>
    have := hf a w1 hx.1 hx.2
    show Fine Q w (f a w1)
    cases h : f a w1 with
    | stuck => rw [h] at this; exact this
    | err => rw [h] at this; exact Eq.trans (show _ = w1.mem from this) hx.2
    | ended => rw [h] at this; exact this
    | going => rw [h] at this; exact this
    | ok => rw [h] at this; exact ⟨this.1, this.2.trans hx.2⟩

theorem binVal_typed {F : FloatOps} {op : SrcBin} {x y : Val} {t : ExprType} {pos : LineCol} {w : World} (h : binType op x.ty y.ty = some t) :
    Fine (fun v => v.ty = t) w (binVal F op x y pos w) := by
  have num : ∀ a b : BitVec 64, (if isComparison op then some .boolean else if isBits op then none else some .double) = some t →
      Fine (fun v => v.ty = t) w (dblBin F op a b w) := by
    intro a b h
    cases op <;> simp [isComparison, isBits] at h <;> subst h <;> exact ⟨rfl, rfl⟩
  cases x <;> cases y <;> simp only [Val.ty, binType] at h <;> try (simp at h; done)
  · rename_i a b
    have hh : (op = .and ∨ op = .or ∨ op = .xor ∨ op = .eq ∨ op = .ne) ∧ t = .boolean := by
      split at h <;> simp_all
    obtain ⟨hop, rfl⟩ := hh
    rcases hop with rfl | rfl | rfl | rfl | rfl <;> exact ⟨rfl, rfl⟩
  · rename_i a b
    simp only [binVal]
    have hx := intBin_eval F op a b pos w
    have hs : intBin op a b pos w ≠ .stuck := by
      unfold intBin
      cases op <;> simp only [intArith, intRel] <;> (try split) <;> simp_all
    cases hb : intBin op a b pos w with
    | stuck => exact absurd hb hs
    | ended => rw [hb] at hx; exact hx
    | going => rw [hb] at hx; exact hx
    | err p e w' => rw [hb] at hx; show w'.mem = _; rw [hx.1]
    | ok v w' =>
      rw [hb] at hx
      obtain ⟨rfl, h2, _⟩ := hx
      refine ⟨?_, rfl⟩
      show v.ty = t
      rw [h2]
      cases op <;> simp [isComparison] at h <;> subst h <;> rfl
  · exact num _ _ h
  · exact num _ _ h
  · exact num _ _ h
  · rename_i a b
    simp only [binVal]
    cases op <;> simp [isComparison] at h <;> subst h <;> simp only [textBin, textRel] <;>
      first | exact ⟨rfl, rfl⟩ | skip
    unfold newText
    split
    · exact ⟨rfl, rfl⟩
    · split
      · exact rfl
      · exact ⟨rfl, rfl⟩

theorem unVal_typed {F : FloatOps} {op : SrcUn} {x : Val} {t : ExprType} {pos : LineCol} {w : World} (h : unType op x.ty = some t) :
    Fine (fun v => v.ty = t) w (unVal F op x pos w) := by
  cases op <;> cases x <;> simp [Val.ty, unType] at h <;> subst h <;> simp only [unVal] <;> first | exact ⟨rfl, rfl⟩ | skip
  cases exact (-BitVec.toInt _) .integerOverflow with
  | ok => exact ⟨rfl, rfl⟩
  | error => exact rfl

theorem castVal_typed {F : FloatOps} {x : Val} {t : ExprType} {pos : LineCol} {w : World} (h : Converts x.ty t) :
    Fine (fun v => v.ty = t) w (castVal F t x pos w) := by
  cases t <;> cases x <;> simp [Val.ty, Converts] at h <;> simp only [castVal] <;> first | exact ⟨rfl, rfl⟩ | skip
  split
  · exact ⟨rfl, rfl⟩
  · exact rfl

section
variable {F : FloatOps} {cl : Calls}

mutual
theorem eval_typed {e : Expr} {t : ExprType} (ht : HasType Γ e t) (hcf : CallFree Γ e) {w : World}
    (hk : ∀ place p, Uses Γ place e → Γ.proto place = some p → ∃ c, w.mem place = some c ∧ c.Of p) :
    Fine (fun v => v.ty = t) w (eval F cl Γ e w) := by
  match e, ht with
  | _, .bool .. => simp only [eval]; exact ⟨rfl, rfl⟩
  | _, .dbl .. => simp only [eval]; exact ⟨rfl, rfl⟩
  | _, .int .. => simp only [eval]; exact ⟨rfl, rfl⟩
  | _, .text .. => simp only [eval]; exact ⟨rfl, rfl⟩
  | .sym v pos, .var (place := place) h1 =>
    obtain ⟨c, hc, hof⟩ := hk place _ ⟨_, h1⟩ (nameRef_var h1)
    simp only [eval, h1, hc]
    cases c with
    | arr => exact absurd hof (by simp [Cell.Of])
    | scalar x => exact ⟨hof, rfl⟩
  | .sym v pos, .argless h1 h2 .. =>
    rcases hcf with h | h
    · exact absurd h1 h
    · rw [h] at h2; cases h2
  | .un op e pos, .un h1 h2 =>
    simp only [eval]
    refine Fine.bind (eval_typed h1 hcf hk) ?_
    rintro x w1 rfl hw
    exact unVal_typed h2
  | .bin op l r pos, .bin h1 h2 h3 =>
    simp only [eval]
    refine Fine.bind (eval_typed h1 hcf.1 fun p q hu => hk p q (Or.inl hu)) ?_
    rintro x w1 rfl hw
    refine Fine.bind
      (eval_typed h2 hcf.2 fun p q hu hp => by rw [hw]; exact hk p q (Or.inr hu) hp) ?_
    rintro y w2 rfl hw2
    exact binVal_typed h3
  | .call v pos args, .builtin h1 _ => rw [hcf.1] at h1; cases h1
  | .call v pos args, .user h1 .. => rw [hcf.1] at h1; cases h1
  | .call v pos args, .elem (place := place) (n := n) h1 h2 h3 =>
    simp only [eval, h1, h2]
    refine Fine.bind
      (subs_typed h3 hcf.2 fun p q hu => hk p q (Or.inr hu)) ?_
    intro subs w1 hs hw
    obtain ⟨c, hc, hof⟩ := hk place _ (Or.inl ⟨_, h2⟩) (nameRef_var h2)
    rw [hw, hc]
    cases c with
    | scalar x => exact absurd hof (by simp [Cell.Of])
    | arr ty dims elem =>
      simp only
      split
      · exact rfl
      · exact ⟨hof.2.2 _, rfl⟩

theorem subs_typed {args : Args} {n : Nat} (ht : ArgsOk Γ args (List.replicate n .integer)) (hcf : CallFreeArgs Γ args) {w : World}
    (hk : ∀ place p, UsesArgs Γ place args → Γ.proto place = some p → ∃ c, w.mem place = some c ∧ c.Of p) :
    Fine (fun is => is.length = n) w (evalSubs F cl Γ args w) := by
  match args with
  | .nil =>
    cases n with
    | succ => cases ht
    | zero => simp only [evalSubs]; exact ⟨rfl, rfl⟩
  | .skip .. => cases n <;> cases ht
  | .cons e _ _ rest =>
    cases n with
    | zero => cases ht
    | succ n =>
      cases ht with
      | cons h1 h2 h3 =>
        simp only [evalSubs]
        refine Fine.bind
          (eval_typed h1 hcf.1 fun p q hu => hk p q (Or.inl hu)) ?_
        rintro x w1 rfl hw
        refine Fine.bind (castVal_typed h2) ?_
        intro y w2 hy hw2
        cases y <;> simp only [Val.ty] at hy <;> try (cases hy; done)
        simp only
        refine Fine.bind
          (subs_typed h3 hcf.2 fun p q hu hp => by rw [hw2, hw]; exact hk p q (Or.inr hu) hp) ?_
        intro is w3 hl hw3
        exact ⟨by simp [hl], rfl⟩
end
end
end

end EB
