import Verif.Lemmas.GrammarSimple
import Verif.Lemmas.GrammarStmt
/-!
# Only programs of the grammar, and those listed beside it, are accepted
-/

namespace EB
open Spec

variable {α β : Type} {E : LineCol} {pre toks : List TokSpan} {R : List TokSpan → β → List TokSpan → Prop} {T : TextOps} {F : FloatOps}

/-! ## Declarations -/

theorem type_is {t : Tok} {ty : ExprType} (h : t.typeName = some ty) : IsType t ty := by
  cases t <;> simp [Tok.typeName] at h <;> subst h <;> constructor

theorem takes_asType : Takes E [] (parseAsType T) toks (fun used ty rest => ∃ t q, used = [⟨t, q⟩] ∧ IsType t ty) := by
  unfold parseAsType
  refine takes_read (fun _ => takes_bad _ _) ?_
  rintro tok q ts rfl
  split
  · rename_i ty h
    exact takes_pure ⟨tok, q, rfl, type_is h⟩
  · exact takes_bad _ _

theorem takes_dimAs : Takes E [] (parseDimAs T) toks (fun used ty rest => IsDimType used ty) := by
  unfold parseDimAs
  refine takes_peek (takes_bind (Q := fun used ty rest => IsDimType used ty) ?_ ?_)
  · split
    · exact takes_pure .default
    · split
      · rename_i h
        refine takes_consume h (by simp) ?_
        rintro p ts rfl
        refine takes_last takes_asType ?_
        rintro used ty rest rfl ⟨t, q, rfl, hq⟩
        exact .as hq
      · exact takes_bad _ _
  · rintro used ty rest rfl h
    refine takes_peek ?_
    split
    · exact takes_pure (by simpa using h)
    · exact takes_bad _ _

theorem takes_unannotated {v : VarRef} {p : LineCol} :
    Takes E [] (unannotated v p) toks (fun used name rest => used = [] ∧ v = ⟨name, none⟩) := by
  obtain ⟨name, ty⟩ := v
  cases ty with
  | none => exact takes_pure ⟨rfl, rfl⟩
  | some t => intro _ a s' h; cases h

theorem exprs_ne_nil {args : Args} (h0 : args ≠ .nil) (h : ∀ sep p r, args ≠ .skip sep p r) : args.exprs ≠ [] := by
  cases args with
  | nil => exact absurd rfl h0
  | cons e _ _ r => simp [Args.exprs]
  | skip sep p r => exact absurd rfl (h sep p r)

theorem takes_dimRest (p : LineCol) (next : List TokSpan → TokSpan) {tsh : List TokSpan} {sh : Bool} (hsh : IsShared tsh sh) :
    Takes E tsh (dimRest T sh) toks (fun used s rest => Accepts F (⟨.dim, p⟩ :: used) (.stmt s (next rest))) := by
  unfold dimRest
  refine takes_read (fun _ => takes_bad _ _) ?_
  rintro tok q ts rfl
  split
  case h_2 => exact takes_bad _ _
  rename_i v hv
  simp only at hv
  subst hv
  refine takes_bind takes_unannotated ?_
  rintro used name rest rfl ⟨rfl, rfl⟩
  refine takes_peek ?_
  split
  · rename_i hlp
    refine takes_consume hlp (by simp) ?_
    rintro lp ts rfl
    refine takes_bind (takes_comma T) ?_
    rintro ua args rest rfl hc
    split
    · exact takes_bad _ _
    · rename_i hne
      refine takes_bind takes_dimAs ?_
      rintro tt ty rest rfl hty
      refine takes_pure ?_
      simpa using Accepts.dimArray (F := F) (p := p) (q := q) (lp := lp) (next := next rest) hsh (hc.subscripts ⟨name, none⟩)
        (exprs_ne_nil (fun h => hne h) hc.noSkip) hty
  · refine takes_bind takes_dimAs ?_
    rintro tt ty rest rfl hty
    refine takes_pure ?_
    simpa using Accepts.dim (F := F) (p := p) (q := q) (next := next rest) hsh hty

theorem takes_dim (p : LineCol) (next : List TokSpan → TokSpan) :
    Takes E [] (parseDim T) toks (fun used s rest => Accepts F (⟨.dim, p⟩ :: used) (.stmt s (next rest))) := by
  unfold parseDim
  refine takes_peek ?_
  by_cases hk : (seen toks E).tok = .shared
  · simp only [hk, decide_true, if_true]
    refine takes_consume hk (by simp) ?_
    rintro q ts rfl
    exact takes_dimRest p next .yes
  · simp only [hk, decide_false, Bool.false_eq_true, if_false]
    exact takes_dimRest p next .no

theorem takes_params : ∀ (n : Nat) (toks : List TokSpan), Takes E [] (paramLoop T n) toks (fun used vs rest => IsParams used vs)
  | 0, _ => takes_throw _
  | n + 1, toks => by
    unfold paramLoop
    refine takes_read (fun _ => takes_bad _ _) ?_
    rintro tok p ts rfl
    split
    case h_2 => exact takes_bad _ _
    rename_i v hv
    simp only at hv
    subst hv
    refine takes_peek (takes_bind (Q := fun used v' rest => IsParam (⟨.symbol v, p⟩ :: used) v') ?_ ?_)
    · split
      · rename_i h
        refine takes_consume h (by simp) ?_
        rintro q ts rfl
        refine takes_bind takes_unannotated ?_
        rintro used name rest rfl ⟨rfl, rfl⟩
        refine takes_bind takes_asType ?_
        rintro used ty rest rfl ⟨t, r, rfl, ht⟩
        exact takes_pure (.as ht)
      · exact takes_pure (.name v p)
    · rintro used v' rest rfl hp
      refine takes_read (fun _ => takes_bad _ _) ?_
      rintro tok q ts rfl
      split
      · rename_i h
        simp only at h
        subst h
        refine takes_bind (takes_params n ts) ?_
        rintro used' vs rest rfl h
        exact takes_pure (by simpa using IsParams.more hp h)
      · rename_i h
        simp only at h
        subst h
        exact takes_pure (by simpa using IsParams.last hp)
      · exact takes_bad _ _

theorem takes_callableArgs : Takes E [] (parseCallableArgs T) toks (fun used vs rest => IsParamList used vs) := by
  unfold parseCallableArgs
  refine takes_peek ?_
  split
  · rename_i h
    refine takes_consume h (by simp) ?_
    rintro p ts rfl
    refine takes_last (Q := fun used vs rest => IsParams used vs) (takes_params (E := E) (T := T) (ts.length + 1) ts) ?_
    rintro used vs rest rfl h
    exact .some h
  · exact takes_pure .none

/-- The keyword of a definition. -/
def callableTok (isFunction : Bool) : Tok := if isFunction then .function else .sub

theorem takes_signature (isDeclare isFunction : Bool) : Takes E [] (parseSignature T isDeclare isFunction) toks (fun used r rest =>
    ∃ v tp, used = ⟨.symbol v, r.2.1⟩ :: tp ∧ IsCallable (callableTok isFunction) v r.1 ∧ IsParamList tp r.2.2 ∧
      ((seen rest E).tok = .eol ∨ isDeclare = true)) := by
  unfold parseSignature
  refine takes_read (fun _ => takes_bad _ _) ?_
  rintro tok p ts rfl
  split
  case h_2 => exact takes_bad _ _
  rename_i v hv
  simp only at hv
  subst hv
  refine takes_bind (Q := fun used name rest => used = [] ∧ IsCallable (callableTok isFunction) v name) ?_ ?_
  · obtain ⟨name, ty⟩ := v
    cases ty <;> cases isFunction
    · exact takes_pure ⟨rfl, .sub name⟩
    · exact takes_pure ⟨rfl, .functionInt name⟩
    · exact takes_bad _ _
    · exact takes_pure ⟨rfl, .function name _⟩
  · rintro used name rest rfl ⟨rfl, hc⟩
    refine takes_bind takes_callableArgs ?_
    rintro tp vs rest rfl hp
    refine takes_peek ?_
    split
    · rename_i h
      refine takes_pure ⟨v, tp, by simp, hc, hp, ?_⟩
      rcases h with h | h
      · exact Or.inl h
      · exact Or.inr h.2
    · exact takes_bad _ _

theorem takes_declare (p : LineCol) (next : List TokSpan → TokSpan) :
    Takes E [] (parseDeclare T) toks (fun used s rest => Accepts F (⟨.declare, p⟩ :: used) (.stmt s (next rest))) := by
  unfold parseDeclare
  refine takes_read (fun _ => takes_bad _ _) ?_
  rintro tok q ts rfl
  split
  case h_3 => exact takes_bad _ _
  all_goals
    rename_i h
    simp only at h
    subst h
    refine takes_bind (takes_signature true _) ?_
    rintro used ⟨name, r, vs⟩ rest rfl ⟨v, tp, rfl, hc, hp, -⟩
    exact takes_pure (.declare hc hp)

/-! ## Parts of compound statements -/

theorem takes_doGuard (part : String) : Takes E [] (parseDoGuard T part) toks (fun used r rest =>
    match r with
    | none => used = []
    | some (e, true) => ∃ u te, used = ⟨.until, u⟩ :: te ∧ LikeExpr te e
    | some (e, false) => ∃ u te, used = ⟨.while, u⟩ :: te ∧ LikeExpr te e) := by
  unfold parseDoGuard
  refine takes_peek ?_
  split
  · rename_i h
    refine takes_consume h (by simp) ?_
    rintro u ts rfl
    refine takes_bind (takes_required T _) ?_
    rintro te e rest rfl ⟨he, -⟩
    exact takes_pure ⟨u, te, rfl, he⟩
  · rename_i h
    refine takes_consume h (by simp) ?_
    rintro u ts rfl
    refine takes_bind (takes_required T _) ?_
    rintro te e rest rfl ⟨he, -⟩
    exact takes_pure ⟨u, te, rfl, he⟩
  · exact takes_pure rfl
  · exact takes_pure rfl
  · rename_i h1 h2 h3 h4
    exact takes_consume rfl h3 (fun _ _ _ => takes_bad _ _)

theorem rel_is {t : Tok} {op : CaseRelOp} (h : t.caseRelOp = some op) : IsCaseRel t op := by
  cases t <;> simp [Tok.caseRelOp] at h <;> subst h <;> constructor

theorem takes_guard : Takes E [] (parseCaseGuard T) toks (fun used g rest => LikeGuard used g) := by
  unfold parseCaseGuard
  refine takes_peek ?_
  split
  · rename_i h
    refine takes_consume h (by simp) ?_
    rintro p ts rfl
    refine takes_read (fun _ => takes_bad _ _) ?_
    rintro tok q ts rfl
    split
    · rename_i op hop
      refine takes_bind (takes_required T _) ?_
      rintro te e rest rfl ⟨he, -⟩
      exact takes_pure (.is (rel_is hop) he)
    · exact takes_bad _ _
  · refine takes_bind (takes_required T _) ?_
    rintro te e rest rfl ⟨he, -⟩
    refine takes_peek ?_
    split
    · exact takes_pure (.eq he)
    · exact takes_pure (.eq he)
    · rename_i h
      refine takes_consume h (by simp) ?_
      rintro p ts rfl
      refine takes_bind (takes_required T _) ?_
      rintro tf f rest rfl ⟨hf, -⟩
      exact takes_pure (by simpa using LikeGuard.to he hf)
    · exact takes_bad _ _

theorem takes_guards : ∀ (n : Nat) (isFirst : Bool) (toks : List TokSpan), Takes E [] (caseGuardLoop T n isFirst) toks (fun used gs rest =>
    (gs = [] ∧ isFirst = true ∧ ∃ q, used = [⟨.else, q⟩]) ∨ (gs ≠ [] ∧ LikeGuards used gs))
  | 0, _, _ => takes_throw _
  | n + 1, isFirst, toks => by
    unfold caseGuardLoop
    refine takes_peek ?_
    split
    · rename_i h
      refine takes_consume h (by simp) ?_
      rintro p ts rfl
      cases isFirst with
      | true =>
        refine takes_peek ?_
        split
        · exact takes_pure (Or.inl ⟨rfl, rfl, p, rfl⟩)
        · exact takes_bad _ _
      | false => exact takes_bad _ _
    · refine takes_bind takes_guard ?_
      rintro tg g rest rfl hg
      refine takes_peek ?_
      split
      · exact takes_pure (Or.inr ⟨by simp, .one hg⟩)
      · rename_i h
        refine takes_consume h (by simp) ?_
        rintro p ts rfl
        refine takes_bind (takes_guards n false ts) ?_
        rintro used gs rest rfl (⟨_, h, _⟩ | ⟨_, h⟩)
        · cases h
        · exact takes_pure (Or.inr ⟨by simp, by simpa using LikeGuards.more hg h⟩)
      · exact takes_bad _ _

theorem takes_caseGuards : Takes E [] (parseCaseGuards T) toks (fun used gs rest =>
    (gs = [] ∧ ∃ q, used = [⟨.else, q⟩]) ∨ (gs ≠ [] ∧ LikeGuards used gs)) := by
  refine takes_last (Q := fun used gs rest => (gs = [] ∧ (true : Bool) = true ∧ ∃ q, used = [⟨.else, q⟩]) ∨ (gs ≠ [] ∧ LikeGuards used gs))
    (takes_guards (E := E) (T := T) (toks.length + 1) true toks) ?_
  rintro used gs rest rfl (⟨h, _, h'⟩ | h)
  · exact Or.inl ⟨h, by simpa using h'⟩
  · exact Or.inr (by simpa using h)

/-- What a step is, with its sign. -/
def StepTaken (F : FloatOps) (p : LineCol) (used : List TokSpan) (st : StepInfo) : Prop :=
  (st.sign = .gt → IsStep F p used st.step true st.isDouble) ∧ (st.sign = .lt → IsStep F p used st.step false st.isDouble)

theorem takes_step (p : LineCol) : Takes E [] (parseStep F p) toks (fun used st rest => StepTaken F p used st) := by
  unfold parseStep
  refine takes_peek ?_
  by_cases h : (seen toks E).tok = .step
  case neg => rw [if_pos h]; exact takes_pure ⟨fun _ => .none, fun h => by cases h⟩
  case pos =>
    rw [if_neg (c := (seen toks E).tok ≠ .step) (fun g => g h)]
    refine takes_consume h (by simp) ?_
    rintro q ts rfl
    refine takes_peek ?_
    cases hk : (seen ts E).tok <;> first | exact takes_bad _ _ | skip
    case double d =>
      have hd := hk
      refine takes_consume hd (by simp) ?_
      rintro r ts' rfl
      refine takes_pure ?_
      cases hz : F.eq d 0 with
      | true => exact ⟨fun h => by simp at h, fun h => by simp at h⟩
      | false => exact ⟨fun _ => .dbl hz, fun h => by simp at h⟩
    case integer i =>
      have hi := hk
      refine takes_consume hi (by simp) ?_
      rintro r ts' rfl
      refine takes_pure ⟨fun h => ?_, fun h => ?_⟩
      · have h0 : 0 < i.toInt := by
          simp only [compare, compareOfLessAndEq] at h
          split at h
          · cases h
          · split at h
            · cases h
            · omega
        have := IsStep.int (F := F) (pos := p) (p := q) (i := i) (q := r) (by omega)
        rwa [decide_eq_true h0] at this
      · have h0 : i.toInt < 0 := by
          simp only [compare, compareOfLessAndEq] at h
          split at h
          · assumption
          · split at h <;> cases h
        have := IsStep.int (F := F) (pos := p) (p := q) (i := i) (q := r) (by omega)
        rwa [decide_eq_false (by omega : ¬ 0 < i.toInt)] at this
    case minus =>
      have hm := hk
      refine takes_consume hm (by simp) ?_
      rintro m ts' rfl
      refine takes_peek ?_
      cases hl : (seen ts' E).tok <;> first | exact takes_bad _ _ | skip
      case double d =>
        have hd := hl
        refine takes_consume hd (by simp) ?_
        rintro r ts'' rfl
        refine takes_pure ?_
        cases hz : F.eq d 0 with
        | true => exact ⟨fun h => by simp at h, fun h => by simp at h⟩
        | false => exact ⟨fun h => by simp at h, fun _ => .negDbl hz⟩
      case integer i =>
        have hi := hl
        refine takes_consume hi (by simp) ?_
        rintro r ts'' rfl
        unfold negI32
        split
        · intro _ a s' h; cases h
        · rename_i hmin
          refine takes_bind (Q := fun used j rest => used = [] ∧ j = -i) (takes_pure ⟨rfl, rfl⟩) ?_
          rintro used j rest rfl ⟨rfl, rfl⟩
          have hneg : (-i).toInt = - i.toInt := by
            have := BitVec.toInt_neg_of_ne_intMin (x := i) hmin
            exact this
          refine takes_pure ⟨fun h => ?_, fun h => ?_⟩
          · have h0 : i.toInt < 0 := by
              rw [hneg] at h
              simp only [compare, compareOfLessAndEq] at h
              split at h
              · cases h
              · split at h
                · cases h
                · omega
            have := IsStep.negInt (F := F) (pos := p) (p := q) (r := m) (i := i) (q := r) (by omega) hmin
            rwa [decide_eq_true h0] at this
          · have h0 : 0 < i.toInt := by
              rw [hneg] at h
              simp only [compare, compareOfLessAndEq] at h
              split at h
              · omega
              · split at h <;> cases h
            have := IsStep.negInt (F := F) (pos := p) (p := q) (r := m) (i := i) (q := r) (by omega) hmin
            rwa [decide_eq_false (by omega : ¬ i.toInt < 0)] at this

/-- What is before the body of a `FOR`. -/
theorem takes_forHead (p : LineCol) : Takes E [] (parseForHead T F p) toks (fun used mk rest =>
    ∃ v ip q ts start to te stop tst step up dbl r, used = ⟨.symbol v, ip⟩ :: ⟨.equal, q⟩ :: (ts ++ ⟨.to, to⟩ :: (te ++ (tst ++ [⟨.eol, r⟩]))) ∧
      (v.ty = none ∨ v.ty = some .double ∨ v.ty = some .integer) ∧ LikeExpr ts start ∧ LikeExpr te stop ∧ IsStep F p tst step up dbl ∧
      mk = Stmt.forLoop v ip dbl start (.bin (if up then .le else .ge) (.sym v ip) stop to) (.bin .add (.sym v ip) step to)) := by
  unfold parseForHead
  refine takes_bind (Q := fun used r rest => used = [⟨.symbol r.1, r.2⟩] ∧
    (r.1.ty = none ∨ r.1.ty = some .double ∨ r.1.ty = some .integer)) ?_ ?_
  · unfold parseForIter
    refine takes_read (fun _ => takes_bad _ _) ?_
    rintro tok ip ts rfl
    split
    · rename_i v hv
      simp only at hv
      subst hv
      split
      · rename_i h
        exact takes_pure ⟨rfl, h⟩
      · exact takes_bad _ _
    · exact takes_bad _ _
  · rintro used ⟨v, ip⟩ rest rfl ⟨rfl, hv⟩
    refine takes_expect .equal _ (by simp) ?_
    rintro q ts rfl
    refine takes_bind (takes_required T _) ?_
    rintro ts start rest rfl ⟨hs, -⟩
    refine takes_expect .to _ (by simp) ?_
    rintro to ts' rfl
    refine takes_bind (takes_required T _) ?_
    rintro te stop rest rfl ⟨he, -⟩
    refine takes_bind (takes_step p) ?_
    rintro tst st rest rfl hst
    obtain ⟨step, sign, dbl⟩ := st
    cases sign with
    | eq =>
      intro _ a s' h
      cases h
    | gt =>
      refine takes_bind (Q := fun used c rest => used = [] ∧ c = Expr.bin .le (.sym v ip) stop to) (takes_pure ⟨rfl, rfl⟩) ?_
      rintro used c rest rfl ⟨rfl, rfl⟩
      refine takes_expect .eol _ (by simp) ?_
      rintro r ts'' rfl
      exact takes_pure ⟨v, ip, q, ts, start, to, te, stop, tst, step, true, dbl, r, by simp, hv, hs, he, hst.1 rfl, rfl⟩
    | lt =>
      refine takes_bind (Q := fun used c rest => used = [] ∧ c = Expr.bin .ge (.sym v ip) stop to) (takes_pure ⟨rfl, rfl⟩) ?_
      rintro used c rest rfl ⟨rfl, rfl⟩
      refine takes_expect .eol _ (by simp) ?_
      rintro r ts'' rfl
      exact takes_pure ⟨v, ip, q, ts, start, to, te, stop, tst, step, false, dbl, r, by simp, hv, hs, he, hst.2 rfl, rfl⟩

end EB
