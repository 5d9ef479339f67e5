import Verif.Lemmas.ValidChunk
import Verif.Spec.Crash
/-!
# The compiler does not crash: expressions
-/

namespace EB
open Spec

/-- It does not crash from this state. -/
def SafeAt {σ α : Type} (x : CM σ α) (s : σ) : Prop := x s ≠ .error .panic

/-- It does not crash. -/
def Safe {σ α : Type} (x : CM σ α) : Prop := ∀ s, SafeAt x s

section
variable {σ α β : Type}

theorem SafeAt.bind {x : CM σ α} {f : α → CM σ β} {s : σ} (h : SafeAt x s) (k : ∀ a s', x s = .ok (a, s') → SafeAt (f a) s') :
    SafeAt (x >>= f) s := by
  unfold SafeAt
  cases hx : x s with
  | error e => rw [bind_of_error hx]; intro he; cases he; exact h hx
  | ok r => rw [bind_of_ok hx]; exact k r.1 r.2 hx

theorem Safe.bind {x : CM σ α} {f : α → CM σ β} (h : Safe x) (k : ∀ a, Safe (f a)) : Safe (x >>= f) :=
  fun s => (h s).bind fun a s' _ => k a s'

theorem Safe.pure (a : α) : Safe (Pure.pure a : CM σ α) := fun s h => by cases h

theorem Safe.throw {e : CErr} (h : e ≠ .panic) : Safe (CM.throw e : CM σ α) := fun s he => by cases he; exact h rfl

theorem Safe.lift {r : Except CErr α} (h : r ≠ .error .panic) : Safe (CM.lift r : CM σ α) := by
  intro s he
  cases r with
  | ok a => cases he
  | error e => cases he; exact h rfl

theorem Safe.ite {p : Prop} [Decidable p] {x y : CM σ α} (h : p → Safe x) (k : ¬ p → Safe y) : Safe (if p then x else y) := by
  by_cases hp : p
  · rw [if_pos hp]; exact h hp
  · rw [if_neg hp]; exact k hp
end

theorem limit_panic : ¬ Limit .panic := id

theorem Free.safe {α : Type} {x : CG α} (h : Free (fun _ => True) (fun _ => True) x) : Safe x := by
  intro g he
  have := h g
  rw [he] at this
  exact this

theorem FreeS.safe {α : Type} {x : CS α} (h : FreeS (fun _ => True) (fun _ => True) x) : Safe x := by
  intro g he
  have := h g
  rw [he] at this
  exact this

theorem allocTemp_safe (sy : Syms) (nt : Nat) (pos : LineCol) {σ : Type} : Safe (CM.lift (allocTemp sy nt pos) : CM σ Reg) :=
  .lift fun h => by have := allocTemp_error h; exact this

theorem firstTemp_safe (sy : Syms) (nt : Nat) (pos : LineCol) {σ : Type} : Safe (CM.lift (firstTemp sy nt pos) : CM σ Reg) :=
  .lift fun h => by have := firstTemp_error h; exact this

theorem getVar_table_panic (v : VarRef) (t : IdMap Str Proto) (mk : Nat → Option Reg) (sc : RegScope) : EB.getVar v t mk sc ≠ .error .panic := by
  unfold EB.getVar
  intro h
  split at h
  · split at h
    · cases h
    · split at h <;> cases h
  · cases h

theorem getVar_panic (sy : Syms) (v : VarRef) : sy.getVar v ≠ .error .panic := by
  unfold Syms.getVar
  intro h
  split at h
  · cases h
  · exact getVar_table_panic _ _ _ _ h
  next e _ he => cases h; exact getVar_table_panic _ _ _ _ he

theorem at_panic {e : SymErr} {pos : LineCol} (h : e ≠ .panic) : e.at pos ≠ .panic := by
  cases e <;> first | exact absurd rfl h | (intro h; cases h)

theorem castNumerical_safe (reg : Reg) (a b : ExprType) (pos : LineCol) : Safe (castNumerical reg a b pos) := by
  unfold castNumerical
  cases a <;> cases b <;> first | exact .pure _ | exact .bind (Free.safe (.emit _ _)) fun _ => .pure _

theorem castTo_safe (reg : Reg) (a b : ExprType) (pos : LineCol) : Safe (castTo reg a b pos) := by
  unfold castTo
  refine .ite (fun _ => .pure _) fun _ => ?_
  refine .bind (castNumerical_safe _ _ _ _) fun ok => ?_
  refine .ite (fun _ => .pure _) fun _ => .ite (fun _ => .throw nofun) fun _ => .throw nofun

theorem applyUn_safe (sy : Syms) (nt : Nat) (op : SrcUn) (reg : Reg) (t : ExprType) (pos : LineCol) : Safe (applyUn sy nt op reg t pos) := by
  have he : ∀ i, Safe (emit i pos) := fun i => Free.safe (.emit i pos)
  cases op <;> cases t <;> first
    | exact .throw nofun
    | exact .bind (he _) fun _ => .pure _
    | exact .bind (allocTemp_safe _ _ _) fun _ => .bind (Free.safe (.emitValue _ _ _)) fun _ => .bind (he _) fun _ => .pure _

theorem resolveNumeric_safe (reg : Reg) (a : ExprType) (rtemp : Reg) (b : ExprType) (p q : LineCol) :
    Safe (resolveNumeric reg a rtemp b p q) := by
  unfold resolveNumeric
  cases a <;> cases b <;> first | exact .pure _ | exact .bind (castNumerical_safe _ _ _ _) fun _ => .pure _

theorem applyBin_safe (op : SrcBin) (reg : Reg) (a : ExprType) (rtemp : Reg) (b : ExprType) (p q : LineCol) :
    Safe (applyBin op reg a rtemp b p q) := by
  have hfin : ∀ (o : BinOp) (t : ExprType), Safe (do
      let _ ← emit (.bin o reg reg rtemp) q
      pure (if op.isRel then .boolean else t) : CG ExprType) := fun o t => .bind (Free.safe (.emit _ _)) fun _ => .pure _
  have hnum : Safe (match op.doubleOp with
    | some dop => do
      match ← resolveNumeric reg a rtemp b p q with
      | some .double => do
        let _ ← emit (.bin dop reg reg rtemp) q
        pure (if op.isRel then .boolean else .double)
      | some .integer => do
        let _ ← emit (.bin op.intOp reg reg rtemp) q
        pure (if op.isRel then .boolean else .integer)
      | _ => CM.throw (.binaryOpType q op.name a b)
    | none =>
      match a, b with
      | .integer, .integer => do
        let _ ← emit (.bin op.intOp reg reg rtemp) q
        pure (if op.isRel then .boolean else .integer)
      | _, _ => CM.throw (.binaryOpType q op.name a b) : CG ExprType) := by
    cases op.doubleOp with
    | some dop =>
      refine .bind (resolveNumeric_safe _ _ _ _ _ _) fun r => ?_
      match r with
      | some .double => exact hfin _ _
      | some .integer => exact hfin _ _
      | some .boolean => exact .throw nofun
      | some .text => exact .throw nofun
      | none => exact .throw nofun
    | none => cases a <;> cases b <;> first | exact hfin _ _ | exact .throw nofun
  unfold applyBin
  cases a <;> cases b <;> first
    | exact hnum
    | (simp only
       split
       · exact hfin _ _
       · exact hnum)

theorem validateSep_safe (md : Md) (syn : SepSyn) (ok : Bool) (sep : ArgSep) (pos : LineCol) {σ : Type} :
    Safe (CM.lift (validateSep md syn ok sep pos) : CM σ Unit) := by
  refine .lift fun h => ?_
  unfold validateSep at h
  split at h
  · split at h <;> cases h
  · split at h
    · split at h <;> cases h
    · split at h <;> cases h
  · cases h

theorem checkCallee_safe (md : Md) (v : VarRef) (pos : LineCol) {σ : Type} : Safe (CM.lift (checkCallee md v pos) : CM σ ExprType) := by
  refine .lift fun h => ?_
  unfold checkCallee at h
  split at h
  · cases h
  · split at h <;> cases h

theorem emitCall_safe (md : Md) (key : Str) (ret : Option ExprType) (first : Reg) (lcs : List LineCol) (pos : LineCol) :
    Safe (emitCall md key ret first lcs pos) := by
  unfold emitCall
  refine .ite (fun _ => .bind (Free.safe (.emit _ _)) fun _ => fun s h => by cases h) fun _ => ?_
  exact .bind (Free.safe (.getUpcall _ _ _)) fun _ => .bind (Free.safe (.emit _ _)) fun _ => fun s h => by cases h

theorem argless_safe (sy : Syms) (nt : Nat) (reg : Reg) (v : VarRef) (pos : LineCol) : Safe (compileArgless sy nt reg v pos) := by
  unfold compileArgless
  cases sy.getCallable (symKey v.name) with
  | none => exact .throw nofun
  | some md =>
    refine .bind (checkCallee_safe _ _ _) fun t => ?_
    refine .ite (fun _ => .throw nofun) fun _ => .ite (fun _ => .bind (emitCall_safe _ _ _ _ _ _) fun _ => .pure _) fun _ => ?_
    refine .ite (fun _ => ?_) fun _ => .bind (emitCall_safe _ _ _ _ _ _) fun _ => .pure _
    exact .bind (Free.safe (.getUpcall _ _ _)) fun _ => .bind (allocTemp_safe _ _ _) fun _ => .bind (Free.safe (.emit _ _)) fun _ =>
      .bind (Free.safe (.emit _ _)) fun _ => .pure _

/-- The variable is there, or the name is one of a callable. -/
def VarFound (sy : Syms) (v : VarRef) : Prop := (∀ v', sy.getVar v ≠ .error (.undefinedSymbol v')) ∨ sy.getCallable (symKey v.name) ≠ none

/-- The variables that are defined by the call are there. -/
def OutsFound (sy : Syms) (rep : Option RepSyn) : List SingSyn → Args → Prop
  | _, .nil => True
  | .reqRef _ _ true _ :: syns, .cons (.sym v _) _ _ rest => VarFound sy v ∧ OutsFound sy rep syns rest
  | _ :: syns, .cons _ _ _ rest => OutsFound sy rep syns rest
  | _ :: syns, .skip _ _ rest => OutsFound sy rep syns rest
  | [], .cons (.sym v _) _ _ rest => (repIsRef rep = true → VarFound sy v) ∧ OutsFound sy rep [] rest
  | [], .cons _ _ _ rest => OutsFound sy rep [] rest
  | [], .skip _ _ rest => OutsFound sy rep [] rest

theorem refVar_safe {A : ArgEnv} {array define : Bool} {v : VarRef} {pos : LineCol} (h : define = true → VarFound A.sy v) {σ : Type} :
    Safe (CM.lift (refVar A array define v pos) : CM σ (Reg × ExprType)) := by
  refine .lift fun he => ?_
  unfold refVar at he
  cases hv : A.sy.getVar v with
  | ok r =>
    obtain ⟨r, p⟩ := r
    rw [hv] at he
    cases p <;> simp only at he <;> split at he <;> cases he
  | error e =>
    rw [hv] at he
    cases e with
    | undefinedSymbol v' =>
      simp only at he
      cases define with
      | false => cases he
      | true =>
        change (match A.sy.getCallable (symKey v.name) with
          | some _ => Except.error (CErr.notAFunction pos v)
          | none => .error .panic) = _ at he
        rcases h rfl with h | h
        · exact h v' hv
        · cases hc : A.sy.getCallable (symKey v.name) with
          | none => exact h hc
          | some md => rw [hc] at he; cases he
    | panic => exact getVar_panic _ _ hv
    | alreadyDefined | incompatibleAnnotation | outOfRegisters => cases he

theorem repVar_safe {A : ArgEnv} {v : VarRef} {pos q : LineCol} (h : VarFound A.sy v) {σ : Type} :
    Safe (CM.lift (repVar A v pos q) : CM σ (Reg × ExprType)) := by
  refine .lift fun he => ?_
  unfold repVar at he
  cases hv : A.sy.getVar v with
  | ok r =>
    obtain ⟨r, p⟩ := r
    rw [hv] at he
    cases p <;> cases he
  | error e =>
    rw [hv] at he
    cases e with
    | undefinedSymbol v' =>
      simp only at he
      rcases h with h | h
      · exact h v' hv
      · cases hc : A.sy.getCallable (symKey v.name) with
        | none => exact h hc
        | some md => rw [hc] at he; cases he
    | panic => exact getVar_panic _ _ hv
    | alreadyDefined | incompatibleAnnotation | outOfRegisters => cases he

theorem outsFound_fun {sy : Syms} {rep : Option RepSyn} (hr : ∀ r, rep = some r → r.typeSyn ≠ .varRef) :
    ∀ (syns : List SingSyn) (args : Args), (∀ s ∈ syns, ∀ name array sep, s ≠ .reqRef name array true sep) → OutsFound sy rep syns args := by
  have hno : repIsRef rep = true → False := by
    intro h
    cases rep with
    | none => cases h
    | some r => exact hr r rfl (by simpa [repIsRef] using h)
  let rec go : ∀ (args : Args) (syns : List SingSyn), (∀ s ∈ syns, ∀ name array sep, s ≠ .reqRef name array true sep) →
      OutsFound sy rep syns args
    | .nil, _, _ => by unfold OutsFound; trivial
    | .cons e sep pos rest, [], h => by
      have hrest := go rest [] h
      cases e <;> simp only [OutsFound] <;> first | exact hrest | exact ⟨fun h => (hno h).elim, hrest⟩
    | .cons e sep pos rest, s :: syns, h => by
      have hrest := go rest syns fun x hx => h x (List.mem_cons_of_mem _ hx)
      cases s with
      | reqRef name array define sep =>
        cases define with
        | true => exact absurd rfl (h _ (List.mem_cons_self ..) name array sep)
        | false => cases e <;> exact hrest
      | reqValue | optValue | anyValue => cases e <;> exact hrest
    | .skip sep pos rest, [], h => by
      simp only [OutsFound]; exact go rest [] h
    | .skip sep pos rest, s :: syns, h => by
      have := go rest syns fun x hx => h x (List.mem_cons_of_mem _ hx)
      cases s with
      | reqRef name array define sep => cases define <;> exact this
      | reqValue | optValue | anyValue => exact this
  exact fun syns args h => go args syns h

theorem findSyntax_mem {md : Md} {n : Nat} {syn : Syntax} (h : md.findSyntax n = some syn) : syn ∈ md.syntaxes := by
  have := List.mem_of_find?_eq_some h
  exact this

theorem findSyntax_le {md : Md} {n : Nat} {syn : Syntax} (h : md.findSyntax n = some syn) : syn.singular.length ≤ n :=
  counts_le (syntaxFor_counts ((syntaxFor_iff _ _ _).1 h))

theorem compileNoArgs_safe (A : ArgEnv) (b : Bool) (nt : Nat) (lcs : List LineCol) : Safe (compileNoArgs A b [] nt lcs) := by
  unfold compileNoArgs
  cases A.rep with
  | none => exact .pure _
  | some r =>
    exact .ite (fun _ => .pure _) fun _ => .bind (allocTemp_safe _ _ _) fun _ => .bind (Free.safe (.emitTag _ _ _)) fun _ => .pure _

mutual
theorem expr_safe {sy : Syms} (F : FunsOk sy.getCallable) (e : Expr) (nt : Nat) (reg : Reg) (T : TidyExpr e) : Safe (compileExpr sy e nt reg) := by
  match e with
  | .bool b pos => exact .bind (Free.safe (.emitValue _ _ _)) fun _ => .pure _
  | .dbl b pos => exact .bind (Free.safe (.emitValue _ _ _)) fun _ => .pure _
  | .int b pos => exact .bind (Free.safe (.emitValue _ _ _)) fun _ => .pure _
  | .text b pos => exact .bind (Free.safe (.emitValue _ _ _)) fun _ => .pure _
  | .sym v pos =>
    unfold compileExpr
    cases hv : sy.getVar v with
    | ok r =>
      obtain ⟨r, p⟩ := r
      cases p with
      | scalar t => exact .bind (Free.safe (.emit _ _)) fun _ => .pure _
      | array t n => exact .throw nofun
    | error e =>
      cases e with
      | undefinedSymbol v' => exact argless_safe _ _ _ _ _
      | panic => exact absurd hv (getVar_panic _ _)
      | alreadyDefined | incompatibleAnnotation | outOfRegisters => exact .throw nofun
  | .un op a pos =>
    have h := expr_safe F a nt reg T
    exact .bind h fun _ => applyUn_safe _ _ _ _ _ _
  | .bin op l r pos =>
    have hl := expr_safe F l nt reg T.1
    have hr : ∀ reg, Safe (compileExpr sy r (nt + 1) reg) := fun reg => expr_safe F r (nt + 1) reg T.2
    exact .bind hl fun _ => .bind (allocTemp_safe _ _ _) fun _ => .bind (hr _) fun _ => applyBin_safe _ _ _ _ _ _ _
  | .call v pos args =>
    unfold compileExpr
    cases hc : sy.getCallable (symKey v.name) with
    | some md =>
      refine fun s => SafeAt.bind (checkCallee_safe _ _ _ s) fun t s' ht => ?_
      have hret : md.returnType.isSome := by
        obtain ⟨_, this, _⟩ := CM.lift_ok.1 ht
        unfold checkCallee at this
        split at this
        · cases this
        next h => rw [h]; rfl
      clear ht
      revert s'
      refine Safe.ite (fun _ => .throw (by simp)) fun _ => ?_
      refine .bind (allocTemp_safe _ _ _) fun ret => ?_
      cases hf : md.findSyntax args.length with
      | none => exact .throw nofun
      | some syn =>
        have ho := F _ _ hc hret syn (findSyntax_mem hf)
        refine .bind (args_safe F args ⟨sy, md, pos, syn.singular.length, args.length, syn.repeated⟩ true syn.singular (nt + 1) [] rfl T.2
          (outsFound_fun ho.2 _ _ ho.1) (findSyntax_le hf)) fun x => ?_
        refine .bind (firstTemp_safe _ _ _) fun _ => .bind (emitCall_safe _ _ _ _ _ _) fun _ => ?_
        exact .ite (fun _ => .bind (Free.safe (.emit _ _)) fun _ => .pure _) fun _ => .pure _
    | none =>
      simp only
      cases hv : sy.getVar v with
      | ok r =>
        obtain ⟨r, p⟩ := r
        cases p with
        | scalar t => exact .throw nofun
        | array t n =>
          have h := subs_safe F args nt pos T.1 T.2
          exact .ite (fun _ => .throw nofun) fun _ => .bind h fun _ => .bind (firstTemp_safe _ _ _) fun _ =>
            .bind (Free.safe (.emit _ _)) fun _ => .pure _
      | error e =>
        cases e with
        | undefinedSymbol v' => exact .throw nofun
        | panic => exact absurd hv (getVar_panic _ _)
        | alreadyDefined | incompatibleAnnotation | outOfRegisters => exact .throw nofun
termination_by structural e

theorem subs_safe {sy : Syms} (F : FunsOk sy.getCallable) (args : Args) (nt : Nat) (pos : LineCol) (N : NoSkip args) (T : TidyArgs args) :
    Safe (compileSubs sy args nt pos) := by
  match args with
  | .nil => exact .pure _
  | .skip .. => exact N.elim
  | .cons e _ _ rest =>
    have h : ∀ reg, Safe (compileExpr sy e (nt + 1) reg) := fun reg => expr_safe F e (nt + 1) reg T.1
    have hr := subs_safe F rest (nt + 1) pos N T.2
    exact .bind (allocTemp_safe _ _ _) fun _ => .bind (h _) fun _ => .bind (castTo_safe _ _ _ _) fun _ => hr
termination_by structural args

theorem args_safe {sy : Syms} (F : FunsOk sy.getCallable) (args : Args) (A : ArgEnv) (noneYet : Bool) (syns : List SingSyn) (nt : Nat)
    (lcs : List LineCol) (hA : A.sy = sy) (T : TidyArgs args) (O : OutsFound sy A.rep syns args) (L : syns.length ≤ args.length) :
    Safe (compileArgsFrom A args noneYet syns nt lcs) := by
  match args with
  | .nil =>
    have : syns = [] := List.length_eq_zero_iff.1 (Nat.le_zero.1 L)
    subst this
    exact compileNoArgs_safe A noneYet nt lcs
  | .cons e sep sepPos rest =>
    have he : ∀ nt reg, Safe (compileExpr A.sy e nt reg) := by rw [hA]; exact fun nt reg => expr_safe F e nt reg T.1
    have hr : ∀ b syns' nt lcs, OutsFound sy A.rep syns' rest → syns'.length ≤ rest.length → Safe (compileArgsFrom A rest b syns' nt lcs) :=
      fun b syns' nt lcs O L => args_safe F rest A b syns' nt lcs hA T.2 O L
    unfold compileArgsFrom
    match syns with
    | .reqValue _ vtype exp :: syns' =>
      have hr := fun lcs => hr noneYet syns' (nt + 1) lcs (by cases e <;> exact O) (Nat.le_of_succ_le_succ L)
      exact .bind (allocTemp_safe _ _ _) fun _ => .bind (he _ _) fun _ => .bind (castTo_safe _ _ _ _) fun _ =>
        .bind (validateSep_safe _ _ _ _ _) fun _ => hr _
    | .reqRef _ array define exp :: syns' =>
      match e with
      | .sym v pos =>
        have hr := fun lcs => hr noneYet syns' (nt + 1) lcs (by cases define <;> first | exact O | exact O.2) (Nat.le_of_succ_le_succ L)
        refine .bind (refVar_safe fun hd => ?_) fun _ => .bind (allocTemp_safe _ _ _) fun _ => .bind (Free.safe (.emit _ _)) fun _ =>
          .bind (validateSep_safe _ _ _ _ _) fun _ => hr _
        subst hd
        rw [hA]
        exact O.1
      | .bool .. | .dbl .. | .int .. | .text .. | .un .. | .bin .. | .call .. => exact .throw nofun
    | .optValue _ vtype exp :: syns' =>
      have hr := fun lcs => hr noneYet syns' (nt + 2) lcs (by cases e <;> exact O) (Nat.le_of_succ_le_succ L)
      exact .bind (allocTemp_safe _ _ _) fun _ => .bind (allocTemp_safe _ _ _) fun _ => .bind (he _ _) fun _ =>
        .bind (castTo_safe _ _ _ _) fun _ => .bind (validateSep_safe _ _ _ _ _) fun _ => .bind (Free.safe (.emitTag _ _ _)) fun _ => hr _
    | .anyValue _ _ exp :: syns' =>
      have hr := fun lcs => hr noneYet syns' (nt + 2) lcs (by cases e <;> exact O) (Nat.le_of_succ_le_succ L)
      exact .bind (allocTemp_safe _ _ _) fun _ => .bind (allocTemp_safe _ _ _) fun _ => .bind (he _ _) fun _ =>
        .bind (validateSep_safe _ _ _ _ _) fun _ => .bind (Free.safe (.emitTag _ _ _)) fun _ => hr _
    | [] =>
      have hr := fun nt lcs => hr false [] nt lcs (by cases e <;> first | exact O | exact O.2) (Nat.zero_le _)
      cases hrep : A.rep with
      | none => exact .throw nofun
      | some r =>
        refine .ite (fun hp => ?_) fun hp => ?_
        · cases ht : r.typeSyn with
          | typed vtype =>
            exact .bind (validateSep_safe _ _ _ _ _) fun _ => .bind (allocTemp_safe _ _ _) fun _ => .bind (he _ _) fun _ =>
              .bind (castTo_safe _ _ _ _) fun _ => hr _ _
          | anyValue => simp [RepSyn.plain, ht] at hp
          | varRef => simp [RepSyn.plain, ht] at hp
        · refine .bind (allocTemp_safe _ _ _) fun _ => .bind (validateSep_safe _ _ _ _ _) fun _ => ?_
          cases ht : r.typeSyn with
          | typed vtype =>
            exact .bind (allocTemp_safe _ _ _) fun _ => .bind (he _ _) fun _ =>
              .bind (castTo_safe _ _ _ _) fun _ => .bind (Free.safe (.emitTag _ _ _)) fun _ => hr _ _
          | anyValue =>
            exact .bind (allocTemp_safe _ _ _) fun _ => .bind (he _ _) fun _ => .bind (Free.safe (.emitTag _ _ _)) fun _ => hr _ _
          | varRef =>
            match e with
            | .sym v pos =>
              have hf : VarFound A.sy v := by
                rw [hA]
                exact O.1 (by rw [hrep]; simp [repIsRef, ht])
              exact .bind (repVar_safe hf) fun _ => .bind (allocTemp_safe _ _ _) fun _ => .bind (Free.safe (.emit _ _)) fun _ =>
                .bind (Free.safe (.emitTag _ _ _)) fun _ => hr _ _
            | .bool .. | .dbl .. | .int .. | .text .. | .un .. | .bin .. | .call .. => exact .throw nofun
  | .skip sep sepPos rest =>
    have hr : ∀ b syns' nt lcs, OutsFound sy A.rep syns' rest → syns'.length ≤ rest.length → Safe (compileArgsFrom A rest b syns' nt lcs) :=
      fun b syns' nt lcs O L => args_safe F rest A b syns' nt lcs hA T O L
    unfold compileArgsFrom
    match syns with
    | .reqValue _ vtype exp :: syns' => exact .throw nofun
    | .reqRef _ array define exp :: syns' => exact .throw nofun
    | .optValue _ vtype exp :: syns' =>
      exact .bind (allocTemp_safe _ _ _) fun _ => .bind (validateSep_safe _ _ _ _ _) fun _ =>
        .bind (Free.safe (.emitTag _ _ _)) fun _ => hr _ _ _ _ O (Nat.le_of_succ_le_succ L)
    | .anyValue _ _ exp :: syns' =>
      exact .bind (allocTemp_safe _ _ _) fun _ => .bind (validateSep_safe _ _ _ _ _) fun _ =>
        .bind (Free.safe (.emitTag _ _ _)) fun _ => hr _ _ _ _ O (Nat.le_of_succ_le_succ L)
    | [] =>
      cases hrep : A.rep with
      | none => exact .throw nofun
      | some r =>
        refine .ite (fun hp => ?_) fun hp => ?_
        · exact .bind (validateSep_safe _ _ _ _ _) fun _ => .throw nofun
        · refine .bind (allocTemp_safe _ _ _) fun _ => .bind (validateSep_safe _ _ _ _ _) fun _ => .ite (fun _ => .throw nofun) fun _ => ?_
          exact .bind (Free.safe (.emitTag _ _ _)) fun _ => hr _ _ _ _ O (Nat.zero_le _)
termination_by structural args
end

theorem exprAs_safe {sy : Syms} (F : FunsOk sy.getCallable) (e : Expr) (nt : Nat) (reg : Reg) (t : ExprType) (T : TidyExpr e) :
    Safe (compileExprAs sy e nt reg t) := .bind (expr_safe F e nt reg T) fun _ => castTo_safe _ _ _ _

theorem compileArgs_safe {sy : Syms} (F : FunsOk sy.getCallable) (md : Md) (pos : LineCol) (args : Args) (nt : Nat) (T : TidyArgs args)
    (O : ∀ syn, md.findSyntax args.length = some syn → OutsFound sy syn.repeated syn.singular args) :
    Safe (compileArgs sy md pos args nt) := by
  unfold compileArgs
  cases hf : md.findSyntax args.length with
  | none => exact .throw nofun
  | some syn =>
    exact .bind (args_safe F args ⟨sy, md, pos, syn.singular.length, args.length, syn.repeated⟩ true syn.singular nt [] rfl T
      (O syn hf) (findSyntax_le hf)) fun _ => .bind (firstTemp_safe _ _ _) fun _ => .pure _

end EB
