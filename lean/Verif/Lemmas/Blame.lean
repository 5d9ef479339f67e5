import Verif.Lemmas.Valid
import Verif.Spec.Blame
/-!
# Why the compiler rejects an expression
-/

namespace EB
open Spec

/-- If this part of the compiler fails, then because of a limit or with an error that has `P`. -/
def Blamed {σ α : Type} (x : Except CErr (α × σ)) (P : CErr → Prop) : Prop := ∀ e, x = .error e → Limit e ∨ P e

section
variable {σ α β : Type} {P Q : CErr → Prop}

theorem Blamed.bind {x : CM σ α} {f : α → CM σ β} {s : σ} (h1 : Blamed (x s) P)
    (h2 : ∀ a s', x s = .ok (a, s') → Blamed (f a s') P) : Blamed ((x >>= f) s) P := by
  intro e he
  rcases CM.bind_error he with h | ⟨a, s', h, h'⟩
  · exact h1 e h
  · exact h2 a s' h e h'

theorem Blamed.pure {a : α} {s : σ} : Blamed ((Pure.pure a : CM σ α) s) P := by intro e h; cases h

theorem Blamed.throw {err : CErr} {s : σ} (h : P err) : Blamed ((CM.throw err : CM σ α) s) P := by
  intro e he; cases he; exact .inr h

theorem Blamed.mono {x : Except CErr (α × σ)} (h : Blamed x Q) (hq : ∀ e, Q e → P e) : Blamed x P :=
  fun e he => (h e he).imp id (hq e)

theorem Blamed.lift {r : Except CErr α} {s : σ} (h : ∀ e, r = .error e → Limit e ∨ P e) : Blamed ((CM.lift r : CM σ α) s) P :=
  fun e he => h e (CM.lift_error he)

theorem Free.blamed {x : CG α} {g : Codegen} (h : Free (fun _ => True) (fun _ => True) x) : Blamed (x g) P := by
  intro e he
  have := h g
  rw [he] at this
  exact .inl this

theorem Free.then_ {x : CG α} {f : α → CG β} {g : Codegen} (h : Free (fun _ => True) (fun _ => True) x)
    (h2 : ∀ a g', x g = .ok (a, g') → Blamed (f a g') P) : Blamed ((x >>= f) g) P := h.blamed.bind h2
end

/-- An error of a wrong separator. -/
theorem validateSep_blamed {md : Md} {syn : SepSyn} {endOk : Bool} {sep : ArgSep} {pos : LineCol} {g : Codegen} {P : CErr → Prop}
    (h : P (.callableSyntax pos md.name)) : Blamed ((CM.lift (validateSep md syn endOk sep pos) : CG Unit) g) P := by
  refine .lift fun e he => .inr ?_
  unfold validateSep at he
  split at he
  · split at he <;> cases he; exact h
  · split at he
    · split at he <;> cases he; exact h
    · split at he <;> cases he; exact h
  · cases he

theorem castTo_blamed {reg : Reg} {t want : ExprType} {pos : LineCol} {g : Codegen} {P : CErr → Prop}
    (h : ¬ Converts t want → P (wrongValue pos t want)) : Blamed (castTo reg t want pos g) P := by
  intro e he
  have := castTo_type reg t want pos g
  by_cases hc : Converts t want
  · rw [if_pos hc, he] at this; obtain ⟨_, h⟩ := this; cases h
  · rw [if_neg hc, he] at this
    cases this
    exact .inr (h hc)

theorem checkCallee_blamed {md : Md} {v : VarRef} {pos : LineCol} {g : Codegen} {P : CErr → Prop}
    (h1 : md.returnType = none → P (.notAFunction pos v))
    (h2 : ∀ t, md.returnType = some t → ¬ Annotated v t → P (.incompatibleAnnotation pos v)) :
    Blamed ((CM.lift (checkCallee md v pos) : CG ExprType) g) P := by
  refine .lift fun e he => .inr ?_
  unfold checkCallee at he
  cases hr : md.returnType with
  | none => rw [hr] at he; cases he; exact h1 hr
  | some t =>
    rw [hr] at he
    simp only at he
    split at he
    next h3 =>
      cases he
      refine h2 t hr ?_
      rintro (h | h) <;> simp [VarRef.acceptsCallable, h] at h3
    · cases he

theorem emitCall_blamed {md : Md} {key : Str} {ret : Option ExprType} {first : Reg} {lcs : List LineCol} {pos : LineCol} {g : Codegen}
    {P : CErr → Prop} : Blamed (emitCall md key ret first lcs pos g) P := by
  intro e he
  have := emitCall_judged (L := fun _ => True) (D := fun _ => True) md key ret first lcs pos g
  exact .inl ((this.ofError he).resolve_right (fun h => h trivial))

section
variable {sy : Syms} {Γ : Env} (hs : Scope sy Γ)
include hs

theorem refVar_blamed {A : ArgEnv} (hA : A.sy = sy) {arr def_ : Bool} {v : VarRef} {pos : LineCol} {g : Codegen} {P : CErr → Prop}
    (h1 : P (.callableSyntax pos A.md.name)) (h2 : ∀ e, BlameRef Γ def_ v pos e → P e) :
    Blamed ((CM.lift (refVar A arr def_ v pos) : CG (Reg × ExprType)) g) P := by
  refine .lift fun e he => .inr ?_
  unfold refVar at he
  rw [hA, hs.syms.lookup v] at he
  unfold Spec.lookup at he
  cases hn : nameRef Γ.locals Γ.shared v with
  | wrongType => rw [hn] at he; cases he; exact h2 _ (.annotation hn)
  | undefined =>
    rw [hn] at he
    simp only at he
    cases def_ with
    | false => cases he; exact h2 _ (.undefined hn rfl)
    | true =>
      simp only [Bool.not_true, Bool.false_eq_true, if_false] at he
      cases hk : sy.getCallable (symKey v.name) with
      | none => rw [hk] at he; cases he; exact h2 _ (.new hn rfl ((hs.md _).trans hk))
      | some md => rw [hk] at he; cases he; exact h2 _ (.callable hn rfl ((hs.md _).trans hk))
  | var place p =>
    rw [hn] at he
    cases p with
    | scalar t => cases arr <;> cases he; exact h1
    | array t n => cases arr <;> cases he; exact h1

theorem repVar_blamed {A : ArgEnv} (hA : A.sy = sy) {v : VarRef} {pos apos : LineCol} {g : Codegen} {P : CErr → Prop}
    (h1 : P (.callableSyntax apos A.md.name)) (h2 : ∀ e, BlameRef Γ true v pos e → P e) :
    Blamed ((CM.lift (repVar A v pos apos) : CG (Reg × ExprType)) g) P := by
  refine .lift fun e he => .inr ?_
  unfold repVar at he
  rw [hA, hs.syms.lookup v] at he
  unfold Spec.lookup at he
  cases hn : nameRef Γ.locals Γ.shared v with
  | wrongType => rw [hn] at he; cases he; exact h2 _ (.annotation hn)
  | undefined =>
    rw [hn] at he
    simp only at he
    cases hk : sy.getCallable (symKey v.name) with
    | none => rw [hk] at he; cases he; exact h2 _ (.new hn rfl ((hs.md _).trans hk))
    | some md => rw [hk] at he; cases he; exact h2 _ (.callable hn rfl ((hs.md _).trans hk))
  | var place p =>
    rw [hn] at he
    cases p with
    | scalar t => cases he
    | array t n => cases he; exact h1

/-- The type of what has been accepted. -/
theorem accepted_type {e : Expr} {nt : Nat} {reg : Reg} {g g' : Codegen} {t : ExprType} (h : compileExpr sy e nt reg g = .ok (t, g')) :
    WellTyped Γ e t :=
  (((expr_judged (L := fun _ => True) (D := fun _ => True) hs e nt reg g).ofOk h).1 t).2 rfl

theorem argless_blamed {v : VarRef} (hn : nameRef Γ.locals Γ.shared v = .undefined) (nt : Nat) (reg : Reg) (pos : LineCol) (g : Codegen) :
    Blamed (compileArgless sy nt reg v pos g) (Blame Γ (.sym v pos)) := by
  unfold compileArgless
  cases hk : sy.getCallable (symKey v.name) with
  | none => exact .throw (.undefined hn ((hs.md _).trans hk))
  | some md =>
    have hm := (hs.md (symKey v.name)).trans hk
    simp only
    refine (checkCallee_blamed (.command hn hm) fun t h1 h2 => .functionType hn hm h1 h2).bind fun t g1 _ => ?_
    cases ha : md.isArgless with
    | false => exact .throw (s := g1) (.noArguments hn hm fun h => by rw [(noArgs_iff md).2 h] at ha; cases ha)
    | true =>
      simp only [Bool.not_true, Bool.false_eq_true, if_false]
      split
      · exact emitCall_blamed.bind fun _ _ _ => .pure
      · split
        · refine (Free.getUpcall _ _ _).then_ fun _ _ _ => ?_
          refine (Free.allocTemp _ _ _).then_ fun _ _ _ => ?_
          refine (Free.emit _ _).then_ fun _ _ _ => ?_
          exact (Free.emit _ _).then_ fun _ _ _ => .pure
        · exact emitCall_blamed.bind fun _ _ _ => .pure

/-- The expressions among the arguments have no subscripts left out. -/
def FullIn : Args → Prop
  | .nil => True
  | .skip _ _ rest => FullIn rest
  | .cons e _ _ rest => Full e ∧ FullIn rest
end

theorem FullIn.of : ∀ {args : Args}, FullArgs args → FullIn args
  | .nil, _ => trivial
  | .skip .., h => h.elim
  | .cons .., h => ⟨h.1, FullIn.of h.2⟩

section
variable {sy : Syms} {Γ : Env} (hs : Scope sy Γ)
include hs

mutual
theorem expr_blamed (e : Expr) (hf : Full e) (nt : Nat) (reg : Reg) (g : Codegen) : Blamed (compileExpr sy e nt reg g) (Blame Γ e) := by
  match e with
  | .bool .. | .dbl .. | .int .. | .text .. => simp only [compileExpr]; exact (Free.emitValue _ _ _).then_ fun _ _ _ => .pure
  | .sym v pos =>
    simp only [compileExpr, hs.syms.lookup v]
    unfold Spec.lookup
    cases hn : nameRef Γ.locals Γ.shared v with
    | wrongType => exact .throw (.annotation hn)
    | undefined => exact argless_blamed hs hn nt reg pos g
    | var place p =>
      cases p with
      | array => exact .throw (.array hn)
      | scalar t => exact (Free.emit _ _).then_ fun _ _ _ => .pure
  | .un op e pos =>
    simp only [compileExpr]
    refine ((expr_blamed e hf nt reg g).mono fun _ => .operand).bind fun t g1 h1 err he => ?_
    rcases applyUn_error he with h | ⟨h2, rfl⟩
    · exact .inl (.of_resource h)
    · cases op
      · exact .inr (.neg (accepted_type hs h1) h2)
      · exact .inr (.not (accepted_type hs h1) h2)
  | .bin op l r pos =>
    simp only [compileExpr]
    refine ((expr_blamed l hf.1 nt reg g).mono fun _ => .left).bind fun lt g1 h1 => ?_
    refine (Free.allocTemp _ _ _).then_ fun rtemp g2 _ => ?_
    refine ((expr_blamed r hf.2 (nt + 1) rtemp g2).mono fun _ => .right (accepted_type hs h1)).bind fun rt g3 h3 err he => ?_
    have := applyBin_type op reg rtemp lt rt r.startPos pos g3
    cases hb : binType op lt rt with
    | none =>
      rw [hb, he] at this
      cases this
      exact .inr (.bin (accepted_type hs h1) (accepted_type hs h3) hb)
    | some t' => rw [hb, he] at this; obtain ⟨_, h⟩ := this; cases h
  | .call v pos args =>
    simp only [compileExpr]
    cases hk : sy.getCallable (symKey v.name) with
    | some md =>
      have hm := (hs.md (symKey v.name)).trans hk
      simp only
      refine (checkCallee_blamed (.callCommand hm) fun t h1 h2 => .callType hm h1 h2).bind fun t g1 _ => ?_
      cases ha : md.isArgless with
      | true => exact .throw (s := g1) (.callArgs hm ((noArgs_iff md).1 ha))
      | false =>
        simp only [Bool.false_eq_true, if_false]
        refine (Free.allocTemp _ _ _).then_ fun ret g2 _ => ?_
        cases hsx : md.findSyntax args.length with
        | none =>
          refine .throw (.callCount hm fun syn h => ?_)
          rw [(syntaxFor_iff md _ _).2 h] at hsx
          cases hsx
        | some syn =>
          simp only
          have hsf := (syntaxFor_iff md _ _).1 hsx
          refine Blamed.bind ?_ fun lcs g3 _ => ?_
          · refine (args_blamed args (.of hf) (A := ⟨sy, md, pos, syn.singular.length, args.length, syn.repeated⟩) (mayEnd := MayEnd syn args.length) rfl
              (fun rest => mayEnd_iff sy md pos syn args.length rest) (counts_le (syntaxFor_counts hsf)) true (nt + 1) [] g2).mono ?_
            exact fun _ h => .callWith hm hsf h
          · refine (Free.firstTemp _ _ _).then_ fun _ g4 _ => ?_
            refine emitCall_blamed.bind fun _ g5 _ => ?_
            split
            · exact (Free.emit _ _).then_ fun _ _ _ => .pure
            · exact .pure
    | none =>
      have hm := (hs.md (symKey v.name)).trans hk
      simp only [hs.syms.lookup v]
      unfold Spec.lookup
      cases hn : nameRef Γ.locals Γ.shared v with
      | wrongType => exact .throw (.arrayType hm hn)
      | undefined => exact .throw (.noArray hm hn)
      | var place p =>
        cases p with
        | scalar t => exact .throw (.scalar hm hn)
        | array t n =>
          simp only
          split
          next hlen => exact .throw (.dimensions hm hn hlen)
          next hlen =>
            refine ((subs_blamed args hf nt pos g).mono fun _ h => .subscript hm hn (Classical.not_not.1 hlen) h).bind fun _ g1 _ => ?_
            refine (Free.firstTemp _ _ _).then_ fun _ g2 _ => ?_
            exact (Free.emit _ _).then_ fun _ _ _ => .pure
termination_by structural e

theorem subs_blamed (args : Args) (hf : FullArgs args) (nt : Nat) (pos : LineCol) (g : Codegen) :
    Blamed (compileSubs sy args nt pos g) (BlameSubs Γ args) := by
  match args with
  | .nil => exact .pure
  | .skip .. => exact hf.elim
  | .cons e sep p rest =>
    simp only [compileSubs]
    refine (Free.allocTemp _ _ _).then_ fun r g1 _ => ?_
    refine ((expr_blamed e hf.1 (nt + 1) r g1).mono fun _ => .expr).bind fun t g2 h2 => ?_
    refine (castTo_blamed fun h => .type (accepted_type hs h2) h).bind fun _ g3 h3 => ?_
    exact (subs_blamed rest hf.2 (nt + 1) pos g3).mono fun _ => .rest (accepted_type hs h2) (castTo_ok h3)
termination_by structural args

theorem args_blamed (args : Args) (hf : FullIn args) {A : ArgEnv} {mayEnd : Prop} {syns : List SingSyn} (hA : A.sy = sy)
    (hE : ∀ rest : List SingSyn, A.endOk rest = true ↔ rest = [] ∧ mayEnd) (hlen : syns.length ≤ args.length)
    (noneYet : Bool) (nt : Nat) (lcs : List LineCol) (g : Codegen) :
    Blamed (compileArgsFrom A args noneYet syns nt lcs g) (BlameArgs Γ A.md A.rep mayEnd syns args) := by
  have fin : Blamed (compileArgsFrom A args noneYet syns nt lcs g)
      (fun e => (∃ p, e = .callableSyntax p A.md.name) ∨ BlameArgs Γ A.md A.rep mayEnd syns args e) →
      Blamed (compileArgsFrom A args noneYet syns nt lcs g) (BlameArgs Γ A.md A.rep mayEnd syns args) := by
    intro h e he
    rcases h e he with h | ⟨p, rfl⟩ | h
    · exact .inl h
    · have := (args_judged (L := fun _ => True) (D := fun _ => True) hs args hA hE hlen noneYet nt lcs g).ofError he
      exact .inr (.shape (this.resolve_left id))
    · exact .inr h
  refine fin ?_
  clear fin
  match args with
  | .nil =>
    have : syns = [] := List.eq_nil_of_length_eq_zero (Nat.le_zero.1 hlen)
    subst this
    simp only [compileArgsFrom, compileNoArgs]
    cases A.rep with
    | none => exact .pure
    | some r =>
      simp only
      split
      · exact .pure
      · refine (Free.allocTemp _ _ _).then_ fun _ _ _ => ?_
        exact (Free.emitTag _ _ _).then_ fun _ _ _ => .pure
  | .skip sep p rest =>
    match syns with
    | .reqValue .. :: _ => simp only [compileArgsFrom]; exact .throw (.inl ⟨_, rfl⟩)
    | .reqRef .. :: _ => simp only [compileArgsFrom]; exact .throw (.inl ⟨_, rfl⟩)
    | .optValue n vt exp :: syns =>
      simp only [compileArgsFrom]
      refine (Free.allocTemp _ _ _).then_ fun _ g1 _ => ?_
      refine (validateSep_blamed (.inl ⟨_, rfl⟩)).bind fun _ g2 _ => ?_
      refine (Free.emitTag _ _ _).then_ fun _ g3 _ => ?_
      exact (args_blamed rest hf hA hE (Nat.le_of_succ_le_succ hlen) noneYet (nt + 1) _ g3).mono fun _ h => .inr (.laterSkip h)
    | .anyValue n m exp :: syns =>
      simp only [compileArgsFrom]
      refine (Free.allocTemp _ _ _).then_ fun _ g1 _ => ?_
      refine (validateSep_blamed (.inl ⟨_, rfl⟩)).bind fun _ g2 _ => ?_
      refine (Free.emitTag _ _ _).then_ fun _ g3 _ => ?_
      exact (args_blamed rest hf hA hE (Nat.le_of_succ_le_succ hlen) noneYet (nt + 1) _ g3).mono fun _ h => .inr (.laterSkip h)
    | [] =>
      simp only [compileArgsFrom]
      cases hrep : A.rep with
      | none => exact .throw (.inl ⟨_, rfl⟩)
      | some r =>
        simp only
        split
        · exact (validateSep_blamed (.inl ⟨_, rfl⟩)).bind fun _ _ _ => .throw (.inl ⟨_, rfl⟩)
        · refine (Free.allocTemp _ _ _).then_ fun _ g1 _ => ?_
          refine (validateSep_blamed (.inl ⟨_, rfl⟩)).bind fun _ g2 _ => ?_
          split
          · exact .throw (.inl ⟨_, rfl⟩)
          · refine (Free.emitTag _ _ _).then_ fun _ g3 _ => ?_
            refine (args_blamed rest hf hA hE (syns := []) (Nat.zero_le _) false (nt + 1) _ g3).mono fun _ h => .inr ?_
            rw [hrep] at h
            exact .laterMoreSkip h
  | .cons e sep p rest =>
    match syns with
    | .reqValue n vt exp :: syns =>
      simp only [compileArgsFrom, hA]
      refine (Free.allocTemp _ _ _).then_ fun r g1 _ => ?_
      refine ((expr_blamed e hf.1 (nt + 1) r g1).mono fun _ h => .inr (.expr h)).bind fun t g2 h2 => ?_
      refine (castTo_blamed fun h => .inr (.value (accepted_type hs h2) h)).bind fun _ g3 _ => ?_
      refine (validateSep_blamed (.inl ⟨_, rfl⟩)).bind fun _ g4 _ => ?_
      exact (args_blamed rest hf.2 hA hE (Nat.le_of_succ_le_succ hlen) noneYet (nt + 1) _ g4).mono fun _ h => .inr (.later h)
    | .reqRef n arr def_ exp :: syns =>
      match e with
      | .sym v vp =>
        simp only [compileArgsFrom]
        refine (refVar_blamed hs hA (.inl ⟨_, rfl⟩) fun _ h => .inr (.ref h)).bind fun sv g1 _ => ?_
        refine (Free.allocTemp _ _ _).then_ fun r g2 _ => ?_
        refine (Free.emit _ _).then_ fun _ g3 _ => ?_
        refine (validateSep_blamed (.inl ⟨_, rfl⟩)).bind fun _ g4 _ => ?_
        exact (args_blamed rest hf.2 hA hE (Nat.le_of_succ_le_succ hlen) noneYet (nt + 1) _ g4).mono fun _ h => .inr (.later h)
      | .bool .. | .dbl .. | .int .. | .text .. | .un .. | .bin .. | .call .. => simp only [compileArgsFrom]; exact .throw (.inl ⟨_, rfl⟩)
    | .optValue n vt exp :: syns =>
      simp only [compileArgsFrom, hA]
      refine (Free.allocTemp _ _ _).then_ fun _ g0 _ => ?_
      refine (Free.allocTemp _ _ _).then_ fun r g1 _ => ?_
      refine ((expr_blamed e hf.1 (nt + 2) r g1).mono fun _ h => .inr (.expr h)).bind fun t g2 h2 => ?_
      refine (castTo_blamed fun h => .inr (.optional (accepted_type hs h2) h)).bind fun _ g3 _ => ?_
      refine (validateSep_blamed (.inl ⟨_, rfl⟩)).bind fun _ g4 _ => ?_
      refine (Free.emitTag _ _ _).then_ fun _ g5 _ => ?_
      exact (args_blamed rest hf.2 hA hE (Nat.le_of_succ_le_succ hlen) noneYet (nt + 2) _ g5).mono fun _ h => .inr (.later h)
    | .anyValue n m exp :: syns =>
      simp only [compileArgsFrom, hA]
      refine (Free.allocTemp _ _ _).then_ fun _ g0 _ => ?_
      refine (Free.allocTemp _ _ _).then_ fun r g1 _ => ?_
      refine ((expr_blamed e hf.1 (nt + 2) r g1).mono fun _ h => .inr (.expr h)).bind fun t g2 h2 => ?_
      refine (validateSep_blamed (.inl ⟨_, rfl⟩)).bind fun _ g4 _ => ?_
      refine (Free.emitTag _ _ _).then_ fun _ g5 _ => ?_
      exact (args_blamed rest hf.2 hA hE (Nat.le_of_succ_le_succ hlen) noneYet (nt + 2) _ g5).mono fun _ h => .inr (.later h)
    | [] =>
      simp only [compileArgsFrom]
      cases hrep : A.rep with
      | none => exact .throw (.inl ⟨_, rfl⟩)
      | some r =>
        simp only
        have more : ∀ nt lcs g, Blamed (compileArgsFrom A rest false [] nt lcs g)
            (fun err => (∃ p, err = .callableSyntax p A.md.name) ∨ BlameArgs Γ A.md (some r) mayEnd [] (.cons e sep p rest) err) := by
          intro nt lcs g
          refine (args_blamed rest hf.2 hA hE (syns := []) (Nat.zero_le _) false nt lcs g).mono fun _ h => .inr ?_
          rw [hrep] at h
          exact .laterMore h
        cases hp : r.plain with
        | true =>
          simp only [if_true]
          cases hty : r.typeSyn with
          | anyValue => unfold RepSyn.plain at hp; rw [hty] at hp; simp at hp
          | varRef => unfold RepSyn.plain at hp; rw [hty] at hp; simp at hp
          | typed vt =>
            simp only [hA]
            refine (validateSep_blamed (.inl ⟨_, rfl⟩)).bind fun _ g1 _ => ?_
            refine (Free.allocTemp _ _ _).then_ fun reg g2 _ => ?_
            refine ((expr_blamed e hf.1 (nt + 1) reg g2).mono fun _ h => .inr (.expr h)).bind fun t g3 h3 => ?_
            refine (castTo_blamed fun h => .inr (.more hty (accepted_type hs h3) h)).bind fun _ g4 _ => ?_
            exact more _ _ _
        | false =>
          simp only [Bool.false_eq_true, if_false]
          refine (Free.allocTemp _ _ _).then_ fun _ g0 _ => ?_
          refine (validateSep_blamed (.inl ⟨_, rfl⟩)).bind fun _ g1 _ => ?_
          cases hty : r.typeSyn with
          | anyValue =>
            simp only [hA]
            refine (Free.allocTemp _ _ _).then_ fun reg g2 _ => ?_
            refine ((expr_blamed e hf.1 (nt + 2) reg g2).mono fun _ h => .inr (.expr h)).bind fun t g3 h3 => ?_
            refine (Free.emitTag _ _ _).then_ fun _ g5 _ => ?_
            exact more _ _ _
          | typed vt =>
            simp only [hA]
            refine (Free.allocTemp _ _ _).then_ fun reg g2 _ => ?_
            refine ((expr_blamed e hf.1 (nt + 2) reg g2).mono fun _ h => .inr (.expr h)).bind fun t g3 h3 => ?_
            refine (castTo_blamed fun h => .inr (.more hty (accepted_type hs h3) h)).bind fun _ g4 _ => ?_
            refine (Free.emitTag _ _ _).then_ fun _ g5 _ => ?_
            exact more _ _ _
          | varRef =>
            simp only
            match e with
            | .sym v vp =>
              simp only
              refine (repVar_blamed hs hA (.inl ⟨_, rfl⟩) fun _ h => .inr (.moreRef hty h)).bind fun sv g2 _ => ?_
              refine (Free.allocTemp _ _ _).then_ fun reg g3 _ => ?_
              refine (Free.emit _ _).then_ fun _ g4 _ => ?_
              refine (Free.emitTag _ _ _).then_ fun _ g5 _ => ?_
              exact more _ _ _
            | .bool .. | .dbl .. | .int .. | .text .. | .un .. | .bin .. | .call .. => exact .throw (.inl ⟨_, rfl⟩)
termination_by structural args
end
end

end EB
