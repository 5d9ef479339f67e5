import Verif.Lemmas.Types
import Verif.Lemmas.Frame
import Verif.Spec.Blame
/-!
# The values of expressions with calls have the types of the expressions
-/

namespace EB
open Spec

section
variable {F : FloatOps} {cl : Calls} {Γ : Env}

/-- If there is a value then the variables are right after. -/
def OkRight {α : Type} (Γ : Env) (w : World) (x : Out α) : Prop := RightTypes Γ w → ∀ v w', x = .ok v w' → RightTypes Γ w'

theorem OkRight.bind {α β : Type} {x : Out α} {f : α → World → Out β} {w : World} (h : OkRight Γ w x) (hf : ∀ a w1, OkRight Γ w1 (f a w1)) :
    OkRight Γ w (x.bind f) := by
  intro hr v w' he
  obtain ⟨a, w1, h1, h2⟩ := bind_ok he
  exact hf a w1 (h hr a w1 h1) v w' h2

theorem OkRight.of {α : Type} {x : Out α} {w : World} (h : OutKeeps (fun _ => True) w x) : OkRight Γ w x := by
  intro hr v w' he
  rw [he] at h
  intro p q c hp hc
  exact hr p q c hp ((h p trivial).symm.trans hc)

theorem OkRight.ok {α : Type} {a : α} {w : World} : OkRight Γ w (.ok a w) := by intro hr v w' he; cases he; exact hr
theorem OkRight.stuck {α : Type} {w : World} : OkRight (α := α) Γ w .stuck := by intro _ _ _ he; cases he

theorem OkRight.fn (hfn : ReturnsRight Γ cl) {k vs pos w} : OkRight Γ w (cl.fn k vs pos w) := fun hr _ _ he => (hfn _ _ _ _ _ _ hr he).1

theorem OkRight.request {k : Str} {as : List (Arg × LineCol)} {t : ExprType} {pos : LineCol} {w : World} :
    OkRight Γ w ((w.request cl.lib k as (some t) pos).bind valued) :=
  (OkRight.of (request_keeps (.inl rfl))).bind fun v w' => .of (valued_keeps v w')

mutual
theorem eval_right (hfn : ReturnsRight Γ cl) : ∀ (e : Expr) (w : World), OkRight Γ w (eval F cl Γ e w)
  | .bool .., w | .dbl .., w | .int .., w | .text .., w => by simp only [eval]; exact .ok
  | .sym v pos, w => by
    simp only [eval]
    split
    · split
      · exact .ok
      · exact .stuck
    · exact .stuck
    · split
      · exact .fn hfn
      · exact .request
      · exact .stuck
  | .un op e pos, w => by
    simp only [eval]
    exact (eval_right hfn e w).bind fun x w' => .of (unVal_keeps _ F op x pos w')
  | .bin op l r pos, w => by
    simp only [eval]
    exact (eval_right hfn l w).bind fun x w' => (eval_right hfn r w').bind fun y w'' => .of (binVal_keeps _ F op x y pos w'')
  | .call v pos args, w => by
    simp only [eval]
    split
    · exact (evalArgs_right hfn args _ w).bind fun vs w' => .fn hfn
    · split
      · exact (evalBuiltin_right hfn args _ _ _ _ w).bind fun as w' => .request
      · exact .stuck
    · exact .stuck
    · split
      · refine (evalSubs_right hfn args w).bind fun subs w' => ?_
        split
        · split
          · intro _ _ _ he; cases he
          · exact .ok
        · exact .stuck
      · exact .stuck

theorem evalSubs_right (hfn : ReturnsRight Γ cl) : ∀ (args : Args) (w : World), OkRight Γ w (evalSubs F cl Γ args w)
  | .nil, w => by simp only [evalSubs]; exact .ok
  | .skip .., w => by simp only [evalSubs]; exact .stuck
  | .cons e _ _ rest, w => by
    simp only [evalSubs]
    refine (eval_right hfn e w).bind fun x w' => (OkRight.of (castVal_keeps _ F _ x _ w')).bind fun y w'' => ?_
    split
    · exact (evalSubs_right hfn rest w'').bind fun _ _ => .ok
    · exact .stuck

theorem evalArgs_right (hfn : ReturnsRight Γ cl) : ∀ (args : Args) (ts : List ExprType) (w : World), OkRight Γ w (evalArgs F cl Γ ts args w)
  | .nil, ts, w => by cases ts <;> simp only [evalArgs] <;> first | exact .ok | exact .stuck
  | .skip .., ts, w => by cases ts <;> simp only [evalArgs] <;> exact .stuck
  | .cons e _ _ rest, ts, w => by
    cases ts with
    | nil => simp only [evalArgs]; exact .stuck
    | cons t ts =>
      simp only [evalArgs]
      exact (eval_right hfn e w).bind fun x w' => (OkRight.of (castVal_keeps _ F _ x _ w')).bind fun y w'' =>
        (evalArgs_right hfn rest ts w'').bind fun _ _ => .ok

theorem evalBuiltin_right (hfn : ReturnsRight Γ cl) : ∀ (args : Args) (rep : Option RepSyn) (no : Bool)
    (syns : List SingSyn) (pos : LineCol) (w : World), OkRight Γ w (evalBuiltin F cl Γ rep no syns args pos w)
  | .nil, rep, no, syns, pos, w => by cases syns <;> simp only [evalBuiltin] <;> exact .ok
  | .skip _ _ rest, rep, no, [], pos, w => by
    simp only [evalBuiltin]
    exact (evalBuiltin_right hfn rest rep _ _ _ w).bind fun _ _ => .ok
  | .skip _ _ rest, rep, no, _ :: syns, pos, w => by
    simp only [evalBuiltin]
    exact (evalBuiltin_right hfn rest rep _ _ _ w).bind fun _ _ => .ok
  | .cons e _ _ rest, rep, no, .reqValue .. :: syns, pos, w => by
    simp only [evalBuiltin]
    exact (eval_right hfn e w).bind fun x w' => (OkRight.of (castVal_keeps _ F _ x _ w')).bind fun y w'' =>
      (evalBuiltin_right hfn rest rep _ _ _ w'').bind fun _ _ => .ok
  | .cons e _ _ rest, rep, no, .optValue .. :: syns, pos, w => by
    simp only [evalBuiltin]
    exact (eval_right hfn e w).bind fun x w' => (OkRight.of (castVal_keeps _ F _ x _ w')).bind fun y w'' =>
      (evalBuiltin_right hfn rest rep _ _ _ w'').bind fun _ _ => .ok
  | .cons e _ _ rest, rep, no, .anyValue .. :: syns, pos, w => by
    simp only [evalBuiltin]
    exact (eval_right hfn e w).bind fun x w' => (evalBuiltin_right hfn rest rep _ _ _ w').bind fun _ _ => .ok
  | .cons e _ _ rest, rep, no, .reqRef .. :: syns, pos, w => by
    cases e <;> simp only [evalBuiltin] <;> try exact .stuck
    exact (OkRight.of (varArg_keeps _ _ _ w)).bind fun x w' => (evalBuiltin_right hfn rest rep _ _ _ w').bind fun _ _ => .ok
  | .cons e _ _ rest, rep, no, [], pos, w => by
    simp only [evalBuiltin]
    cases rep with
    | none => exact .stuck
    | some r =>
      simp only
      cases r.typeSyn with
      | anyValue => exact (eval_right hfn e w).bind fun x w' => (evalBuiltin_right hfn rest _ _ _ _ w').bind fun _ _ => .ok
      | typed t =>
        exact (eval_right hfn e w).bind fun x w' => (OkRight.of (castVal_keeps _ F _ x _ w')).bind fun y w'' =>
          (evalBuiltin_right hfn rest _ _ _ _ w'').bind fun _ _ => .ok
      | varRef =>
        cases e <;> simp only <;> try exact .stuck
        exact (OkRight.of (varArg_keeps _ _ _ w)).bind fun x w' => (evalBuiltin_right hfn rest _ _ _ _ w').bind fun _ _ => .ok
end

theorem request_type {k : Str} {as : List (Arg × LineCol)} {t : ExprType} {pos : LineCol} {w w' : World} {lib : Lib} {v : Val}
    (h : (w.request lib k as (some t) pos).bind valued = .ok v w') : v.ty = t := by
  obtain ⟨a, w1, h1, h2⟩ := bind_ok h
  unfold World.request at h1
  simp only at h1
  split at h1
  next hf =>
    simp only [Reply.fits, Bool.and_eq_true] at hf
    obtain ⟨⟨⟨_, hf⟩, _⟩, _⟩ := hf
    split at h1
    next u hu =>
      cases h1
      rw [hu] at hf
      cases a with
      | none => cases h2
      | some x => cases h2; simpa using hf
    next => cases h1
  next => cases h1

theorem fine_ok {α : Type} {P : α → Prop} {w : World} {x : Out α} (h : Fine P w x) {a : α} {w' : World} (he : x = .ok a w') : P a := by
  rw [he] at h; exact h.1

/-- A value has the type of its expression. -/
theorem eval_rightType (hfn : ReturnsRight Γ cl) : ∀ {e : Expr} {t : ExprType}, HasType Γ e t → ∀ {w w' : World} {v : Val}, RightTypes Γ w →
    eval F cl Γ e w = .ok v w' → v.ty = t
  | _, _, .bool .., w, w', v, _, he => by simp only [eval] at he; cases he; rfl
  | _, _, .dbl .., w, w', v, _, he => by simp only [eval] at he; cases he; rfl
  | _, _, .int .., w, w', v, _, he => by simp only [eval] at he; cases he; rfl
  | _, _, .text .., w, w', v, _, he => by simp only [eval] at he; cases he; rfl
  | .sym x pos, _, .var (place := place) h1, w, w', v, hr, he => by
    simp only [eval, h1] at he
    cases hc : w.mem place with
    | none => rw [hc] at he; cases he
    | some c =>
      rw [hc] at he
      cases c with
      | arr => cases he
      | scalar y => cases he; exact hr place _ _ (nameRef_var h1) hc
  | .sym x pos, t, .argless (sig := sig) h1 h2 h3 h4 h5, w, w', v, hr, he => by
    simp only [eval, h1, h2] at he
    cases sig with
    | user ps r =>
      cases h5 ps r rfl
      simp only [Sig.ret] at h3
      subst h3
      exact (hfn _ _ _ _ _ _ hr he).2 _ _ h2
    | builtin r =>
      simp only [Sig.ret] at h3
      subst h3
      exact request_type he
  | .un op e pos, _, .un h1 h2, w, w', v, hr, he => by
    simp only [eval] at he
    obtain ⟨x, w1, e1, e2⟩ := bind_ok he
    have := eval_rightType hfn h1 hr e1
    subst this
    exact fine_ok (unVal_typed (F := F) (pos := pos) (w := w1) h2) e2
  | .bin op l r pos, _, .bin h1 h2 h3, w, w', v, hr, he => by
    simp only [eval] at he
    obtain ⟨x, w1, e1, e2⟩ := bind_ok he
    obtain ⟨y, w2, e3, e4⟩ := bind_ok e2
    have := eval_rightType hfn h1 hr e1
    subst this
    have := eval_rightType hfn h2 (eval_right hfn l w hr _ _ e1) e3
    subst this
    exact fine_ok (binVal_typed (F := F) (pos := pos) (w := w2) h3) e4
  | .call x pos args, t, .builtin h1 _, w, w', v, hr, he => by
    simp only [eval, h1] at he
    split at he
    · obtain ⟨as, w1, e1, e2⟩ := bind_ok he
      exact request_type e2
    · cases he
  | .call x pos args, t, .user h1 _ _, w, w', v, hr, he => by
    simp only [eval, h1] at he
    obtain ⟨as, w1, e1, e2⟩ := bind_ok he
    exact (hfn _ _ _ _ _ _ (evalArgs_right hfn args _ w hr _ _ e1) e2).2 _ _ h1
  | .call x pos args, t, .elem (place := place) h1 h2 h3, w, w', v, hr, he => by
    simp only [eval, h1, h2] at he
    obtain ⟨subs, w1, e1, e2⟩ := bind_ok he
    have hr1 := evalSubs_right hfn args w hr _ _ e1
    cases hc : w1.mem place with
    | none => rw [hc] at e2; cases e2
    | some c =>
      rw [hc] at e2
      cases c with
      | scalar y => cases e2
      | arr ty dims elem =>
        simp only at e2
        split at e2
        · cases e2
        · cases e2
          exact (hr1 place _ _ (nameRef_var h2) hc).2.2 _
end
end EB
