import Verif.Spec.Assigns
import Verif.Lemmas.Scope
/-!
# What a piece of the program text leaves alone
-/

namespace EB
open Spec

/-- The evaluation leaves these variables as they were. -/
def OutKeeps {α : Type} (P : Place → Prop) (w : World) : Out α → Prop
  | .ok _ w' | .err _ _ w' | .ended _ w' => ∀ p, P p → w'.mem p = w.mem p
  | .going _ | .stuck => True

/-- The statements leave these variables as they were. -/
def ResKeeps (P : Place → Prop) (w : World) : Res → Prop
  | .done w' | .exitDo w' | .exitFor w' | .leave w' | .err _ _ w' | .ended _ w' | .jump _ w' | .back w' => ∀ p, P p → w'.mem p = w.mem p
  | .going _ | .stuck => True

theorem OutKeeps.bind {α β : Type} {P : Place → Prop} {w : World} {o : Out α} {f : α → World → Out β} (h : OutKeeps P w o)
    (hf : ∀ a w', o = .ok a w' → OutKeeps P w' (f a w')) : OutKeeps P w (o.bind f) := by
  cases o with
  | ok a w' =>
    have h2 := hf a w' rfl
    show OutKeeps P w (f a w')
    revert h2
    cases f a w' with
    | stuck => intro _; trivial
    | going => intro _; trivial
    | _ => intro h2 p hp; exact (h2 p hp).trans (h p hp)
  | err => exact h
  | ended => exact h
  | going => trivial
  | stuck => trivial

theorem OutKeeps.thenEq {α : Type} {P : Place → Prop} {w : World} {o : Out α} {f : α → World → Res} (h : OutKeeps P w o)
    (hf : ∀ a w', o = .ok a w' → ResKeeps P w' (f a w')) : ResKeeps P w (o.then f) := by
  cases o with
  | ok a w' =>
    have h2 := hf a w' rfl
    show ResKeeps P w (f a w')
    revert h2
    cases f a w' with
    | stuck => intro _; trivial
    | going => intro _; trivial
    | _ => intro h2 p hp; exact (h2 p hp).trans (h p hp)
  | err => exact h
  | ended => exact h
  | going => trivial
  | stuck => trivial

theorem OutKeeps.then {α : Type} {P : Place → Prop} {w : World} {o : Out α} {f : α → World → Res} (h : OutKeeps P w o)
    (hf : ∀ a w', ResKeeps P w' (f a w')) : ResKeeps P w (o.then f) := h.thenEq fun a w' _ => hf a w'

theorem ResKeeps.bind {P : Place → Prop} {w : World} {r : Res} {f : World → Res} (h : ResKeeps P w r)
    (hf : ∀ w', ResKeeps P w' (f w')) : ResKeeps P w (r.bind f) := by
  cases r with
  | done w' =>
    have h2 := hf w'
    show ResKeeps P w (f w')
    revert h2
    cases f w' with
    | stuck => intro _; trivial
    | going => intro _; trivial
    | _ => intro h2 p hp; exact (h2 p hp).trans (h p hp)
  | _ => exact h

theorem OutKeeps.refl {α : Type} {P : Place → Prop} {w : World} {a : α} : OutKeeps P w (.ok a w) := fun _ _ => rfl

theorem newText_keeps (P : Place → Prop) (s : Str) (pos : LineCol) (w : World) : OutKeeps P w (newText s pos w) := by
  unfold newText
  split
  · exact fun _ _ => rfl
  · split <;> exact fun _ _ => rfl

theorem binVal_keeps (P : Place → Prop) (F : FloatOps) (op : SrcBin) (l r : Val) (pos : LineCol) (w : World) :
    OutKeeps P w (binVal F op l r pos w) := by
  have hd : ∀ a b, OutKeeps P w (dblBin F op a b w) := by
    intro a b
    unfold dblBin
    split <;> first | trivial | exact fun _ _ => rfl
  cases l <;> cases r <;> simp only [binVal] <;> first | exact hd _ _ | trivial | skip
  · split <;> first | trivial | exact fun _ _ => rfl
  · unfold intBin; split <;> first | trivial | exact fun _ _ => rfl
  · unfold textBin
    split
    · exact newText_keeps P _ _ _
    · exact fun _ _ => rfl
    · trivial

theorem unVal_keeps (P : Place → Prop) (F : FloatOps) (op : SrcUn) (v : Val) (pos : LineCol) (w : World) :
    OutKeeps P w (unVal F op v pos w) := by
  cases op <;> cases v <;> simp only [unVal] <;> first | trivial | exact fun _ _ => rfl | skip
  split <;> exact fun _ _ => rfl

theorem castVal_keeps (P : Place → Prop) (F : FloatOps) (t : ExprType) (v : Val) (pos : LineCol) (w : World) :
    OutKeeps P w (castVal F t v pos w) := by
  cases t <;> cases v <;> simp only [castVal] <;> first | trivial | exact fun _ _ => rfl | skip
  split <;> exact fun _ _ => rfl

section
variable {F : FloatOps} {cl : Calls} {Γ : Env} {P : Place → Prop}

theorem assigned_keeps {p : Place} : ∀ {ws : List (Place × Val)} {mem : Place → Option Cell}, (∀ x ∈ ws, x.1 ≠ p) →
    assigned mem ws p = mem p := by
  intro ws
  induction ws with
  | nil => intro mem _; rfl
  | cons x ws ih =>
    intro mem h
    obtain ⟨q, v⟩ := x
    have h1 : q ≠ p := h _ (List.mem_cons_self ..)
    rw [assigned, ih fun y hy => h y (List.mem_cons_of_mem _ hy)]
    simp [Ne.symm h1]

/-- A built-in callable only changes variables that are passed to it. -/
theorem request_keeps {lib : Lib} {k : Str} {as : List (Arg × LineCol)} {ret : Option ExprType} {pos : LineCol} {w : World}
    (h : ret.isSome = true ∨ ∀ a ∈ as, ∀ p, a.1.place = some p → ¬ P p) : OutKeeps P w (w.request lib k as ret pos) := by
  unfold World.request
  simp only
  split
  next hf =>
    simp only [Reply.fits, Bool.and_eq_true, Bool.or_eq_true, List.all_eq_true, List.any_eq_true, decide_eq_true_eq] at hf
    obtain ⟨⟨_, hnone⟩, hall⟩ := hf
    have hk : ∀ p, P p → assigned w.mem (lib w.log w.room ⟨k, ret, as, as.map fun a => a.1.place.bind w.mem⟩).writes p = w.mem p := by
      intro p hp
      refine assigned_keeps fun x hx hxp => ?_
      obtain ⟨a, ha, hat⟩ := hall x hx
      rcases h with h | h
      · rcases hnone with hnone | hnone
        · rw [Option.isSome_iff_ne_none] at h
          exact h (Option.isNone_iff_eq_none.1 hnone)
        · rw [List.isEmpty_iff.1 hnone] at hx; cases hx
      · refine h a ha x.1 ?_ (hxp ▸ hp)
        cases hb : a.1 <;> rw [hb] at hat <;> simp only [Arg.target, Arg.place] at hat ⊢ <;>
          first | cases hat | (split at hat <;> first | cases hat | skip)
        all_goals simp_all
    split
    · exact hk
    · exact hk
  next => trivial

theorem valued_keeps (v : Option Val) (w : World) : OutKeeps P w (valued v w) := by
  cases v
  · trivial
  · exact fun _ _ => rfl

theorem varArg_keeps (mk : Proto → Place → Arg) (v : VarRef) (pos : LineCol) (w : World) : OutKeeps P w (varArg Γ mk v pos w) := by
  unfold varArg
  split
  · exact fun _ _ => rfl
  · trivial

mutual
/-- An expression leaves alone what the functions leave alone that it calls. -/
theorem eval_keeps (hfn : ∀ k vs pos w, OutKeeps P w (cl.fn k vs pos w)) : ∀ (e : Expr) (w : World), OutKeeps P w (eval F cl Γ e w)
  | .bool .., w | .dbl .., w | .int .., w | .text .., w => by simp only [eval]; exact fun _ _ => rfl
  | .sym v pos, w => by
    simp only [eval]
    split
    · split
      · exact fun _ _ => rfl
      · trivial
    · trivial
    · split
      · exact hfn _ _ _ _
      · exact (request_keeps (.inl rfl)).bind fun v w' _ => valued_keeps v w'
      · trivial
  | .un op e pos, w => by
    simp only [eval]
    exact (eval_keeps hfn e w).bind fun x w' _ => unVal_keeps P F op x pos w'
  | .bin op l r pos, w => by
    simp only [eval]
    exact (eval_keeps hfn l w).bind fun x w' _ => (eval_keeps hfn r w').bind fun y w'' _ => binVal_keeps P F op x y pos w''
  | .call v pos args, w => by
    simp only [eval]
    split
    · exact (evalArgs_keeps hfn args _ w).bind fun vs w' _ => hfn _ _ _ _
    · split
      · exact (evalBuiltin_keeps hfn args _ _ _ _ w).bind fun as w' _ =>
          (request_keeps (.inl rfl)).bind fun v w'' _ => valued_keeps v w''
      · trivial
    · trivial
    · split
      · refine (evalSubs_keeps hfn args w).bind fun subs w' _ => ?_
        split
        · split <;> exact fun _ _ => rfl
        · trivial
      · trivial

/-- … subscripts. -/
theorem evalSubs_keeps (hfn : ∀ k vs pos w, OutKeeps P w (cl.fn k vs pos w)) : ∀ (args : Args) (w : World), OutKeeps P w (evalSubs F cl Γ args w)
  | .nil, w => by simp only [evalSubs]; exact fun _ _ => rfl
  | .skip .., w => by simp only [evalSubs]; trivial
  | .cons e _ _ rest, w => by
    simp only [evalSubs]
    refine (eval_keeps hfn e w).bind fun x w' _ => (castVal_keeps P F _ x _ w').bind fun y w'' _ => ?_
    split
    · exact (evalSubs_keeps hfn rest w'').bind fun _ _ _ => fun _ _ => rfl
    · trivial

/-- … arguments. -/
theorem evalArgs_keeps (hfn : ∀ k vs pos w, OutKeeps P w (cl.fn k vs pos w)) : ∀ (args : Args) (ts : List ExprType) (w : World),
    OutKeeps P w (evalArgs F cl Γ ts args w)
  | .nil, ts, w => by cases ts <;> simp only [evalArgs] <;> first | trivial | exact fun _ _ => rfl
  | .skip .., ts, w => by cases ts <;> simp only [evalArgs] <;> trivial
  | .cons e _ _ rest, ts, w => by
    cases ts with
    | nil => simp only [evalArgs]; trivial
    | cons t ts =>
      simp only [evalArgs]
      exact (eval_keeps hfn e w).bind fun x w' _ => (castVal_keeps P F _ x _ w').bind fun y w'' _ =>
        (evalArgs_keeps hfn rest ts w'').bind fun _ _ _ => fun _ _ => rfl

/-- … arguments of built-in callables. -/
theorem evalBuiltin_keeps (hfn : ∀ k vs pos w, OutKeeps P w (cl.fn k vs pos w)) : ∀ (args : Args) (rep : Option RepSyn) (no : Bool)
    (syns : List SingSyn) (pos : LineCol) (w : World), OutKeeps P w (evalBuiltin F cl Γ rep no syns args pos w)
  | .nil, rep, no, syns, pos, w => by cases syns <;> simp only [evalBuiltin] <;> exact fun _ _ => rfl
  | .skip _ _ rest, rep, no, [], pos, w => by
    simp only [evalBuiltin]
    exact (evalBuiltin_keeps hfn rest rep _ _ _ w).bind fun _ _ _ => fun _ _ => rfl
  | .skip _ _ rest, rep, no, _ :: syns, pos, w => by
    simp only [evalBuiltin]
    exact (evalBuiltin_keeps hfn rest rep _ _ _ w).bind fun _ _ _ => fun _ _ => rfl
  | .cons e _ _ rest, rep, no, .reqValue .. :: syns, pos, w => by
    simp only [evalBuiltin]
    exact (eval_keeps hfn e w).bind fun x w' _ => (castVal_keeps P F _ x _ w').bind fun y w'' _ =>
      (evalBuiltin_keeps hfn rest rep _ _ _ w'').bind fun _ _ _ => fun _ _ => rfl
  | .cons e _ _ rest, rep, no, .optValue .. :: syns, pos, w => by
    simp only [evalBuiltin]
    exact (eval_keeps hfn e w).bind fun x w' _ => (castVal_keeps P F _ x _ w').bind fun y w'' _ =>
      (evalBuiltin_keeps hfn rest rep _ _ _ w'').bind fun _ _ _ => fun _ _ => rfl
  | .cons e _ _ rest, rep, no, .anyValue .. :: syns, pos, w => by
    simp only [evalBuiltin]
    exact (eval_keeps hfn e w).bind fun x w' _ =>
      (evalBuiltin_keeps hfn rest rep _ _ _ w').bind fun _ _ _ => fun _ _ => rfl
  | .cons e _ _ rest, rep, no, .reqRef .. :: syns, pos, w => by
    cases e <;> simp only [evalBuiltin] <;> try trivial
    exact (varArg_keeps _ _ _ w).bind fun x w' _ =>
      (evalBuiltin_keeps hfn rest rep _ _ _ w').bind fun _ _ _ => fun _ _ => rfl
  | .cons e _ _ rest, rep, no, [], pos, w => by
    simp only [evalBuiltin]
    cases rep with
    | none => trivial
    | some r =>
      simp only
      cases r.typeSyn with
      | anyValue =>
        exact (eval_keeps hfn e w).bind fun x w' _ =>
          (evalBuiltin_keeps hfn rest _ _ _ _ w').bind fun _ _ _ => fun _ _ => rfl
      | typed t =>
        exact (eval_keeps hfn e w).bind fun x w' _ => (castVal_keeps P F _ x _ w').bind fun y w'' _ =>
          (evalBuiltin_keeps hfn rest _ _ _ _ w'').bind fun _ _ _ => fun _ _ => rfl
      | varRef =>
        cases e <;> simp only <;> try trivial
        exact (varArg_keeps _ _ _ w).bind fun x w' _ =>
          (evalBuiltin_keeps hfn rest _ _ _ _ w').bind fun _ _ _ => fun _ _ => rfl
end

theorem bind_ok {α β : Type} {o : Out α} {f : α → World → Out β} {b : β} {w' : World} (h : o.bind f = .ok b w') :
    ∃ a w1, o = .ok a w1 ∧ f a w1 = .ok b w' := by
  cases o with
  | ok a w1 => exact ⟨a, w1, rfl, h⟩
  | _ => cases h

/-- The variables that are passed to a built-in callable are those that are named. -/
def Named (Γ : Env) (args : Args) (as : List (Arg × LineCol)) : Prop :=
  ∀ a ∈ as, ∀ p, a.1.place = some p → ∃ v q, nameRef Γ.locals Γ.shared v = .var p q ∧ passed (symKey v.name) args = true

theorem passed_cons {k : Str} {e : Expr} {sep : ArgSep} {pos : LineCol} {rest : Args} (h : passed k rest = true) :
    passed k (.cons e sep pos rest) = true := by
  cases e <;> simp only [passed] <;> first | exact h | simp [h]

theorem Named.cons {args rest : Args} {as : List (Arg × LineCol)} (h : Named Γ rest as) {a : Arg × LineCol}
    (hr : ∀ k, passed k rest = true → passed k args = true)
    (ha : ∀ p, a.1.place = some p → ∃ v q, nameRef Γ.locals Γ.shared v = .var p q ∧ passed (symKey v.name) args = true) : Named Γ args (a :: as) := by
  intro b hb p hp
  rcases List.mem_cons.1 hb with rfl | hb
  · exact ha p hp
  · obtain ⟨v, q, h1, h2⟩ := h b hb p hp
    exact ⟨v, q, h1, hr _ h2⟩

theorem unwritten_named (rep : Option RepSyn) (no : Bool) (pos : LineCol) : ∀ syns, Named Γ .nil (unwritten rep no pos syns) := by
  intro syns
  induction syns with
  | nil =>
    intro a ha p hp
    simp only [unwritten] at ha
    split at ha
    · split at ha
      · cases ha
      · rcases List.mem_singleton.1 ha with rfl
        cases hp
    · cases ha
  | cons s syns ih => exact ih.cons (fun _ h => h) fun p hp => by cases hp

theorem varArg_named {mk : Proto → Place → Arg} {v : VarRef} {pos : LineCol} {w w' : World} {a : Arg × LineCol}
    (hmk : ∀ q p, (mk q p).place = some p) (h : varArg Γ mk v pos w = .ok a w') :
    ∀ p, a.1.place = some p → ∃ q, nameRef Γ.locals Γ.shared v = .var p q := by
  intro p hp
  unfold varArg at h
  split at h
  next p' q hn =>
    simp only [Out.ok.injEq] at h
    rw [← h.1] at hp
    simp only [hmk, Option.some.injEq] at hp
    exact ⟨q, hp ▸ hn⟩
  next => cases h

theorem evalBuiltin_named : ∀ (args : Args) (rep : Option RepSyn) (no : Bool)
    (syns : List SingSyn) (pos : LineCol) (w w' : World) (as : List (Arg × LineCol)),
    evalBuiltin F cl Γ rep no syns args pos w = .ok as w' → Named Γ args as
  | .nil, rep, no, syns, pos, w, w', as, h => by
    cases syns <;> simp only [evalBuiltin, Out.ok.injEq] at h <;> rw [← h.1] <;> exact unwritten_named _ _ _ _
  | .skip _ _ rest, rep, no, [], pos, w, w', as, h => by
    simp only [evalBuiltin] at h
    obtain ⟨as1, w1, h1, h2⟩ := bind_ok h
    cases h2
    exact (evalBuiltin_named rest _ _ _ _ _ _ _ h1).cons (fun _ h => h) fun p hp => by cases hp
  | .skip _ _ rest, rep, no, _ :: syns, pos, w, w', as, h => by
    simp only [evalBuiltin] at h
    obtain ⟨as1, w1, h1, h2⟩ := bind_ok h
    cases h2
    exact (evalBuiltin_named rest _ _ _ _ _ _ _ h1).cons (fun _ h => h) fun p hp => by cases hp
  | .cons e _ _ rest, rep, no, .reqValue .. :: syns, pos, w, w', as, h => by
    simp only [evalBuiltin] at h
    obtain ⟨x, w1, _, h⟩ := bind_ok h
    obtain ⟨y, w2, _, h⟩ := bind_ok h
    obtain ⟨as1, w3, h1, h2⟩ := bind_ok h
    cases h2
    exact (evalBuiltin_named rest _ _ _ _ _ _ _ h1).cons (fun _ => passed_cons) fun p hp => by cases hp
  | .cons e _ _ rest, rep, no, .optValue .. :: syns, pos, w, w', as, h => by
    simp only [evalBuiltin] at h
    obtain ⟨x, w1, _, h⟩ := bind_ok h
    obtain ⟨y, w2, _, h⟩ := bind_ok h
    obtain ⟨as1, w3, h1, h2⟩ := bind_ok h
    cases h2
    exact (evalBuiltin_named rest _ _ _ _ _ _ _ h1).cons (fun _ => passed_cons) fun p hp => by cases hp
  | .cons e _ _ rest, rep, no, .anyValue .. :: syns, pos, w, w', as, h => by
    simp only [evalBuiltin] at h
    obtain ⟨x, w1, _, h⟩ := bind_ok h
    obtain ⟨as1, w3, h1, h2⟩ := bind_ok h
    cases h2
    exact (evalBuiltin_named rest _ _ _ _ _ _ _ h1).cons (fun _ => passed_cons) fun p hp => by cases hp
  | .cons e _ _ rest, rep, no, .reqRef .. :: syns, pos, w, w', as, h => by
    cases e <;> simp only [evalBuiltin] at h <;> try (cases h; done)
    obtain ⟨a, w1, ha, h⟩ := bind_ok h
    obtain ⟨as1, w3, h1, h2⟩ := bind_ok h
    cases h2
    refine (evalBuiltin_named rest _ _ _ _ _ _ _ h1).cons (fun _ => passed_cons) fun p hp => ?_
    obtain ⟨q, hq⟩ := varArg_named (fun _ _ => rfl) ha p hp
    exact ⟨_, q, hq, by simp [passed]⟩
  | .cons e _ _ rest, rep, no, [], pos, w, w', as, h => by
    simp only [evalBuiltin] at h
    cases rep with
    | none => cases h
    | some r =>
      simp only at h
      cases ht : r.typeSyn with
      | anyValue =>
        rw [ht] at h
        simp only at h
        obtain ⟨x, w1, _, h⟩ := bind_ok h
        obtain ⟨as1, w3, h1, h2⟩ := bind_ok h
        cases h2
        exact (evalBuiltin_named rest _ _ _ _ _ _ _ h1).cons (fun _ => passed_cons) fun p hp => by cases hp
      | typed t =>
        rw [ht] at h
        simp only at h
        obtain ⟨x, w1, _, h⟩ := bind_ok h
        obtain ⟨y, w2, _, h⟩ := bind_ok h
        obtain ⟨as1, w3, h1, h2⟩ := bind_ok h
        cases h2
        refine (evalBuiltin_named rest _ _ _ _ _ _ _ h1).cons (fun _ => passed_cons) fun p hp => ?_
        exfalso
        revert hp
        cases r.plain <;> (intro hp; cases hp)
      | varRef =>
        rw [ht] at h
        cases e <;> simp only at h <;> try (cases h; done)
        obtain ⟨a, w1, ha, h⟩ := bind_ok h
        obtain ⟨as1, w3, h1, h2⟩ := bind_ok h
        cases h2
        refine (evalBuiltin_named rest _ _ _ _ _ _ _ h1).cons (fun _ => passed_cons) fun p hp => ?_
        obtain ⟨q, hq⟩ := varArg_named (fun _ _ => rfl) ha p hp
        exact ⟨_, q, hq, by simp [passed]⟩

theorem evalAs_keeps (hfn : ∀ k vs pos w, OutKeeps P w (cl.fn k vs pos w)) (e : Expr) (t : ExprType) (w : World) :
    OutKeeps P w (evalAs F cl Γ e t w) :=
  (eval_keeps hfn e w).bind fun x w' _ => castVal_keeps P F t x _ w'

end

/-- The calls leave the variables of the caller alone. -/
def CallsKeep (P : Place → Prop) (cl : Calls) : Prop :=
  (∀ k vs pos w, OutKeeps P w (cl.fn k vs pos w)) ∧ ∀ k vs pos w, OutKeeps P w (cl.sub k vs pos w)

theorem fnResult_keeps (i : Nat) (w : World) (r : Res) : OutKeeps (· = .local i) w (fnResult w r) := by
  have h : ∀ w1 p, p = Place.local i → (limit w (goBack w w1)).mem p = w.mem p := by
    rintro w1 p rfl
    simp only [limit, goBack]
    cases w.mem (.local i) <;> rfl
  unfold fnResult
  split <;> first | trivial | exact h _ | (split <;> first | trivial | exact h _)

theorem subResult_keeps (i : Nat) (w : World) (r : Res) : OutKeeps (· = .local i) w (subResult w r) := by
  have h : ∀ w1 p, p = Place.local i → (goBack w w1).mem p = w.mem p := by
    rintro w1 p rfl
    rfl
  cases r <;> first | exact h _ | trivial

theorem callsAt_keeps (F : FloatOps) (n : Nat) (lib : Lib) (defs : Str → Option Def) (i d : Nat) :
    ∀ cr Γ ss, CallsKeep (· = .local i) (callsAt F n lib defs d cr Γ ss) := by
  intro cr Γ ss
  cases d with
  | zero => exact ⟨fun _ _ _ _ _ _ => rfl, fun _ _ _ _ _ _ => rfl⟩
  | succ d =>
    refine ⟨fun k vs pos w => ?_, fun k vs pos w => ?_⟩
    · simp only [callsAt]
      split
      · exact fnResult_keeps i w _
      · trivial
    · simp only [callsAt]
      split
      · exact subResult_keeps i w _
      · trivial

/-! ## Names that are not assigned to -/

/-- The name is the local variable number `i`. -/
def LocalAt (Γ : Env) (k : Str) (i : Nat) : Prop := ∃ pr, Spec.position k Γ.locals = some (pr, i)

theorem spec_position_lt {k : Str} : ∀ {ds : Decls} {pr : Proto} {i : Nat}, Spec.position k ds = some (pr, i) → i < ds.length ∧ (ds[i]?).map (·.1) = some k := by
  intro ds
  induction ds with
  | nil => intro pr i h; cases h
  | cons d ds ih =>
    intro pr i h
    obtain ⟨k', p⟩ := d
    simp only [Spec.position] at h
    split at h
    · rename_i hk; cases h; exact ⟨by simp, by simp [hk]⟩
    · cases hp : Spec.position k ds with
      | none => rw [hp] at h; cases h
      | some q =>
        obtain ⟨p', n⟩ := q
        rw [hp] at h
        simp only [Option.map_some, Option.some.injEq, Prod.mk.injEq] at h
        obtain ⟨rfl, rfl⟩ := h
        obtain ⟨h1, h2⟩ := ih hp
        exact ⟨by simp; omega, by simpa using h2⟩

theorem spec_position_append {k : Str} (e : Decls) : ∀ {ds : Decls} {x : Proto × Nat}, Spec.position k ds = some x →
    Spec.position k (ds ++ e) = some x := by
  intro ds
  induction ds with
  | nil => intro x h; cases h
  | cons d ds ih =>
    intro x h
    obtain ⟨k', p⟩ := d
    simp only [Spec.position, List.cons_append] at h ⊢
    split at h
    · rename_i hk; rw [if_pos hk]; exact h
    · rename_i hk
      rw [if_neg hk]
      cases hp : Spec.position k ds with
      | none => rw [hp] at h; cases h
      | some q => rw [ih hp]; rw [hp] at h; exact h

theorem LocalAt.lt {Γ : Env} {k : Str} {i : Nat} (h : LocalAt Γ k i) : i < Γ.locals.length := by
  obtain ⟨pr, h⟩ := h
  exact (spec_position_lt h).1

theorem LocalAt.more {Γ Γ' : Env} {k : Str} {i : Nat} (h : LocalAt Γ k i) (hp : Γ.locals <+: Γ'.locals) : LocalAt Γ' k i := by
  obtain ⟨pr, h⟩ := h
  obtain ⟨e, he⟩ := hp
  exact ⟨pr, he ▸ spec_position_append e h⟩

/-- Another name is another variable. -/
theorem LocalAt.ne {Γ : Env} {k : Str} {i : Nat} (h : LocalAt Γ k i) {v : VarRef} (hv : symKey v.name ≠ k) {p : Place} {pr : Proto}
    (hn : nameRef Γ.locals Γ.shared v = .var p pr) : Place.local i ≠ p := by
  obtain ⟨q, h⟩ := h
  rintro rfl
  unfold nameRef at hn
  cases hp : Spec.position (symKey v.name) Γ.locals with
  | none =>
    rw [hp] at hn
    simp only at hn
    cases hs : Spec.position (symKey v.name) Γ.shared with
    | none => rw [hs] at hn; cases hn
    | some x =>
      rw [hs] at hn
      simp only at hn
      split at hn <;> cases hn
  | some x =>
    obtain ⟨p', n⟩ := x
    rw [hp] at hn
    simp only at hn
    split at hn
    · injection hn with h1 h2
      injection h1 with h1
      subst h1
      have e1 := (spec_position_lt hp).2
      have e2 := (spec_position_lt h).2
      rw [e1] at e2
      injection e2 with e2
      exact hv e2
    · cases hn

/-! The text only adds variables. -/

theorem afterAssign_prefix (Γ : Env) (v : VarRef) (e : Expr) : Γ.locals <+: (afterAssign Γ v e).locals := by
  unfold afterAssign
  split
  · exact List.prefix_append _ _
  · exact List.prefix_rfl

theorem forVar_prefix (Γ : Env) (v : VarRef) (d : Bool) : Γ.locals <+: (forVar Γ v d).locals := by
  unfold forVar
  split
  · exact List.prefix_append _ _
  · exact List.prefix_rfl

theorem foldl_defineOut_prefix : ∀ (vs : List VarRef) (Γ : Env), Γ.locals <+: (vs.foldl defineOut Γ).locals := by
  intro vs
  induction vs with
  | nil => intro Γ; exact List.prefix_rfl
  | cons v vs ih =>
    intro Γ
    refine List.IsPrefix.trans ?_ (ih (defineOut Γ v))
    unfold defineOut
    split
    · exact List.prefix_append _ _
    · exact List.prefix_rfl

theorem env_add_prefix (Γ : Env) (shared : Bool) (k : Str) (p : Proto) : Γ.locals <+: (Γ.add shared k p).locals := by
  cases shared
  · exact List.prefix_append _ _
  · exact List.prefix_rfl

mutual
theorem afterStmt_prefix : ∀ (s : Stmt) (Γ : Env), Γ.locals <+: (afterStmt Γ s).locals
  | .assign v _ e, Γ => afterAssign_prefix Γ v e
  | .call .., Γ => foldl_defineOut_prefix _ _
  | .callable .., Γ => List.prefix_rfl
  | .declare .., Γ => List.prefix_rfl
  | .dim _ _ shared _, Γ => env_add_prefix Γ shared _ _
  | .dimArray _ _ shared _ _, Γ => env_add_prefix Γ shared _ _
  | .doLoop _ body, Γ => afterStmts_prefix body Γ
  | .forLoop iter _ double start _ next body, Γ =>
    (forVar_prefix Γ iter double).trans ((afterAssign_prefix _ iter start).trans ((afterStmts_prefix body _).trans
      (afterAssign_prefix _ iter next)))
  | .ifs branches, Γ => afterBranches_prefix branches Γ
  | .select _ cases _, Γ => afterCases_prefix cases Γ
  | .whileLoop _ body, Γ => afterStmts_prefix body Γ
  | .arrayAssign .., _ | .data .., _ | .end .., _ | .exitDo .., _ | .exitFor .., _ | .exitFunction .., _ | .exitSub .., _ | .gosub .., _
  | .goto .., _ | .label .., _ | .onError .., _ | .ret .., _ => List.prefix_rfl

theorem afterStmts_prefix : ∀ (ss : Stmts) (Γ : Env), Γ.locals <+: (afterStmts Γ ss).locals
  | .nil, _ => List.prefix_rfl
  | .cons s rest, Γ => (afterStmt_prefix s Γ).trans (afterStmts_prefix rest _)

theorem afterBranches_prefix : ∀ (bs : Branches) (Γ : Env), Γ.locals <+: (afterBranches Γ bs).locals
  | .nil, _ => List.prefix_rfl
  | .cons _ body rest, Γ => (afterStmts_prefix body Γ).trans (afterBranches_prefix rest _)

theorem afterCases_prefix : ∀ (cs : Cases) (Γ : Env), Γ.locals <+: (afterCases Γ cs).locals
  | .nil, _ => List.prefix_rfl
  | .cons _ body rest, Γ => (afterStmts_prefix body Γ).trans (afterCases_prefix rest _)
end

theorem set_other {w : World} {p q : Place} {c : Option Cell} (h : q ≠ p) : (w.set p c).mem q = w.mem q := by
  simp [World.set, h]

section
variable {F : FloatOps} {n : Nat} {cl : Calls} {k : Str} {i : Nat}

theorem assign_keeps (hcl : CallsKeep (· = .local i) cl) {Γ : Env} (hl : LocalAt Γ k i) {v : VarRef} (hv : symKey v.name ≠ k) (e : Expr) (w : World) :
    ResKeeps (· = .local i) w (assign F cl Γ v e w) := by
  unfold assign
  cases hn : nameRef Γ.locals Γ.shared v with
  | var p pr =>
    have hne := hl.ne hv hn
    cases pr with
    | scalar t =>
      simp only
      split
      · exact (evalAs_keeps hcl.1 _ _ _).then fun x w' q hq => set_other (hq ▸ hne)
      · split
        · have := (evalAs_keeps (F := F) (Γ := Γ) hcl.1 e t (w.set p none)).then
            (f := fun x w => .done (w.set p (some (.scalar x)))) fun x w' q hq => set_other (hq ▸ hne)
          revert this
          cases (evalAs F cl Γ e t (w.set p none)).then fun x w => .done (w.set p (some (.scalar x))) <;> intro this <;>
            first | trivial | (intro q hq; rw [this q hq, set_other (hq ▸ hne)])
        · trivial
    | array t d => trivial
  | wrongType => trivial
  | undefined =>
    simp only
    have hne : Place.local i ≠ .local Γ.locals.length := by
      have := hl.lt
      intro h; injection h with h; omega
    split
    · have := (evalAs_keeps (F := F) (Γ := Γ.addLocal (symKey v.name) (.scalar (v.ty.getD .integer))) hcl.1 e (newType Γ v e) (w.set (.local Γ.locals.length) none)).then
        (f := fun x w => .done (w.set (.local Γ.locals.length) (some (.scalar x)))) fun x w' q hq => set_other (hq ▸ hne)
      revert this
      cases (evalAs F cl (Γ.addLocal (symKey v.name) (.scalar (v.ty.getD .integer))) e (newType Γ v e) (w.set (.local Γ.locals.length) none)).then fun x w => .done (w.set (.local Γ.locals.length) (some (.scalar x))) <;> intro this <;>
        first | trivial | (intro q hq; rw [this q hq, set_other (hq ▸ hne)])
    · trivial

theorem forget_keeps {Γ : Env} (hl : LocalAt Γ k i) (w : World) : ∀ p, p = Place.local i → (forget Γ w).mem p = w.mem p := by
  rintro p rfl
  simp [forget, hl.lt]

theorem ResKeeps.after {P : Place → Prop} {w w' : World} {r : Res} (h : ResKeeps P w' r) (hw : ∀ p, P p → w'.mem p = w.mem p) : ResKeeps P w r := by
  cases r <;> first | trivial | exact fun p hp => (h p hp).trans (hw p hp)

theorem OutKeeps.after {α : Type} {P : Place → Prop} {w w' : World} {r : Out α} (h : OutKeeps P w' r) (hw : ∀ p, P p → w'.mem p = w.mem p) : OutKeeps P w r := by
  cases r <;> first | trivial | exact fun p hp => (h p hp).trans (hw p hp)

theorem test_keeps {P : Place → Prop} {w : World} {x : Out Val} {f : Bool → World → Res} (hx : OutKeeps P w x)
    (hf : ∀ b w', ResKeeps P w' (f b w')) : ResKeeps P w (test x f) := by
  refine hx.then fun v w' => ?_
  cases v <;> first | trivial | exact hf _ _

theorem before_keeps {P : Place → Prop} {stop : Bool} {g : World → Out Val} {b : World → Res} (hg : ∀ w, OutKeeps P w (g w))
    (hb : ∀ w, ResKeeps P w (b w)) : ∀ n w, ResKeeps P w (before stop g b n w) := by
  intro n
  induction n with
  | zero => intro w; trivial
  | succ n ih =>
    intro w
    refine test_keeps (hg w) fun c w' => ?_
    split
    · exact fun _ _ => rfl
    · exact (hb w').bind ih

theorem behind_keeps {P : Place → Prop} {stop : Bool} {g : World → Out Val} {b : World → Res} (hg : ∀ w, OutKeeps P w (g w))
    (hb : ∀ w, ResKeeps P w (b w)) : ∀ n w, ResKeeps P w (behind stop g b n w) := by
  intro n
  induction n with
  | zero => intro w; trivial
  | succ n ih =>
    intro w
    refine (hb w).bind fun w' => test_keeps (hg w') fun c w'' => ?_
    split
    · exact fun _ _ => rfl
    · exact ih w''

theorem forever_keeps {P : Place → Prop} {b : World → Res} (hb : ∀ w, ResKeeps P w (b w)) : ∀ n w, ResKeeps P w (forever b n w) := by
  intro n
  induction n with
  | zero => intro w; trivial
  | succ n ih => intro w; exact (hb w).bind ih

theorem catchDo_keeps {P : Place → Prop} {w : World} {r : Res} (h : ResKeeps P w r) : ResKeeps P w (catchDo r) := by
  cases r <;> exact h

theorem catchFor_keeps {P : Place → Prop} {w : World} {r : Res} (h : ResKeeps P w r) : ResKeeps P w (catchFor r) := by
  cases r <;> exact h

theorem guardHolds_keeps {P : Place → Prop} (hcl : CallsKeep P cl) {Γ : Env} (x : Val) (g : CaseGuard) (w : World) :
    OutKeeps P w (guardHolds F cl Γ x g w) := by
  cases g with
  | is op e => exact (eval_keeps hcl.1 e w).bind fun y w' _ => binVal_keeps P F _ _ _ _ _
  | «to» lo hi =>
    refine (eval_keeps hcl.1 lo w).bind fun y w1 _ => (binVal_keeps P F _ _ _ _ _).bind fun a w2 _ =>
      (eval_keeps hcl.1 hi w2).bind fun z w3 _ => (binVal_keeps P F _ _ _ _ _).bind fun b w4 _ => ?_
    split
    · exact fun _ _ => rfl
    · trivial

theorem anyHolds_keeps {P : Place → Prop} (hcl : CallsKeep P cl) {Γ : Env} (x : Val) : ∀ (gs : List CaseGuard) (w : World),
    OutKeeps P w (anyHolds F cl Γ x gs w) := by
  intro gs
  induction gs with
  | nil => intro w; exact fun _ _ => rfl
  | cons g gs ih =>
    intro w
    refine (guardHolds_keeps hcl x g w).bind fun b w' _ => ?_
    split
    · exact fun _ _ => rfl
    · exact ih w'
    · trivial

theorem choose_keeps {P : Place → Prop} (hcl : CallsKeep P cl) {Γ : Env} (x : Val) : ∀ (cs : Cases) (w : World),
    OutKeeps P w (choose F cl Γ x cs w)
  | .nil, w => by simp only [choose]; exact fun _ _ => rfl
  | .cons [] _ _, w => by simp only [choose]; exact fun _ _ => rfl
  | .cons (g :: gs) _ rest, w => by
    simp only [choose]
    refine (anyHolds_keeps hcl x (g :: gs) w).bind fun b w' _ => ?_
    split
    · exact fun _ _ => rfl
    · exact (choose_keeps hcl x rest w').bind fun _ _ _ => fun _ _ => rfl

theorem next_ne {Γ : Env} (hl : LocalAt Γ k i) (shared : Bool) : Place.local i ≠ Γ.next shared := by
  have := hl.lt
  cases shared
  · intro h
    simp only [Env.next, Bool.false_eq_true, if_false] at h
    injection h with h
    omega
  · intro h; cases h

theorem recover_keeps {P : Place → Prop} {s : Stmt} {rest : Stmts} {f : World → Res} {w : World} {r : Res} (h : ResKeeps P w r)
    (hf : ∀ w', ResKeeps P w' (f w')) : ResKeeps P w (recover s rest f r) := by
  cases r with
  | done w' => exact (hf w').after h
  | err pos e w' =>
    simp only [recover]
    split
    · exact h
    · split
      · exact (hf _).after h
      · trivial
    · split
      · exact h
      · exact h
  | _ => exact h

theorem initOuts_keeps : ∀ (vs : List VarRef) {Γ : Env} (_ : LocalAt Γ k i) (w : World), (initOuts Γ vs w).mem (.local i) = w.mem (.local i) := by
  intro vs
  induction vs with
  | nil => intro Γ _ w; rfl
  | cons v vs ih =>
    intro Γ hl w
    rw [initOuts, ih (Γ := defineOut Γ v) (hl.more (foldl_defineOut_prefix [v] Γ))]
    split
    · exact set_other fun h => by injection h with h; exact absurd hl.lt (by omega)
    · rfl

mutual
/-- A statement that does not assign to a local variable leaves it as it was. -/
theorem execStmt_keeps (hcl : CallsKeep (· = .local i) cl) : ∀ (s : Stmt) (Γ : Env) (w : World), LocalAt Γ k i → assigns k s = false →
    ResKeeps (· = .local i) w (execStmt F n cl Γ s w)
  | .assign v pos e, Γ, w, hl, ha => by
    simp only [execStmt]
    exact assign_keeps hcl hl (by simpa [assigns] using ha) e w
  | .arrayAssign v pos subs e, Γ, w, hl, ha => by
    simp only [execStmt]
    have hv : symKey v.name ≠ k := by simpa [assigns] using ha
    cases hn : nameRef Γ.locals Γ.shared v with
    | var p pr =>
      have hne := hl.ne hv hn
      cases pr with
      | scalar t => trivial
      | array t d =>
        refine (evalAs_keeps hcl.1 _ _ _).then fun x w' => (evalSubs_keeps hcl.1 _ _).then fun is w'' => ?_
        unfold store
        split
        · split
          · exact fun _ _ => rfl
          · exact fun q hq => set_other (hq ▸ hne)
        · trivial
    | wrongType => trivial
    | undefined => trivial
  | .call v pos args, Γ, w, hl, ha => by
    simp only [execStmt]
    split
    · exact (evalArgs_keeps hcl.1 _ _ _).then fun vs w' => (hcl.2 _ _ _ _).then fun _ _ => fun _ _ => rfl
    · split
      · have hl1 := hl.more (foldl_defineOut_prefix (Γ.outs (symKey v.name) args) Γ)
        refine ResKeeps.after ?_ (w' := initOuts Γ (Γ.outs (symKey v.name) args) w) (by rintro p rfl; exact initOuts_keeps _ hl w)
        refine (evalBuiltin_keeps hcl.1 _ _ _ _ _ _).thenEq fun as w' has => ?_
        refine (request_keeps (.inr ?_)).then fun _ _ => fun _ _ => rfl
        rintro a hma p hp rfl
        obtain ⟨u, q, hu, hpu⟩ := evalBuiltin_named _ _ _ _ _ _ _ _ has a hma _ hp
        have hne : symKey u.name ≠ k := by
          rintro rfl
          simp only [assigns] at ha
          rw [ha] at hpu; cases hpu
        exact hl1.ne hne hu rfl
      · trivial
    · trivial
  | .dim _ _ shared ty, Γ, w, hl, ha => by
    simp only [execStmt]
    exact fun q hq => set_other (hq ▸ next_ne hl shared)
  | .dimArray name pos shared dims ty, Γ, w, hl, ha => by
    simp only [execStmt]
    refine (evalSubs_keeps hcl.1 _ _).then fun is w' => ?_
    unfold allocate
    split
    · exact fun _ _ => rfl
    · split
      · trivial
      · split
        · exact fun _ _ => rfl
        · exact fun q hq => set_other (hq ▸ next_ne hl shared)
  | .end none _, Γ, w, hl, ha => by simp only [execStmt]; exact fun _ _ => rfl
  | .end (some e) pos, Γ, w, hl, ha => by
    simp only [execStmt]
    refine (evalAs_keeps hcl.1 _ _ _).then fun x w' => ?_
    unfold finish
    split
    · split <;> exact fun _ _ => rfl
    · trivial
  | .exitDo _, _, w, _, _ | .exitFor _, _, w, _, _ | .exitFunction _, _, w, _, _ | .exitSub _, _, w, _, _ => by
    simp only [execStmt]; exact fun _ _ => rfl
  | .ifs branches, Γ, w, hl, ha => by
    simp only [execStmt]
    exact execBranches_keeps hcl branches Γ w hl (by simpa [assigns] using ha)
  | .select e cases pos, Γ, w, hl, ha => by
    simp only [execStmt]
    refine (eval_keeps hcl.1 _ _).then fun x w' => (choose_keeps hcl x cases w').then fun j w'' => ?_
    split
    · exact execCases_keeps hcl cases Γ _ w'' hl (by simpa [assigns] using ha)
    · exact fun _ _ => rfl
  | .whileLoop e body, Γ, w, hl, ha => by
    simp only [execStmt]
    exact before_keeps (fun w => (evalAs_keeps hcl.1 _ _ _).after (forget_keeps hl w))
      (fun w => execStmts_keeps hcl body Γ w hl (by simpa [assigns] using ha)) n w
  | .doLoop .infinite body, Γ, w, hl, ha => by
    simp only [execStmt]
    exact catchDo_keeps (forever_keeps (fun w => (execStmts_keeps hcl body Γ _ hl (by simpa [assigns] using ha)).after (forget_keeps hl w)) n w)
  | .doLoop (.preWhile e) body, Γ, w, hl, ha => by
    simp only [execStmt]
    exact catchDo_keeps (before_keeps (fun w => (evalAs_keeps hcl.1 _ _ _).after (forget_keeps hl w))
      (fun w => execStmts_keeps hcl body Γ w hl (by simpa [assigns] using ha)) n w)
  | .doLoop (.preUntil e) body, Γ, w, hl, ha => by
    simp only [execStmt]
    exact catchDo_keeps (before_keeps (fun w => (evalAs_keeps hcl.1 _ _ _).after (forget_keeps hl w))
      (fun w => execStmts_keeps hcl body Γ w hl (by simpa [assigns] using ha)) n w)
  | .doLoop (.postWhile e) body, Γ, w, hl, ha => by
    simp only [execStmt]
    exact catchDo_keeps (behind_keeps (fun w => evalAs_keeps hcl.1 _ _ _)
      (fun w => (execStmts_keeps hcl body Γ _ hl (by simpa [assigns] using ha)).after (forget_keeps hl w)) n w)
  | .doLoop (.postUntil e) body, Γ, w, hl, ha => by
    simp only [execStmt]
    exact catchDo_keeps (behind_keeps (fun w => evalAs_keeps hcl.1 _ _ _)
      (fun w => (execStmts_keeps hcl body Γ _ hl (by simpa [assigns] using ha)).after (forget_keeps hl w)) n w)
  | .forLoop iter _ double start stop next body, Γ, w, hl, ha => by
    simp only [execStmt]
    have hb : assignsIn k body = false := by simp [assigns] at ha; exact ha.2
    have hi : symKey iter.name ≠ k := by simp [assigns] at ha; exact ha.1
    have hl1 := hl.more (forVar_prefix Γ iter double)
    have hl2 := hl1.more (afterAssign_prefix _ iter start)
    have hl3 := hl2.more (afterStmts_prefix body _)
    exact (assign_keeps hcl hl1 hi start w).bind fun w => catchFor_keeps (before_keeps
      (fun w => (evalAs_keeps hcl.1 _ _ _).after (forget_keeps hl2 w))
      (fun w => (execStmts_keeps hcl body _ w hl2 hb).bind fun w => assign_keeps hcl hl3 hi next w) n w)
  | .data _, _, w, _, _ | .declare .., _, w, _, _ | .callable .., _, w, _, _ | .label .., _, w, _, _
  | .onError _, _, w, _, _ => by
    simp only [execStmt]; exact fun _ _ => rfl
  | .gosub .., _, _, _, ha => by cases ha
  | .goto .., _, _, _, _ => by simp only [execStmt]; exact fun _ _ => rfl
  | .ret .., _, _, _, _ => by simp only [execStmt]; split <;> exact fun _ _ => rfl

theorem execStmts_keeps (hcl : CallsKeep (· = .local i) cl) : ∀ (ss : Stmts) (Γ : Env) (w : World), LocalAt Γ k i → assignsIn k ss = false →
    ResKeeps (· = .local i) w (execStmts F n cl Γ ss w)
  | .nil, Γ, w, hl, ha => by simp only [execStmts]; exact fun _ _ => rfl
  | .cons s rest, Γ, w, hl, ha => by
    simp only [execStmts]
    simp only [assignsIn, Bool.or_eq_false_iff] at ha
    exact recover_keeps (execStmt_keeps hcl s Γ w hl ha.1) fun w => execStmts_keeps hcl rest _ w (hl.more (afterStmt_prefix s Γ)) ha.2

theorem execBranches_keeps (hcl : CallsKeep (· = .local i) cl) : ∀ (bs : Branches) (Γ : Env) (w : World), LocalAt Γ k i → assignsBranches k bs = false →
    ResKeeps (· = .local i) w (execBranches F n cl Γ bs w)
  | .nil, Γ, w, hl, ha => by simp only [execBranches]; exact fun _ _ => rfl
  | .cons guard body rest, Γ, w, hl, ha => by
    simp only [execBranches]
    simp only [assignsBranches, Bool.or_eq_false_iff] at ha
    refine test_keeps (evalAs_keeps hcl.1 _ _ _) fun b w => ?_
    split
    · exact execStmts_keeps hcl body Γ w hl ha.1
    · exact execBranches_keeps hcl rest _ w (hl.more (afterStmts_prefix body Γ)) ha.2

theorem execCases_keeps (hcl : CallsKeep (· = .local i) cl) : ∀ (cs : Cases) (Γ : Env) (j : Nat) (w : World), LocalAt Γ k i → assignsCases k cs = false →
    ResKeeps (· = .local i) w (execCases F n cl Γ cs j w)
  | .nil, Γ, j, w, hl, ha => by simp only [execCases]; trivial
  | .cons guards body rest, Γ, j, w, hl, ha => by
    simp only [assignsCases, Bool.or_eq_false_iff] at ha
    cases j with
    | zero => simp only [execCases]; exact execStmts_keeps hcl body Γ w hl ha.1
    | succ j => simp only [execCases]; exact execCases_keeps hcl rest _ j w (hl.more (afterStmts_prefix body Γ)) ha.2
end

mutual
/-- … from a label on. -/
theorem fromStmt_keeps (hcl : CallsKeep (· = .local i) cl) {l : Str} : ∀ (s : Stmt) (Γ : Env) (w : World), LocalAt Γ k i → assigns k s = false →
    ResKeeps (· = .local i) w (fromStmt F n cl Γ l s w)
  | .label .., Γ, w, hl, _ => by simp only [fromStmt]; exact forget_keeps hl w
  | .ifs branches, Γ, w, hl, ha => by
    simp only [fromStmt]
    exact fromBranches_keeps hcl branches Γ w hl (by simpa [assigns] using ha)
  | .select e cases pos, Γ, w, hl, ha => by
    simp only [fromStmt]
    exact fromCases_keeps hcl cases Γ w hl (by simpa [assigns] using ha)
  | .whileLoop e body, Γ, w, hl, ha => by
    simp only [fromStmt]
    exact (fromStmts_keeps hcl body Γ w hl (by simpa [assigns] using ha)).bind
      (before_keeps (fun w => (evalAs_keeps hcl.1 _ _ _).after (forget_keeps hl w))
        (fun w => execStmts_keeps hcl body Γ w hl (by simpa [assigns] using ha)) n)
  | .doLoop .infinite body, Γ, w, hl, ha => by
    simp only [fromStmt]
    exact catchDo_keeps ((fromStmts_keeps hcl body Γ w hl (by simpa [assigns] using ha)).bind
      (forever_keeps (fun w => (execStmts_keeps hcl body Γ _ hl (by simpa [assigns] using ha)).after (forget_keeps hl w)) n))
  | .doLoop (.preWhile e) body, Γ, w, hl, ha => by
    simp only [fromStmt]
    exact catchDo_keeps ((fromStmts_keeps hcl body Γ w hl (by simpa [assigns] using ha)).bind
      (before_keeps (fun w => (evalAs_keeps hcl.1 _ _ _).after (forget_keeps hl w))
        (fun w => execStmts_keeps hcl body Γ w hl (by simpa [assigns] using ha)) n))
  | .doLoop (.preUntil e) body, Γ, w, hl, ha => by
    simp only [fromStmt]
    exact catchDo_keeps ((fromStmts_keeps hcl body Γ w hl (by simpa [assigns] using ha)).bind
      (before_keeps (fun w => (evalAs_keeps hcl.1 _ _ _).after (forget_keeps hl w))
        (fun w => execStmts_keeps hcl body Γ w hl (by simpa [assigns] using ha)) n))
  | .doLoop (.postWhile e) body, Γ, w, hl, ha => by
    simp only [fromStmt]
    refine catchDo_keeps ((fromStmts_keeps hcl body Γ w hl (by simpa [assigns] using ha)).bind fun w => ?_)
    refine test_keeps (evalAs_keeps hcl.1 _ _ _) fun b w => ?_
    split
    · exact fun _ _ => rfl
    · exact behind_keeps (fun w => evalAs_keeps hcl.1 _ _ _)
        (fun w => (execStmts_keeps hcl body Γ _ hl (by simpa [assigns] using ha)).after (forget_keeps hl w)) n w
  | .doLoop (.postUntil e) body, Γ, w, hl, ha => by
    simp only [fromStmt]
    refine catchDo_keeps ((fromStmts_keeps hcl body Γ w hl (by simpa [assigns] using ha)).bind fun w => ?_)
    refine test_keeps (evalAs_keeps hcl.1 _ _ _) fun b w => ?_
    split
    · exact fun _ _ => rfl
    · exact behind_keeps (fun w => evalAs_keeps hcl.1 _ _ _)
        (fun w => (execStmts_keeps hcl body Γ _ hl (by simpa [assigns] using ha)).after (forget_keeps hl w)) n w
  | .forLoop iter _ double start stop next body, Γ, w, hl, ha => by
    simp only [fromStmt]
    have hb : assignsIn k body = false := by simp [assigns] at ha; exact ha.2
    have hi : symKey iter.name ≠ k := by simp [assigns] at ha; exact ha.1
    have hl1 := hl.more (forVar_prefix Γ iter double)
    have hl2 := hl1.more (afterAssign_prefix _ iter start)
    have hl3 := hl2.more (afterStmts_prefix body _)
    exact catchFor_keeps (((fromStmts_keeps hcl body _ w hl2 hb).bind fun w => assign_keeps hcl hl3 hi next w).bind
      (before_keeps (fun w => (evalAs_keeps hcl.1 _ _ _).after (forget_keeps hl2 w))
      (fun w => (execStmts_keeps hcl body _ w hl2 hb).bind fun w => assign_keeps hcl hl3 hi next w) n))
  | .assign .., _, _, _, _ | .call .., _, _, _, _ | .declare .., _, _, _, _ | .dim .., _, _, _, _ | .dimArray .., _, _, _, _
  | .arrayAssign .., _, _, _, _ | .data .., _, _, _, _ | .end .., _, _, _, _ | .exitDo .., _, _, _, _ | .exitFor .., _, _, _, _
  | .exitFunction .., _, _, _, _ | .exitSub .., _, _, _, _ | .gosub .., _, _, _, _ | .goto .., _, _, _, _
  | .onError .., _, _, _, _ | .ret .., _, _, _, _ | .callable .., _, _, _, _ => by simp only [fromStmt]; trivial

theorem fromStmts_keeps (hcl : CallsKeep (· = .local i) cl) {l : Str} : ∀ (ss : Stmts) (Γ : Env) (w : World), LocalAt Γ k i → assignsIn k ss = false →
    ResKeeps (· = .local i) w (fromStmts F n cl Γ l ss w)
  | .nil, Γ, w, hl, ha => by simp only [fromStmts]; trivial
  | .cons s rest, Γ, w, hl, ha => by
    simp only [fromStmts]
    simp only [assignsIn, Bool.or_eq_false_iff] at ha
    split
    · exact recover_keeps (fromStmt_keeps hcl s Γ w hl ha.1) fun w => execStmts_keeps hcl rest _ w (hl.more (afterStmt_prefix s Γ)) ha.2
    · exact fromStmts_keeps hcl rest _ w (hl.more (afterStmt_prefix s Γ)) ha.2

theorem fromBranches_keeps (hcl : CallsKeep (· = .local i) cl) {l : Str} : ∀ (bs : Branches) (Γ : Env) (w : World), LocalAt Γ k i → assignsBranches k bs = false →
    ResKeeps (· = .local i) w (fromBranches F n cl Γ l bs w)
  | .nil, Γ, w, hl, ha => by simp only [fromBranches]; trivial
  | .cons guard body rest, Γ, w, hl, ha => by
    simp only [fromBranches]
    simp only [assignsBranches, Bool.or_eq_false_iff] at ha
    split
    · exact fromStmts_keeps hcl body Γ w hl ha.1
    · exact fromBranches_keeps hcl rest _ w (hl.more (afterStmts_prefix body Γ)) ha.2

theorem fromCases_keeps (hcl : CallsKeep (· = .local i) cl) {l : Str} : ∀ (cs : Cases) (Γ : Env) (w : World), LocalAt Γ k i → assignsCases k cs = false →
    ResKeeps (· = .local i) w (fromCases F n cl Γ l cs w)
  | .nil, Γ, w, hl, ha => by simp only [fromCases]; trivial
  | .cons guards body rest, Γ, w, hl, ha => by
    simp only [fromCases]
    simp only [assignsCases, Bool.or_eq_false_iff] at ha
    split
    · exact fromStmts_keeps hcl body Γ w hl ha.1
    · exact fromCases_keeps hcl rest _ w (hl.more (afterStmts_prefix body Γ)) ha.2
end

theorem follow_keeps (hcl : CallsKeep (· = .local i) cl) {ss : Stmts} {Γ : Env} (hl : LocalAt Γ k i) (ha : assignsIn k ss = false) :
    ∀ (j : Nat) (r : Res) (w : World), ResKeeps (· = .local i) w r → ResKeeps (· = .local i) w (follow F n cl Γ ss j r)
  | 0, r, w, h => by cases r <;> first | exact h | trivial
  | j + 1, r, w, h => by
    cases r with
    | jump l w1 => exact follow_keeps hcl hl ha j _ w ((fromStmts_keeps hcl ss Γ w1 hl ha).after h)
    | _ => exact h

/-- The program or the body of a callable, if it does not assign to a local variable, leaves it as it was. -/
theorem unit_keeps (hcl : CallsKeep (· = .local i) cl) {ss : Stmts} {Γ : Env} (hl : LocalAt Γ k i) (ha : assignsIn k ss = false)
    (l : Option Str) (w : World) : ResKeeps (· = .local i) w (unit F n cl Γ ss l w) := by
  cases l with
  | none => exact follow_keeps hcl hl ha n _ w (execStmts_keeps hcl ss Γ w hl ha)
  | some l => exact follow_keeps hcl hl ha n _ w (fromStmts_keeps hcl ss Γ w hl ha)

end

end EB
