import Verif.Lemmas.SettledMain
import Verif.Lemmas.ValueTypes
/-!
# Variables of accepted programs always have contents of their types
-/

namespace EB.Typing
open Spec Settle

/-! ## The invariant -/

/-- Every variable that has a content has one of its type: `Sh` are the shared variables, `L` those of the callable. -/
def Right (Sh L : Decls) (w : World) : Prop :=
  ∀ p q c, Env.proto ⟨L, Sh, fun _ => none, fun _ _ => [], fun _ _ => none, fun _ => none⟩ p = some q → w.mem p = some c → c.Of q

/-- … after an evaluation, and its value is as described. -/
def ORight {α : Type} (Sh L : Decls) (P : α → Prop) : Out α → Prop
  | .ok a w => P a ∧ Right Sh L w
  | .err _ _ w | .ended _ w => Right Sh L w
  | .going _ | .stuck => True

/-- … after statements. -/
def RRight (Sh L : Decls) : Res → Prop
  | .done w | .exitDo w | .exitFor w | .leave w | .err _ _ w | .ended _ w | .jump _ w | .back w => Right Sh L w
  | .going _ | .stuck => True

theorem ORight.bind {α β : Type} {Sh L : Decls} {P : α → Prop} {Q : β → Prop} {x : Out α} {f : α → World → Out β} (h : ORight Sh L P x)
    (hf : ∀ a w, P a → Right Sh L w → ORight Sh L Q (f a w)) : ORight Sh L Q (x.bind f) := by
  cases x <;> first | exact hf _ _ h.1 h.2 | exact h

theorem ORight.then {α : Type} {Sh L : Decls} {P : α → Prop} {x : Out α} {f : α → World → Res} (h : ORight Sh L P x)
    (hf : ∀ a w, P a → Right Sh L w → RRight Sh L (f a w)) : RRight Sh L (x.then f) := by
  cases x <;> first | exact hf _ _ h.1 h.2 | exact h

theorem RRight.bind {Sh L : Decls} {r : Res} {f : World → Res} (h : RRight Sh L r) (hf : ∀ w, Right Sh L w → RRight Sh L (f w)) :
    RRight Sh L (r.bind f) := by
  cases r <;> first | exact hf _ h | exact h

theorem ORight.imp {α : Type} {Sh L : Decls} {P Q : α → Prop} {x : Out α} (h : ORight Sh L P x) (hi : ∀ a, P a → Q a) : ORight Sh L Q x := by
  cases x <;> first | exact ⟨hi _ h.1, h.2⟩ | exact h

/-- Nothing changes. -/
theorem ORight.of {α : Type} {Sh L : Decls} {x : Out α} {w : World} (hr : Right Sh L w) (h : OutKeeps (fun _ => True) w x) :
    ORight Sh L (fun _ => True) x := by
  cases x with
  | ok a w' => exact ⟨trivial, fun p q c hp hc => hr p q c hp ((h p trivial).symm.trans hc)⟩
  | err pos e w' => exact fun p q c hp hc => hr p q c hp ((h p trivial).symm.trans hc)
  | ended code w' => exact fun p q c hp hc => hr p q c hp ((h p trivial).symm.trans hc)
  | going => trivial
  | stuck => trivial

theorem Right.set {Sh L : Decls} {w : World} {p : Place} {c : Option Cell} (h : Right Sh L w)
    (hc : ∀ c' q, c = some c' → Env.proto ⟨L, Sh, fun _ => none, fun _ _ => [], fun _ _ => none, fun _ => none⟩ p = some q → c'.Of q) :
    Right Sh L (w.set p c) := by
  intro p' q c' hp hm
  by_cases he : p' = p
  · subst he
    simp only [World.set, if_true] at hm
    exact hc c' q hm hp
  · rw [EB.set_other he] at hm
    exact h p' q c' hp hm

theorem Right.unset {Sh L : Decls} {w : World} {p : Place} (h : Right Sh L w) : Right Sh L (w.set p none) :=
  h.set fun _ _ h => by cases h

/-- Fewer are known. -/
theorem Right.fewer {Sh L : Decls} {w w' : World} (h : Right Sh L w) (hf : ∀ p c, w'.mem p = some c → w.mem p = some c) : Right Sh L w' :=
  fun p q c hp hc => h p q c hp (hf p c hc)

theorem Right.forget {Sh L : Decls} {w : World} (h : Right Sh L w) (Γ : Env) : Right Sh L (forget Γ w) := by
  refine h.fewer fun p c hc => ?_
  unfold Spec.forget at hc
  cases p with
  | shared j => exact hc
  | «local» j =>
    simp only at hc
    split at hc
    · exact hc
    · cases hc

theorem castVal_type {F : FloatOps} {t : ExprType} {v : Val} {pos : LineCol} {w w' : World} {x : Val} (h : castVal F t v pos w = .ok x w') : x.ty = t := by
  cases t <;> cases v <;> simp only [castVal] at h <;> first | (cases h; rfl) | (cases h; done) | skip
  split at h <;> cases h
  rfl

theorem castVal_right {Sh L : Decls} {F : FloatOps} {t : ExprType} {v : Val} {pos : LineCol} {w : World} (hr : Right Sh L w) :
    ORight Sh L (fun x => x.ty = t) (castVal F t v pos w) := by
  have h := ORight.of (L := L) (Sh := Sh) hr (castVal_keeps _ F t v pos w)
  cases hc : castVal F t v pos w with
  | ok a w' => rw [hc] at h; exact ⟨castVal_type hc, h.2⟩
  | err | ended | going | stuck => rw [hc] at h; exact h

/-! ## Calls -/

/-- The environment is one of the program that ends with `fin`, in the callable with the variables `L`. -/
structure Seat (fin : Env) (L : Decls) (Γ : Env) : Prop where
  below : Settle.Below fin Γ
  locals : Γ.locals <+: L

theorem Seat.proto {fin Γ : Env} {L : Decls} (h : Seat fin L Γ) {p : Place} {q : Proto} (hp : Γ.proto p = some q) :
    Env.proto ⟨L, fin.shared, fun _ => none, fun _ _ => [], fun _ _ => none, fun _ => none⟩ p = some q := by
  cases p with
  | «local» n =>
    simp only [Env.proto, Option.map_eq_some_iff] at hp ⊢
    obtain ⟨d, h1, rfl⟩ := hp
    obtain ⟨rest, hr⟩ := h.locals
    exact ⟨d, by rw [← hr, List.getElem?_append_left (List.getElem?_eq_some_iff.1 h1).1]; exact h1, rfl⟩
  | shared n =>
    simp only [Env.proto, Option.map_eq_some_iff] at hp ⊢
    obtain ⟨d, h1, rfl⟩ := hp
    obtain ⟨rest, hr⟩ := h.below.shared
    exact ⟨d, by rw [← hr, List.getElem?_append_left (List.getElem?_eq_some_iff.1 h1).1]; exact h1, rfl⟩

/-- Calls leave the variables right, and functions give values of their types. -/
structure CallsRight (fin : Env) (L : Decls) (cl : Calls) : Prop where
  fn : ∀ k ps r vs pos w, fin.callable k = some (.user ps r) → vs.map Val.ty = ps → ∀ L', Right fin.shared L' w →
    ORight fin.shared L' (fun v => ∀ t, r = some t → v.ty = t) (cl.fn k vs pos w)
  sub : ∀ k ps r vs pos w, fin.callable k = some (.user ps r) → vs.map Val.ty = ps → ∀ L', Right fin.shared L' w →
    ORight fin.shared L' (fun _ => True) (cl.sub k vs pos w)
  gosub : ∀ k pos w, Right fin.shared L w → ORight fin.shared L (fun _ => True) (cl.gosub k pos w)

/-! ## Expressions -/

/-- Where calls go to, only that is needed of the environment in expressions. -/
def Users (fin Γ : Env) : Prop := ∀ k ps r, Γ.callable k = some (.user ps r) → fin.callable k = some (.user ps r)

section
variable {F : FloatOps} {n : Nat} {cl : Calls} {fin : Env} {L : Decls}

theorem request_right {Sh : Decls} {k : Str} {as : List (Arg × LineCol)} {t : ExprType} {pos : LineCol} {w : World} {lib : Lib} (hr : Right Sh L w) :
    ORight Sh L (fun _ => True) ((w.request lib k as (some t) pos).bind valued) :=
  (ORight.of hr (request_keeps (.inl rfl))).bind fun v w' _ hr => .of hr (valued_keeps v w')

mutual
theorem eval_inv (hcl : CallsRight fin L cl) {L' : Decls} {Γ : Env} (hu : Users fin Γ) : ∀ (e : Expr) (w : World), Right fin.shared L' w →
    ORight fin.shared L' (fun _ => True) (eval F cl Γ e w)
  | .bool .., w, hr | .dbl .., w, hr | .int .., w, hr | .text .., w, hr => by simp only [eval]; exact ⟨trivial, hr⟩
  | .sym v pos, w, hr => by
    simp only [eval]
    split
    · split
      · exact ⟨trivial, hr⟩
      · trivial
    · trivial
    · split
      next h => exact (hcl.fn _ _ _ _ _ _ (hu _ _ _ h) rfl _ hr).imp fun _ _ => trivial
      · exact request_right hr
      · trivial
  | .un op e pos, w, hr => by
    simp only [eval]
    exact (eval_inv hcl hu e w hr).bind fun x w' _ hr => .of hr (unVal_keeps _ F op x pos w')
  | .bin op l r pos, w, hr => by
    simp only [eval]
    exact (eval_inv hcl hu l w hr).bind fun x w' _ hr => (eval_inv hcl hu r w' hr).bind fun y w'' _ hr => .of hr (binVal_keeps _ F op x y pos w'')
  | .call v pos args, w, hr => by
    simp only [eval]
    split
    next h => exact (evalArgs_inv hcl hu args _ w hr).bind fun vs w' hvs hr => (hcl.fn _ _ _ _ _ _ (hu _ _ _ h) hvs _ hr).imp fun _ _ => trivial
    · split
      · exact (evalBuiltin_inv hcl hu args _ _ _ _ w hr).bind fun as w' _ hr => request_right hr
      · trivial
    · trivial
    · split
      · refine (evalSubs_inv hcl hu args w hr).bind fun subs w' _ hr => ?_
        split
        · split
          · exact hr
          · exact ⟨trivial, hr⟩
        · trivial
      · trivial

theorem evalSubs_inv (hcl : CallsRight fin L cl) {L' : Decls} {Γ : Env} (hu : Users fin Γ) : ∀ (args : Args) (w : World), Right fin.shared L' w →
    ORight fin.shared L' (fun is => is.length = args.length) (evalSubs F cl Γ args w)
  | .nil, w, hr => by simp only [evalSubs]; exact ⟨rfl, hr⟩
  | .skip .., w, hr => by simp only [evalSubs]; trivial
  | .cons e _ _ rest, w, hr => by
    simp only [evalSubs]
    refine (eval_inv hcl hu e w hr).bind fun x w' _ hr => (castVal_right hr).bind fun y w'' _ hr => ?_
    split
    · exact (evalSubs_inv hcl hu rest w'' hr).bind fun is _ hl hr => ⟨by simp [Args.length, hl], hr⟩
    · trivial

theorem evalArgs_inv (hcl : CallsRight fin L cl) {L' : Decls} {Γ : Env} (hu : Users fin Γ) : ∀ (args : Args) (ts : List ExprType) (w : World), Right fin.shared L' w →
    ORight fin.shared L' (fun vs => vs.map Val.ty = ts) (evalArgs F cl Γ ts args w)
  | .nil, ts, w, hr => by
    cases ts <;> simp only [evalArgs]
    · exact ⟨rfl, hr⟩
    · trivial
  | .skip .., ts, w, hr => by cases ts <;> simp only [evalArgs] <;> trivial
  | .cons e _ _ rest, ts, w, hr => by
    cases ts with
    | nil => simp only [evalArgs]; trivial
    | cons t ts =>
      simp only [evalArgs]
      exact (eval_inv hcl hu e w hr).bind fun x w' _ hr => (castVal_right hr).bind fun y w'' hy hr =>
        (evalArgs_inv hcl hu rest ts w'' hr).bind fun xs _ hxs hr => ⟨by simp [hy, hxs], hr⟩

theorem evalBuiltin_inv (hcl : CallsRight fin L cl) {L' : Decls} {Γ : Env} (hu : Users fin Γ) : ∀ (args : Args) (rep : Option RepSyn) (no : Bool)
    (syns : List SingSyn) (pos : LineCol) (w : World), Right fin.shared L' w → ORight fin.shared L' (fun _ => True) (evalBuiltin F cl Γ rep no syns args pos w)
  | .nil, rep, no, syns, pos, w, hr => by cases syns <;> simp only [evalBuiltin] <;> exact ⟨trivial, hr⟩
  | .skip _ _ rest, rep, no, [], pos, w, hr => by
    simp only [evalBuiltin]
    exact (evalBuiltin_inv hcl hu rest rep _ _ _ w hr).bind fun _ _ _ hr => ⟨trivial, hr⟩
  | .skip _ _ rest, rep, no, _ :: syns, pos, w, hr => by
    simp only [evalBuiltin]
    exact (evalBuiltin_inv hcl hu rest rep _ _ _ w hr).bind fun _ _ _ hr => ⟨trivial, hr⟩
  | .cons e _ _ rest, rep, no, .reqValue .. :: syns, pos, w, hr => by
    simp only [evalBuiltin]
    exact (eval_inv hcl hu e w hr).bind fun x w' _ hr => (castVal_right hr).bind fun y w'' _ hr =>
      (evalBuiltin_inv hcl hu rest rep _ _ _ w'' hr).bind fun _ _ _ hr => ⟨trivial, hr⟩
  | .cons e _ _ rest, rep, no, .optValue .. :: syns, pos, w, hr => by
    simp only [evalBuiltin]
    exact (eval_inv hcl hu e w hr).bind fun x w' _ hr => (castVal_right hr).bind fun y w'' _ hr =>
      (evalBuiltin_inv hcl hu rest rep _ _ _ w'' hr).bind fun _ _ _ hr => ⟨trivial, hr⟩
  | .cons e _ _ rest, rep, no, .anyValue .. :: syns, pos, w, hr => by
    simp only [evalBuiltin]
    exact (eval_inv hcl hu e w hr).bind fun x w' _ hr => (evalBuiltin_inv hcl hu rest rep _ _ _ w' hr).bind fun _ _ _ hr => ⟨trivial, hr⟩
  | .cons e _ _ rest, rep, no, .reqRef .. :: syns, pos, w, hr => by
    cases e <;> simp only [evalBuiltin] <;> try trivial
    exact (ORight.of hr (varArg_keeps _ _ _ w)).bind fun x w' _ hr => (evalBuiltin_inv hcl hu rest rep _ _ _ w' hr).bind fun _ _ _ hr => ⟨trivial, hr⟩
  | .cons e _ _ rest, rep, no, [], pos, w, hr => by
    simp only [evalBuiltin]
    cases rep with
    | none => trivial
    | some r =>
      simp only
      cases r.typeSyn with
      | anyValue => exact (eval_inv hcl hu e w hr).bind fun x w' _ hr => (evalBuiltin_inv hcl hu rest _ _ _ _ w' hr).bind fun _ _ _ hr => ⟨trivial, hr⟩
      | typed t =>
        exact (eval_inv hcl hu e w hr).bind fun x w' _ hr => (castVal_right hr).bind fun y w'' _ hr =>
          (evalBuiltin_inv hcl hu rest _ _ _ _ w'' hr).bind fun _ _ _ hr => ⟨trivial, hr⟩
      | varRef =>
        cases e <;> simp only <;> try trivial
        exact (ORight.of hr (varArg_keeps _ _ _ w)).bind fun x w' _ hr => (evalBuiltin_inv hcl hu rest _ _ _ _ w' hr).bind fun _ _ _ hr => ⟨trivial, hr⟩
end

theorem evalAs_inv (hcl : CallsRight fin L cl) {L' : Decls} {Γ : Env} (hu : Users fin Γ) (e : Expr) (t : ExprType) {w : World} (hr : Right fin.shared L' w) :
    ORight fin.shared L' (fun x => x.ty = t) (evalAs F cl Γ e t w) :=
  (eval_inv hcl hu e w hr).bind fun _ _ _ hr => castVal_right hr

/-! ## What commands can assign to -/

/-- The variables that can be assigned to have the type that the command is told. -/
def Targets (Γ : Env) (as : List (Arg × LineCol)) : Prop :=
  ∀ a ∈ as, ∀ p t, a.1.target = some (p, t) → ∃ v, nameRef Γ.locals Γ.shared v = .var p (.scalar t)

theorem Targets.cons {Γ : Env} {as : List (Arg × LineCol)} (h : Targets Γ as) {a : Arg × LineCol}
    (ha : ∀ p t, a.1.target = some (p, t) → ∃ v, nameRef Γ.locals Γ.shared v = .var p (.scalar t)) : Targets Γ (a :: as) := by
  intro b hb p t hp
  rcases List.mem_cons.1 hb with rfl | hb
  · exact ha p t hp
  · exact h b hb p t hp

theorem unwritten_targets {Γ : Env} (rep : Option RepSyn) (no : Bool) (pos : LineCol) : ∀ syns, Targets Γ (unwritten rep no pos syns) := by
  intro syns
  induction syns with
  | nil =>
    intro a ha p t hp
    simp only [unwritten] at ha
    split at ha
    · split at ha
      · cases ha
      · rcases List.mem_singleton.1 ha with rfl
        cases hp
    · cases ha
  | cons s syns ih => exact ih.cons fun p t hp => by cases hp

theorem varArg_targets {Γ : Env} {mk : Proto → Place → Arg} {v : VarRef} {pos : LineCol} {w w' : World} {a : Arg × LineCol}
    (hmk : ∀ q p, (mk q p).target = (match q with | .scalar t => some (p, t) | _ => none)) (h : varArg Γ mk v pos w = .ok a w') :
    ∀ p t, a.1.target = some (p, t) → ∃ v, nameRef Γ.locals Γ.shared v = .var p (.scalar t) := by
  intro p t hp
  unfold varArg at h
  split at h
  next p' q hn =>
    simp only [Out.ok.injEq] at h
    rw [← h.1] at hp
    simp only [hmk] at hp
    cases q with
    | scalar t' => simp only [Option.some.injEq, Prod.mk.injEq] at hp; obtain ⟨rfl, rfl⟩ := hp; exact ⟨v, hn⟩
    | array => cases hp
  next => cases h

theorem evalBuiltin_targets {Γ : Env} : ∀ (args : Args) (rep : Option RepSyn) (no : Bool)
    (syns : List SingSyn) (pos : LineCol) (w w' : World) (as : List (Arg × LineCol)),
    evalBuiltin F cl Γ rep no syns args pos w = .ok as w' → Targets Γ as
  | .nil, rep, no, syns, pos, w, w', as, h => by
    cases syns <;> simp only [evalBuiltin, Out.ok.injEq] at h <;> rw [← h.1] <;> exact unwritten_targets _ _ _ _
  | .skip _ _ rest, rep, no, [], pos, w, w', as, h => by
    simp only [evalBuiltin] at h
    obtain ⟨as1, w1, h1, h2⟩ := bind_ok h
    cases h2
    exact (evalBuiltin_targets rest _ _ _ _ _ _ _ h1).cons fun p t hp => by cases hp
  | .skip _ _ rest, rep, no, _ :: syns, pos, w, w', as, h => by
    simp only [evalBuiltin] at h
    obtain ⟨as1, w1, h1, h2⟩ := bind_ok h
    cases h2
    exact (evalBuiltin_targets rest _ _ _ _ _ _ _ h1).cons fun p t hp => by cases hp
  | .cons e _ _ rest, rep, no, .reqValue .. :: syns, pos, w, w', as, h => by
    simp only [evalBuiltin] at h
    obtain ⟨x, w1, _, h⟩ := bind_ok h
    obtain ⟨y, w2, _, h⟩ := bind_ok h
    obtain ⟨as1, w3, h1, h2⟩ := bind_ok h
    cases h2
    exact (evalBuiltin_targets rest _ _ _ _ _ _ _ h1).cons fun p t hp => by cases hp
  | .cons e _ _ rest, rep, no, .optValue .. :: syns, pos, w, w', as, h => by
    simp only [evalBuiltin] at h
    obtain ⟨x, w1, _, h⟩ := bind_ok h
    obtain ⟨y, w2, _, h⟩ := bind_ok h
    obtain ⟨as1, w3, h1, h2⟩ := bind_ok h
    cases h2
    exact (evalBuiltin_targets rest _ _ _ _ _ _ _ h1).cons fun p t hp => by cases hp
  | .cons e _ _ rest, rep, no, .anyValue .. :: syns, pos, w, w', as, h => by
    simp only [evalBuiltin] at h
    obtain ⟨x, w1, _, h⟩ := bind_ok h
    obtain ⟨as1, w3, h1, h2⟩ := bind_ok h
    cases h2
    exact (evalBuiltin_targets rest _ _ _ _ _ _ _ h1).cons fun p t hp => by cases hp
  | .cons e _ _ rest, rep, no, .reqRef .. :: syns, pos, w, w', as, h => by
    cases e <;> simp only [evalBuiltin] at h <;> try (cases h; done)
    obtain ⟨a, w1, ha, h⟩ := bind_ok h
    obtain ⟨as1, w3, h1, h2⟩ := bind_ok h
    cases h2
    exact (evalBuiltin_targets rest _ _ _ _ _ _ _ h1).cons (varArg_targets (fun q p => by cases q <;> rfl) ha)
  | .cons e _ _ rest, rep, no, [], pos, w, w', as, h => by
    simp only [evalBuiltin] at h
    cases rep with
    | none => cases h
    | some r =>
      simp only at h
      cases ht : r.typeSyn with
      | anyValue =>
        rw [ht] at h
        simp only at h
        obtain ⟨x, w1, _, h⟩ := bind_ok h
        obtain ⟨as1, w3, h1, h2⟩ := bind_ok h
        cases h2
        exact (evalBuiltin_targets rest _ _ _ _ _ _ _ h1).cons fun p t hp => by cases hp
      | typed t =>
        rw [ht] at h
        simp only at h
        obtain ⟨x, w1, _, h⟩ := bind_ok h
        obtain ⟨y, w2, _, h⟩ := bind_ok h
        obtain ⟨as1, w3, h1, h2⟩ := bind_ok h
        cases h2
        refine (evalBuiltin_targets rest _ _ _ _ _ _ _ h1).cons fun p t hp => ?_
        exfalso
        revert hp
        cases r.plain <;> (intro hp; cases hp)
      | varRef =>
        rw [ht] at h
        cases e <;> simp only at h <;> try (cases h; done)
        obtain ⟨a, w1, ha, h⟩ := bind_ok h
        obtain ⟨as1, w3, h1, h2⟩ := bind_ok h
        cases h2
        exact (evalBuiltin_targets rest _ _ _ _ _ _ _ h1).cons (varArg_targets (fun q p => by cases q <;> rfl) ha)

theorem assigned_right {mem : Place → Option Cell} : ∀ (ws : List (Place × Val)) (w : World), Right fin.shared L w →
    (∀ x ∈ ws, Env.proto ⟨L, fin.shared, fun _ => none, fun _ _ => [], fun _ _ => none, fun _ => none⟩ x.1 = some (.scalar x.2.ty)) → mem = w.mem →
    ∀ w', w'.mem = assigned mem ws → Right fin.shared L w'
  | [], w, hr, _, he, w', h => fun p q c hp hc => hr p q c hp (by rw [h] at hc; rw [← he]; exact hc)
  | (p, v) :: ws, w, hr, hx, he, w', h => by
    have h1 : Right fin.shared L (w.set p (some (.scalar v))) := hr.set fun c' q hc hq => by
      cases hc
      rw [hx _ (List.mem_cons_self ..)] at hq
      cases hq
      rfl
    refine assigned_right ws _ h1 (fun x h => hx x (List.mem_cons_of_mem _ h)) ?_ w' h
    subst he
    rfl

theorem command_right {Γ : Env} (hat : Seat fin L Γ) {k : Str} {as : List (Arg × LineCol)} {ret : Option ExprType} {pos : LineCol} {w : World} {lib : Lib}
    (hr : Right fin.shared L w) (ht : Targets Γ as) : ORight fin.shared L (fun _ => True) (w.request lib k as ret pos) := by
  unfold World.request
  simp only
  split
  next hf =>
    have hw := (fits_typed hf).2
    have hx : ∀ x ∈ (lib w.log w.room ⟨k, ret, as, as.map fun a => a.1.place.bind w.mem⟩).writes,
        Env.proto ⟨L, fin.shared, fun _ => none, fun _ _ => [], fun _ _ => none, fun _ => none⟩ x.1 = some (.scalar x.2.ty) := by
      intro x hx
      obtain ⟨a, ha, hat'⟩ := hw x hx
      obtain ⟨v, hv⟩ := ht a ha _ _ hat'
      exact hat.proto (nameRef_var hv)
    split
    · exact ⟨trivial, assigned_right _ _ hr hx rfl _ rfl⟩
    · exact assigned_right _ _ hr hx rfl _ rfl
  next => trivial

end

end EB.Typing
