import Verif.Spec.Settled
import Verif.Lemmas.Types
import Verif.Lemmas.Scope
import Verif.Lemmas.Valid
/-!
# Settled programs have a meaning: expressions
-/

namespace EB.Settle
open Spec

/-! ## What is known -/

/-- What was declared at a place, with all shared variables of the program. -/
def protoAt (Sh : Decls) (Γ : Env) : Place → Option Proto
  | .local n => Γ.locals[n]?.map (·.2)
  | .shared n => Sh[n]?.map (·.2)

/-- The variable is known, with a content of its type. -/
def Typed (Sh : Decls) (Γ : Env) (w : World) (p : Place) : Prop :=
  ∃ q c, protoAt Sh Γ p = some q ∧ w.mem p = some c ∧ c.Fits q

/-- What was known is known. -/
structure Mono (Sh : Decls) (Γ : Env) (w w' : World) : Prop where
  trap : w'.trap = .stop
  mem : ∀ p, Typed Sh Γ w p → Typed Sh Γ w' p

theorem Typed.grow {Sh : Decls} {Γ Γ' : Env} {w : World} {p : Place} (h : Typed Sh Γ w p) (hl : Γ.locals <+: Γ'.locals) : Typed Sh Γ' w p := by
  obtain ⟨q, c, h1, h2, h3⟩ := h
  refine ⟨q, c, ?_, h2, h3⟩
  cases p with
  | shared n => exact h1
  | «local» n =>
    simp only [protoAt, Option.map_eq_some_iff] at h1 ⊢
    obtain ⟨d, h1, rfl⟩ := h1
    obtain ⟨rest, hr⟩ := hl
    exact ⟨d, by rw [← hr, List.getElem?_append_left (List.getElem?_eq_some_iff.1 h1).1]; exact h1, rfl⟩

theorem Typed.lt {Sh : Decls} {Γ : Env} {w : World} {n : Nat} (h : Typed Sh Γ w (.local n)) : n < Γ.locals.length := by
  obtain ⟨q, c, h1, _⟩ := h
  simp only [protoAt, Option.map_eq_some_iff] at h1
  obtain ⟨d, h1, _⟩ := h1
  exact (List.getElem?_eq_some_iff.1 h1).1

theorem Typed.shrink {Sh : Decls} {Γ Γ' : Env} {w w0 : World} {p : Place} (h0 : Typed Sh Γ w0 p) (h : Typed Sh Γ' w p) (hl : Γ.locals <+: Γ'.locals) :
    Typed Sh Γ w p := by
  obtain ⟨q, c, h1, h2, h3⟩ := h
  refine ⟨q, c, ?_, h2, h3⟩
  cases p with
  | shared n => exact h1
  | «local» n =>
    have hn := h0.lt
    obtain ⟨rest, hr⟩ := hl
    simp only [protoAt] at h1 ⊢
    rw [← hr, List.getElem?_append_left hn] at h1
    exact h1

theorem Mono.refl {Sh : Decls} {Γ : Env} {w : World} (h : w.trap = .stop) : Mono Sh Γ w w := ⟨h, fun _ h => h⟩

theorem Mono.trans {Sh : Decls} {Γ : Env} {a b c : World} (h1 : Mono Sh Γ a b) (h2 : Mono Sh Γ b c) : Mono Sh Γ a c :=
  ⟨h2.trap, fun p h => h2.mem p (h1.mem p h)⟩

theorem Mono.shrink {Sh : Decls} {Γ Γ' : Env} {w w' : World} (h : Mono Sh Γ' w w') (hl : Γ.locals <+: Γ'.locals) : Mono Sh Γ w w' :=
  ⟨h.trap, fun p hp => hp.shrink (h.mem p (hp.grow hl)) hl⟩

/-- An evaluation that has a meaning: errors stop the program. -/
def Good {α : Type} (P : α → World → Prop) : Out α → Prop
  | .ok a w => P a w
  | .err _ _ w => w.trap = .stop
  | .ended .. | .going _ => True
  | .stuck => False

theorem Good.imp {α : Type} {P Q : α → World → Prop} {x : Out α} (h : Good P x) (hi : ∀ a w, P a w → Q a w) : Good Q x := by
  cases x <;> first | exact hi _ _ h | exact h

theorem Good.bind {α β : Type} {P : α → World → Prop} {Q : β → World → Prop} {x : Out α} {f : α → World → Out β} (h : Good P x)
    (hf : ∀ a w, P a w → Good Q (f a w)) : Good Q (x.bind f) := by
  cases x <;> first | exact hf _ _ h | exact h

/-- Only the room changes. -/
def Same (w w' : World) : Prop := w'.mem = w.mem ∧ w'.trap = w.trap

theorem Same.mono {Sh : Decls} {Γ : Env} {w w' : World} (h : Same w w') (ht : w.trap = .stop) : Mono Sh Γ w w' :=
  ⟨h.2.trans ht, fun p ⟨q, c, h1, h2, h3⟩ => ⟨q, c, h1, by rw [h.1]; exact h2, h3⟩⟩

/-- The trap is left alone. -/
def Quietly {α : Type} (w : World) : Out α → Prop
  | .ok _ w' | .err _ _ w' | .ended _ w' => w'.trap = w.trap
  | _ => True

theorem good_of {α : Type} {P : α → Prop} {w : World} {x : Out α} (h1 : Fine P w x) (h2 : Quietly w x) (ht : w.trap = .stop) :
    Good (fun a w' => P a ∧ Same w w') x := by
  cases x with
  | ok a w' => exact ⟨h1.1, h1.2, h2⟩
  | err p e w' => exact Eq.trans (show w'.trap = w.trap from h2) ht
  | ended => trivial
  | going => trivial
  | stuck => exact h1

theorem binVal_quiet (F : FloatOps) (op : SrcBin) (x y : Val) (pos : LineCol) (w : World) : Quietly w (binVal F op x y pos w) := by
  cases x <;> cases y <;> simp only [binVal] <;> try trivial
  · split <;> trivial
  · unfold intBin; split <;> trivial
  · unfold dblBin; split <;> trivial
  · unfold dblBin; split <;> trivial
  · unfold dblBin; split <;> trivial
  · unfold textBin
    split
    · unfold newText; split
      · trivial
      · split <;> trivial
    · trivial
    · trivial

theorem unVal_quiet (F : FloatOps) (op : SrcUn) (x : Val) (pos : LineCol) (w : World) : Quietly w (unVal F op x pos w) := by
  cases op <;> cases x <;> simp only [unVal] <;> try trivial
  split <;> trivial

theorem castVal_quiet (F : FloatOps) (t : ExprType) (x : Val) (pos : LineCol) (w : World) : Quietly w (castVal F t x pos w) := by
  cases t <;> cases x <;> simp only [castVal] <;> try trivial
  split <;> trivial

theorem bin_good {F : FloatOps} {op : SrcBin} {x y : Val} {t : ExprType} {pos : LineCol} {w : World} (h : binType op x.ty y.ty = some t)
    (ht : w.trap = .stop) : Good (fun v w' => v.ty = t ∧ Same w w') (binVal F op x y pos w) :=
  good_of (binVal_typed h) (binVal_quiet ..) ht

theorem un_good {F : FloatOps} {op : SrcUn} {x : Val} {t : ExprType} {pos : LineCol} {w : World} (h : unType op x.ty = some t)
    (ht : w.trap = .stop) : Good (fun v w' => v.ty = t ∧ Same w w') (unVal F op x pos w) :=
  good_of (unVal_typed h) (unVal_quiet ..) ht

theorem cast_good {F : FloatOps} {x : Val} {t : ExprType} {pos : LineCol} {w : World} (h : Converts x.ty t)
    (ht : w.trap = .stop) : Good (fun v w' => v.ty = t ∧ Same w w') (castVal F t x pos w) :=
  good_of (castVal_typed h) (castVal_quiet ..) ht

/-! ## Environments -/

/-- What the environment says about a name. -/
inductive About (up : FMap Str Md) (Γ : Env) (k : Str) : Prop
  | user (name : VarRef) (params : List VarRef) : symKey name.name = k → Γ.md k = some (declared name params) →
      Γ.callable k = some (.user (params.map fun p => p.ty.getD .integer) name.ty) → (∀ args, Γ.outs k args = []) → About up Γ k
  | builtin (md : Md) : md.userDefined = false → Γ.md k = some md → Γ.callable k = some (.builtin md.returnType) → up.get? k = some md →
      (∀ n, Γ.syn k n = md.findSyntax n) → About up Γ k
  | none : Γ.md k = none → Γ.callable k = none → (∀ args, Γ.outs k args = []) → About up Γ k

/-- The environment is one of a program. -/
def Wf (up : FMap Str Md) (Γ : Env) : Prop := ∀ k, About up Γ k

/-- The environment is one at some place of the program whose last one is `fin`. -/
structure Below (fin Γ : Env) : Prop where
  shared : Γ.shared <+: fin.shared
  user : ∀ k ps r, Γ.callable k = some (.user ps r) → fin.callable k = some (.user ps r)

theorem var_proto {Γ fin : Env} {v : VarRef} {p : Place} {q : Proto} (hs : Γ.shared <+: fin.shared) (h : nameRef Γ.locals Γ.shared v = .var p q) :
    protoAt fin.shared Γ p = some q := by
  have hp := nameRef_var h
  cases p with
  | «local» n => exact hp
  | shared n =>
    simp only [Env.proto, protoAt, Option.map_eq_some_iff] at hp ⊢
    obtain ⟨d, h1, rfl⟩ := hp
    obtain ⟨rest, hr⟩ := hs
    exact ⟨d, by rw [← hr, List.getElem?_append_left (List.getElem?_eq_some_iff.1 h1).1]; exact h1, rfl⟩

theorem Typed.content {fin Γ : Env} {w : World} {v : VarRef} {p : Place} {q : Proto} (h : Typed fin.shared Γ w p) (hs : Γ.shared <+: fin.shared)
    (hv : nameRef Γ.locals Γ.shared v = .var p q) : ∃ c, w.mem p = some c ∧ c.Fits q := by
  obtain ⟨q', c, h1, h2, h3⟩ := h
  rw [var_proto hs hv] at h1
  cases h1
  exact ⟨c, h2, h3⟩

/-! ## Calls -/

/-- After a call the variables of the caller are the same, and shared variables that were known are known. -/
structure Back (Sh : Decls) (w w' : World) : Prop where
  trap : w'.trap = .stop
  locals : ∀ n, w'.mem (.local n) = w.mem (.local n)
  shared : ∀ Γ n, Typed Sh Γ w (.shared n) → Typed Sh Γ w' (.shared n)

theorem Back.mono {Sh : Decls} {w w' : World} (h : Back Sh w w') (Γ : Env) : Mono Sh Γ w w' := by
  refine ⟨h.trap, fun p hp => ?_⟩
  cases p with
  | shared n => exact h.shared Γ n hp
  | «local» n =>
    obtain ⟨q, c, h1, h2, h3⟩ := hp
    exact ⟨q, c, h1, by rw [h.locals]; exact h2, h3⟩

/-- The callables of the program that are defined (`D`) can be called when the shared variables that are relied on are
known. -/
structure CallsGood (U : Sure) (fin : Env) (D : Str → Prop) (lib : Lib) (cl : Calls) : Prop where
  lib : cl.lib = lib
  fn : ∀ k ps r vs pos w, fin.callable k = some (.user ps (some r)) → D k → vs.map Val.ty = ps → w.trap = .stop →
    (∀ p ∈ U.shared, Typed fin.shared fin w p) → Good (fun v w' => v.ty = r ∧ Back fin.shared w w') (cl.fn k vs pos w)
  sub : ∀ k ps vs pos w, fin.callable k = some (.user ps none) → D k → vs.map Val.ty = ps → w.trap = .stop →
    (∀ p ∈ U.shared, Typed fin.shared fin w p) → Good (fun _ w' => Back fin.shared w w') (cl.sub k vs pos w)

theorem fits_typed {r : Reply} {args : List (Arg × LineCol)} {ret : Option ExprType} {room : Nat} (h : r.fits args ret room = true) :
    (∀ v, r.result = .ok v → v.map Val.ty = ret) ∧
    ∀ x ∈ r.writes, ∃ a ∈ args, a.1.target = some (x.1, x.2.ty) := by
  unfold Reply.fits at h
  simp only [Bool.and_eq_true, List.all_eq_true, List.any_eq_true, decide_eq_true_eq] at h
  refine ⟨fun v hv => ?_, h.2⟩
  have h1 := h.1.1.2
  rw [hv] at h1
  simpa using h1

theorem Arg.target_proto {a : Arg} {p : Place} {t : ExprType} (h : a.target = some (p, t)) : a.place = some p ∧ a.proto = some (.scalar t) := by
  cases a with
  | val | opt | missing => cases h
  | ref q p' => cases q <;> cases h; exact ⟨rfl, rfl⟩
  | optRef sep q p' => cases q <;> cases h; exact ⟨rfl, rfl⟩

theorem assigned_typed {Sh : Decls} {Γ : Env} : ∀ (ws : List (Place × Val)) (w : World), (∀ x ∈ ws, protoAt Sh Γ x.1 = some (.scalar x.2.ty)) →
    ∀ p, Typed Sh Γ w p → Typed Sh Γ { w with mem := assigned w.mem ws } p
  | [], _, _, _, h => h
  | (p', v) :: ws, w, hw, p, h => by
    refine assigned_typed ws { w with mem := fun q => if q = p' then some (.scalar v) else w.mem q } (fun x hx => hw x (List.mem_cons_of_mem _ hx)) p ?_
    obtain ⟨q, c, h1, h2, h3⟩ := h
    by_cases hp : p = p'
    · subst hp
      have := hw _ List.mem_cons_self
      exact ⟨_, .scalar v, this, by simp, ⟨rfl, fun _ _ _ h => by cases h⟩⟩
    · exact ⟨q, c, h1, by simp [hp]; exact h2, h3⟩

/-- The arguments are passed as declared, and their variables are known. -/
def Passes (Sh : Decls) (Γ : Env) (w : World) (as : List (Arg × LineCol)) : Prop :=
  ∀ a ∈ as, ∀ p, a.1.place = some p → ∃ q, a.1.proto = some q ∧ protoAt Sh Γ p = some q ∧ Typed Sh Γ w p

theorem request_good {up : FMap Str Md} {U : Sure} {lib : Lib} {Sh : Decls} {Γ : Env} {k : Str} {md : Md} {n : Nat} {as : List (Arg × LineCol)}
    {pos : LineCol} {w : World} (hr : Replies up U lib) (hk : up.get? k = some md) (hc : U.calls k n = true) (ht : w.trap = .stop)
    (hp : Passes Sh Γ w as)
    (ha : (n = 0 ∧ NoArgs md ∧ as = []) ∨ ∃ syn, SyntaxFor md.syntaxes n syn ∧ Sent syn.repeated true syn.singular as) :
    Good (fun v w' => v.map Val.ty = md.returnType ∧ Mono Sh Γ w w') (w.request lib k as md.returnType pos) := by
  unfold World.request
  simp only
  let q : Request := ⟨k, md.returnType, as, as.map fun a => a.1.place.bind w.mem⟩
  have hf : (lib w.log w.room q).fits as md.returnType w.room = true := by
    refine hr k md n w.log w.room q hk hc rfl ⟨rfl, by simp [q], ha, ?_⟩
    intro j a p hj hpl
    obtain ⟨pr, h1, h2, q', c, h3, h4, h5⟩ := hp a (List.mem_of_getElem? hj) p hpl
    rw [h2] at h3
    cases h3
    refine ⟨c, pr, ?_, h1, h5⟩
    have hj' : as[j]? = some a := hj
    simp [q, List.getElem?_map, hj', hpl, h4]
  rw [if_pos hf]
  obtain ⟨h1, h2⟩ := fits_typed hf
  cases hres : (lib w.log w.room q).result with
  | error e => exact ht
  | ok v =>
    refine ⟨h1 v hres, ht, fun p hpp => ?_⟩
    refine assigned_typed _ w ?_ p hpp
    intro x hx
    obtain ⟨a, ha1, ha2⟩ := h2 x hx
    obtain ⟨g1, g2⟩ := Arg.target_proto ha2
    obtain ⟨pr, g3, g4, _⟩ := hp a ha1 _ g1
    rw [g2] at g3
    cases g3
    exact g4

end EB.Settle
