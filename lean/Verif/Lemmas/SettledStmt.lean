import Verif.Lemmas.SettledEnv
import Verif.Lemmas.Frame
import Verif.Lemmas.StmtCodeMain
/-!
# Settled programs have a meaning: statements
-/

namespace EB.Settle
open Spec

section
variable {X : Fixed} {F : FloatOps} {cl : Calls}

/-- A result that has a meaning.  `R` is the start of the callable, `Γ` what is declared before the statement, and `Γ'`
and `K'` what is declared and known after it. -/
def Post (X : Fixed) (R : Env) (C : Surround) (Γ Γ' : Env) (K' : List Place) (w : World) : Res → Prop
  | .done w' => Mono X.fin.shared Γ w w' ∧ Knows X Γ' K' w'
  | .exitDo w' => C.inDo = true ∧ Mono X.fin.shared Γ w w'
  | .exitFor w' => C.inFor = true ∧ Mono X.fin.shared Γ w w'
  | .leave w' | .back w' => Mono X.fin.shared Γ w w' ∧ (C.result = true → Typed X.fin.shared R w' (.local 0))
  | .err _ _ w' => w'.trap = .stop
  | .ended .. | .going _ => True
  | .jump .. | .stuck => False

/-- The callable starts with `R`. -/
structure Root (R : Env) (C : Surround) (Γ : Env) : Prop where
  locals : R.locals <+: Γ.locals
  result : C.result = true → 0 < R.locals.length

theorem Root.grow {R : Env} {C : Surround} {Γ Γ' : Env} (h : Root R C Γ) (hl : Γ.locals <+: Γ'.locals) : Root R C Γ' := ⟨h.locals.trans hl, h.result⟩

theorem Knows.grow {Γ Γ' : Env} {K : List Place} {w : World} (h : Knows X Γ K w) (hl : Γ.locals <+: Γ'.locals) : Knows X Γ' K w :=
  ⟨h.trap, fun p hp => (h.mem p hp).grow hl⟩

theorem Knows.sub {Γ : Env} {K K' : List Place} {w : World} (h : Knows X Γ K w) (hs : ∀ p ∈ K', p ∈ K) : Knows X Γ K' w :=
  ⟨h.trap, fun p hp => h.mem p (hs p hp)⟩

theorem Knows.append {Γ : Env} {K K' : List Place} {w : World} (h : Knows X Γ K w) (h' : Knows X Γ K' w) : Knows X Γ (K ++ K') w :=
  ⟨h.trap, fun p hp => (List.mem_append.1 hp).elim (h.mem p) (h'.mem p)⟩

/-- First one, then the other. -/
theorem Post.bind {R : Env} {C : Surround} {Γ Γ1 Γ' : Env} {K1 K' : List Place} {w : World} {r : Res} {f : World → Res}
    (h : Post X R C Γ Γ1 K1 w r) (hl : Γ.locals <+: Γ1.locals) (hf : ∀ w1, Knows X Γ1 K1 w1 → Post X R C Γ1 Γ' K' w1 (f w1)) :
    Post X R C Γ Γ' K' w (r.bind f) := by
  cases r with
  | done w1 =>
    have h2 := hf w1 h.2
    show Post X R C Γ Γ' K' w (f w1)
    generalize f w1 = r2 at h2
    cases r2 with
    | done w2 => exact ⟨h.1.trans (h2.1.shrink hl), h2.2⟩
    | exitDo w2 => exact ⟨h2.1, h.1.trans (h2.2.shrink hl)⟩
    | exitFor w2 => exact ⟨h2.1, h.1.trans (h2.2.shrink hl)⟩
    | leave w2 => exact ⟨h.1.trans (h2.1.shrink hl), h2.2⟩
    | back w2 => exact ⟨h.1.trans (h2.1.shrink hl), h2.2⟩
    | err | ended | going | jump | stuck => exact h2
  | exitDo | exitFor | leave | back | err | ended | going | jump | stuck => exact h

/-- First evaluate. -/
theorem Good.then {α : Type} {R : Env} {C : Surround} {Γ Γ' : Env} {K' : List Place} {w : World} {P : α → World → Prop} {x : Out α} {f : α → World → Res}
    (h : Good P x) (hf : ∀ a w1, P a w1 → Post X R C Γ Γ' K' w (f a w1)) : Post X R C Γ Γ' K' w (x.then f) := by
  cases x with
  | ok a w1 => exact hf a w1 h
  | err | ended | going | stuck => exact h

/-- What was done before. -/
theorem Post.before {R : Env} {C : Surround} {Γ Γ' : Env} {K' : List Place} {w w1 : World} {r : Res} (hm : Mono X.fin.shared Γ w w1)
    (h : Post X R C Γ Γ' K' w1 r) : Post X R C Γ Γ' K' w r := by
  cases r with
  | done w2 => exact ⟨hm.trans h.1, h.2⟩
  | exitDo w2 => exact ⟨h.1, hm.trans h.2⟩
  | exitFor w2 => exact ⟨h.1, hm.trans h.2⟩
  | leave w2 => exact ⟨hm.trans h.1, h.2⟩
  | back w2 => exact ⟨hm.trans h.1, h.2⟩
  | err | ended | going | jump | stuck => exact h

/-- In fewer declarations. -/
theorem Post.shrink {R : Env} {C : Surround} {Γ Γ1 Γ' : Env} {K' : List Place} {w : World} {r : Res} (h : Post X R C Γ1 Γ' K' w r)
    (hl : Γ.locals <+: Γ1.locals) : Post X R C Γ Γ' K' w r := by
  cases r with
  | done w2 => exact ⟨h.1.shrink hl, h.2⟩
  | exitDo w2 => exact ⟨h.1, h.2.shrink hl⟩
  | exitFor w2 => exact ⟨h.1, h.2.shrink hl⟩
  | leave w2 => exact ⟨h.1.shrink hl, h.2⟩
  | back w2 => exact ⟨h.1.shrink hl, h.2⟩
  | err | ended | going | jump | stuck => exact h

/-- With other knowledge at the end. -/
theorem Post.imp {R : Env} {C : Surround} {Γ Γ1 Γ' : Env} {K1 K' : List Place} {w : World} {r : Res} (h : Post X R C Γ Γ1 K1 w r)
    (hi : ∀ w', Mono X.fin.shared Γ w w' → Knows X Γ1 K1 w' → Knows X Γ' K' w') : Post X R C Γ Γ' K' w r := by
  cases r with
  | done w2 => exact ⟨h.1, hi _ h.1 h.2⟩
  | exitDo | exitFor | leave | back | err | ended | going | jump | stuck => exact h

/-- A loop body. -/
theorem Post.round {R : Env} {C : Surround} {Γ Γ' : Env} {K K' : List Place} {w : World} {r : Res} (h : Post X R C Γ Γ' K' w r) (hk : Knows X Γ K w) :
    Post X R C Γ Γ K w r := h.imp fun _ hm _ => hk.mono hm

theorem Post.catchDo {R : Env} {C : Surround} {Γ : Env} {K : List Place} {w : World} {r : Res}
    (h : Post X R { C with inDo := true } Γ Γ K w r) (hk : Knows X Γ K w) : Post X R C Γ Γ K w (catchDo r) := by
  cases r with
  | exitDo w' => exact ⟨h.2, hk.mono h.2⟩
  | done | exitFor | leave | back | err | ended | going | jump | stuck => exact h

theorem Post.catchFor {R : Env} {C : Surround} {Γ : Env} {K : List Place} {w : World} {r : Res}
    (h : Post X R { C with inFor := true } Γ Γ K w r) (hk : Knows X Γ K w) : Post X R C Γ Γ K w (catchFor r) := by
  cases r with
  | exitFor w' => exact ⟨h.2, hk.mono h.2⟩
  | done | exitDo | leave | back | err | ended | going | jump | stuck => exact h

/-! ## Variables -/

theorem set_other {w : World} {p q : Place} {c : Option Cell} (h : q ≠ p) : (w.set p c).mem q = w.mem q := if_neg h

theorem set_typed {Sh : Decls} {Γ : Env} {w : World} {p : Place} {q : Proto} {c : Cell} (hp : protoAt Sh Γ p = some q) (hc : c.Fits q) :
    Typed Sh Γ (w.set p (some c)) p := ⟨q, c, hp, by simp [World.set], hc⟩

theorem set_mono {Sh : Decls} {Γ : Env} {w : World} {p : Place} {q : Proto} {c : Cell} (hp : protoAt Sh Γ p = some q) (hc : c.Fits q)
    (ht : w.trap = .stop) : Mono Sh Γ w (w.set p (some c)) := by
  refine ⟨ht, fun p' h => ?_⟩
  by_cases he : p' = p
  · subst he; exact set_typed hp hc
  · obtain ⟨q', c', h1, h2, h3⟩ := h
    exact ⟨q', c', h1, by rw [set_other he]; exact h2, h3⟩

theorem scalar_fits {v : Val} {t : ExprType} (h : v.ty = t) : (Cell.scalar v).Fits (.scalar t) := ⟨h, fun _ _ _ h => by cases h⟩

theorem defaultVal_ty (t : ExprType) : (defaultVal t).ty = t := by cases t <;> rfl

/-- The place of a variable that is declared only now. -/
theorem new_place {Γ : Env} {v : VarRef} {t : ExprType} (h : nameRef Γ.locals Γ.shared v = .undefined) {p : Place} {q : Proto}
    (hp : nameRef (Γ.addLocal (symKey v.name) (.scalar t)).locals Γ.shared v = .var p q) : p = .local Γ.locals.length := by
  have hn : Spec.position (symKey v.name) Γ.locals = none := by
    unfold nameRef at h
    cases hq : Spec.position (symKey v.name) Γ.locals with
    | none => rfl
    | some x =>
      obtain ⟨a, b⟩ := x
      rw [hq] at h
      simp only at h
      split at h <;> cases h
  unfold nameRef Env.addLocal at hp
  simp only [declPos_append, hn] at hp
  simp [Spec.position] at hp
  split at hp
  · cases hp; rfl
  · cases hp

theorem mem_next {Sh : Decls} {Γ : Env} {k : Str} {pr : Proto} : protoAt Sh (Γ.addLocal k pr) (.local Γ.locals.length) = some pr := by
  simp [protoAt, Env.addLocal]

theorem assign_good (hX : X.Ok cl) {R : Env} {C : Surround} {Γ : Env} (hwf : Wf X.up Γ) (hb : Below X.fin Γ) {K : List Place} {v : VarRef} {e : Expr} {w : World}
    (ho : AssignOk Γ v e) (hd : CallsDefined X.D (assignEnv Γ v) e) (ha : assignable X.U Γ K v e = true) (hk : Knows X Γ K w) :
    Post X R C Γ (afterAssign Γ v e) (knownAssign Γ K v e) w (assign F cl Γ v e w) := by
  unfold assign
  unfold assignable at ha
  unfold AssignOk at ho
  unfold assignEnv at hd
  cases hn : nameRef Γ.locals Γ.shared v with
  | wrongType => rw [hn] at ho; exact ho.elim
  | var p pr =>
    rw [hn] at ho ha hd
    have hE : afterAssign Γ v e = Γ := by unfold afterAssign; rw [hn]; simp
    have hK : knownAssign Γ K v e = p :: K := by unfold knownAssign placeOf; rw [hE, hn]; rfl
    rw [hE, hK]
    rw [if_neg (by simp)] at hd
    cases pr with
    | array => exact ho.elim
    | scalar t =>
      simp only at ho ha ⊢
      have hp := var_proto hb.shared hn
      split at ha
      next hm =>
        rw [if_pos hm]
        refine (evalAs_good F hX hwf hb e ho hd ha hk).then ?_
        rintro x w1 ⟨hx, hm1⟩
        have hs := set_mono (w := w1) hp (scalar_fits hx) hm1.trap
        refine ⟨hm1.trans hs, (hm1.trans hs).trap, fun q hq => ?_⟩
        rcases List.mem_cons.1 hq with rfl | hq
        · exact set_typed hp (scalar_fits hx)
        · exact (hm1.trans hs).mem _ (hk.mem _ hq)
      next hm =>
        rw [if_neg hm]
        simp only [Bool.and_eq_true, decide_eq_true_eq] at ha
        rw [if_pos ha.1]
        have hk0 : Knows X Γ (K.filter fun q => decide (q ≠ p)) (w.set p none) := by
          refine ⟨hk.trap, fun q hq => ?_⟩
          rw [List.mem_filter, decide_eq_true_eq] at hq
          obtain ⟨q', c, h1, h2, h3⟩ := hk.mem q hq.1
          exact ⟨q', c, h1, by rw [set_other hq.2]; exact h2, h3⟩
        refine (evalAs_good F hX hwf hb e ho hd ha.2 hk0).then ?_
        rintro x w1 ⟨hx, hm1⟩
        have hs := set_mono (w := w1) hp (scalar_fits hx) hm1.trap
        have hw : Mono X.fin.shared Γ w (w1.set p (some (.scalar x))) := by
          refine ⟨hs.trap, fun q hq => ?_⟩
          by_cases he : q = p
          · subst he; exact set_typed hp (scalar_fits hx)
          · refine hs.mem q (hm1.mem q ?_)
            obtain ⟨q', c, h1, h2, h3⟩ := hq
            exact ⟨q', c, h1, by rw [set_other he]; exact h2, h3⟩
        refine ⟨hw, hw.trap, fun q hq => ?_⟩
        rcases List.mem_cons.1 hq with rfl | hq
        · exact set_typed hp (scalar_fits hx)
        · exact hw.mem _ (hk.mem _ hq)
  | undefined =>
    rw [hn] at ho ha hd
    rw [if_pos rfl] at hd
    simp only [Bool.and_eq_true, decide_eq_true_eq] at ho ha ⊢
    rw [if_pos ha.1]
    have hwf' := hwf.addLocal (symKey v.name) (.scalar (v.ty.getD .integer))
    have hb' : Below X.fin (Γ.addLocal (symKey v.name) (.scalar (v.ty.getD .integer))) := hb.same rfl rfl
    have hu : Usable (Γ.addLocal (symKey v.name) (.scalar (v.ty.getD .integer))) e (newType Γ v e) := by
      unfold newType
      cases ht : v.ty with
      | some t => rw [ht] at ho; exact ho.2
      | none =>
        rw [ht] at ho
        obtain ⟨t, h1⟩ := ho.2
        have := typeOf_wellTyped (hwf.addLocal (symKey v.name) (.scalar .integer)) e h1
        simp only [Option.getD_none]
        rw [this]
        exact ⟨t, h1, .inl rfl⟩
    have hl : Γ.locals <+: (Γ.addLocal (symKey v.name) (.scalar (v.ty.getD .integer))).locals := List.prefix_append _ _
    have h0 : Mono X.fin.shared Γ w (w.set (.local Γ.locals.length) none) := by
      refine ⟨hk.trap, fun q hq => ?_⟩
      have hne : q ≠ .local Γ.locals.length := by
        rintro rfl
        exact absurd hq.lt (by omega)
      obtain ⟨q', c, h1, h2, h3⟩ := hq
      exact ⟨q', c, h1, by rw [set_other hne]; exact h2, h3⟩
    refine (evalAs_good F hX hwf' hb' e hu hd ha.2 ((hk.mono h0).grow hl)).then ?_
    rintro x w1 ⟨hx, hm1⟩
    have hm2 := h0.trans (hm1.shrink hl)
    have hw : Mono X.fin.shared Γ w (w1.set (.local Γ.locals.length) (some (.scalar x))) := by
      refine ⟨hm2.trap, fun q hq => ?_⟩
      have hne : q ≠ .local Γ.locals.length := by
        rintro rfl
        exact absurd hq.lt (by omega)
      obtain ⟨q', c, h1, h2, h3⟩ := hm2.mem q hq
      exact ⟨q', c, h1, by rw [set_other hne]; exact h2, h3⟩
    have hE : afterAssign Γ v e = Γ.addLocal (symKey v.name) (.scalar (newType Γ v e)) := by unfold afterAssign; rw [if_pos hn]
    refine ⟨hw, hw.trap, fun q hq => ?_⟩
    unfold knownAssign at hq
    rw [hE] at hq ⊢
    rcases List.mem_append.1 hq with hq | hq
    · have : q = .local Γ.locals.length := by
        unfold placeOf at hq
        split at hq
        next p pr hpp =>
          rw [List.mem_singleton] at hq
          subst hq
          exact new_place hn hpp
        · cases hq
      subst this
      exact set_typed mem_next (scalar_fits hx)
    · exact (hw.mem _ (hk.mem _ hq)).grow (List.prefix_append _ _)

theorem initOuts_good {Sh : Decls} : ∀ (vs : List VarRef) (Γ : Env) (w : World), w.trap = .stop →
    Mono Sh Γ w (initOuts Γ vs w) ∧ ∀ n, Γ.locals.length ≤ n → n < (vs.foldl defineOut Γ).locals.length →
      Typed Sh (vs.foldl defineOut Γ) (initOuts Γ vs w) (.local n)
  | [], Γ, w, ht => ⟨.refl ht, fun n h1 h2 => absurd h2 (by simp; omega)⟩
  | v :: vs, Γ, w, ht => by
    simp only [initOuts, List.foldl_cons]
    by_cases hc : nameRef Γ.locals Γ.shared v = .undefined ∧ Γ.callable (symKey v.name) = none
    · rw [if_pos hc]
      have hd : defineOut Γ v = Γ.addLocal (symKey v.name) (.scalar (v.ty.getD .integer)) := by unfold defineOut; rw [if_pos hc]
      have hl : Γ.locals <+: (defineOut Γ v).locals := by rw [hd]; exact List.prefix_append _ _
      have hs : Mono Sh (defineOut Γ v) w (w.set (.local Γ.locals.length) (some (.scalar (defaultVal (v.ty.getD .integer))))) := by
        rw [hd]; exact set_mono mem_next (scalar_fits (defaultVal_ty _)) ht
      obtain ⟨h1, h2⟩ := initOuts_good (Sh := Sh) vs (defineOut Γ v) (w.set (.local Γ.locals.length) (some (.scalar (defaultVal (v.ty.getD .integer))))) ht
      refine ⟨(hs.trans h1).shrink hl, fun n g1 g2 => ?_⟩
      by_cases he : n = Γ.locals.length
      · subst he
        refine (h1.mem _ ?_).grow (foldl_defineOut_prefix vs _)
        rw [hd]; exact set_typed mem_next (scalar_fits (defaultVal_ty _))
      · refine h2 n ?_ g2
        rw [hd]
        show (Γ.locals ++ [_]).length ≤ n
        simp; omega
    · rw [if_neg hc]
      have hd : defineOut Γ v = Γ := by unfold defineOut; rw [if_neg hc]
      rw [hd]
      exact initOuts_good vs Γ w ht

/-! ## Loops -/

theorem test_good {R : Env} {C : Surround} {Γ Γ' : Env} {K' : List Place} {w : World} {x : Out Val} {f : Bool → World → Res}
    (hx : Good (fun v w' => v.ty = .boolean ∧ Mono X.fin.shared Γ w w') x)
    (hf : ∀ b w1, Mono X.fin.shared Γ w w1 → Post X R C Γ Γ' K' w1 (f b w1)) : Post X R C Γ Γ' K' w (test x f) := by
  refine hx.then ?_
  rintro v w1 ⟨hv, hm⟩
  cases v <;> simp only [Val.ty] at hv <;> try (cases hv; done)
  exact (hf _ w1 hm).before hm

theorem before_good {R : Env} {C : Surround} {Γ : Env} {K : List Place} {stop : Bool} {guard : World → Out Val} {body : World → Res}
    (hg : ∀ w, Knows X Γ K w → Good (fun v w' => v.ty = .boolean ∧ Mono X.fin.shared Γ w w') (guard w))
    (hb : ∀ w, Knows X Γ K w → Post X R C Γ Γ K w (body w)) : ∀ (n : Nat) (w : World), Knows X Γ K w →
    Post X R C Γ Γ K w (before stop guard body n w)
  | 0, _, _ => trivial
  | n + 1, w, hk => by
    unfold before
    refine test_good (hg w hk) fun b w1 hm => ?_
    split
    · exact ⟨.refl hm.trap, hk.mono hm⟩
    · exact (hb w1 (hk.mono hm)).bind (List.prefix_refl _) fun w2 hk2 => before_good hg hb n w2 hk2

theorem behind_good {R : Env} {C : Surround} {Γ Γ' : Env} {K K' : List Place} {stop : Bool} {guard : World → Out Val} {body : World → Res} (hl : Γ.locals <+: Γ'.locals)
    (hg : ∀ w, Knows X Γ' K' w → Good (fun v w' => v.ty = .boolean ∧ Mono X.fin.shared Γ' w w') (guard w))
    (hb : ∀ w, Knows X Γ K w → Post X R C Γ Γ' K' w (body w)) : ∀ (n : Nat) (w : World), Knows X Γ K w →
    Post X R C Γ Γ K w (behind stop guard body n w)
  | 0, _, _ => trivial
  | n + 1, w, hk => by
    unfold behind
    have h := hb w hk
    generalize body w = r at h
    cases r with
    | exitDo | exitFor | leave | back | err | ended | going | jump | stuck => exact h
    | done w1 =>
      have hk1 := hk.mono h.1
      refine Post.before h.1 ?_
      refine test_good (Γ := Γ) ((hg w1 h.2).imp fun v w' hv => ⟨hv.1, hv.2.shrink hl⟩) fun b w2 hm => ?_
      split
      · exact ⟨.refl hm.trap, hk1.mono hm⟩
      · exact behind_good hl hg hb n w2 (hk1.mono hm)

theorem forever_good {R : Env} {C : Surround} {Γ : Env} {K : List Place} {body : World → Res}
    (hb : ∀ w, Knows X Γ K w → Post X R C Γ Γ K w (body w)) : ∀ (n : Nat) (w : World), Knows X Γ K w →
    Post X R C Γ Γ K w (forever body n w)
  | 0, _, _ => trivial
  | n + 1, w, hk => by
    unfold forever
    exact (hb w hk).bind (List.prefix_refl _) fun w2 hk2 => forever_good hb n w2 hk2

theorem forget_mono {Sh : Decls} {Γ : Env} {w : World} (ht : w.trap = .stop) : Mono Sh Γ w (forget Γ w) := by
  refine ⟨ht, fun p hp => ?_⟩
  cases p with
  | shared n => exact hp
  | «local» n =>
    have hn := hp.lt
    obtain ⟨q, c, h1, h2, h3⟩ := hp
    exact ⟨q, c, h1, by simp only [forget, if_pos hn]; exact h2, h3⟩

/-! ## SELECT -/

theorem compare_good {op : CaseRelOp} {l r : ExprType} (h : Comparable op l r) : binType (caseOp op) l r = some .boolean := by
  rcases h with ⟨h1, h2⟩ | ⟨h1, h2⟩ | ⟨h1, h2, h3⟩
  · rcases h1 with rfl | rfl <;> rcases h2 with rfl | rfl <;> cases op <;> rfl
  · subst h1 h2; cases op <;> rfl
  · subst h1 h2; rcases h3 with rfl | rfl <;> rfl

theorem guard_good (hX : X.Ok cl) {Γ : Env} (hwf : Wf X.up Γ) (hb : Below X.fin Γ) {K : List Place} {x : Val} {w : World} {g : CaseGuard} {gs : List CaseGuard}
    (ho : GuardOk Γ x.ty g) (hd : GuardDefined X.D Γ g) (hr : readsGuards X.U Γ K (g :: gs) = true) (hk : Knows X Γ K w) :
    Good (fun v w' => v.ty = .boolean ∧ Mono X.fin.shared Γ w w') (guardHolds F cl Γ x g w) := by
  cases g with
  | is op e =>
    obtain ⟨t', h1, h2⟩ := ho
    simp only [readsGuards, Bool.and_eq_true] at hr
    simp only [guardHolds]
    refine (eval_good F hX hwf hb e h1 hd hr.1 hk).bind ?_
    rintro y w1 ⟨rfl, hm⟩
    exact (bin_good (compare_good h2) hm.trap).imp fun v w' h => ⟨h.1, hm.trans (h.2.mono hm.trap)⟩
  | «to» lo hi =>
    obtain ⟨⟨t1, h1, h2⟩, t2, h3, h4⟩ := ho
    simp only [readsGuards, Bool.and_eq_true] at hr
    simp only [guardHolds]
    refine (eval_good F hX hwf hb lo h1 hd.1 hr.1.1 hk).bind ?_
    rintro y w1 ⟨rfl, hm⟩
    refine (bin_good (compare_good h2) hm.trap).bind ?_
    rintro a w2 ⟨ha, hs⟩
    have hm2 := hm.trans (hs.mono hm.trap)
    refine (eval_good F hX hwf hb hi h3 hd.2 hr.1.2 (hk.mono hm2)).bind ?_
    rintro z w3 ⟨rfl, hm3⟩
    refine (bin_good (compare_good h4) hm3.trap).bind ?_
    rintro b w4 ⟨hb, hs4⟩
    cases a <;> simp only [Val.ty] at ha <;> try (cases ha; done)
    cases b <;> simp only [Val.ty] at hb <;> try (cases hb; done)
    exact ⟨rfl, (hm2.trans hm3).trans (hs4.mono hm3.trap)⟩

theorem any_good (hX : X.Ok cl) {Γ : Env} (hwf : Wf X.up Γ) (hb : Below X.fin Γ) {K : List Place} {x : Val} : ∀ {gs : List CaseGuard} {w : World},
    (∀ g ∈ gs, GuardOk Γ x.ty g) → (∀ g ∈ gs, GuardDefined X.D Γ g) → readsGuards X.U Γ K gs = true → Knows X Γ K w →
    Good (fun _ w' => Mono X.fin.shared Γ w w') (anyHolds F cl Γ x gs w)
  | [], w, _, _, _, hk => hk.refl
  | g :: gs, w, ho, hd, hr, hk => by
    simp only [anyHolds]
    refine (guard_good hX hwf hb (ho g List.mem_cons_self) (hd g List.mem_cons_self) hr hk).bind ?_
    rintro v w1 ⟨hv, hm⟩
    have hr' : readsGuards X.U Γ K gs = true := by
      cases g <;> simp only [readsGuards, Bool.and_eq_true] at hr <;> exact hr.2
    cases v <;> simp only [Val.ty] at hv <;> try (cases hv; done)
    rename_i b
    cases b with
    | true => exact hm
    | false =>
      exact (any_good hX hwf hb (fun g h => ho g (List.mem_cons_of_mem _ h)) (fun g h => hd g (List.mem_cons_of_mem _ h)) hr' (hk.mono hm)).imp
        fun _ w' h => hm.trans h

theorem choose_good (hX : X.Ok cl) {Γ : Env} (hwf : Wf X.up Γ) (hb : Below X.fin Γ) {K : List Place} {x : Val} : ∀ (cs : Cases) {w : World},
    GuardsOk Γ x.ty cs → GuardsDefined X.D Γ cs → readsCases X.U Γ K cs = true → Knows X Γ K w →
    Good (fun k w' => (∀ i, k = some i → i < Cases.count cs) ∧ Mono X.fin.shared Γ w w') (choose F cl Γ x cs w)
  | .nil, w, _, _, _, hk => ⟨nofun, hk.refl⟩
  | .cons [] _ _, w, _, _, _, hk => ⟨fun i h => by cases h; simp [Cases.count], hk.refl⟩
  | .cons (g :: gs) _ rest, w, ho, hd, hr, hk => by
    simp only [choose]
    simp only [readsCases, Bool.and_eq_true] at hr
    refine (any_good hX hwf hb ho.1 hd.1 hr.1 hk).bind ?_
    intro b w1 hm
    split
    · exact ⟨fun i h => by cases h; simp [Cases.count], hm⟩
    · refine (choose_good hX hwf hb rest ho.2 hd.2 hr.2 (hk.mono hm)).bind ?_
      rintro k w2 ⟨h1, h2⟩
      refine ⟨fun i h => ?_, hm.trans h2⟩
      cases k with
      | none => cases h
      | some j =>
        cases h
        have := h1 j rfl
        simp only [Cases.count]
        omega

end

end EB.Settle
