import Verif.Lemmas.Settled
/-!
# Settled programs have a meaning: expressions
-/

namespace EB.Settle
open Spec

/-- What is fixed for a program: the built-in callables, what is relied on, the environment at the end of the text, the
callables that are defined. -/
structure Fixed where
  up : FMap Str Md
  U : Sure
  fin : Env
  D : Str → Prop
  lib : Lib

section
variable {X : Fixed} {F : FloatOps} {cl : Calls}

/-- What is assumed about it. -/
structure Fixed.Ok (X : Fixed) (cl : Calls) : Prop where
  replies : Replies X.up X.U X.lib
  calls : CallsGood X.U X.fin X.D X.lib cl
  shared : ∀ p ∈ X.U.shared, Place.isShared p = true

/-- The state knows what the list says. -/
structure Knows (X : Fixed) (Γ : Env) (K : List Place) (w : World) : Prop where
  trap : w.trap = .stop
  mem : ∀ p ∈ K, Typed X.fin.shared Γ w p

theorem Knows.mono {Γ : Env} {K : List Place} {w w' : World} (h : Knows X Γ K w) (hm : Mono X.fin.shared Γ w w') : Knows X Γ K w' :=
  ⟨hm.trap, fun p hp => hm.mem p (h.mem p hp)⟩

theorem Knows.same {Γ : Env} {K : List Place} {w w' : World} (h : Knows X Γ K w) (hm : Same w w') : Knows X Γ K w' := h.mono (hm.mono h.trap)

theorem Knows.refl {Γ : Env} {K : List Place} {w : World} (h : Knows X Γ K w) : Mono X.fin.shared Γ w w := .refl h.trap

theorem Knows.callsUser {Γ : Env} {K : List Place} {w : World} (h : Knows X Γ K w) (hs : ∀ p ∈ X.U.shared, Place.isShared p = true)
    (hc : callsUser X.U K = true) : ∀ p ∈ X.U.shared, Typed X.fin.shared X.fin w p := by
  intro p hp
  unfold Spec.callsUser at hc
  rw [List.all_eq_true] at hc
  have h1 := h.mem p (by simpa using hc p hp)
  have h2 := hs p hp
  cases p with
  | «local» => cases h2
  | shared n => exact h1

theorem paramValues_eq : ∀ ps : List VarRef,
    List.Forall₂ (fun (s : SingSyn) t => ∃ n sep, s = .reqValue n t sep) (paramValues ps) (ps.map fun p => p.ty.getD .integer)
  | [] => .nil
  | [p] => .cons ⟨_, _, rfl⟩ .nil
  | p :: q :: ps => by
    have := paramValues_eq (q :: ps)
    simp only [paramValues, List.map_cons] at this ⊢
    exact .cons ⟨_, _, rfl⟩ this

theorem isUser_user {Γ : Env} {k : Str} {ps : List ExprType} {r : Option ExprType} (h : Γ.callable k = some (.user ps r)) : Γ.isUser k = true := by
  unfold Env.isUser; rw [h]

theorem isUser_builtin {Γ : Env} {k : Str} {r : Option ExprType} (h : Γ.callable k = some (.builtin r)) : Γ.isUser k = false := by
  unfold Env.isUser; rw [h]

theorem isUser_none {Γ : Env} {k : Str} (h : Γ.callable k = none) : Γ.isUser k = false := by
  unfold Env.isUser; rw [h]

theorem declared_noArgs {name : VarRef} {params : List VarRef} (h : NoArgs (declared name params)) : params = [] := by
  rcases h with h | h
  · simp [declared] at h
  · simp [declared] at h
    match params, h with
    | [], _ => rfl
    | [_], h => simp [paramValues] at h
    | _ :: _ :: _, h => simp [paramValues] at h

theorem declared_syntax {name : VarRef} {params : List VarRef} {n : Nat} {syn : Syntax}
    (h : SyntaxFor (declared name params).syntaxes n syn) : syn = ⟨paramValues params, none⟩ := by
  cases h with
  | here => rfl
  | later _ h => cases h

theorem reads_var {Γ : Env} {K : List Place} {v : VarRef} {pos : LineCol} {p : Place} {q : Proto} (hr : reads X.U Γ K (.sym v pos) = true)
    (h : nameRef Γ.locals Γ.shared v = .var p q) : p ∈ K := by
  simp only [reads, h, decide_eq_true_eq] at hr
  exact hr

theorem passable_ok {U : Sure} {Γ : Env} {k : Str} {args : Args} {syn : Syntax} (h : passable U Γ k args = true) (hs : Γ.syn k args.length = some syn) :
    U.calls k args.length = true ∧ ends args = true ∧ given syn.singular args = true := by
  unfold passable at h
  rw [hs] at h
  simp only [Bool.and_eq_true] at h
  exact ⟨h.1.1, h.1.2, h.2⟩

theorem counts_one {ss : List Syntax} {n : Nat} {syn : Syntax} (h : SyntaxFor ss n syn) : ∀ r, syn.repeated = some r → r.requireOne = true → syn.singular.length < n := by
  intro r hr h1
  induction h with
  | here hc =>
    unfold Counts at hc
    rw [hr] at hc
    simp only [h1, if_true] at hc
    omega
  | later _ _ ih => exact ih hr

variable (F)

theorem valued_good {Sh : Decls} {Γ : Env} {w : World} {t : ExprType} {x : Out (Option Val)}
    (h : Good (fun v w' => v.map Val.ty = some t ∧ Mono Sh Γ w w') x) : Good (fun v w' => v.ty = t ∧ Mono Sh Γ w w') (x.bind valued) := by
  refine h.bind fun v w' hv => ?_
  cases v with
  | none => cases hv.1
  | some v => exact ⟨by simpa using hv.1, hv.2⟩

/-- There are no more arguments when none is written. -/
def Fills (noneYet : Bool) (syns : List SingSyn) (as : List (Arg × LineCol)) (args : Args) : Prop :=
  noneYet = false → syns = [] → (as = [] ↔ args.length = 0)

mutual
theorem eval_good (hX : X.Ok cl) {Γ : Env} (hwf : Wf X.up Γ) (hb : Below X.fin Γ) {K : List Place} (e : Expr) {t : ExprType} {w : World}
    (ht : WellTyped Γ e t) (hd : CallsDefined X.D Γ e) (hr : reads X.U Γ K e = true) (hk : Knows X Γ K w) :
    Good (fun v w' => v.ty = t ∧ Mono X.fin.shared Γ w w') (eval F cl Γ e w) := by
  match e with
  | .bool b pos => cases ht; simp only [eval]; exact ⟨rfl, hk.refl⟩
  | .dbl b pos => cases ht; simp only [eval]; exact ⟨rfl, hk.refl⟩
  | .int b pos => cases ht; simp only [eval]; exact ⟨rfl, hk.refl⟩
  | .text b pos => cases ht; simp only [eval]; exact ⟨rfl, hk.refl⟩
  | .sym v pos =>
    cases ht with
    | var hv =>
      obtain ⟨c, h1, h2⟩ := (hk.mem _ (reads_var hr hv)).content hb.shared hv
      simp only [eval, hv, h1]
      cases c with
      | arr => exact absurd h2.1 (by simp [Cell.Of])
      | scalar x => exact ⟨h2.1, hk.refl⟩
    | argless hv hm hret _ hno =>
      simp only [eval, hv]
      simp only [reads, hv] at hr
      cases hwf (symKey v.name) with
      | none h1 => rw [h1] at hm; cases hm
      | builtin md' _ h1 h2 h3 _ =>
        rw [h1] at hm; cases hm
        rw [h2, hret]
        simp only
        rw [isUser_builtin h2] at hr
        have := request_good (Sh := X.fin.shared) (Γ := Γ) (pos := pos) hX.replies h3 hr hk.trap (as := []) (by intro a ha; cases ha) (.inl ⟨rfl, hno, rfl⟩)
        rw [hX.calls.lib]
        rw [hret] at this
        exact valued_good this
      | user name params h0 h1 h2 _ =>
        rw [h1] at hm; cases hm
        have hp := declared_noArgs hno
        subst hp
        rw [h2]
        simp only [List.map_nil]
        rw [isUser_user h2] at hr
        have hret' : name.ty = some _ := hret
        have h3 := hb.user _ _ _ h2
        rw [hret'] at h3
        exact (hX.calls.fn _ _ _ [] pos w h3 (hd hv _ h1 rfl) rfl hk.trap (hk.callsUser hX.shared hr)).imp fun v w' h => ⟨h.1, h.2.mono Γ⟩
  | .un op e pos =>
    cases ht with
    | un h1 h2 =>
      simp only [eval]
      refine (eval_good hX hwf hb e h1 hd hr hk).bind ?_
      rintro x w1 ⟨rfl, hm⟩
      exact (un_good h2 hm.trap).imp fun v w' h => ⟨h.1, hm.trans (h.2.mono hm.trap)⟩
  | .bin op l r pos =>
    cases ht with
    | bin h1 h2 h3 =>
      simp only [eval]
      simp only [reads, Bool.and_eq_true] at hr
      refine (eval_good hX hwf hb l h1 hd.1 hr.1 hk).bind ?_
      rintro x w1 ⟨rfl, hm⟩
      refine (eval_good hX hwf hb r h2 hd.2 hr.2 (hk.mono hm)).bind ?_
      rintro y w2 ⟨rfl, hm2⟩
      exact (bin_good h3 hm2.trap).imp fun v w' h => ⟨h.1, (hm.trans hm2).trans (h.2.mono hm2.trap)⟩
  | .call v pos args =>
    simp only [eval]
    simp only [reads, Bool.and_eq_true] at hr
    cases ht with
    | call hm hret _ hno hsyn hargs =>
      cases hwf (symKey v.name) with
      | none h1 => rw [h1] at hm; cases hm
      | builtin md' _ h1 h2 h3 h4 =>
        rw [h1] at hm; cases hm
        rw [h2, hret]
        simp only
        rw [h4, (syntaxFor_iff _ _ _).2 hsyn]
        simp only
        rw [h2] at hr
        simp only at hr
        obtain ⟨p1, p2, p3⟩ := passable_ok hr.2 (by rw [h4]; exact (syntaxFor_iff _ _ _).2 hsyn)
        refine (builtin_good hX hwf hb args pos true hargs hd.2 hr.1 p2 p3 (fun _ => counts_one hsyn) hk).bind ?_
        rintro as w1 ⟨g1, g2, g3, _⟩
        have := request_good (pos := pos) hX.replies h3 p1 g3.trap g2 (.inr ⟨_, hsyn, g1⟩)
        rw [hX.calls.lib]
        rw [hret] at this
        exact (valued_good this).imp fun v w' h => ⟨h.1, g3.trans h.2⟩
      | user name params h0 h1 h2 _ =>
        rw [h1] at hm; cases hm
        rw [h2]
        simp only
        rw [h2] at hr
        simp only at hr
        have hs := declared_syntax hsyn
        subst hs
        refine (args_good hX hwf hb args (paramValues_eq params) hargs hd.2 hr.1 hk).bind ?_
        rintro vs w1 ⟨g1, g2⟩
        have hret' : name.ty = some _ := hret
        have h3 := hb.user _ _ _ h2
        rw [hret'] at h3
        exact (hX.calls.fn _ _ _ vs pos w1 h3 (hd.1 _ h1 rfl) g1 g2.trap ((hk.mono g2).callsUser hX.shared hr.2)).imp
          fun v w' h => ⟨h.1, g2.trans (h.2.mono Γ)⟩
    | elem hm hv hsubs =>
      have hc : Γ.callable (symKey v.name) = none := by
        cases hwf (symKey v.name) with
        | none _ h2 => exact h2
        | builtin md' _ h1 => rw [h1] at hm; cases hm
        | user name params _ h1 => rw [h1] at hm; cases hm
      rw [hc, hv]
      rw [hc, hv] at hr
      simp only [decide_eq_true_eq] at hr ⊢
      refine (subs_good hX hwf hb args hsubs hd.2 hr.1 hk).bind ?_
      rintro subs w1 ⟨g1, g2⟩
      obtain ⟨c, h1, h2⟩ := ((hk.mono g2).mem _ hr.2).content hb.shared hv
      rw [h1]
      cases c with
      | scalar => exact absurd h2.1 (by simp [Cell.Of])
      | arr ty dims elem =>
        simp only
        split
        · exact g2.trap
        · exact ⟨h2.1.2.2 _, g2⟩
termination_by structural e

theorem subs_good (hX : X.Ok cl) {Γ : Env} (hwf : Wf X.up Γ) (hb : Below X.fin Γ) {K : List Place} (args : Args) {w : World}
    (ht : SubsFit Γ args) (hd : ArgsDefined X.D Γ args) (hr : readsArgs X.U Γ K args = true) (hk : Knows X Γ K w) :
    Good (fun is w' => (is.length = args.length ∧ ∀ i ∈ is, i < 2 ^ 31) ∧ Mono X.fin.shared Γ w w') (evalSubs F cl Γ args w) := by
  match args with
  | .nil => simp only [evalSubs]; exact ⟨⟨rfl, nofun⟩, hk.refl⟩
  | .skip .. => cases ht
  | .cons e _ _ rest =>
    simp only [evalSubs]
    simp only [readsArgs, Bool.and_eq_true] at hr
    cases ht with
    | cons h1 h2 h3 =>
      refine (eval_good hX hwf hb e h1 hd.1 hr.1 hk).bind ?_
      rintro x w1 ⟨rfl, hm⟩
      refine (cast_good h2 hm.trap).bind ?_
      rintro y w2 ⟨hy, hs⟩
      cases y <;> simp only [Val.ty] at hy <;> try (cases hy; done)
      have hm2 := hm.trans (hs.mono hm.trap)
      refine (subs_good hX hwf hb rest h3 hd.2 hr.2 (hk.mono hm2)).bind ?_
      rintro is w3 ⟨⟨hl, hr⟩, hm3⟩
      refine ⟨⟨by simp [Args.length, hl], fun i hi => ?_⟩, hm2.trans hm3⟩
      rcases List.mem_cons.1 hi with rfl | hi
      · exact BitVec.toInt_lt
      · exact hr i hi
termination_by structural args

theorem args_good (hX : X.Ok cl) {Γ : Env} (hwf : Wf X.up Γ) (hb : Below X.fin Γ) {K : List Place} (args : Args) {w : World} {m : Prop}
    {syns : List SingSyn} {ts : List ExprType} (hts : List.Forall₂ (fun (s : SingSyn) t => ∃ n sep, s = .reqValue n t sep) syns ts)
    (ht : ArgsFit Γ none m syns args) (hd : ArgsDefined X.D Γ args) (hr : readsArgs X.U Γ K args = true) (hk : Knows X Γ K w) :
    Good (fun vs w' => vs.map Val.ty = ts ∧ Mono X.fin.shared Γ w w') (evalArgs F cl Γ ts args w) := by
  match args with
  | .nil =>
    cases ht with
    | done => cases hts; simp only [evalArgs]; exact ⟨rfl, hk.refl⟩
  | .skip .. =>
    cases hts with
    | nil => cases ht with | moreOmitted h => cases h
    | cons h _ => obtain ⟨n, sep, rfl⟩ := h; cases ht
  | .cons e _ _ rest =>
    cases hts with
    | nil =>
      cases ht with
      | more h => cases h
      | moreValue h => cases h
      | moreRef h => cases h
    | cons h hts =>
      obtain ⟨n, sep, rfl⟩ := h
      simp only [evalArgs]
      simp only [readsArgs, Bool.and_eq_true] at hr
      cases ht with
      | value h1 h2 _ h3 =>
        refine (eval_good hX hwf hb e h1 hd.1 hr.1 hk).bind ?_
        rintro x w1 ⟨rfl, hm⟩
        refine (cast_good h2 hm.trap).bind ?_
        rintro y w2 ⟨hy, hs⟩
        have hm2 := hm.trans (hs.mono hm.trap)
        refine (args_good hX hwf hb rest hts h3 hd.2 hr.2 (hk.mono hm2)).bind ?_
        rintro vs w3 ⟨hl, hm3⟩
        exact ⟨by simp [hl, hy], hm2.trans hm3⟩
termination_by structural args

theorem _root_.EB.Spec.SepFits.weaken {s : SepSyn} {a b : Prop} {sep : ArgSep} (h : SepFits s a sep) (hab : a → b) : SepFits s b sep := by
  cases s with
  | exactly => exact h.imp id fun h => ⟨h.1, hab h.2⟩
  | oneOf => exact h.imp (fun h => ⟨h.1, hab h.2⟩) id
  | «end» => trivial

theorem builtin_good (hX : X.Ok cl) {Γ : Env} (hwf : Wf X.up Γ) (hb : Below X.fin Γ) {K : List Place} (args : Args) {w : World} {m : Prop}
    {rep : Option RepSyn} {syns : List SingSyn} (pos : LineCol) (noneYet : Bool)
    (ht : ArgsFit Γ rep m syns args) (hd : ArgsDefined X.D Γ args) (hr : readsArgs X.U Γ K args = true) (he : ends args = true) (hg : given syns args = true)
    (hc : noneYet = true → ∀ r, rep = some r → r.requireOne = true → syns.length < args.length) (hk : Knows X Γ K w) :
    Good (fun as w' => Sent rep noneYet syns as ∧ Passes X.fin.shared Γ w' as ∧ Mono X.fin.shared Γ w w' ∧
      Fills noneYet syns as args) (evalBuiltin F cl Γ rep noneYet syns args pos w) := by
  -- an argument in front
  have front : ∀ {rest : Args} {ny : Bool} {syns' : List SingSyn} {a : Arg × LineCol} {w1 : World} (hm : Mono X.fin.shared Γ w w1)
      (ha : ∀ w', Mono X.fin.shared Γ w w' → Passes X.fin.shared Γ w' [a]) (_ : args.length ≠ 0)
      (_ : ∀ as, Sent rep ny syns' as → Fills ny syns' as rest → Sent rep noneYet syns (a :: as))
      (_ : Good (fun as w' => Sent rep ny syns' as ∧ Passes X.fin.shared Γ w' as ∧ Mono X.fin.shared Γ w1 w' ∧
        Fills ny syns' as rest) (evalBuiltin F cl Γ rep ny syns' rest pos w1)),
      Good (fun as w' => Sent rep noneYet syns as ∧ Passes X.fin.shared Γ w' as ∧ Mono X.fin.shared Γ w w' ∧
        Fills noneYet syns as args)
        ((evalBuiltin F cl Γ rep ny syns' rest pos w1).bind fun as w => .ok (a :: as) w) := by
    intro rest ny syns' a w1 hm ha hne hs hrest
    refine hrest.bind ?_
    rintro as w2 ⟨g1, g2, g3, g4⟩
    refine ⟨hs as g1 g4, ?_, hm.trans g3, fun _ _ => by simp [hne]⟩
    intro b hb p hp
    rcases List.mem_cons.1 hb with rfl | hb
    · exact ha w2 (hm.trans g3) _ (by simp) p hp
    · exact g2 b hb p hp
  have plain : ∀ {a : Arg × LineCol}, a.1.place = none → ∀ w', Mono X.fin.shared Γ w w' → Passes X.fin.shared Γ w' [a] := by
    intro a h w' _ b hb p hp
    rw [List.mem_singleton] at hb
    subst hb
    rw [h] at hp; cases hp
  have less : ∀ {s : SingSyn} {syns' : List SingSyn} {rest : Args} {m : Nat} (_ : m = rest.length + 1)
      (_ : noneYet = true → ∀ r, rep = some r → r.requireOne = true → (s :: syns').length < m),
      noneYet = true → ∀ r, rep = some r → r.requireOne = true → syns'.length < rest.length := by
    intro s syns' rest m hm h h1 r h2 h3
    have := h h1 r h2 h3
    simp only [List.length_cons] at this
    omega
  match args with
  | .nil =>
    cases ht with
    | done =>
      have one : ∀ r, rep = some r → noneYet = true → r.requireOne = false := by
        intro r hr hn
        cases h1 : r.requireOne with
        | false => rfl
        | true => exact absurd (hc hn r hr h1) (by simp [Args.length])
      simp only [evalBuiltin, unwritten]
      cases hrep : rep with
      | none => exact ⟨.done (fun r h => by cases h), (by intro a ha; cases ha), hk.refl, fun _ _ => by simp [Args.length]⟩
      | some r =>
        simp only
        cases hp : (r.plain || !noneYet) with
        | true =>
          rw [if_pos rfl]
          refine ⟨.done (fun r' h => ?_), (by intro a ha; cases ha), hk.refl, fun _ _ => by simp [Args.length]⟩
          cases h
          cases hn : noneYet with
          | false => exact .inr rfl
          | true =>
            rw [hn] at hp
            exact .inl ⟨by simpa using hp, one r hrep hn⟩
        | false =>
          simp only [Bool.or_eq_false_iff, Bool.not_eq_eq_eq_not, Bool.not_false] at hp
          obtain ⟨h1, rfl⟩ := hp
          refine ⟨.nothing rfl h1 (one r hrep rfl), plain (a := (.missing .end, pos)) rfl _ hk.refl, hk.refl, fun h => by cases h⟩
  | .skip sep sepPos rest =>
    simp only [readsArgs] at hr
    simp only [ends, Bool.and_eq_true, decide_eq_true_eq] at he
    cases ht with
    | omitted h1 h2 =>
      simp only [evalBuiltin]
      exact front hk.refl (plain rfl) (by simp [Args.length]) (fun as h _ => .omitted (h1.weaken fun h => h.1) h) (builtin_good hX hwf hb rest pos noneYet h2 hd hr he.2 hg (less rfl hc) hk)
    | anyOmitted h1 h2 =>
      rename_i missing _ _
      cases missing with
      | false => simp [given] at hg
      | true =>
      simp only [evalBuiltin]
      exact front hk.refl (plain rfl) (by simp [Args.length]) (fun as h _ => .anyOmitted h) (builtin_good hX hwf hb rest pos noneYet h2 hd hr he.2 hg (less rfl hc) hk)
    | moreOmitted h1 h2 h3 h4 =>
      simp only [evalBuiltin]
      refine front hk.refl (plain rfl) (by simp [Args.length]) (fun as h hl => ?_) (builtin_good hX hwf hb rest pos false h4 hd hr he.2 (by cases rest <;> rfl) (fun h => by cases h) hk)
      exact .moreOmitted h1 h2 h3 (he.1.trans (hl rfl rfl).symm) h
  | .cons e sep _ rest =>
    simp only [readsArgs, Bool.and_eq_true] at hr
    simp only [ends, Bool.and_eq_true, decide_eq_true_eq] at he
    cases ht with
    | value h1 h2 _ h3 =>
      simp only [evalBuiltin]
      refine (eval_good hX hwf hb e h1 hd.1 hr.1 hk).bind ?_
      rintro x w1 ⟨rfl, hm⟩
      refine (cast_good h2 hm.trap).bind ?_
      rintro y w2 ⟨hy, hs⟩
      have hm2 := hm.trans (hs.mono hm.trap)
      exact front hm2 (plain rfl) (by simp [Args.length]) (fun as h _ => .value hy h) (builtin_good hX hwf hb rest pos noneYet h3 hd.2 hr.2 he.2 hg (less rfl hc) (hk.mono hm2))
    | optional h1 h2 hsep h3 =>
      simp only [evalBuiltin]
      refine (eval_good hX hwf hb e h1 hd.1 hr.1 hk).bind ?_
      rintro x w1 ⟨rfl, hm⟩
      refine (cast_good h2 hm.trap).bind ?_
      rintro y w2 ⟨hy, hs⟩
      have hm2 := hm.trans (hs.mono hm.trap)
      exact front hm2 (plain rfl) (by simp [Args.length]) (fun as h _ => .optional hy (hsep.weaken fun h => h.1) h) (builtin_good hX hwf hb rest pos noneYet h3 hd.2 hr.2 he.2 hg (less rfl hc) (hk.mono hm2))
    | any h1 _ h3 =>
      simp only [evalBuiltin]
      refine (eval_good hX hwf hb e h1 hd.1 hr.1 hk).bind ?_
      rintro x w1 ⟨rfl, hm⟩
      exact front hm (plain rfl) (by simp [Args.length]) (fun as h _ => .any h) (builtin_good hX hwf hb rest pos noneYet h3 hd.2 hr.2 he.2 (by simpa [given] using hg) (less rfl hc) (hk.mono hm))
    | ref hv ha _ h3 =>
      have hin := reads_var hr.1 hv
      simp only [evalBuiltin, varArg, hv, Out.bind]
      refine front hk.refl (fun w' hm b hb' p hp => ?_) (by simp [Args.length]) (fun as h _ => .ref ha h) (builtin_good hX hwf hb rest pos noneYet h3 hd.2 hr.2 he.2 hg (less rfl hc) hk)
      rw [List.mem_singleton] at hb'
      subst hb'
      cases hp
      exact ⟨_, rfl, var_proto hb.shared hv, hm.mem _ (hk.mem _ hin)⟩
    | more h0 h1 h2 h3 h4 =>
      simp only [evalBuiltin, h0, h1]
      rw [← h0]
      refine (eval_good hX hwf hb e h2 hd.1 hr.1 hk).bind ?_
      rintro x w1 ⟨rfl, hm⟩
      refine front hm (plain rfl) (by simp [Args.length]) (fun as h hl => ?_) (builtin_good hX hwf hb rest pos false h4 hd.2 hr.2 he.2 (by cases rest <;> rfl) (fun h => by cases h) (hk.mono hm))
      exact .more h0 h1 h3 (he.1.trans (hl rfl rfl).symm) h
    | moreValue h0 h1 h2 h3 h4 h5 =>
      simp only [evalBuiltin, h0, h1]
      rw [← h0]
      refine (eval_good hX hwf hb e h2 hd.1 hr.1 hk).bind ?_
      rintro x w1 ⟨rfl, hm⟩
      refine (cast_good h3 hm.trap).bind ?_
      rintro y w2 ⟨hy, hs⟩
      have hm2 := hm.trans (hs.mono hm.trap)
      refine front hm2 (plain ?_) (by simp [Args.length]) (fun as h hl => ?_) (builtin_good hX hwf hb rest pos false h5 hd.2 hr.2 he.2 (by cases rest <;> rfl) (fun h => by cases h) (hk.mono hm2))
      · split <;> rfl
      · exact .moreValue h0 h1 hy h4 (he.1.trans (hl rfl rfl).symm) h
    | moreRef h0 h1 hv h3 h4 =>
      have hin := reads_var hr.1 hv
      simp only [evalBuiltin, h0, h1, varArg, hv, Out.bind]
      rw [← h0]
      refine front hk.refl (fun w' hm b hb' p hp => ?_) (by simp [Args.length]) (fun as h hl => ?_) (builtin_good hX hwf hb rest pos false h4 hd.2 hr.2 he.2 (by cases rest <;> rfl) (fun h => by cases h) hk)
      · rw [List.mem_singleton] at hb'
        subst hb'
        cases hp
        exact ⟨_, rfl, var_proto hb.shared hv, hm.mem _ (hk.mem _ hin)⟩
      · exact .moreRef h0 h1 h3 (he.1.trans (hl rfl rfl).symm) h
termination_by structural args
end

theorem evalAs_good (hX : X.Ok cl) {Γ : Env} (hwf : Wf X.up Γ) (hb : Below X.fin Γ) {K : List Place} (e : Expr) {t : ExprType} {w : World}
    (ht : Usable Γ e t) (hd : CallsDefined X.D Γ e) (hr : reads X.U Γ K e = true) (hk : Knows X Γ K w) :
    Good (fun v w' => v.ty = t ∧ Mono X.fin.shared Γ w w') (evalAs F cl Γ e t w) := by
  obtain ⟨t', h1, h2⟩ := ht
  refine (eval_good F hX hwf hb e h1 hd hr hk).bind ?_
  rintro x w1 ⟨rfl, hm⟩
  exact (cast_good h2 hm.trap).imp fun v w' h => ⟨h.1, hm.trans (h.2.mono hm.trap)⟩

end

end EB.Settle
