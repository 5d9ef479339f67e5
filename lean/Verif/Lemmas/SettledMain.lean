import Verif.Lemmas.SettledStmt
import Verif.Props.Stmt
/-!
# Settled programs have a meaning: whole statements and programs
-/

namespace EB.Settle
open Spec

section
variable {X : Fixed} {F : FloatOps} {cl : Calls}

/-! ## Lists of subscripts -/

theorem subs_ofList {Γ : Env} : ∀ (es : List Expr), (∀ e ∈ es, Usable Γ e .integer) → SubsFit Γ (Args.ofList es)
  | [], _ => .nil
  | e :: es, h => by
    obtain ⟨t, h1, h2⟩ := h e List.mem_cons_self
    exact .cons h1 h2 (subs_ofList es fun e he => h e (List.mem_cons_of_mem _ he))

theorem defined_ofList {Γ : Env} {D : Str → Prop} : ∀ (es : List Expr), (∀ e ∈ es, CallsDefined D Γ e) → ArgsDefined D Γ (Args.ofList es)
  | [], _ => trivial
  | e :: es, h => ⟨h e List.mem_cons_self, defined_ofList es fun e he => h e (List.mem_cons_of_mem _ he)⟩

theorem reads_ofList {U : Sure} {Γ : Env} {K : List Place} : ∀ (es : List Expr), es.all (reads U Γ K) = true → readsArgs U Γ K (Args.ofList es) = true
  | [], _ => rfl
  | e :: es, h => by
    simp only [List.all_cons, Bool.and_eq_true] at h
    simp only [Args.ofList, readsArgs, Bool.and_eq_true]
    exact ⟨h.1, reads_ofList es h.2⟩

theorem length_ofList : ∀ es : List Expr, (Args.ofList es).length = es.length
  | [] => rfl
  | e :: es => by simp [Args.ofList, Args.length, length_ofList es]

/-- Literal dimensions. -/
theorem literals_eval {Γ : Env} {w : World} : ∀ (es : List Expr) {ds : List Nat},
    (es.mapM fun d => match d with
      | .int i _ => some i.toInt.toNat
      | _ => none) = some ds →
    ∃ is, evalSubs F cl Γ (Args.ofList es) w = .ok is w ∧ is.map Int.toNat = ds
  | [], ds, h => by simp at h; subst h; exact ⟨[], rfl, rfl⟩
  | e :: es, ds, h => by
    simp only [List.mapM_cons, Option.bind_eq_bind] at h
    cases e <;> try (simp at h; done)
    rename_i i pos
    simp only [Option.bind_some, Option.pure_def, Option.bind_eq_some_iff, Option.some.injEq] at h
    obtain ⟨rest, h1, rfl⟩ := h
    obtain ⟨is, h2, h3⟩ := literals_eval (Γ := Γ) (w := w) es h1
    refine ⟨i.toInt :: is, ?_, by simp [h3]⟩
    simp only [Args.ofList, evalSubs, eval, Out.bind, castVal, h2]

theorem badDim_none : ∀ (is : List Int) (i : Nat), badDim i is = none → ∀ d ∈ is, 0 < d
  | [], _, _ => nofun
  | d :: ds, i, h => by
    unfold badDim at h
    split at h
    · cases h
    next hd =>
      intro x hx
      rcases List.mem_cons.1 hx with rfl | hx
      · omega
      · exact badDim_none ds (i + 1) h x hx

/-- The dimensions of a new array. -/
theorem dims_good (hX : X.Ok cl) {Γ : Env} (hwf : Wf X.up Γ) (hb : Below X.fin Γ) {K : List Place} {dims : List Expr} {w : World}
    (ht : ∀ d ∈ dims, Usable Γ d .integer) (hd : ∀ d ∈ dims, CallsDefined X.D Γ d) (hr : dims.all (reads X.U Γ K) = true)
    (hs : smallArray dims = true) (hk : Knows X Γ K w) :
    Good (fun is w' => (is.length = dims.length ∧ size (is.map Int.toNat) < 2 ^ 60) ∧ Mono X.fin.shared Γ w w')
      (evalSubs F cl Γ (Args.ofList dims) w) := by
  have h := subs_good F hX hwf hb (Args.ofList dims) (subs_ofList dims ht) (defined_ofList dims hd) (reads_ofList dims hr) hk
  rw [length_ofList] at h
  unfold smallArray at hs
  rw [Bool.or_eq_true] at hs
  rcases hs with hs | hs
  · refine h.imp fun is w' hi => ⟨⟨hi.1.1, ?_⟩, hi.2⟩
    simp only [decide_eq_true_eq] at hs
    obtain ⟨⟨h1, h2⟩, _⟩ := hi
    match is, h1, h2 with
    | [], _, _ => simp [size]
    | [i], _, h2 =>
      have := h2 i (by simp)
      simp only [List.map_cons, List.map_nil, size]
      omega
    | _ :: _ :: _, h1, _ => simp at h1; omega
  · split at hs
    next ds hds =>
      simp only [decide_eq_true_eq] at hs
      obtain ⟨is, h1, h2⟩ := literals_eval (F := F) (cl := cl) (Γ := Γ) (w := w) dims hds
      rw [h1] at h ⊢
      exact ⟨⟨h.1.1, by rw [h2]; exact hs⟩, h.2⟩
    · cases hs

/-! ## Statements that are not made of others -/

/-- The place of a new variable. -/
theorem next_proto {fin Γ : Env} {shared : Bool} {k : Str} {pr : Proto} (hb : Below fin (Γ.add shared k pr)) :
    protoAt fin.shared (Γ.add shared k pr) (Γ.next shared) = some pr := by
  cases shared with
  | false => exact mem_next
  | true =>
    obtain ⟨rest, hr⟩ := hb.shared
    simp only [Env.add, if_true] at hr
    simp [protoAt, Env.next, ← hr]

theorem new_good {R : Env} {C : Surround} {Γ : Env} {K : List Place} {shared : Bool} {k : Str} {pr : Proto} {c : Cell} {w w1 : World}
    (hb : Below X.fin (Γ.add shared k pr)) (hc : c.Fits pr) (hk : Knows X Γ K w) (hm : Mono X.fin.shared Γ w w1) :
    Post X R C Γ (Γ.add shared k pr) (Γ.next shared :: K) w (.done (w1.set (Γ.next shared) (some c))) := by
  have hp := next_proto hb
  have hl := env_add_prefix Γ shared k pr
  have hs := set_mono (w := w1) hp hc hm.trap
  refine ⟨hm.trans (hs.shrink hl), hm.trap, fun p hpp => ?_⟩
  rcases List.mem_cons.1 hpp with rfl | hpp
  · exact set_typed hp hc
  · exact hs.mem _ ((hm.mem _ (hk.mem _ hpp)).grow hl)

/-- The result of the callable, seen from its start. -/
theorem Typed.down {Sh : Decls} {R Γ : Env} {w : World} {n : Nat} (h : Typed Sh Γ w (.local n)) (hl : R.locals <+: Γ.locals) (hn : n < R.locals.length) :
    Typed Sh R w (.local n) := by
  obtain ⟨q, c, h1, h2, h3⟩ := h
  obtain ⟨rest, hr⟩ := hl
  refine ⟨q, c, ?_, h2, h3⟩
  simp only [protoAt, ← hr] at h1 ⊢
  rw [List.getElem?_append_left hn] at h1
  exact h1

theorem leave_good {R : Env} {C : Surround} {Γ : Env} {K : List Place} {w : World} (hR : Root R C Γ) (hl : canLeave C K = true) (hk : Knows X Γ K w) :
    Mono X.fin.shared Γ w w ∧ (C.result = true → Typed X.fin.shared R w (.local 0)) := by
  refine ⟨hk.refl, fun hc => ?_⟩
  unfold canLeave at hl
  rw [hc] at hl
  simp only [Bool.not_true, Bool.false_or, decide_eq_true_eq] at hl
  exact (hk.mem _ hl).down hR.locals (hR.result hc)

theorem mem_newLocals {Γ Γ' : Env} {p : Place} (h : p ∈ newLocals Γ Γ') : ∃ n, p = .local n ∧ Γ.locals.length ≤ n ∧ n < Γ'.locals.length := by
  unfold newLocals at h
  simp only [List.mem_map, List.mem_filter, List.mem_range, decide_eq_true_eq] at h
  obtain ⟨n, ⟨h1, h2⟩, rfl⟩ := h
  exact ⟨n, rfl, h2, h1⟩

theorem call_good (hX : X.Ok cl) {R : Env} {C : Surround} {Γ : Env} (hwf : Wf X.up Γ) {K : List Place} {v : VarRef} {pos : LineCol} {args : Args} {w : World}
    {A : Around} {L : Str → Prop} {n : Nat} (hb : Below X.fin (afterStmt Γ (.call v pos args))) (ho : StmtOk Γ A (.call v pos args))
    (hd : StmtResolved L X.D Γ (.call v pos args)) (hs : settled X.U C Γ K (.call v pos args) = true) (hk : Knows X Γ K w) :
    Post X R C Γ (afterStmt Γ (.call v pos args)) (known Γ K (.call v pos args)) w (execStmt F n cl Γ (.call v pos args) w) := by
  simp only [StmtOk] at ho
  obtain ⟨md, syn, hm, hret, hsyn, hargs⟩ := ho
  simp only [StmtResolved] at hd
  simp only [settled, Bool.and_eq_true] at hs
  simp only [known, execStmt]
  cases hwf (symKey v.name) with
  | none h1 => rw [h1] at hm; cases hm
  | user name params h0 h1 h2 h3 =>
    rw [h1] at hm; cases hm
    rw [h2] at hs ⊢
    simp only at hs
    have hE : afterStmt Γ (.call v pos args) = Γ := by simp only [afterStmt, h3]; rfl
    rw [hE] at hargs hd hs hb ⊢
    have hret' : name.ty = none := hret
    rw [hret']
    simp only
    have hk' : Knows X Γ (newLocals Γ Γ ++ K) w := by
      refine ⟨hk.trap, fun p hp => ?_⟩
      rcases List.mem_append.1 hp with hp | hp
      · obtain ⟨m, _, h4, h5⟩ := mem_newLocals hp
        omega
      · exact hk.mem _ hp
    have := declared_syntax hsyn
    subst this
    refine (args_good F hX hwf hb args (paramValues_eq params) hargs hd.2 hs.1 hk').then ?_
    rintro vs w1 ⟨g1, g2⟩
    have h4 := hb.user _ _ _ h2
    rw [hret'] at h4
    refine (hX.calls.sub _ _ vs pos w1 h4 (hd.1 _ h1 rfl) g1 g2.trap ((hk.mono g2).callsUser hX.shared hs.2)).then ?_
    intro _ w2 hw2
    exact ⟨g2.trans (hw2.mono Γ), hk'.mono (g2.trans (hw2.mono Γ))⟩
  | builtin md' _ h1 h2 h3 h4 =>
    rw [h1] at hm; cases hm
    rw [h2] at hs ⊢
    simp only at hs
    obtain ⟨p1, p2, p3⟩ := passable_ok hs.2 (by rw [h4]; exact (syntaxFor_iff _ _ _).2 hsyn)
    rw [hret]
    simp only
    rw [h4, (syntaxFor_iff _ _ _).2 hsyn]
    simp only
    obtain ⟨i1, i2⟩ := initOuts_good (Sh := X.fin.shared) (Γ.outs (symKey v.name) args) Γ w hk.trap
    have hE : afterStmt Γ (.call v pos args) = (Γ.outs (symKey v.name) args).foldl defineOut Γ := by simp only [afterStmt]
    rw [hE] at hargs hd hs hb ⊢
    have hl := foldl_defineOut_prefix (Γ.outs (symKey v.name) args) Γ
    generalize hΓ' : (Γ.outs (symKey v.name) args).foldl defineOut Γ = Γ' at hargs hd hs hb i2 hl ⊢
    have hwf' : Wf X.up Γ' := hΓ' ▸ hwf.outs _
    have hk' : Knows X Γ' (newLocals Γ Γ' ++ K) (initOuts Γ (Γ.outs (symKey v.name) args) w) := by
      refine ⟨i1.trap, fun p hp => ?_⟩
      rcases List.mem_append.1 hp with hp | hp
      · obtain ⟨m, rfl, h4, h5⟩ := mem_newLocals hp
        exact i2 m h4 h5
      · exact (i1.mem _ (hk.mem _ hp)).grow hl
    refine (builtin_good F hX hwf' hb args pos true hargs hd.2 hs.1 p2 p3 (fun _ => counts_one hsyn) hk').then ?_
    rintro as w1 ⟨g1, g2, g3, _⟩
    have := request_good (pos := pos) hX.replies h3 p1 g3.trap g2 (.inr ⟨_, hsyn, g1⟩)
    rw [hX.calls.lib]
    rw [hret] at this
    refine this.then ?_
    rintro _ w2 ⟨_, hm2⟩
    exact ⟨i1.trans ((g3.trans hm2).shrink hl), hk'.mono (g3.trans hm2)⟩

theorem store_good {R : Env} {C : Surround} {Γ : Env} {K : List Place} {v : VarRef} {p : Place} {t : ExprType} {m : Nat} {pos : LineCol} {x : Val} {is : List Int} {w : World}
    (hb : Below X.fin Γ) (hv : nameRef Γ.locals Γ.shared v = .var p (.array t m)) (hx : x.ty = t) (hp : p ∈ K) (hk : Knows X Γ K w) :
    Post X R C Γ Γ K w (store p pos x is w) := by
  obtain ⟨c, h1, h2⟩ := (hk.mem _ hp).content hb.shared hv
  unfold store
  rw [h1]
  cases c with
  | scalar => exact absurd h2.1 (by simp [Cell.Of])
  | arr ty dims elem =>
    simp only
    split
    · exact hk.trap
    · have hs := set_mono (w := w) (var_proto hb.shared hv) (c := .arr ty dims fun s => if s = is then x else elem s)
        (by
          obtain ⟨⟨g1, g2, g3⟩, g4⟩ := h2
          refine ⟨⟨g1, g2, fun s => ?_⟩, fun t' dims' elem' he => by cases he; exact g4 _ _ _ rfl⟩
          simp only
          split
          · exact hx
          · exact g3 s) hk.trap
      exact ⟨hs, hk.mono hs⟩

/-! ## All statements -/

theorem recover_good {R : Env} {C : Surround} {Γ Γ1 Γ' : Env} {K1 K' : List Place} {w : World} {s : Stmt} {rest : Stmts} {r : Res} {f : World → Res}
    (h : Post X R C Γ Γ1 K1 w r) (hl : Γ.locals <+: Γ1.locals) (hf : ∀ w1, Knows X Γ1 K1 w1 → Post X R C Γ1 Γ' K' w1 (f w1)) :
    Post X R C Γ Γ' K' w (recover s rest f r) := by
  have := h.bind hl hf
  cases r with
  | err pos e w1 =>
    have ht : w1.trap = .stop := h
    simp only [recover, ht]
    exact h
  | done | exitDo | exitFor | leave | back | ended | going | jump | stuck => exact this

variable {R : Env} {n : Nat} {L : Str → Prop}

mutual
theorem stmt_good (hX : X.Ok cl) {C : Surround} {A : Around} {Γ : Env} {K : List Place} (s : Stmt) {w : World} (hR : Root R C Γ) (hwf : Wf X.up Γ)
    (hb : Below X.fin (afterStmt Γ s)) (ho : StmtOk Γ A s) (hd : StmtResolved L X.D Γ s) (hs : settled X.U C Γ K s = true) (hk : Knows X Γ K w) :
    Post X R C Γ (afterStmt Γ s) (known Γ K s) w (execStmt F n cl Γ s w) := by
  have hb0 : Below X.fin Γ := hb.stmt hwf ho
  match s with
  | .assign v pos e =>
    simp only [afterStmt, known, execStmt]
    simp only [StmtOk] at ho
    simp only [StmtResolved] at hd
    simp only [settled] at hs
    exact assign_good hX hwf hb0 ho hd hs hk
  | .arrayAssign v pos subs e =>
    simp only [afterStmt, known, execStmt]
    simp only [StmtOk] at ho
    simp only [StmtResolved] at hd
    simp only [settled, Bool.and_eq_true] at hs
    obtain ⟨p, t, h1, h2, h3⟩ := ho
    have hp : p ∈ K := by
      have := hs.2
      unfold placeOf at this
      rw [h1] at this
      simpa using this
    rw [h1]
    simp only
    refine (evalAs_good F hX hwf hb0 e h2 hd.1 hs.1.1 hk).then ?_
    rintro x w1 ⟨hx, hm⟩
    refine (subs_good F hX hwf hb0 (Args.ofList subs) (subs_ofList _ h3) (defined_ofList _ hd.2) (reads_ofList _ hs.1.2) (hk.mono hm)).then ?_
    rintro is w2 ⟨_, hm2⟩
    exact (store_good hb0 h1 hx hp (hk.mono (hm.trans hm2))).before (hm.trans hm2)
  | .call v pos args => exact call_good (L := L) hX hwf hb ho hd hs hk
  | .callable name pos params body epos =>
    simp only [execStmt, known]
    refine ⟨hk.refl, hk.grow ?_⟩
    simp only [afterStmt]
    exact List.prefix_refl _
  | .data .. => exact ⟨hk.refl, hk⟩
  | .declare name pos params => exact ⟨hk.refl, hk.grow (List.prefix_refl _)⟩
  | .dim name pos shared ty =>
    simp only [afterStmt] at hb
    simp only [afterStmt, known, execStmt]
    exact new_good hb (scalar_fits (defaultVal_ty ty)) hk hk.refl
  | .dimArray name pos shared dims ty =>
    simp only [StmtOk] at ho
    simp only [StmtResolved] at hd
    simp only [settled, Bool.and_eq_true] at hs
    simp only [afterStmt] at hb ho hd
    simp only [afterStmt, known, execStmt]
    have hl := env_add_prefix Γ shared (symKey name) (.array ty dims.length)
    refine (dims_good hX (hwf.add shared (symKey name) (.array ty dims.length)) hb ho.2.2.2 hd hs.2 hs.1 (hk.grow hl)).then ?_
    rintro is w1 ⟨⟨g1, g2⟩, hm⟩
    have hm' := hm.shrink hl
    unfold allocate
    split
    · exact hm.trap
    next hbd =>
      rw [if_neg (by omega)]
      split
      · exact hm.trap
      · have hm2 : Mono X.fin.shared Γ w { w1 with room := w1.room - 1 } := ⟨hm'.trap, hm'.mem⟩
        refine new_good hb ⟨⟨rfl, by simp [g1], fun _ => defaultVal_ty ty⟩, fun t d e he => ?_⟩ hk hm2
        cases he
        refine ⟨fun h0 => ?_, fun d hd => ?_⟩
        · have := congrArg List.length h0
          simp only [List.length_map, List.length_nil] at this
          have := ho.2.1
          omega
        rw [List.mem_map] at hd
        obtain ⟨i, h1, rfl⟩ := hd
        have := badDim_none _ _ hbd i h1
        omega
  | .doLoop guard body =>
    simp only [afterStmt] at hb ⊢
    simp only [StmtOk] at ho
    simp only [StmtResolved] at hd
    simp only [settled, Bool.and_eq_true] at hs
    simp only [known]
    have hR' : Root R { C with inDo := true } Γ := ⟨hR.locals, hR.result⟩
    have hbody : ∀ w, Knows X Γ K w →
        Post X R { C with inDo := true } Γ (afterStmts Γ body) (knowns Γ K body) w (execStmts F n cl Γ body w) := fun w hk =>
      stmts_good hX body hR' hwf hb ho.2 hd.2 hs.2 hk
    have hfin : ∀ {r}, Post X R { C with inDo := true } Γ Γ K w r → Post X R C Γ (afterStmts Γ body) K w (catchDo r) := fun h =>
      (h.catchDo hk).imp fun w' _ h => h.grow (afterStmts_prefix body Γ)
    have hpre : ∀ (stop : Bool) {e : Expr}, WellTyped Γ e .boolean → CallsDefined X.D Γ e → reads X.U Γ K e = true →
        Post X R { C with inDo := true } Γ Γ K w
          (before stop (fun w => evalAs F cl Γ e .boolean (forget Γ w)) (fun w => execStmts F n cl Γ body w) n w) := fun stop e h1 h2 h3 =>
      before_good (fun w hk => (evalAs_good F hX hwf hb0 e ⟨_, h1, .inl rfl⟩ h2 h3 (hk.mono (forget_mono hk.trap))).imp
        fun v w' h => ⟨h.1, (forget_mono hk.trap).trans h.2⟩) (fun w hk => (hbody w hk).round hk) n w hk
    have hpost : ∀ (stop : Bool) {e : Expr}, WellTyped (afterStmts Γ body) e .boolean → CallsDefined X.D (afterStmts Γ body) e →
        reads X.U (afterStmts Γ body) (knowns Γ K body) e = true →
        Post X R { C with inDo := true } Γ Γ K w
          (behind stop (fun w => evalAs F cl (afterStmts Γ body) e .boolean w) (fun w => execStmts F n cl Γ body (forget Γ w)) n w) := fun stop e h1 h2 h3 =>
      behind_good (afterStmts_prefix body Γ) (fun w hk => evalAs_good F hX (wf_stmts hwf body) hb e ⟨_, h1, .inl rfl⟩ h2 h3 hk)
        (fun w hk => (hbody _ (hk.mono (forget_mono hk.trap))).before (forget_mono hk.trap)) n w hk
    cases guard with
    | infinite =>
      simp only [execStmt]
      exact hfin (forever_good (fun w hk => ((hbody _ (hk.mono (forget_mono hk.trap))).before (forget_mono hk.trap)).round hk) n w hk)
    | preUntil e => simp only [execStmt]; exact hfin (hpre true ho.1 hd.1 hs.1)
    | preWhile e => simp only [execStmt]; exact hfin (hpre false ho.1 hd.1 hs.1)
    | postUntil e => simp only [execStmt]; exact hfin (hpost true ho.1 hd.1 hs.1)
    | postWhile e => simp only [execStmt]; exact hfin (hpost false ho.1 hd.1 hs.1)
  | .end code pos =>
    cases code with
    | none => simp only [execStmt]; exact trivial
    | some e =>
      simp only [execStmt]
      simp only [StmtOk] at ho
      simp only [StmtResolved] at hd
      simp only [settled] at hs
      refine (evalAs_good F hX hwf hb0 e (ho e rfl).1 (hd e rfl) hs hk).then ?_
      rintro x w1 ⟨hx, hm⟩
      cases x <;> simp only [Val.ty] at hx <;> try (cases hx; done)
      simp only [finish]
      split
      · trivial
      · exact hm.trap
  | .exitDo pos => simp only [settled] at hs; simp only [execStmt]; exact ⟨hs, hk.refl⟩
  | .exitFor pos => simp only [settled] at hs; simp only [execStmt]; exact ⟨hs, hk.refl⟩
  | .exitFunction pos => simp only [settled] at hs; simp only [execStmt]; exact leave_good hR hs hk
  | .exitSub pos => simp only [settled] at hs; simp only [execStmt]; exact leave_good hR hs hk
  | .ret pos =>
    simp only [settled] at hs
    simp only [execStmt]
    split
    · exact leave_good hR hs hk
    · exact hk.trap
  | .gosub .. => simp [settled] at hs
  | .goto .. => simp [settled] at hs
  | .label .. => exact ⟨hk.refl, hk⟩
  | .onError o =>
    cases o with
    | reset pos =>
      simp only [execStmt, afterStmt, known, trapOf]
      exact ⟨⟨rfl, fun _ h => h⟩, rfl, hk.mem⟩
    | goto => simp [settled] at hs
    | resumeNext => simp [settled] at hs
  | .forLoop iter pos double start stop next body =>
    simp only [afterStmt] at hb ⊢
    simp only [StmtOk] at ho
    simp only [StmtResolved] at hd
    simp only [settled, Bool.and_eq_true] at hs
    simp only [known, execStmt]
    obtain ⟨_, o1, o2, o3, o4⟩ := ho
    obtain ⟨d1, d2, d3, d4⟩ := hd
    obtain ⟨⟨⟨s1, s2⟩, s3⟩, s4⟩ := hs
    have w1 := hwf.forVar iter double
    have l1 := forVar_prefix Γ iter double
    generalize forVar Γ iter double = Γ1 at *
    have w2 := w1.assign iter start
    have l2 := afterAssign_prefix Γ1 iter start
    have b3 := hb.assign
    have b2 : Below X.fin (afterAssign Γ1 iter start) := b3.stmts w2 o3
    have b1 := b2.assign
    refine ((assign_good hX w1 b1 o1 d1 s1 (hk.grow l1)).bind l2 ?_).shrink l1
    generalize hK2 : knownAssign Γ1 K iter start = K2 at *
    generalize afterAssign Γ1 iter start = Γ2 at *
    intro w hk2
    have hR2 : Root R { C with inFor := true } Γ2 := ⟨hR.locals.trans (l1.trans l2), hR.result⟩
    have l3 := afterStmts_prefix body Γ2
    have hbody : ∀ w, Knows X Γ2 K2 w → Post X R { C with inFor := true } Γ2 Γ2 K2 w
        ((execStmts F n cl Γ2 body w).bind (assign F cl (afterStmts Γ2 body) iter next)) := fun w hk2 =>
      ((stmts_good hX body hR2 w2 b3 o3 d3 s3 hk2).bind l3 fun w3 hk3 =>
        assign_good hX (wf_stmts w2 body) b3 o4 d4 s4 hk3).round hk2
    refine (((before_good (fun w hk => (evalAs_good F hX w2 b2 stop ⟨_, o2, .inl rfl⟩ d2 s2 (hk.mono (forget_mono hk.trap))).imp
        fun v w' h => ⟨h.1, (forget_mono hk.trap).trans h.2⟩) hbody n w hk2).catchFor hk2)).imp fun w' _ h => ?_
    exact h.grow (l3.trans (afterAssign_prefix _ iter next))
  | .ifs branches =>
    simp only [afterStmt] at hb ⊢
    simp only [StmtOk] at ho
    simp only [StmtResolved] at hd
    simp only [settled] at hs
    simp only [known, execStmt]
    exact branches_good hX branches hR hwf hb ho hd hs hk
  | .select e cases pos =>
    simp only [afterStmt] at hb ⊢
    simp only [StmtOk] at ho
    simp only [StmtResolved] at hd
    simp only [settled, Bool.and_eq_true] at hs
    simp only [known, execStmt]
    obtain ⟨⟨t, h1, h2⟩, h3⟩ := ho
    refine (eval_good F hX hwf hb0 e h1 hd.1 hs.1.1 hk).then ?_
    rintro x w1 ⟨rfl, hm⟩
    refine (choose_good hX hwf hb0 cases h2 hd.2.1 hs.1.2 (hk.mono hm)).then ?_
    rintro k w2 ⟨hi, hm2⟩
    have hk2 := hk.mono (hm.trans hm2)
    cases k with
    | none => exact ⟨hm.trans hm2, hk2.grow (afterCases_prefix cases Γ)⟩
    | some i => exact (cases_good hX cases hR hwf hb h3 hd.2.2 hs.2 hk2 i (hi i rfl)).before (hm.trans hm2)
  | .whileLoop e body =>
    simp only [afterStmt] at hb ⊢
    simp only [StmtOk] at ho
    simp only [StmtResolved] at hd
    simp only [settled, Bool.and_eq_true] at hs
    simp only [known, execStmt]
    have hbody : ∀ w, Knows X Γ K w → Post X R C Γ Γ K w (execStmts F n cl Γ body w) := fun w hk =>
      (stmts_good hX body hR hwf hb ho.2 hd.2 hs.2 hk).round hk
    refine (before_good (fun w hk => (evalAs_good F hX hwf hb0 e ⟨_, ho.1, .inl rfl⟩ hd.1 hs.1 (hk.mono (forget_mono hk.trap))).imp
        fun v w' h => ⟨h.1, (forget_mono hk.trap).trans h.2⟩) hbody n w hk).imp fun w' _ h => ?_
    exact h.grow (afterStmts_prefix body Γ)
termination_by structural s

theorem stmts_good (hX : X.Ok cl) {C : Surround} {A : Around} {Γ : Env} {K : List Place} (ss : Stmts) {w : World} (hR : Root R C Γ) (hwf : Wf X.up Γ)
    (hb : Below X.fin (afterStmts Γ ss)) (ho : StmtsOk Γ A ss) (hd : StmtsResolved L X.D Γ ss) (hs : settleds X.U C Γ K ss = true) (hk : Knows X Γ K w) :
    Post X R C Γ (afterStmts Γ ss) (knowns Γ K ss) w (execStmts F n cl Γ ss w) := by
  match ss with
  | .nil => simp only [afterStmts, knowns, execStmts]; exact ⟨hk.refl, hk⟩
  | .cons s rest =>
    simp only [afterStmts] at hb ⊢
    simp only [StmtsOk] at ho
    simp only [StmtsResolved] at hd
    simp only [settleds, Bool.and_eq_true] at hs
    simp only [knowns, execStmts]
    have hl := afterStmt_prefix s Γ
    have hw1 := wf_stmt hwf s
    refine recover_good (stmt_good hX s hR hwf (hb.stmts hw1 ho.2) ho.1 hd.1 hs.1 hk) hl fun w1 hk1 => ?_
    exact stmts_good hX rest (hR.grow hl) hw1 hb ho.2 hd.2 hs.2 hk1
termination_by structural ss

theorem branches_good (hX : X.Ok cl) {C : Surround} {A : Around} {Γ : Env} {K : List Place} (bs : Branches) {w : World} (hR : Root R C Γ) (hwf : Wf X.up Γ)
    (hb : Below X.fin (afterBranches Γ bs)) (ho : BranchesOk Γ A bs) (hd : BranchesResolved L X.D Γ bs) (hs : settledBranches X.U C Γ K bs = true)
    (hk : Knows X Γ K w) : Post X R C Γ (afterBranches Γ bs) (knownBranches Γ K bs) w (execBranches F n cl Γ bs w) := by
  match bs with
  | .nil => simp only [afterBranches, knownBranches, execBranches]; exact ⟨hk.refl, hk⟩
  | .cons guard body rest =>
    simp only [afterBranches] at hb ⊢
    simp only [BranchesOk] at ho
    simp only [BranchesResolved] at hd
    simp only [settledBranches, Bool.and_eq_true] at hs
    have hl := afterStmts_prefix body Γ
    have hl2 := afterBranches_prefix rest (afterStmts Γ body)
    have hw1 := wf_stmts hwf body
    have hb1 := hb.branches hw1 ho.2.2
    have h1 := fun w1 hk1 => stmts_good (w := w1) hX body hR hwf hb1 ho.2.1 hd.2.1 hs.1.2 hk1
    by_cases ht : ∃ pos, guard = .bool true pos
    · obtain ⟨pos, rfl⟩ := ht
      have : execBranches F n cl Γ (.cons (.bool true pos) body rest) w = execStmts F n cl Γ body w := by
        simp only [execBranches, test, evalAs, eval, Out.bind, castVal, Out.then]
        rfl
      rw [this]
      simp only [knownBranches]
      exact (h1 w hk).imp fun w' _ h => h.grow hl2
    · have hK : knownBranches Γ K (.cons guard body rest) = (knowns Γ K body).filter fun p => decide (p ∈ knownBranches (afterStmts Γ body) K rest) := by
        cases guard with
        | bool b pos =>
          cases b with
          | true => exact absurd ⟨pos, rfl⟩ ht
          | false => simp only [knownBranches]
        | _ => simp only [knownBranches]
      rw [hK]
      simp only [execBranches]
      refine test_good (evalAs_good F hX hwf (hb1.stmts hwf ho.2.1) guard ⟨_, ho.1, .inl rfl⟩ hd.1 hs.1.1 hk) fun b w1 hm => ?_
      have hk1 := hk.mono hm
      split
      · exact (h1 w1 hk1).imp fun w' _ h => (h.sub fun p hp => (List.mem_filter.1 hp).1).grow hl2
      · exact ((branches_good hX rest (hR.grow hl) hw1 hb ho.2.2 hd.2.2 hs.2 (hk1.grow hl)).imp fun w' _ h =>
          h.sub fun p hp => by simpa using (List.mem_filter.1 hp).2).shrink hl
termination_by structural bs

theorem cases_good (hX : X.Ok cl) {C : Surround} {A : Around} {Γ : Env} {K : List Place} (cs : Cases) {w : World} (hR : Root R C Γ) (hwf : Wf X.up Γ)
    (hb : Below X.fin (afterCases Γ cs)) (ho : CasesOk Γ A cs) (hd : CasesResolved L X.D Γ cs) (hs : settledCases X.U C Γ K cs = true)
    (hk : Knows X Γ K w) (i : Nat) (hi : i < Cases.count cs) : Post X R C Γ (afterCases Γ cs) K w (execCases F n cl Γ cs i w) := by
  match cs with
  | .nil => simp [Cases.count] at hi
  | .cons gs body rest =>
    simp only [afterCases] at hb ⊢
    simp only [CasesOk] at ho
    simp only [CasesResolved] at hd
    simp only [settledCases, Bool.and_eq_true] at hs
    have hl := afterStmts_prefix body Γ
    have hw1 := wf_stmts hwf body
    have hb1 := hb.cases hw1 ho.2
    cases i with
    | zero =>
      simp only [execCases]
      exact ((stmts_good hX body hR hwf hb1 ho.1 hd.1 hs.1 hk).round hk).imp fun w' _ h => h.grow (hl.trans (afterCases_prefix rest _))
    | succ j =>
      simp only [execCases]
      simp only [Cases.count] at hi
      exact (cases_good hX rest (hR.grow hl) hw1 hb ho.2 hd.2 hs.2 (hk.grow hl) j (by omega)).shrink hl
termination_by structural cs
end


/-! ## Definitions -/

/-- What is known about a definition of the program. -/
structure DefGood (X : Fixed) (L : Str → Prop) (k : Str) (f : Def) (name : VarRef) (params : List VarRef) (A : Around) : Prop where
  key : symKey name.name = k
  ret : f.ret = name.ty
  locals : f.env.locals = (match name.ty with
        | some t => [(symKey name.name, .scalar t)]
        | none => []) ++ params.map fun p => (symKey p.name, .scalar (p.ty.getD .integer))
  wf : Wf X.up f.env
  below : Below X.fin (afterStmts f.env f.body)
  ok : StmtsOk f.env A f.body
  resolved : StmtsResolved L X.D f.env f.body
  settled : settleds X.U ⟨false, false, name.ty.isSome⟩ f.env (knownStart X.U name f.env) f.body = true
  leaves : canLeave ⟨false, false, name.ty.isSome⟩ (knowns f.env (knownStart X.U name f.env) f.body) = true
  sig : X.fin.callable k = some (.user (params.map fun p => p.ty.getD .integer) name.ty)

mutual
theorem defs_stmt {C : Surround} {A : Around} {Γ : Env} {K : List Place} (s : Stmt) (hwf : Wf X.up Γ)
    (hb : Below X.fin (afterStmt Γ s)) (ho : StmtOk Γ A s) (hd : StmtResolved L X.D Γ s) (hs : settled X.U C Γ K s = true) :
    ∀ k f, (k, f) ∈ defsStmt Γ s → ∃ name params A, DefGood X L k f name params A := by
  intro k f hm
  match s with
  | .callable name pos params body epos =>
    simp only [defsStmt, List.mem_singleton, Prod.mk.injEq] at hm
    obtain ⟨rfl, rfl⟩ := hm
    simp only [StmtOk] at ho
    simp only [StmtResolved] at hd
    simp only [settled, Bool.and_eq_true] at hs
    simp only [afterStmt] at hb
    have hw : Wf X.up ((Γ.declare name params).body name params) := (hwf.declare name params).body name params
    have hb' : Below X.fin (afterStmts ((Γ.declare name params).body name params) body) := ⟨hb.shared, hb.user⟩
    have hb0 := hb'.stmts hw ho.2.2.2
    refine ⟨name, params, _, rfl, rfl, rfl, hw, hb', ho.2.2.2, hd, hs.1, hs.2, hb0.user _ _ _ ?_⟩
    simp [Env.body, Env.declare]
  | .doLoop guard body =>
    simp only [defsStmt] at hm
    simp only [afterStmt] at hb
    simp only [StmtOk] at ho
    simp only [StmtResolved] at hd
    simp only [settled, Bool.and_eq_true] at hs
    exact defs_stmts body hwf hb ho.2 hd.2 hs.2 k f hm
  | .forLoop iter pos double start stop next body =>
    simp only [defsStmt] at hm
    simp only [afterStmt] at hb
    simp only [StmtOk] at ho
    simp only [StmtResolved] at hd
    simp only [settled, Bool.and_eq_true] at hs
    exact defs_stmts body ((hwf.forVar iter double).assign iter start) hb.assign ho.2.2.2.1 hd.2.2.1 hs.1.2 k f hm
  | .ifs branches =>
    simp only [defsStmt] at hm
    simp only [afterStmt] at hb
    simp only [StmtOk] at ho
    simp only [StmtResolved] at hd
    simp only [settled] at hs
    exact defs_branches branches hwf hb ho hd hs k f hm
  | .select e cases pos =>
    simp only [defsStmt] at hm
    simp only [afterStmt] at hb
    simp only [StmtOk] at ho
    simp only [StmtResolved] at hd
    simp only [settled, Bool.and_eq_true] at hs
    exact defs_cases cases hwf hb ho.2 hd.2.2 hs.2 k f hm
  | .whileLoop e body =>
    simp only [defsStmt] at hm
    simp only [afterStmt] at hb
    simp only [StmtOk] at ho
    simp only [StmtResolved] at hd
    simp only [settled, Bool.and_eq_true] at hs
    exact defs_stmts body hwf hb ho.2 hd.2 hs.2 k f hm
  | .assign .. | .call .. | .declare .. | .dim .. | .dimArray .. | .arrayAssign .. | .data .. | .end .. | .exitDo ..
  | .exitFor .. | .exitFunction .. | .exitSub .. | .gosub .. | .goto .. | .label .. | .onError .. | .ret .. =>
    simp [defsStmt] at hm
termination_by structural s

theorem defs_stmts {C : Surround} {A : Around} {Γ : Env} {K : List Place} (ss : Stmts) (hwf : Wf X.up Γ)
    (hb : Below X.fin (afterStmts Γ ss)) (ho : StmtsOk Γ A ss) (hd : StmtsResolved L X.D Γ ss) (hs : settleds X.U C Γ K ss = true) :
    ∀ k f, (k, f) ∈ defsStmts Γ ss → ∃ name params A, DefGood X L k f name params A := by
  intro k f hm
  match ss with
  | .nil => simp [defsStmts] at hm
  | .cons s rest =>
    simp only [defsStmts, List.mem_append] at hm
    simp only [afterStmts] at hb
    simp only [StmtsOk] at ho
    simp only [StmtsResolved] at hd
    simp only [settleds, Bool.and_eq_true] at hs
    have hw1 := wf_stmt hwf s
    rcases hm with hm | hm
    · exact defs_stmt s hwf (hb.stmts hw1 ho.2) ho.1 hd.1 hs.1 k f hm
    · exact defs_stmts rest hw1 hb ho.2 hd.2 hs.2 k f hm
termination_by structural ss

theorem defs_branches {C : Surround} {A : Around} {Γ : Env} {K : List Place} (bs : Branches) (hwf : Wf X.up Γ)
    (hb : Below X.fin (afterBranches Γ bs)) (ho : BranchesOk Γ A bs) (hd : BranchesResolved L X.D Γ bs) (hs : settledBranches X.U C Γ K bs = true) :
    ∀ k f, (k, f) ∈ defsBranches Γ bs → ∃ name params A, DefGood X L k f name params A := by
  intro k f hm
  match bs with
  | .nil => simp [defsBranches] at hm
  | .cons guard body rest =>
    simp only [defsBranches, List.mem_append] at hm
    simp only [afterBranches] at hb
    simp only [BranchesOk] at ho
    simp only [BranchesResolved] at hd
    simp only [settledBranches, Bool.and_eq_true] at hs
    have hw1 := wf_stmts hwf body
    rcases hm with hm | hm
    · exact defs_stmts body hwf (hb.branches hw1 ho.2.2) ho.2.1 hd.2.1 hs.1.2 k f hm
    · exact defs_branches rest hw1 hb ho.2.2 hd.2.2 hs.2 k f hm
termination_by structural bs

theorem defs_cases {C : Surround} {A : Around} {Γ : Env} {K : List Place} (cs : Cases) (hwf : Wf X.up Γ)
    (hb : Below X.fin (afterCases Γ cs)) (ho : CasesOk Γ A cs) (hd : CasesResolved L X.D Γ cs) (hs : settledCases X.U C Γ K cs = true) :
    ∀ k f, (k, f) ∈ defsCases Γ cs → ∃ name params A, DefGood X L k f name params A := by
  intro k f hm
  match cs with
  | .nil => simp [defsCases] at hm
  | .cons gs body rest =>
    simp only [defsCases, List.mem_append] at hm
    simp only [afterCases] at hb
    simp only [CasesOk] at ho
    simp only [CasesResolved] at hd
    simp only [settledCases, Bool.and_eq_true] at hs
    have hw1 := wf_stmts hwf body
    rcases hm with hm | hm
    · exact defs_stmts body hwf (hb.cases hw1 ho.2) ho.1 hd.1 hs.1 k f hm
    · exact defs_cases rest hw1 hb ho.2 hd.2 hs.2 k f hm
termination_by structural cs
end

mutual
theorem bodies_stmt {A : Around} {Γ : Env} (s : Stmt) (ho : StmtOk Γ A s) {k : Str} (h : k ∈ bodiesStmt s) :
    A.inside = none ∧ ∃ f, (k, f) ∈ defsStmt Γ s := by
  match s with
  | .callable name pos params body epos =>
    simp only [StmtOk] at ho
    simp only [bodiesStmt, List.mem_append, List.mem_singleton] at h
    refine ⟨ho.2.1, ?_⟩
    rcases h with h | rfl
    · obtain ⟨h1, _⟩ := bodies_stmts body ho.2.2.2 h
      cases h1
    · exact ⟨_, by simp only [defsStmt]; exact List.mem_singleton.2 rfl⟩
  | .doLoop guard body =>
    simp only [StmtOk] at ho
    simp only [bodiesStmt] at h
    simp only [defsStmt]
    exact bodies_stmts body ho.2 h
  | .forLoop iter pos double start stop next body =>
    simp only [StmtOk] at ho
    simp only [bodiesStmt] at h
    simp only [defsStmt]
    exact bodies_stmts body ho.2.2.2.1 h
  | .ifs branches =>
    simp only [StmtOk] at ho
    simp only [bodiesStmt] at h
    simp only [defsStmt]
    exact bodies_branches branches ho h
  | .select e cases pos =>
    simp only [StmtOk] at ho
    simp only [bodiesStmt] at h
    simp only [defsStmt]
    exact bodies_cases cases ho.2 h
  | .whileLoop e body =>
    simp only [StmtOk] at ho
    simp only [bodiesStmt] at h
    simp only [defsStmt]
    exact bodies_stmts body ho.2 h
  | .assign .. | .call .. | .declare .. | .dim .. | .dimArray .. | .arrayAssign .. | .data .. | .end .. | .exitDo ..
  | .exitFor .. | .exitFunction .. | .exitSub .. | .gosub .. | .goto .. | .label .. | .onError .. | .ret .. =>
    simp [bodiesStmt] at h
termination_by structural s

theorem bodies_stmts {A : Around} {Γ : Env} (ss : Stmts) (ho : StmtsOk Γ A ss) {k : Str} (h : k ∈ bodiesStmts ss) :
    A.inside = none ∧ ∃ f, (k, f) ∈ defsStmts Γ ss := by
  match ss with
  | .nil => simp [bodiesStmts] at h
  | .cons s rest =>
    simp only [bodiesStmts, List.mem_append] at h
    simp only [StmtsOk] at ho
    simp only [defsStmts, List.mem_append]
    rcases h with h | h
    · obtain ⟨h1, f, h2⟩ := bodies_stmt s ho.1 h
      exact ⟨h1, f, .inl h2⟩
    · obtain ⟨h1, f, h2⟩ := bodies_stmts rest ho.2 h
      exact ⟨h1, f, .inr h2⟩
termination_by structural ss

theorem bodies_branches {A : Around} {Γ : Env} (bs : Branches) (ho : BranchesOk Γ A bs) {k : Str} (h : k ∈ bodiesBranches bs) :
    A.inside = none ∧ ∃ f, (k, f) ∈ defsBranches Γ bs := by
  match bs with
  | .nil => simp [bodiesBranches] at h
  | .cons guard body rest =>
    simp only [bodiesBranches, List.mem_append] at h
    simp only [BranchesOk] at ho
    simp only [defsBranches, List.mem_append]
    rcases h with h | h
    · obtain ⟨h1, f, h2⟩ := bodies_stmts body ho.2.1 h
      exact ⟨h1, f, .inl h2⟩
    · obtain ⟨h1, f, h2⟩ := bodies_branches rest ho.2.2 h
      exact ⟨h1, f, .inr h2⟩
termination_by structural bs

theorem bodies_cases {A : Around} {Γ : Env} (cs : Cases) (ho : CasesOk Γ A cs) {k : Str} (h : k ∈ bodiesCases cs) :
    A.inside = none ∧ ∃ f, (k, f) ∈ defsCases Γ cs := by
  match cs with
  | .nil => simp [bodiesCases] at h
  | .cons gs body rest =>
    simp only [bodiesCases, List.mem_append] at h
    simp only [CasesOk] at ho
    simp only [defsCases, List.mem_append]
    rcases h with h | h
    · obtain ⟨h1, f, h2⟩ := bodies_stmts body ho.1 h
      exact ⟨h1, f, .inl h2⟩
    · obtain ⟨h1, f, h2⟩ := bodies_cases rest ho.2 h
      exact ⟨h1, f, .inr h2⟩
termination_by structural cs
end

theorem findDef_some {k : Str} {f : Def} : ∀ {l : List (Str × Def)}, (k, f) ∈ l → ∃ f', findDef k l = some f'
  | (k', f') :: rest, h => by
    unfold findDef
    split
    · exact ⟨_, rfl⟩
    next hne =>
      rcases List.mem_cons.1 h with h | h
      · cases h; exact absurd rfl hne
      · exact findDef_some h

/-! ## Calls -/

theorem typed_shared {Sh : Decls} {Γ Γ' : Env} {w w' : World} {j : Nat} (h : Typed Sh Γ w (.shared j)) (he : w'.mem (.shared j) = w.mem (.shared j)) :
    Typed Sh Γ' w' (.shared j) := by
  obtain ⟨q, c, h1, h2, h3⟩ := h
  exact ⟨q, c, h1, by rw [he]; exact h2, h3⟩

theorem enter_knows {f : Def} {k : Str} {name : VarRef} {params : List VarRef} {A : Around} (hf : DefGood X L k f name params A)
    (hsh : ∀ p ∈ X.U.shared, Place.isShared p = true) {vs : List Val} {w : World} (hvs : vs.map Val.ty = params.map fun p => p.ty.getD .integer)
    (ht : w.trap = .stop) (hu : ∀ p ∈ X.U.shared, Typed X.fin.shared X.fin w p) :
    Knows X f.env (knownStart X.U name f.env) (enter f.ret vs w) := by
  refine ⟨ht, fun p hp => ?_⟩
  unfold knownStart at hp
  rcases List.mem_append.1 hp with hp | hp
  · have h1 := hsh p hp
    cases p with
    | «local» => cases h1
    | shared j => exact typed_shared (hu _ hp) rfl
  · simp only [List.mem_map, List.mem_filter, List.mem_range, decide_eq_true_eq] at hp
    obtain ⟨j, ⟨h1, h2⟩, rfl⟩ := hp
    have harg : ∀ i, i < params.length → ∃ (q : VarRef) (v : Val), params[i]? = some q ∧ vs[i]? = some v ∧ v.ty = q.ty.getD .integer := by
      intro i hi
      have hl : vs.length = params.length := by simpa using congrArg List.length hvs
      refine ⟨params[i], vs[i]'(by omega), by simp, by simp, ?_⟩
      have := congrArg (fun l => l[i]?) hvs
      simpa [hi, hl] using this
    rw [hf.locals] at h1
    unfold Typed protoAt
    rw [hf.locals]
    unfold enter
    rw [hf.ret]
    cases hty : name.ty with
    | none =>
      rw [hty] at h1
      simp only [List.nil_append, List.length_map] at h1 ⊢
      obtain ⟨q, v, g1, g2, g3⟩ := harg j h1
      exact ⟨.scalar (q.ty.getD .integer), .scalar v, by simp [g1], by simp [g2], scalar_fits g3⟩
    | some t =>
      rw [hty] at h1 h2
      simp only [List.cons_append, List.nil_append, List.length_cons, List.length_map] at h1 ⊢
      cases j with
      | zero =>
        have hne : t ≠ .double := fun he => h2 ⟨rfl, by rw [he]⟩
        refine ⟨.scalar t, .scalar (defaultVal t), by simp, ?_, scalar_fits (defaultVal_ty t)⟩
        cases t <;> first | rfl | exact absurd rfl hne
      | succ i =>
        obtain ⟨q, v, g1, g2, g3⟩ := harg i (by omega)
        exact ⟨.scalar (q.ty.getD .integer), .scalar v, by simp [g1], by simp [g2], scalar_fits g3⟩

/-- The body of a callable. -/
theorem body_good (hX : X.Ok cl) {f : Def} {k : Str} {name : VarRef} {params : List VarRef} {A : Around} (hf : DefGood X L k f name params A)
    {vs : List Val} {w : World} (hvs : vs.map Val.ty = params.map fun p => p.ty.getD .integer)
    (ht : w.trap = .stop) (hu : ∀ p ∈ X.U.shared, Typed X.fin.shared X.fin w p) :
    Post X f.env ⟨false, false, name.ty.isSome⟩ f.env (afterStmts f.env f.body) (knowns f.env (knownStart X.U name f.env) f.body) (enter f.ret vs w)
      (unit F n cl f.env f.body none (enter f.ret vs w)) := by
  have hR : Root f.env ⟨false, false, name.ty.isSome⟩ f.env := by
    refine ⟨List.prefix_refl _, fun h => ?_⟩
    rw [hf.locals]
    cases hty : name.ty with
    | none => rw [hty] at h; cases h
    | some t => simp
  have h := stmts_good (F := F) (n := n) hX f.body hR hf.wf hf.below hf.ok hf.resolved hf.settled (enter_knows hf hX.shared hvs ht hu)
  unfold unit
  simp only
  rw [follow_other]
  · exact h
  · intro k w' he
    rw [he] at h
    exact h

theorem back_good {Γ : Env} {ret : Option ExprType} {vs : List Val} {w w1 : World} (hm : Mono X.fin.shared Γ (enter ret vs w) w1) :
    Back X.fin.shared w (goBack w w1) :=
  ⟨hm.trap, fun _ => rfl, fun _ j h => typed_shared (hm.mem (.shared j) (typed_shared (Γ' := Γ) h rfl)) rfl⟩

theorem Back.limit {Sh : Decls} {w w1 : World} (h : Back Sh w w1) : Back Sh w (limit w w1) := by
  refine ⟨h.trap, fun j => ?_, fun Γ j hj => ?_⟩
  · simp only [Spec.limit, h.locals]
    cases w.mem (.local j) <;> rfl
  · refine typed_shared (h.shared Γ j hj) ?_
    obtain ⟨q, c, h1, h2, h3⟩ := hj
    simp [Spec.limit, h2]

theorem fn_good {f : Def} {k : Str} {name : VarRef} {params : List VarRef} {A : Around} (hf : DefGood X L k f name params A) {t : ExprType}
    (hty : name.ty = some t) {vs : List Val} {w : World} {r : Res}
    (h : Post X f.env ⟨false, false, name.ty.isSome⟩ f.env (afterStmts f.env f.body) (knowns f.env (knownStart X.U name f.env) f.body) (enter f.ret vs w) r) :
    Good (fun v w' => v.ty = t ∧ Back X.fin.shared w w') (fnResult w r) := by
  have hl : f.env.locals[0]? = some (symKey name.name, .scalar t) := by rw [hf.locals, hty]; rfl
  have key : ∀ w1, Mono X.fin.shared f.env (enter f.ret vs w) w1 → Typed X.fin.shared f.env w1 (.local 0) →
      Good (fun v w' => v.ty = t ∧ Back X.fin.shared w w')
        (match w1.mem (.local 0) with
        | some (.scalar x) => .ok x (limit w (goBack w w1))
        | _ => .stuck) := by
    intro w1 hm ht
    obtain ⟨q, c, h1, h2, h3⟩ := ht
    simp only [protoAt, hl, Option.map_some, Option.some.injEq] at h1
    subst h1
    rw [h2]
    cases c with
    | arr => exact absurd h3.1 (by simp [Cell.Of])
    | scalar x => exact ⟨h3.1, (back_good hm).limit⟩
  have hres : (⟨false, false, name.ty.isSome⟩ : Surround).result = true := by rw [hty]; rfl
  cases r with
  | done w1 =>
    refine key w1 h.1 ?_
    have := (leave_good (R := f.env) ⟨afterStmts_prefix f.body f.env, fun _ => ?_⟩ hf.leaves h.2).2 hres
    · exact this
    · exact (List.getElem?_eq_some_iff.1 hl).1
  | leave w1 => exact key w1 h.1 (h.2 hres)
  | back w1 => exact key w1 h.1 (h.2 hres)
  | err pos e w1 => exact h
  | ended | going => trivial
  | exitDo | exitFor => exact absurd h.1 (by simp)
  | jump | stuck => exact h

theorem sub_good {f : Def} {name : VarRef} {Γ' : Env} {K' : List Place} {vs : List Val} {w : World} {r : Res}
    (h : Post X f.env ⟨false, false, name.ty.isSome⟩ f.env Γ' K' (enter f.ret vs w) r) :
    Good (fun _ w' => Back X.fin.shared w w') (subResult w r) := by
  cases r with
  | done w1 => exact back_good h.1
  | leave w1 => exact back_good h.1
  | back w1 => exact back_good h.1
  | err pos e w1 => exact h
  | ended | going => trivial
  | exitDo | exitFor => exact absurd h.1 (by simp)
  | jump | stuck => exact h

theorem calls_good {defs : Str → Option Def} (hrep : Replies X.up X.U X.lib) (hsh : ∀ p ∈ X.U.shared, Place.isShared p = true)
    (hdef : ∀ k, X.D k → ∃ f name params A, defs k = some f ∧ DefGood X L k f name params A) :
    ∀ (d : Nat) (b : Bool) (Γ : Env) (ss : Stmts), CallsGood X.U X.fin X.D X.lib (callsAt F n X.lib defs d b Γ ss)
  | 0, _, _, _ => ⟨rfl, fun _ _ _ _ _ _ _ _ _ ht _ => ht, fun _ _ _ _ _ _ _ _ ht _ => ht⟩
  | d + 1, b, Γ, ss => by
    have ih := calls_good hrep hsh hdef d
    refine ⟨rfl, ?_, ?_⟩
    · intro k ps r vs pos w hsig hD hvs ht hu
      obtain ⟨f, name, params, A, h1, hf⟩ := hdef k hD
      have hs := hf.sig
      rw [hsig] at hs
      simp only [Option.some.injEq, Sig.user.injEq] at hs
      simp only [callsAt, h1]
      rw [hs.1] at hvs
      exact fn_good hf hs.2.symm (body_good ⟨hrep, ih true f.env f.body, hsh⟩ hf hvs ht hu)
    · intro k ps vs pos w hsig hD hvs ht hu
      obtain ⟨f, name, params, A, h1, hf⟩ := hdef k hD
      have hs := hf.sig
      rw [hsig] at hs
      simp only [Option.some.injEq, Sig.user.injEq] at hs
      simp only [callsAt, h1]
      rw [hs.1] at hvs
      exact sub_good (body_good ⟨hrep, ih true f.env f.body, hsh⟩ hf hvs ht hu)

/-! ## Programs -/

/-- A program of the class has a meaning. -/
theorem program_good {up : FMap Str Md} (hup : ∀ k md, up.get? k = some md → md.userDefined = false) {U : Sure} {lib : Lib} {ss : Stmts}
    (hv : ValidPart (.start up []) ss) (hrep : Replies up U lib) (hs : Settled U up ss = true) (n d : Nat) (w : World) (ht : w.trap = .stop) :
    run F n d lib (builtins up) ss w ≠ .stuck := by
  obtain ⟨h1, _, _, h4⟩ := hv
  have h1 : StmtsOk (builtins up) ⟨false, false, none⟩ ss := h1
  have h4 : StmtsResolved (· ∈ [] ++ labelsStmts ss) (· ∈ [] ++ bodiesStmts ss) (builtins up) ss := h4
  unfold Settled at hs
  simp only [Bool.and_eq_true, List.all_eq_true] at hs
  let X : Fixed := ⟨up, U, afterStmts (builtins up) ss, (· ∈ [] ++ bodiesStmts ss), lib⟩
  have hwf : Wf X.up (builtins up) := .start hup
  have hb : Below X.fin (afterStmts (builtins up) ss) := ⟨List.prefix_refl _, fun _ _ _ h => h⟩
  have hdef : ∀ k, X.D k → ∃ f name params A, findDef k (defsStmts (builtins up) ss) = some f ∧
      DefGood X (· ∈ [] ++ labelsStmts ss) k f name params A := by
    intro k hk
    have hk : k ∈ bodiesStmts ss := by simpa [X] using hk
    obtain ⟨_, f, hf⟩ := bodies_stmts ss h1 hk
    obtain ⟨f', hf'⟩ := findDef_some hf
    obtain ⟨name, params, A, hg⟩ := defs_stmts (X := X) ss hwf hb h1 h4 hs.2 k f' (findDef_mem hf')
    exact ⟨f', name, params, A, hf', hg⟩
  have hX : X.Ok (callsAt F n lib (fun k => findDef k (defsStmts (builtins up) ss)) d false (builtins up) ss) :=
    ⟨hrep, calls_good (X := X) hrep hs.1 hdef d false (builtins up) ss, hs.1⟩
  have hg := stmts_good (F := F) (n := n) (R := builtins up) (w := w) hX ss ⟨List.prefix_refl _, fun h => Bool.noConfusion h⟩ hwf hb h1 h4 hs.2 ⟨ht, fun p hp => by cases hp⟩
  unfold run unit
  simp only
  rw [follow_other]
  · intro he
    rw [he] at hg
    exact hg
  · intro k w' he
    rw [he] at hg
    exact hg

end

end EB.Settle
