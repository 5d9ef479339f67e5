import Verif.Lemmas.SimSelect
import Verif.Lemmas.Emits
/-!
# The code of statements does what the reference interpreter says
-/

namespace EB
open Spec

variable [Labels] [W0 : Watch] [Nest]

section
variable {F : FloatOps} {img : Image} [Answers img] {Δ Δ' : Env} {T : Targets} {L : Link} [Answers L.img] {d : Nat} {I : Nat → Prop}

theorem At.grow {a : Nat} {w : World} {m : Mach} (hd : Fewer Δ Δ') (h : At img Δ d w m a) : At img Δ' d w m a :=
  ⟨h.pc, h.quiet, h.models.grow hd, h.depth, h.low, h.nest⟩

theorem lands_here {a : Nat} {w : World} {m : Mach} (h : At img Δ d w m a) : Lands F img Δ w m w a :=
  ⟨m, .refl h.quiet, h.pc, h.models⟩

/-- One after the other, with what is known about the machine. -/
theorem SPost.seq {w : World} {m : Mach} {a b pc : Nat} {r : Res} {f : World → Res} (ha : At img Δ' d w m a) {Δ1 : Env}
    (hx : SPost F img Δ1 T I w m pc r) (hd : Fewer Δ1 Δ)
    (hf : ∀ w1 m1, Passes F img w m w1 m1 → At img Δ1 d w1 m1 pc → SPost F img Δ T I w1 m1 b (f w1)) :
    SPost F img Δ T I w m b (r.bind f) :=
  hx.bind hd fun w1 m1 p1 pc1 md1 => hf w1 m1 p1 (p1.at ha pc1 md1)

/-- A loop that looks at its guard first. -/
theorem before_post {stop : Bool} {guard : World → Out Val} {body : World → Res} {a b j start : Nat}
    (hd : Fewer Δ Δ')
    (hg : ∀ W : Watch, W.rounds ≤ W0.rounds → ∀ w m (f : Bool → World → Res), At L.img Δ' d w m a →
      (∀ c w1 m1, Passes F L.img w m w1 m1 → At L.img Δ d w1 m1 (if c = stop then b else start) → @SPost _ W F L.img _ Δ' T I w1 m1 b (f c w1)) →
      @SPost _ W F L.img _ Δ' T I w m b (test (guard w) f))
    (hb : ∀ w m, At L.img Δ d w m start → SPost F L.img Δ' T I w m j (body w))
    (hj : Jumps L j a) :
    ∀ n (W : Watch), W.rounds ≤ n → W.rounds ≤ W0.rounds → ∀ w m, At L.img Δ' d w m a →
      @SPost _ W F L.img _ Δ' T I w m b (before stop guard body n w)
  | 0, _, hn, _, _, m, _ => ⟨m, (Go.refl _ _).for.less hn⟩
  | n + 1, W, hn, hW, w, m, ha => by
    refine hg W hW w m _ ha ?_
    intro c w1 m1 p1 a1
    by_cases hc : c = stop
    · rw [if_pos hc] at a1 ⊢
      exact lands_here (a1.grow hd)
    · rw [if_neg hc] at a1 ⊢
      refine SPost.seq (a1.grow hd) ((hb w1 m1 a1).fewer hW) (.refl _) ?_
      intro w2 m2 p2 a2
      obtain ⟨m3, p3, a3, g3⟩ := jump_leaps (F := F) hj a2
      exact SPost.later (W' := ⟨W.rounds - 1⟩) p3 g3 (by simp only; omega)
        (before_post hd hg hb hj n ⟨W.rounds - 1⟩ (by simp only; omega) (by simp only; omega) w2 m3 a3)

/-- A loop that looks at its guard last. -/
theorem behind_post {stop : Bool} {guard : World → Out Val} {body : World → Res} {a b k : Nat}
    (hg : ∀ W : Watch, W.rounds ≤ W0.rounds → ∀ w m (f : Bool → World → Res), At L.img Δ' d w m k →
      (∀ c w1 m0 m1, Passes F L.img w m w1 m0 → Passes F L.img w1 m0 w1 m1 → GoFor F L.img 1 w1.log m0 w1.log m1 →
        At L.img Δ' d w1 m1 (if c = stop then b else a) → @SPost _ W F L.img _ Δ' T I w1 m0 b (f c w1)) →
      @SPost _ W F L.img _ Δ' T I w m b (test (guard w) f))
    (hb : ∀ w m, At L.img Δ' d w m a → SPost F L.img Δ' T I w m k (body w)) :
    ∀ n (W : Watch), W.rounds ≤ n → W.rounds ≤ W0.rounds → ∀ w m, At L.img Δ' d w m a →
      @SPost _ W F L.img _ Δ' T I w m b (behind stop guard body n w)
  | 0, _, hn, _, _, m, _ => ⟨m, (Go.refl _ _).for.less hn⟩
  | n + 1, W, hn, hW, w, m, ha => by
    refine SPost.seq ha ((hb w m ha).fewer hW) (.refl _) ?_
    intro w1 m1 p1 a1
    refine hg W hW w1 m1 _ a1 ?_
    intro c w2 m0 m2 p0 p2 g2 a2
    by_cases hc : c = stop
    · rw [if_pos hc] at a2 ⊢
      exact SPost.after p2 (lands_here a2)
    · rw [if_neg hc] at a2 ⊢
      exact SPost.later (W' := ⟨W.rounds - 1⟩) p2 g2 (by simp only; omega)
        (behind_post hg hb n ⟨W.rounds - 1⟩ (by simp only; omega) (by simp only; omega) w2 m2 a2)

/-- A loop without guard. -/
theorem forever_post {body : World → Res} {a b j : Nat}
    (hb : ∀ w m, At L.img Δ' d w m a → SPost F L.img Δ' T I w m j (body w)) (hj : Jumps L j a) :
    ∀ n (W : Watch), W.rounds ≤ n → W.rounds ≤ W0.rounds → ∀ w m, At L.img Δ' d w m a →
      @SPost _ W F L.img _ Δ' T I w m b (forever body n w)
  | 0, _, hn, _, _, m, _ => ⟨m, (Go.refl _ _).for.less hn⟩
  | n + 1, W, hn, hW, w, m, ha => by
    refine SPost.seq ha ((hb w m ha).fewer hW) (.refl _) ?_
    intro w1 m1 p1 a1
    obtain ⟨m3, p3, a3, g3⟩ := jump_leaps (F := F) hj a1
    exact SPost.later (W' := ⟨W.rounds - 1⟩) p3 g3 (by simp only; omega)
      (forever_post hb hj n ⟨W.rounds - 1⟩ (by simp only; omega) (by simp only; omega) w1 m3 a3)

/-! ## Forgetting -/

theorem forget_sub (Γ : Env) (w : World) : ∀ p c, (forget Γ w).mem p = some c → w.mem p = some c := by
  intro p c h
  cases p with
  | shared n => exact h
  | «local» n =>
    simp only [forget] at h
    split at h
    · exact h
    · cases h

theorem At.forget {S : Decls} {Γ Γ' : Env} {a : Nat} {w : World} {m : Mach} (hg : Grow Γ Γ') (h : At img (wide S Γ') d w m a) :
    At img (wide S Γ) d (forget Γ w) m a := by
  refine h.less rfl rfl (forget_sub Γ w) ?_
  intro p q hp hq
  cases p with
  | shared n => exact hq
  | «local» n =>
    have hn : n < Γ.locals.length := by
      by_contra hn
      exact hp (by simp [Spec.forget, hn])
    obtain ⟨t, ht⟩ := hg.locals
    simp only [Env.proto, wide] at hq ⊢
    rw [← ht, List.getElem?_append_left hn] at hq
    exact hq

theorem forget_passes (Γ : Env) {w : World} {m : Mach} (hq : m.yieldPending = false) : Passes F img w m (forget Γ w) m :=
  .less hq rfl (forget_sub Γ w)

end

/-! ## Jumps -/

section
variable {F : FloatOps} {L : Link} [Answers L.img]

omit [Labels] [Watch] [Nest] [Answers L.img] in
theorem label_code {name : Str} {pos : LineCol} {sy sy' : Syms} {a b : Nat} (hp : Part L (compileStmtBody (.label name pos)) sy a b sy') :
    b = a ∧ L.gf.labels.get? (symKey name) = some a := by
  obtain ⟨c, c', h, hi, rfl, rfl, rfl, rfl, hg, hl, hw⟩ := hp
  replace h : (match c.cg.labels.get? (symKey name) with
    | some _ => Except.error (CErr.duplicateLabel pos name)
    | none => Except.ok ((), { c with cg := { c.cg with labels := c.cg.labels.insert (symKey name) c.cg.code.length } })) = Except.ok ((), c') := h
  split at h
  · simp at h
  · cases h
    refine ⟨rfl, hl.labels _ _ ?_⟩
    rw [FMap.get?_insert, if_pos rfl]

omit [Labels] [Watch] [Nest] [Answers L.img] in
theorem goto_code {label : Str} {pos : LineCol} {sy sy' : Syms} {a b : Nat} (hp : Part L (compileStmtBody (.goto label pos)) sy a b sy') :
    ∃ t, L.gf.labels.get? (symKey label) = some t ∧ Jumps L a t := by
  obtain ⟨c, c', h, hi, rfl, rfl, rfl, rfl, hg, hl, hw⟩ := hp
  have hx := emitFixup_ok.1 (show emitFixup pos (.goto label) c = .ok ((), c') from h)
  cases hx
  obtain ⟨p, ins, k1, k2⟩ := hl.calls c.cg.code.length (.goto label) (Nat.le_refl _) (by simp [Codegen.push, Codegen.addFixup])
    (by simp [Codegen.addFixup, FMap.get?_insert])
  unfold Codegen.fixupInstr at k1
  simp only at k1
  split at k1
  · cases k1
  next target hlab =>
    split at k1
    next t ht =>
      cases k1
      exact ⟨_, hlab, t, k2, mkTarget_ok ht⟩
    · cases k1

omit [Labels] [Watch] [Nest] [Answers L.img] in
theorem gosub_code {label : Str} {pos : LineCol} {sy sy' : Syms} {a b : Nat} (hp : Part L (compileStmtBody (.gosub label pos)) sy a b sy') :
    b = a + 1 ∧ ∃ p ins, L.gf.fixupInstr p (.gosub label) = .ok ins ∧ L.img.code[a]? = some ins ∧
      (L.img.instrs[a]?).map (·.linecol) = some pos ∧ Inside L.img a a := by
  obtain ⟨c, c', h, hi, rfl, rfl, rfl, rfl, hg, hl, hw⟩ := hp
  have hx := emitFixup_ok.1 (show emitFixup pos (.gosub label) c = .ok ((), c') from h)
  cases hx
  have hlt : c.cg.code.length < ((c.cg.push .nop pos).addFixup c.cg.code.length (.gosub label)).code.length := by
    simp [Codegen.push, Codegen.addFixup]
  obtain ⟨p, ins, k1, k2⟩ := hl.calls c.cg.code.length (.gosub label) (Nat.le_refl _) hlt (by simp [Codegen.addFixup, FMap.get?_insert])
  refine ⟨by simp [Codegen.push, Codegen.addFixup], p, ins, k1, k2, ?_, hl.inside _ (Nat.le_refl _) hlt⟩
  rw [hl.linecols _ (Nat.le_refl _) hlt]
  simp [Codegen.push, Codegen.addFixup, ← hg.lens]

omit [Labels] [Watch] [Nest] [Answers L.img] in
theorem ret_code {pos : LineCol} {sy sy' : Syms} {a b : Nat} (hp : Part L (compileStmtBody (.ret pos)) sy a b sy') :
    L.img.code[a]? = some .ret ∧ (L.img.instrs[a]?).map (·.linecol) = some pos ∧ Inside L.img a a := by
  obtain ⟨c, c', h, hi, rfl, rfl, rfl, rfl, hg, hl, hw⟩ := hp
  obtain ⟨_, c1, h1, h2⟩ := CM.bind_ok.1 (show (onCg (emit .ret pos) >>= fun _ => pure () : CS Unit) c = _ from h)
  cases h2
  obtain ⟨g, h3, rfl⟩ := onCg_ok.1 h1
  cases h3
  exact hl.fetch hg (Nat.le_refl _)

/-- What is assumed of `GOSUB` and `RETURN` in a piece of the program that ends with the declarations `Γe`. -/
structure UnitOk (F : FloatOps) (L : Link) [Answers L.img] (S : Decls) (cl : Calls) (d : Nat) (Γe : Env) : Prop where
  ret : cl.canReturn = Nest.inner
  gosub : ∀ {lo : Nat} {T : Targets} {label : Str} {pos p : LineCol} {ins : Instr} {w : World} {m : Mach} {Γ : Env}, Grow Γ Γe →
    L.gf.fixupInstr p (.gosub label) = .ok ins → L.img.code[m.pc]? = some ins → (L.img.instrs[m.pc]?).map (·.linecol) = some pos →
    Inside L.img lo m.pc → At L.img (wide S Γ) d w m m.pc →
    SPost F L.img (wide S Γ) T (Inside L.img lo) w m (m.pc + 1) (((cl.gosub (symKey label) pos w).forget Γ).then fun _ w => .done w)

/-- After an error. -/
theorem recover_post {T : Targets} {S : Decls} {sy sy1 sy' : Syms} {a a0 k b d : Nat} {s : Stmt} {rest : Stmts} {Γ : Env} {Δ0 : Env} {w : World} {m : Mach}
    {r : Res} {f : World → Res} (h1 : StmtCode L T sy a s k sy1) (h2 : StmtsCode L T sy1 k rest b sy') (ha : At L.img Δ0 d w m a0)
    (hx : SPost F L.img (wide S (afterStmt Γ s)) T (fun pc => Stmt.plain s = true → Inside L.img a pc) w m k r)
    (hsil : s.silent = true → ∀ pos e w', r ≠ .err pos e w')
    (hrest : ∀ w1 m1, At L.img (wide S (afterStmt Γ s)) d w1 m1 k →
      SPost F L.img (wide S (afterStmts Γ (.cons s rest))) T (fun _ => False) w1 m1 b (f w1)) :
    SPost F L.img (wide S (afterStmts Γ (.cons s rest))) T (fun _ => False) w m b (recover s rest f r) := by
  have hgr : Fewer (wide S (afterStmt Γ s)) (wide S (afterStmts Γ (.cons s rest))) := (grow_stmts _ rest).fewer S
  cases r with
  | done w1 =>
    obtain ⟨m1, p1, pc1, md1⟩ := hx
    exact (hrest w1 m1 (p1.at ha pc1 md1)).after p1
  | err pos e w1 =>
    obtain ⟨m1, pc, fl, k1, md1, hre⟩ := hx
    have htp := md1.trap
    simp only [recover]
    cases htr : w1.trap with
    | stop => exact ⟨m1, pc, fl, k1, md1.grow hgr, fun h => by rw [htr] at h; cases h⟩
    | jump lab active =>
      rw [htr] at htp
      obtain ⟨t, hat, hh⟩ := htp
      cases active with
      | true => exact ⟨m1, pc, fl, k1, md1.grow hgr, fun h => by rw [htr] at h; cases h⟩
      | false =>
        simp only
        obtain ⟨act, hin⟩ := hre (by rw [htr]; rfl)
        have go := fl.trap hh act.quiet
        have he : w1.handled pos e = { w1 with trap := .jump lab true, log := { w1.log with lastError := some (pos, e) } } := by
          simp [World.handled, htr]
        refine ⟨t, hat, { m1 with pc := t, handler := .jump true t }, ⟨by rw [he]; exact go.go, ⟨act.fp, act.stack, act.maxStack, act.quiet⟩, ?_⟩, rfl, ?_, by rw [he]; exact go⟩
        · rw [he]
          exact ⟨k1.regs, k1.texts, k1.arrays, k1.owners, k1.len, k1.max⟩
        · have md2 := md1.grow hgr
          rw [he]
          show Models _ _ m1.fp _ _
          rw [act.fp]
          exact { md2 with trap := ⟨t, hat, rfl⟩ }
    | resume =>
      simp only
      split
      · next hc =>
        rw [Bool.and_eq_true] at hc
        obtain ⟨act, hin⟩ := hre (by rw [htr]; rfl)
        have hsl : s.silent = false := by
          by_contra hsl
          exact hsil (by simpa using hsl) _ _ _ rfl
        have hnext : nextStmtStart L.img pc = k := (hin hc.1).trans (resume_at hc.1 hsl h1 h2 hc.2)
        have hh : m1.handler = .resumeNext := by
          rw [htr] at htp
          exact htp
        have go := fl.resume hh act.quiet
        rw [hnext] at go
        have he : w1.handled pos e = { w1 with log := { w1.log with lastError := some (pos, e) } } := by
          simp [World.handled, htr]
        have p1 : Passes F L.img w m (w1.handled pos e) { m1 with pc := k } := by
          rw [he]
          exact ⟨go, ⟨act.fp, act.stack, act.maxStack, act.quiet⟩, ⟨k1.regs, k1.texts, k1.arrays, k1.owners, k1.len, k1.max⟩⟩
        have md2 : Models L.img.constants (wide S (afterStmt Γ s)) m1.fp (w1.handled pos e) { m1 with pc := k } := by
          rw [act.fp, he]
          exact { md1 with }
        exact (hrest _ _ (p1.at ha rfl md2)).after p1
      · trivial
  | _ => exact hx.grow hgr

end

/-- The bound `n` on the rounds of loops is not smaller than the number of steps that are counted. -/
class Enough [Watch] (n : Nat) : Prop where
  le : Watch.rounds ≤ n

section
variable {F : FloatOps} {L : Link} [Answers L.img] {S : Decls} {cl : Calls} {d : Nat} (hS : Shares L S) (hcl : CallsOk F L S cl d) {n : Nat}
include hS hcl

/-- A guard and the jump after it. -/
theorem sim_test {sy : Syms} {Γ : Env} (hs : Scope sy Γ) {e : Expr} {a k t b : Nat} {r : Reg} {w : World} {m : Mach} {T : Targets} {Δ' : Env}
    {f : Bool → World → Res}
    (hp : Piece L sy (condCode sy e) a k r) (hsk : Skips L k r t) (ha : At L.img (wide S Γ) d w m a) (hd : Fewer (wide S Γ) Δ')
    (hf : ∀ c w1 m1, Passes F L.img w m w1 m1 → At L.img (wide S Γ) d w1 m1 (if c then k + 1 else t) → SPost F L.img Δ' T (fun _ => True) w1 m1 b (f c w1)) :
    SPost F L.img Δ' T (fun _ => True) w m b (test (evalAs F cl Γ e .boolean w) f) :=
  test_leaps ha (sim_cond hS hcl hs hp ha) (fun _ _ => trivial) (fun _ h => h) hd hsk fun c w1 _ m1 p0 p1 _ a1 =>
    (hf c w1 m1 (p0.trans p1) a1).after p1

/-- A guard and the jump after it, which takes a step. -/
theorem sim_leaps {sy : Syms} {Γ : Env} (hs : Scope sy Γ) {e : Expr} {a k t b : Nat} {r : Reg} {w : World} {m : Mach} {T : Targets} {Δ' : Env}
    {f : Bool → World → Res}
    (hp : Piece L sy (condCode sy e) a k r) (hsk : Skips L k r t) (ha : At L.img (wide S Γ) d w m a) (hd : Fewer (wide S Γ) Δ')
    (hf : ∀ c w1 m0 m1, Passes F L.img w m w1 m0 → Passes F L.img w1 m0 w1 m1 → GoFor F L.img 1 w1.log m0 w1.log m1 →
      At L.img (wide S Γ) d w1 m1 (if c then k + 1 else t) → SPost F L.img Δ' T (fun _ => True) w1 m0 b (f c w1)) :
    SPost F L.img Δ' T (fun _ => True) w m b (test (evalAs F cl Γ e .boolean w) f) :=
  test_leaps ha (sim_cond hS hcl hs hp ha) (fun _ _ => trivial) (fun _ h => h) hd hsk hf

variable {Γe : Env} (hu : UnitOk F L S cl d Γe) [Enough n]
include hu

mutual
/-- The code of a statement. -/
theorem sim_stmt {T : Targets} {sy sy' : Syms} {a b : Nat} {s : Stmt} (h : StmtCode L T sy a s b sy') : ∀ {Γ : Env} {w : World} {m : Mach},
    Scope sy Γ → Grow (afterStmt Γ s) Γe → At L.img (wide S Γ) d w m a →
    SPost F L.img (wide S (afterStmt Γ s)) T (fun pc => Stmt.plain s = true → Inside L.img a pc) w m b (execStmt F n cl Γ s w) := by
  intro Γ w m hs he ha
  match h with
  | .simple hsim hp => exact (sim_simple hS hcl hsim hp hs ha).where fun _ h _ => h
  | .wild hw _ hp =>
    cases s with
    | goto label pos =>
      obtain ⟨t, hlab, hj⟩ := goto_code hp
      obtain ⟨m1, p1, a1, g1⟩ := jump_leaps (F := F) hj ha
      exact ⟨t, (hS.labels _ _).2 hlab, m1, p1, a1.pc, a1.models, g1⟩
    | gosub label pos =>
      obtain ⟨rfl, p, ins, k1, k2, k3, k4⟩ := gosub_code hp
      obtain rfl := ha.pc
      exact (hu.gosub he k1 k2 k3 k4 ha).where fun _ h _ => h
    | ret pos =>
      obtain ⟨k2, k3, k4⟩ := ret_code hp
      obtain rfl := ha.pc
      simp only [execStmt]
      split
      next hr =>
        refine ⟨_, k2, ?_, lands_here ha⟩
        rw [hu.ret] at hr
        intro h0
        rw [ha.nest.1 h0] at hr; cases hr
      next hr =>
        rw [hu.ret] at hr
        have h0 := ha.nest.2 (by simpa using hr)
        refine SPost.fault k2 ?_ ⟨k3, fun _ => k4⟩ ha.quiet ha.models
        show doReturn m = _
        unfold doReturn
        rw [h0]
    | _ => simp [Stmt.wild] at hw
  | .exitDo ht hj =>
    obtain ⟨m1, p1, a1⟩ := jump_passes (F := F) hj ha
    exact ⟨_, _, ht, m1, p1, a1.pc, a1.models⟩
  | .exitFor ht hj =>
    obtain ⟨m1, p1, a1⟩ := jump_passes (F := F) hj ha
    exact ⟨_, _, ht, m1, p1, a1.pc, a1.models⟩
  | .exitFunction ht hj =>
    obtain ⟨m1, p1, a1⟩ := jump_passes (F := F) hj ha
    exact ⟨_, ht, m1, p1, a1.pc, a1.models⟩
  | .exitSub ht hj =>
    obtain ⟨m1, p1, a1⟩ := jump_passes (F := F) hj ha
    exact ⟨_, ht, m1, p1, a1.pc, a1.models⟩
  | .callable _ hj _ _ _ _ _ =>
    obtain ⟨m1, p1, a1⟩ := jump_passes (F := F) hj ha
    exact ⟨m1, p1, a1.pc, a1.models.grow ((grow_stmt Γ _).fewer S)⟩
  | .infinite (body := body) hb hj =>
    have hg := grow_stmts Γ body
    refine SPost.where (I := fun _ => True) (fun _ _ h => by cases h) ?_
    refine catchDo_post (forever_post (Δ' := wide S (afterStmts Γ body)) (fun w m ha => ?_) hj n _ Enough.le (Nat.le_refl _) w m (ha.grow (hg.fewer S)))
    exact ((sim_stmts hb hs he (ha.forget hg)).where fun _ h => h.elim).after (forget_passes Γ ha.quiet)
  | .preUntil (body := body) (e := e) hp hsk hj1 hb hj =>
    have hg := grow_stmts Γ body
    refine SPost.where (I := fun _ => True) (fun _ _ h => by cases h) ?_
    refine catchDo_post (before_post (Δ := wide S Γ) (Δ' := wide S (afterStmts Γ body)) (hg.fewer S) (fun W hW w m f ha hf => ?_)
      (fun w m ha => (sim_stmts hb hs he ha).where fun _ h => h.elim) hj n _ Enough.le (Nat.le_refl _) w m (ha.grow (hg.fewer S)))
    refine SPost.after (forget_passes Γ ha.quiet) (sim_test hS (hcl.fewer hW) hs hp hsk (ha.forget hg) (hg.fewer S) ?_)
    intro c w1 m1 p1 a1
    cases c with
    | true =>
      obtain ⟨m2, p2, a2⟩ := jump_passes (F := F) hj1 a1
      exact (hf true w1 m2 ((forget_passes Γ ha.quiet).trans (p1.trans p2)) a2).after p2
    | false => exact hf false w1 m1 ((forget_passes Γ ha.quiet).trans p1) a1
  | .preWhile (body := body) (e := e) hp hsk hb hj =>
    have hg := grow_stmts Γ body
    refine SPost.where (I := fun _ => True) (fun _ _ h => by cases h) ?_
    refine catchDo_post (before_post (Δ := wide S Γ) (Δ' := wide S (afterStmts Γ body)) (hg.fewer S) (fun W hW w m f ha hf => ?_)
      (fun w m ha => (sim_stmts hb hs he ha).where fun _ h => h.elim) hj n _ Enough.le (Nat.le_refl _) w m (ha.grow (hg.fewer S)))
    refine SPost.after (forget_passes Γ ha.quiet) (sim_test hS (hcl.fewer hW) hs hp hsk (ha.forget hg) (hg.fewer S) ?_)
    intro c w1 m1 p1 a1
    cases c with
    | true => exact hf true w1 m1 ((forget_passes Γ ha.quiet).trans p1) a1
    | false => exact hf false w1 m1 ((forget_passes Γ ha.quiet).trans p1) a1
  | .postUntil (body := body) (e := e) (m := k) hb hp hsk =>
    have hg := grow_stmts Γ body
    refine SPost.where (I := fun _ => True) (fun _ _ h => by cases h) ?_
    refine catchDo_post (behind_post (k := k) (Δ' := wide S (afterStmts Γ body)) (fun W hW w m f ha hf => ?_) (fun w m ha => ?_) n _ Enough.le (Nat.le_refl _) w m (ha.grow (hg.fewer S)))
    · refine sim_leaps hS (hcl.fewer hW) (stmts_scope hb hs) hp hsk ha (.refl _) ?_
      intro c w1 m0 m1 p0 p1 g1 a1
      cases c with
      | true => exact hf true w1 m0 m1 p0 p1 g1 a1
      | false => exact hf false w1 m0 m1 p0 p1 g1 a1
    · exact ((sim_stmts hb hs he (ha.forget hg)).where fun _ h => h.elim).after (forget_passes Γ ha.quiet)
  | .postWhile (body := body) (e := e) (m := k) hb hp hsk hj =>
    have hg := grow_stmts Γ body
    refine SPost.where (I := fun _ => True) (fun _ _ h => by cases h) ?_
    refine catchDo_post (behind_post (k := k) (Δ' := wide S (afterStmts Γ body)) (fun W hW w m f ha hf => ?_) (fun w m ha => ?_) n _ Enough.le (Nat.le_refl _) w m (ha.grow (hg.fewer S)))
    · refine sim_leaps hS (hcl.fewer hW) (stmts_scope hb hs) hp hsk ha (.refl _) ?_
      intro c w1 m0 m1 p0 p1 g1 a1
      cases c with
      | true =>
        obtain ⟨m2, p2, a2⟩ := jump_passes (F := F) hj a1
        exact hf true w1 m0 m2 p0 (p1.trans p2) (g1.after p2.go) a2
      | false => exact hf false w1 m0 m1 p0 p1 g1 a1
    · exact ((sim_stmts hb hs he (ha.forget hg)).where fun _ h => h.elim).after (forget_passes Γ ha.quiet)
  | .forLoop (iter := iter) (start := start) (stop := stop) (next := next) (body := body) (double := double) (k := k) (j := j)
      ⟨c, c', hx, hi, hy, rfl, hla, hlm, hg0, hl, hw⟩ hp hsk hb ⟨c2, c3, hx2, hi2, hy2, hy3, hl2a, hl2b, hg2, hl2, hw2⟩ hj =>
    subst hy
    obtain ⟨c1, s1, i1, q1, hx1⟩ := forStart_ok hi hs hx
    have hsΓ' := assign_scope i1.locals s1 hx1
    have hg1 := Grow.forVar Γ iter double
    have hgb := grow_stmts (afterAssign (forVar Γ iter double) iter start) body
    have hgn := Grow.assign (afterStmts (afterAssign (forVar Γ iter double) iter start) body) iter next
    have hla1 : c1.cg.code.length = a := by rw [q1]; exact hla
    have hst := sim_assign hS hcl (T := T) i1 s1 hx1 (lo := a) (by omega) hl hw (w := w) (m := m) (hla1 ▸ ha.grow (hg1.fewer S))
    refine SPost.where (I := fun _ => True) (fun _ _ h => by cases h) ?_
    refine SPost.seq (ha.grow (hg1.fewer S)) (hst.where fun _ _ => trivial) ((hgb.trans hgn).fewer S) ?_
    intro w1 m1 p1 a1
    rw [hlm] at a1
    refine catchFor_post (before_post (start := k + 1) (Δ := wide S (afterAssign (forVar Γ iter double) iter start)) ((hgb.trans hgn).fewer S)
      (fun W hW w m f ha hf => ?_) (fun w m ha => ?_) hj n _ Enough.le (Nat.le_refl _) w1 m1 (a1.grow ((hgb.trans hgn).fewer S)))
    · refine SPost.after (forget_passes _ ha.quiet) (sim_test hS (hcl.fewer hW) hsΓ' hp hsk (ha.forget (hgb.trans hgn)) ((hgb.trans hgn).fewer S) ?_)
      intro c w1 m1 p1 a1
      cases c with
      | true => exact hf true w1 m1 ((forget_passes _ ha.quiet).trans p1) a1
      | false => exact hf false w1 m1 ((forget_passes _ ha.quiet).trans p1) a1
    · refine SPost.seq ha ((sim_stmts hb hsΓ' (hgn.trans he) ha).where fun _ h => h.elim) (hgn.fewer S) ?_
      intro w2 m2 p2 a2
      subst hy2
      have := sim_assign hS hcl (T := { T with fors := (j + 1) :: T.fors }) hi2 (stmts_scope hb hsΓ') hx2 (lo := _) (Nat.le_of_eq hl2a.symm) hl2
        (hy3 ▸ hw2) (hl2a ▸ a2)
      rw [hl2b] at this
      exact this.where fun _ _ => trivial
  | .ifs hb => exact (sim_branches hb hs he ha).where fun _ _ h => by cases h
  | .select (e := e) (cases := cs) ht ⟨g, g', hc, hg, hla, hlk, hl, hw⟩ hd hj hb =>
    have htr := temp_reg ht
    obtain ⟨t1, t2, t3⟩ := temp_low hS hs hw ha.models htr
    have hwd := wide_wider hS hs hw
    have st : Start L.img (wide S Γ) d a g w m := ⟨hg, by omega, by rw [ha.pc, hla], ha.quiet, ha.models, ha.depth, ha.low⟩
    have hev := sim_expr hs.syms hwd (hcl.fn hs hw) (cf := False) e hc st hl t1 (by omega) (by simp) (by omega) (by omega)
    have hgr := grow_cases Γ cs
    simp only [execStmt]
    refine SPost.where (I := fun _ => True) (fun _ _ h => by cases h) ?_
    refine hev.then (fun _ _ => trivial) (fun j hj => ⟨.inl hj.1, by have := hj.2; omega, by have := hj.2; omega⟩) (fun p q _ => hgr.fewer S p q) ?_
    rintro x w1 m1 p1 pc1 md1 d1 ⟨hxt, hx⟩ _
    rw [hlk] at pc1
    refine sim_dispatch hS hcl (fun _ => trivial) hs (by omega) hxt hd (p1.at ha pc1 md1) hx (hgr.fewer S) ?_
    intro k w2 m2 t p2 hch a2
    cases k with
    | none =>
      cases hch
      obtain ⟨m3, p3, a3⟩ := jump_passes (F := F) hj a2
      exact SPost.after p3 (lands_here (a3.grow (hgr.fewer S)))
    | some k => exact sim_cases hb k hs he hch a2
  | .whileLoop (body := body) (e := e) hp hsk hb hj =>
    have hg := grow_stmts Γ body
    refine SPost.where (I := fun _ => True) (fun _ _ h => by cases h) ?_
    refine before_post (Δ := wide S Γ) (Δ' := wide S (afterStmts Γ body)) (hg.fewer S) (fun W hW w m f ha hf => ?_)
      (fun w m ha => (sim_stmts hb hs he ha).where fun _ h => h.elim) hj n _ Enough.le (Nat.le_refl _) w m (ha.grow (hg.fewer S))
    refine SPost.after (forget_passes Γ ha.quiet) (sim_test hS (hcl.fewer hW) hs hp hsk (ha.forget hg) (hg.fewer S) ?_)
    intro c w1 m1 p1 a1
    cases c with
    | true => exact hf true w1 m1 ((forget_passes Γ ha.quiet).trans p1) a1
    | false => exact hf false w1 m1 ((forget_passes Γ ha.quiet).trans p1) a1
termination_by structural h

/-- The code of statements. -/
theorem sim_stmts {T : Targets} {sy sy' : Syms} {a b : Nat} {ss : Stmts} (h : StmtsCode L T sy a ss b sy') : ∀ {Γ : Env} {w : World} {m : Mach},
    Scope sy Γ → Grow (afterStmts Γ ss) Γe → At L.img (wide S Γ) d w m a →
    SPost F L.img (wide S (afterStmts Γ ss)) T (fun _ => False) w m b (execStmts F n cl Γ ss w) := by
  intro Γ w m hs he ha
  match h with
  | .nil => exact lands_here ha
  | .cons (s := s) (rest := rest) (m := k) h1 hmk h2 =>
    refine recover_post (Γ := Γ) h1 h2 ha (sim_stmt h1 hs ((grow_stmts _ rest).trans he) ha) ?_ fun w1 m1 a1 =>
      sim_stmts h2 (stmt_scope h1 hs) he a1
    intro hsl pos e w' hr
    cases s <;> first | (simp [Stmt.silent] at hsl; done) | (simp [execStmt] at hr)
termination_by structural h

/-- The code of the branches of an `IF`. -/
theorem sim_branches {T : Targets} {sy sy' : Syms} {a b : Nat} {bs : Branches} (h : BranchesCode L T sy a bs b sy') : ∀ {Γ : Env} {w : World} {m : Mach},
    Scope sy Γ → Grow (afterBranches Γ bs) Γe → At L.img (wide S Γ) d w m a →
    SPost F L.img (wide S (afterBranches Γ bs)) T (fun _ => True) w m b (execBranches F n cl Γ bs w) := by
  intro Γ w m hs he ha
  match h with
  | .nil => exact lands_here ha
  | .last (body := body) hp hsk hb =>
    have hg := grow_stmts Γ body
    refine sim_test hS hcl hs hp hsk ha (hg.fewer S) ?_
    intro c w1 m1 p1 a1
    cases c with
    | true => exact (sim_stmts hb hs he a1).where fun _ h => h.elim
    | false => exact lands_here (a1.grow (hg.fewer S))
  | .cons (body := body) (rest := rest) hp hsk hb hj hr =>
    have hg := grow_stmts Γ body
    have hg2 := grow_branches (afterStmts Γ body) rest
    refine sim_test hS hcl hs hp hsk ha ((hg.trans hg2).fewer S) ?_
    intro c w1 m1 p1 a1
    cases c with
    | true =>
      have h1 := (sim_stmts hb hs (hg2.trans he) a1).where (I' := fun _ => True) fun _ h => h.elim
      have := SPost.seq (f := .done) (b := b) a1 h1 (hg2.fewer S) (fun w2 m2 p2 a2 => by
        obtain ⟨m3, p3, a3⟩ := jump_passes (F := F) hj a2
        exact SPost.after p3 (lands_here (a3.grow (hg2.fewer S))))
      have hid : ∀ r : Res, r.bind .done = r := by intro r; cases r <;> rfl
      rw [hid] at this
      exact this
    | false => exact sim_branches hr (stmts_scope hb hs) he (a1.grow (hg.fewer S))
termination_by structural h

/-- The code of the bodies of a `SELECT`. -/
theorem sim_cases {T : Targets} {sy sy' : Syms} {a b : Nat} {cs : Cases} {ts : List Nat} (h : BodiesCode L T sy a cs ts b sy') :
    ∀ (k : Nat) {t : Nat} {Γ : Env} {w : World} {m : Mach}, Scope sy Γ → Grow (afterCases Γ cs) Γe → ts[k]? = some t →
    At L.img (wide S Γ) d w m t → SPost F L.img (wide S (afterCases Γ cs)) T (fun _ => True) w m b (execCases F n cl Γ cs k w) := by
  intro k t Γ w m hs he ht ha
  match h with
  | .nil => simp at ht
  | .last hb =>
    cases k with
    | zero => cases ht; exact (sim_stmts hb hs he ha).where fun _ h => h.elim
    | succ k => simp at ht
  | .cons (body := body) (rest := rest) hb hj hr =>
    have hg := grow_stmts Γ body
    have hg2 := grow_cases (afterStmts Γ body) rest
    cases k with
    | zero =>
      cases ht
      have h1 := (sim_stmts hb hs (hg2.trans he) ha).where (I' := fun _ => True) fun _ h => h.elim
      have := SPost.seq (f := .done) (b := b) ha h1 (hg2.fewer S) (fun w2 m2 p2 a2 => by
        obtain ⟨m3, p3, a3⟩ := jump_passes (F := F) hj a2
        exact SPost.after p3 (lands_here (a3.grow (hg2.fewer S))))
      have hid : ∀ r : Res, r.bind .done = r := by intro r; cases r <;> rfl
      rw [hid] at this
      exact this
    | succ k => exact sim_cases hr k (stmts_scope hb hs) he ht (ha.grow (hg.fewer S))
termination_by structural h
end

/-! ## From labels on -/

mutual
/-- The code of a statement, from a label in it on. -/
theorem from_stmt {T : Targets} {sy sy' : Syms} {a b : Nat} {s : Stmt} (h : StmtCode L T sy a s b sy') :
    ∀ {Γ : Env} {w : World} {m : Mach} {k : Str} {ak : Nat}, Scope sy Γ → Grow (afterStmt Γ s) Γe → Labels.at' k ak → hasLabel k s = true →
    At L.img (wide S Γe) d w m ak →
    SPost F L.img (wide S (afterStmt Γ s)) T (fun pc => Stmt.plain s = true → Inside L.img a pc) w m b (fromStmt F n cl Γ k s w) := by
  intro Γ w m k ak hs he hk hlab ha
  match h with
  | .simple hsim hp =>
    cases s with
    | label name pos =>
      obtain ⟨rfl, hlb⟩ := label_code hp
      have hname : symKey name = k := by simpa [hasLabel] using hlab
      rw [hname] at hlb
      have := (hS.labels _ _).1 hk
      rw [hlb] at this
      cases this
      simp only [fromStmt]
      exact ⟨m, forget_passes Γ ha.quiet, ha.pc, (ha.forget he).models⟩
    | _ => trivial
  | .wild hw _ hp =>
    cases s with
    | goto | gosub | ret => trivial
    | _ => simp [Stmt.wild] at hw
  | .exitDo .. | .exitFor .. | .exitFunction .. | .exitSub .. | .callable .. => trivial
  | .infinite (body := body) hb hj =>
    have hg := grow_stmts Γ body
    refine SPost.where (I := fun _ => True) (fun _ _ h => by cases h) ?_
    refine catchDo_post (SPost.seq ha ((from_stmts hb hs he hk hlab ha).where fun _ h => h.elim) (.refl _) fun w1 m1 p1 a1 => ?_)
    obtain ⟨m2, p2, a2⟩ := jump_passes (F := F) hj a1
    refine SPost.after p2 (forever_post (Δ' := wide S (afterStmts Γ body)) (fun w m ha => ?_) hj n _ Enough.le (Nat.le_refl _) w1 m2 a2)
    exact ((sim_stmts hS hcl hu hb hs he (ha.forget hg)).where fun _ h => h.elim).after (forget_passes Γ ha.quiet)
  | .preUntil (body := body) (e := e) hp hsk hj1 hb hj =>
    have hg := grow_stmts Γ body
    refine SPost.where (I := fun _ => True) (fun _ _ h => by cases h) ?_
    refine catchDo_post (SPost.seq ha ((from_stmts hb hs he hk hlab ha).where fun _ h => h.elim) (.refl _) fun w1 m1 p1 a1 => ?_)
    obtain ⟨m2, p2, a2⟩ := jump_passes (F := F) hj a1
    refine SPost.after p2 (before_post (Δ := wide S Γ) (Δ' := wide S (afterStmts Γ body)) (hg.fewer S) (fun W hW w m f ha hf => ?_)
      (fun w m ha => (sim_stmts hS hcl hu hb hs he ha).where fun _ h => h.elim) hj n _ Enough.le (Nat.le_refl _) w1 m2 a2)
    refine SPost.after (forget_passes Γ ha.quiet) (sim_test hS (hcl.fewer hW) hs hp hsk (ha.forget hg) (hg.fewer S) ?_)
    intro c w1 m1 p1 a1
    cases c with
    | true =>
      obtain ⟨m2, p2, a2⟩ := jump_passes (F := F) hj1 a1
      exact (hf true w1 m2 ((forget_passes Γ ha.quiet).trans (p1.trans p2)) a2).after p2
    | false => exact hf false w1 m1 ((forget_passes Γ ha.quiet).trans p1) a1
  | .preWhile (body := body) (e := e) hp hsk hb hj =>
    have hg := grow_stmts Γ body
    refine SPost.where (I := fun _ => True) (fun _ _ h => by cases h) ?_
    refine catchDo_post (SPost.seq ha ((from_stmts hb hs he hk hlab ha).where fun _ h => h.elim) (.refl _) fun w1 m1 p1 a1 => ?_)
    obtain ⟨m2, p2, a2⟩ := jump_passes (F := F) hj a1
    refine SPost.after p2 (before_post (Δ := wide S Γ) (Δ' := wide S (afterStmts Γ body)) (hg.fewer S) (fun W hW w m f ha hf => ?_)
      (fun w m ha => (sim_stmts hS hcl hu hb hs he ha).where fun _ h => h.elim) hj n _ Enough.le (Nat.le_refl _) w1 m2 a2)
    refine SPost.after (forget_passes Γ ha.quiet) (sim_test hS (hcl.fewer hW) hs hp hsk (ha.forget hg) (hg.fewer S) ?_)
    intro c w1 m1 p1 a1
    cases c with
    | true => exact hf true w1 m1 ((forget_passes Γ ha.quiet).trans p1) a1
    | false => exact hf false w1 m1 ((forget_passes Γ ha.quiet).trans p1) a1
  | .postUntil (body := body) (e := e) (m := kk) (j := jj) hb hp hsk =>
    have hg := grow_stmts Γ body
    refine SPost.where (I := fun _ => True) (fun _ _ h => by cases h) ?_
    refine catchDo_post (SPost.seq ha ((from_stmts hb hs he hk hlab ha).where fun _ h => h.elim) (.refl _) fun w1 m1 p1 a1 => ?_)
    have hg1 : ∀ W : Watch, W.rounds ≤ W0.rounds → ∀ (w : World) (m : Mach) (f : Bool → World → Res), At L.img (wide S (afterStmts Γ body)) d w m kk →
        (∀ c w1 m0 m1, Passes F L.img w m w1 m0 → Passes F L.img w1 m0 w1 m1 → GoFor F L.img 1 w1.log m0 w1.log m1 →
          At L.img (wide S (afterStmts Γ body)) d w1 m1 (if c = true then jj + 1 else a) →
          @SPost _ W F L.img _ (wide S (afterStmts Γ body)) { T with dos := (jj + 1) :: T.dos } (fun _ => True) w1 m0 (jj + 1) (f c w1)) →
        @SPost _ W F L.img _ (wide S (afterStmts Γ body)) { T with dos := (jj + 1) :: T.dos } (fun _ => True) w m (jj + 1)
          (test (evalAs F cl (afterStmts Γ body) e .boolean w) f) := by
      intro W hW w m f ha hf
      refine sim_leaps hS (hcl.fewer hW) (stmts_scope hb hs) hp hsk ha (.refl _) ?_
      intro c w1 m0 m1 p0 p1 g1 a1
      cases c with
      | true => exact hf true w1 m0 m1 p0 p1 g1 a1
      | false => exact hf false w1 m0 m1 p0 p1 g1 a1
    refine hg1 _ (Nat.le_refl _) w1 m1 _ a1 fun c w2 m0 m2 p0 p2 g2 a2 => SPost.after p2 ?_
    cases c with
    | true => exact lands_here a2
    | false =>
      refine behind_post (k := kk) (Δ' := wide S (afterStmts Γ body)) hg1 (fun w m ha => ?_) n _ Enough.le (Nat.le_refl _) w2 m2 a2
      exact ((sim_stmts hS hcl hu hb hs he (ha.forget hg)).where fun _ h => h.elim).after (forget_passes Γ ha.quiet)
  | .postWhile (body := body) (e := e) (m := kk) (j := jj) hb hp hsk hj =>
    have hg := grow_stmts Γ body
    refine SPost.where (I := fun _ => True) (fun _ _ h => by cases h) ?_
    refine catchDo_post (SPost.seq ha ((from_stmts hb hs he hk hlab ha).where fun _ h => h.elim) (.refl _) fun w1 m1 p1 a1 => ?_)
    have hg1 : ∀ W : Watch, W.rounds ≤ W0.rounds → ∀ (w : World) (m : Mach) (f : Bool → World → Res), At L.img (wide S (afterStmts Γ body)) d w m kk →
        (∀ c w1 m0 m1, Passes F L.img w m w1 m0 → Passes F L.img w1 m0 w1 m1 → GoFor F L.img 1 w1.log m0 w1.log m1 →
          At L.img (wide S (afterStmts Γ body)) d w1 m1 (if c = false then jj + 2 else a) →
          @SPost _ W F L.img _ (wide S (afterStmts Γ body)) { T with dos := (jj + 2) :: T.dos } (fun _ => True) w1 m0 (jj + 2) (f c w1)) →
        @SPost _ W F L.img _ (wide S (afterStmts Γ body)) { T with dos := (jj + 2) :: T.dos } (fun _ => True) w m (jj + 2)
          (test (evalAs F cl (afterStmts Γ body) e .boolean w) f) := by
      intro W hW w m f ha hf
      refine sim_leaps hS (hcl.fewer hW) (stmts_scope hb hs) hp hsk ha (.refl _) ?_
      intro c w1 m0 m1 p0 p1 g1 a1
      cases c with
      | true =>
        obtain ⟨m2, p2, a2⟩ := jump_passes (F := F) hj a1
        exact hf true w1 m0 m2 p0 (p1.trans p2) (g1.after p2.go) a2
      | false => exact hf false w1 m0 m1 p0 p1 g1 a1
    refine hg1 _ (Nat.le_refl _) w1 m1 _ a1 fun c w2 m0 m2 p0 p2 g2 a2 => SPost.after p2 ?_
    cases c with
    | false => exact lands_here a2
    | true =>
      refine behind_post (k := kk) (Δ' := wide S (afterStmts Γ body)) hg1 (fun w m ha => ?_) n _ Enough.le (Nat.le_refl _) w2 m2 a2
      exact ((sim_stmts hS hcl hu hb hs he (ha.forget hg)).where fun _ h => h.elim).after (forget_passes Γ ha.quiet)
  | .forLoop (iter := iter) (start := start) (stop := stop) (next := next) (body := body) (double := double) (k := k) (j := j)
      ⟨c, c', hx, hi, hy, rfl, hla, hlm, hg0, hl, hw⟩ hp hsk hb ⟨c2, c3, hx2, hi2, hy2, hy3, hl2a, hl2b, hg2, hl2, hw2⟩ hj =>
    subst hy
    obtain ⟨c1, s1, i1, q1, hx1⟩ := forStart_ok hi hs hx
    have hsΓ' := assign_scope i1.locals s1 hx1
    have hgb := grow_stmts (afterAssign (forVar Γ iter double) iter start) body
    have hgn := Grow.assign (afterStmts (afterAssign (forVar Γ iter double) iter start) body) iter next
    have hnx : ∀ w m, At L.img (wide S (afterStmts (afterAssign (forVar Γ iter double) iter start) body)) d w m c2.cg.code.length →
        SPost F L.img (wide S (afterAssign (afterStmts (afterAssign (forVar Γ iter double) iter start) body) iter next))
          { T with fors := (j + 1) :: T.fors } (fun _ => True) w m j
          (assign F cl (afterStmts (afterAssign (forVar Γ iter double) iter start) body) iter next w) := by
      intro w2 m2 a2
      subst hy2
      have := sim_assign hS hcl (T := { T with fors := (j + 1) :: T.fors }) hi2 (stmts_scope hb hsΓ') hx2 (lo := _) (Nat.le_of_eq hl2a.symm) hl2
        (hy3 ▸ hw2) a2
      rw [hl2b] at this
      exact this.where fun _ _ => trivial
    refine SPost.where (I := fun _ => True) (fun _ _ h => by cases h) ?_
    refine catchFor_post (SPost.seq ha (SPost.seq ha ((from_stmts hb hsΓ' (hgn.trans he) hk hlab ha).where fun _ h => h.elim) (hgn.fewer S)
      fun w1 m1 p1 a1 => hnx w1 m1 (by rw [hl2a]; exact a1)) (.refl _) fun w1 m1 p1 a1 => ?_)
    obtain ⟨m2, p2, a2⟩ := jump_passes (F := F) hj a1
    refine SPost.after p2 (before_post (start := k + 1) (Δ := wide S (afterAssign (forVar Γ iter double) iter start)) ((hgb.trans hgn).fewer S)
      (fun W hW w m f ha hf => ?_) (fun w m ha => ?_) hj n _ Enough.le (Nat.le_refl _) w1 m2 a2)
    · refine SPost.after (forget_passes _ ha.quiet) (sim_test hS (hcl.fewer hW) hsΓ' hp hsk (ha.forget (hgb.trans hgn)) ((hgb.trans hgn).fewer S) ?_)
      intro c w1 m1 p1 a1
      cases c with
      | true => exact hf true w1 m1 ((forget_passes _ ha.quiet).trans p1) a1
      | false => exact hf false w1 m1 ((forget_passes _ ha.quiet).trans p1) a1
    · exact SPost.seq ha ((sim_stmts hS hcl hu hb hsΓ' (hgn.trans he) ha).where fun _ h => h.elim) (hgn.fewer S) fun w2 m2 p2 a2 => hnx w2 m2 (by rw [hl2a]; exact a2)
  | .ifs hb => exact (from_branches hb hs he hk hlab ha).where fun _ _ h => by cases h
  | .select _ _ _ _ hb => exact (from_cases hb hs he hk hlab ha).where fun _ _ h => by cases h
  | .whileLoop (body := body) (e := e) hp hsk hb hj =>
    have hg := grow_stmts Γ body
    refine SPost.where (I := fun _ => True) (fun _ _ h => by cases h) ?_
    refine SPost.seq ha ((from_stmts hb hs he hk hlab ha).where fun _ h => h.elim) (.refl _) fun w1 m1 p1 a1 => ?_
    obtain ⟨m2, p2, a2⟩ := jump_passes (F := F) hj a1
    refine SPost.after p2 (before_post (Δ := wide S Γ) (Δ' := wide S (afterStmts Γ body)) (hg.fewer S) (fun W hW w m f ha hf => ?_)
      (fun w m ha => (sim_stmts hS hcl hu hb hs he ha).where fun _ h => h.elim) hj n _ Enough.le (Nat.le_refl _) w1 m2 a2)
    refine SPost.after (forget_passes Γ ha.quiet) (sim_test hS (hcl.fewer hW) hs hp hsk (ha.forget hg) (hg.fewer S) ?_)
    intro c w1 m1 p1 a1
    cases c with
    | true => exact hf true w1 m1 ((forget_passes Γ ha.quiet).trans p1) a1
    | false => exact hf false w1 m1 ((forget_passes Γ ha.quiet).trans p1) a1
termination_by structural h

/-- The code of statements, from a label on. -/
theorem from_stmts {T : Targets} {sy sy' : Syms} {a b : Nat} {ss : Stmts} (h : StmtsCode L T sy a ss b sy') :
    ∀ {Γ : Env} {w : World} {m : Mach} {k : Str} {ak : Nat}, Scope sy Γ → Grow (afterStmts Γ ss) Γe → Labels.at' k ak → hasLabels k ss = true →
    At L.img (wide S Γe) d w m ak →
    SPost F L.img (wide S (afterStmts Γ ss)) T (fun _ => False) w m b (fromStmts F n cl Γ k ss w) := by
  intro Γ w m k ak hs he hk hlab ha
  match h with
  | .nil => trivial
  | .cons (s := s) (rest := rest) (m := _) h1 hmk h2 =>
    simp only [fromStmts]
    by_cases hl1 : hasLabel k s = true
    · rw [if_pos hl1]
      refine recover_post (Γ := Γ) h1 h2 ha (from_stmt h1 hs ((grow_stmts _ rest).trans he) hk hl1 ha) ?_ fun w1 m1 a1 =>
        sim_stmts hS hcl hu h2 (stmt_scope h1 hs) he a1
      intro hsl pos e w' hr
      cases s <;> first | (simp [Stmt.silent] at hsl; done) | (simp [fromStmt] at hr)
    · rw [if_neg hl1]
      refine from_stmts h2 (stmt_scope h1 hs) he hk ?_ ha
      simpa [hasLabels, hl1] using hlab
termination_by structural h

/-- The code of the branches of an `IF`, from a label on. -/
theorem from_branches {T : Targets} {sy sy' : Syms} {a b : Nat} {bs : Branches} (h : BranchesCode L T sy a bs b sy') :
    ∀ {Γ : Env} {w : World} {m : Mach} {k : Str} {ak : Nat}, Scope sy Γ → Grow (afterBranches Γ bs) Γe → Labels.at' k ak →
    hasLabelBranches k bs = true → At L.img (wide S Γe) d w m ak →
    SPost F L.img (wide S (afterBranches Γ bs)) T (fun _ => True) w m b (fromBranches F n cl Γ k bs w) := by
  intro Γ w m k ak hs he hk hlab ha
  match h with
  | .nil => trivial
  | .last (body := body) hp hsk hb =>
    have hl1 : hasLabels k body = true := by simpa [hasLabelBranches] using hlab
    simp only [fromBranches]
    rw [if_pos hl1]
    exact (from_stmts hb hs he hk hl1 ha).where fun _ h => h.elim
  | .cons (body := body) (rest := rest) hp hsk hb hj hr =>
    have hg := grow_stmts Γ body
    have hg2 := grow_branches (afterStmts Γ body) rest
    simp only [fromBranches]
    by_cases hl1 : hasLabels k body = true
    · rw [if_pos hl1]
      have h1 := (from_stmts hb hs (hg2.trans he) hk hl1 ha).where (I' := fun _ => True) fun _ h => h.elim
      have := SPost.seq (f := .done) (b := b) ha h1 (hg2.fewer S) (fun w2 m2 p2 a2 => by
        obtain ⟨m3, p3, a3⟩ := jump_passes (F := F) hj a2
        exact SPost.after p3 (lands_here (a3.grow (hg2.fewer S))))
      have hid : ∀ r : Res, r.bind .done = r := by intro r; cases r <;> rfl
      rw [hid] at this
      exact this
    · rw [if_neg hl1]
      exact from_branches hr (stmts_scope hb hs) he hk (by simpa [hasLabelBranches, hl1] using hlab) ha
termination_by structural h

/-- The code of the bodies of a `SELECT`, from a label on. -/
theorem from_cases {T : Targets} {sy sy' : Syms} {a b : Nat} {cs : Cases} {ts : List Nat} (h : BodiesCode L T sy a cs ts b sy') :
    ∀ {Γ : Env} {w : World} {m : Mach} {k : Str} {ak : Nat}, Scope sy Γ → Grow (afterCases Γ cs) Γe → Labels.at' k ak →
    hasLabelCases k cs = true → At L.img (wide S Γe) d w m ak →
    SPost F L.img (wide S (afterCases Γ cs)) T (fun _ => True) w m b (fromCases F n cl Γ k cs w) := by
  intro Γ w m k ak hs he hk hlab ha
  match h with
  | .nil => trivial
  | .last (body := body) hb =>
    have hl1 : hasLabels k body = true := by simpa [hasLabelCases] using hlab
    simp only [fromCases]
    rw [if_pos hl1]
    exact (from_stmts hb hs he hk hl1 ha).where fun _ h => h.elim
  | .cons (body := body) (rest := rest) hb hj hr =>
    have hg := grow_stmts Γ body
    have hg2 := grow_cases (afterStmts Γ body) rest
    simp only [fromCases]
    by_cases hl1 : hasLabels k body = true
    · rw [if_pos hl1]
      have h1 := (from_stmts hb hs (hg2.trans he) hk hl1 ha).where (I' := fun _ => True) fun _ h => h.elim
      have := SPost.seq (f := .done) (b := b) ha h1 (hg2.fewer S) (fun w2 m2 p2 a2 => by
        obtain ⟨m3, p3, a3⟩ := jump_passes (F := F) hj a2
        exact SPost.after p3 (lands_here (a3.grow (hg2.fewer S))))
      have hid : ∀ r : Res, r.bind .done = r := by intro r; cases r <;> rfl
      rw [hid] at this
      exact this
    · rw [if_neg hl1]
      exact from_cases hr (stmts_scope hb hs) he hk (by simpa [hasLabelCases, hl1] using hlab) ha
termination_by structural h
end

omit [Labels] [Watch] [Nest] [Answers L.img] [Enough n] hS hcl hu in
theorem fromStmts_without {Γ : Env} {k : Str} : ∀ {ss : Stmts} {w : World}, hasLabels k ss = false → fromStmts F n cl Γ k ss w = .stuck
  | .nil, _, _ => rfl
  | .cons s rest, w, h => by
    simp only [hasLabels, Bool.or_eq_false_iff] at h
    simp only [fromStmts]
    rw [if_neg (by rw [h.1]; simp)]
    exact fromStmts_without h.2

omit [Labels] [Watch] [Nest] [Answers L.img] [Enough n] hS hcl hu in
theorem follow_lands {Γ : Env} {ss : Stmts} : ∀ (j : Nat) (r : Res) (k : Str) (w : World), follow F n cl Γ ss j r ≠ .jump k w
  | 0, r, k, w => by cases r <;> simp [follow]
  | j + 1, r, k, w => by
    cases r with
    | jump k1 w1 => exact follow_lands j _ k w
    | _ => simp [follow]

/-- Jumps to labels. -/
theorem sim_follow {T : Targets} {sy sy' : Syms} {a b : Nat} {ss : Stmts} {Γ : Env} (h : StmtsCode L T sy a ss b sy') (hs : Scope sy Γ)
    (he : Γe = afterStmts Γ ss) : ∀ (j : Nat) (W : Watch), W.rounds ≤ j → W.rounds ≤ W0.rounds →
    ∀ {w : World} {m : Mach} {a0 : Nat} {Δ0 : Env} {r : Res}, At L.img Δ0 d w m a0 →
    @SPost _ W0 F L.img _ (wide S Γe) T (fun _ => False) w m b r →
    @SPost _ W F L.img _ (wide S Γe) T (fun _ => False) w m b (follow F n cl Γ ss j r) := by
  have hfrom : ∀ {k : Str} {ak : Nat} {w : World} {m : Mach}, Labels.at' k ak → hasLabels k ss = true → At L.img (wide S Γe) d w m ak →
      SPost F L.img (wide S Γe) T (fun _ => False) w m b (fromStmts F n cl Γ k ss w) := by
    intro k ak w m ht hl a1
    have := from_stmts hS hcl hu (n := n) h hs (he ▸ Grow.refl _) ht hl a1
    rw [← he] at this
    exact this
  intro j
  induction j with
  | zero =>
    intro W hj hW w m a0 Δ0 r ha hx
    cases r with
    | jump k w1 => obtain ⟨t, _, m1, p1, _⟩ := hx; exact ⟨m1, p1.go.for.less hj⟩
    | _ => exact hx.fewer hW
  | succ j ih =>
    intro W hj hW w m a0 Δ0 r ha hx
    cases r with
    | jump k w1 =>
      obtain ⟨t, ht, m1, p1, pc1, md1, g1⟩ := hx
      have a1 := p1.at ha pc1 md1
      show @SPost _ _ _ _ _ _ _ _ _ _ _ (follow F n cl Γ ss j (fromStmts F n cl Γ k ss w1))
      cases hl : hasLabels k ss with
      | false =>
        rw [fromStmts_without hl]
        cases j <;> trivial
      | true =>
        have := hfrom ht hl a1
        exact SPost.later (W' := ⟨W.rounds - 1⟩) p1 g1 (by simp only; omega) (ih _ (by simp only; omega) (by simp only; omega) a1 this)
    | _ => exact hx.fewer hW

/-- A program or the body of a callable. -/
theorem sim_unit {T : Targets} {sy sy' : Syms} {a b : Nat} {ss : Stmts} {Γ : Env} {w : World} {m : Mach} (h : StmtsCode L T sy a ss b sy')
    (hs : Scope sy Γ) (he : Γe = afterStmts Γ ss) (ha : At L.img (wide S Γ) d w m a) :
    SPost F L.img (wide S Γe) T (fun _ => False) w m b (unit F n cl Γ ss none w) := by
  refine sim_follow hS hcl hu h hs he n _ Enough.le (Nat.le_refl _) ha ?_
  have := sim_stmts hS hcl hu (n := n) h hs (he ▸ Grow.refl _) ha
  rw [← he] at this
  exact this

/-- … from a label on. -/
theorem sim_unit_at {T : Targets} {sy sy' : Syms} {a b : Nat} {ss : Stmts} {Γ : Env} {w : World} {m : Mach} {k : Str} {ak : Nat}
    (h : StmtsCode L T sy a ss b sy') (hs : Scope sy Γ) (he : Γe = afterStmts Γ ss) (hk : Labels.at' k ak) (ha : At L.img (wide S Γe) d w m ak) :
    SPost F L.img (wide S Γe) T (fun _ => False) w m b (unit F n cl Γ ss (some k) w) := by
  refine sim_follow hS hcl hu h hs he n _ Enough.le (Nat.le_refl _) ha ?_
  show SPost _ _ _ _ _ _ _ _ (fromStmts F n cl Γ k ss w)
  cases hl : hasLabels k ss with
  | false => rw [fromStmts_without hl]; trivial
  | true =>
    have := from_stmts hS hcl hu (n := n) h hs (he ▸ Grow.refl _) hk hl ha
    rw [← he] at this
    exact this

end

end EB
