import Verif.Lemmas.Scope
/-!
# Combining runs of statements
-/

namespace EB
open Spec

variable [Labels] [Watch]

/-- The environment with all shared variables of the program. -/
def wide (S : Decls) (Γ : Env) : Env := { Γ with shared := S }

/-- The shared variables of the whole program. -/
structure Shares (L : Link) (S : Decls) : Prop where
  rep : Represents L.syf.globals S
  small : S.length ≤ 64
  labels : ∀ k a, Labels.at' k a ↔ L.gf.labels.get? k = some a

/-- What one environment declares the other one declares, too. -/
def Fewer (Δ Δ' : Env) : Prop := ∀ p q, Δ.proto p = some q → Δ'.proto p = some q

theorem Fewer.refl (Δ : Env) : Fewer Δ Δ := fun _ _ h => h
theorem Fewer.trans {a b c : Env} (h1 : Fewer a b) (h2 : Fewer b c) : Fewer a c := fun p q h => h2 p q (h1 p q h)

theorem prefix_get {α : Type} {l l' : List α} (h : l <+: l') {n : Nat} {x : α} (hx : l[n]? = some x) : l'[n]? = some x := by
  obtain ⟨t, rfl⟩ := h
  rw [List.getElem?_append_left (List.getElem?_eq_some_iff.1 hx).1]; exact hx

theorem proto_prefix {l l' : Decls} (h : l <+: l') {n : Nat} {q : Proto} (hx : (l[n]?).map (·.2) = some q) : (l'[n]?).map (·.2) = some q := by
  cases hl : l[n]? with
  | none => rw [hl] at hx; simp at hx
  | some x => rw [prefix_get h hl, ← hl]; exact hx

theorem Grow.fewer {Γ Γ' : Env} (h : Grow Γ Γ') (S : Decls) : Fewer (wide S Γ) (wide S Γ') := by
  intro p q hq
  cases p with
  | shared n => exact hq
  | «local» n => exact proto_prefix h.locals hq

theorem wide_wider {L : Link} {S : Decls} (hS : Shares L S) {sy : Syms} {Γ : Env} (hs : Scope sy Γ) (hw : L.Within sy) :
    Wider Γ (wide S Γ) :=
  ⟨rfl, represents_ext hs.syms.shared hS.rep hw.globals, ⟨hs.syms.small.locals, hS.small⟩⟩

section
variable {F : FloatOps} {L : Link}

theorem Spec.Models.change {cs : List ConstantDatum} {Δ Δ' : Env} {fp : Nat} {w w' : World} {m : Mach} (hm : Models cs Δ fp w m)
    (hroom : w'.room = w.room) (htr : w'.trap = w.trap) (hsub : ∀ p c, w'.mem p = some c → w.mem p = some c)
    (ht : ∀ p q, w'.mem p ≠ none → Δ.proto p = some q → Δ'.proto p = some q) : Models cs Δ' fp w' m := by
  refine ⟨hm.base, hm.heap, by rw [hroom]; exact hm.room, fun p c h => hm.cells p c (hsub p c h), ?_, ?_, by rw [htr]; exact hm.trap⟩
  · intro p c h
    obtain ⟨q, h1, h2⟩ := hm.typed p c (hsub p c h)
    exact ⟨q, ht p q (by rw [h]; simp) h1, h2⟩
  · intro p q t d f t' d' f' i h1 h2
    exact hm.apart p q t d f t' d' f' i (hsub _ _ h1) (hsub _ _ h2)

theorem Spec.Models.grow {cs : List ConstantDatum} {Δ Δ' : Env} {fp : Nat} {w : World} {m : Mach} (hm : Models cs Δ fp w m)
    (h : Fewer Δ Δ') : Models cs Δ' fp w m := hm.change rfl rfl (fun _ _ h => h) fun p q _ => h p q

theorem kept_less {fp : Nat} {K : Nat → Prop} {w w' : World} {m : Mach} (hsub : ∀ p c, w'.mem p = some c → w.mem p = some c) :
    Kept fp K w m w' m :=
  ⟨fun _ _ => rfl, fun _ _ h => h, fun _ _ h _ => h, fun _ _ ⟨p, t, d, f, h1, h2⟩ => ⟨p, t, d, f, hsub _ _ h1, h2⟩, Nat.le_refl _, rfl⟩

/-- The registers of the callers. -/
def Low (fp j : Nat) : Prop := 64 ≤ j ∧ j < fp

/-- A run within the activation. -/
structure Passes (F : FloatOps) (img : Image) [Answers img] (w : World) (m : Mach) (w' : World) (m' : Mach) : Prop where
  go : Go F img w.log m w'.log m'
  act : SameAct m m'
  kept : Kept m.fp (Low m.fp) w m w' m'

theorem Passes.trans {img : Image} [Answers img] {w w1 w2 : World} {m m1 m2 : Mach} (h1 : Passes F img w m w1 m1) (h2 : Passes F img w1 m1 w2 m2) :
    Passes F img w m w2 m2 :=
  ⟨h1.go.trans h2.go, h1.act.trans h2.act, h1.kept.trans (h1.act.fp ▸ h2.kept)⟩

theorem Passes.refl {img : Image} [Answers img] {w : World} {m : Mach} (hq : m.yieldPending = false) : Passes F img w m w m :=
  ⟨.refl _ _, .refl hq, .refl _ _ _ _⟩

theorem Passes.less {img : Image} [Answers img] {w w' : World} {m : Mach} (hq : m.yieldPending = false) (hl : w'.log = w.log)
    (hsub : ∀ p c, w'.mem p = some c → w.mem p = some c) : Passes F img w m w' m :=
  ⟨by rw [hl]; exact .refl _ _, .refl hq, kept_less hsub⟩

/-- Whether there is something to return to. -/
class Nest where
  inner : Bool

variable [Nest]

/-- The machine is at an address, with what is known. -/
structure At (img : Image) (Δ : Env) (d : Nat) (w : World) (m : Mach) (a : Nat) : Prop where
  pc : m.pc = a
  quiet : m.yieldPending = false
  models : Models img.constants Δ m.fp w m
  depth : m.maxStack - m.stack.length = d
  low : m.fp + 192 * d + 256 ≤ 2 ^ 32
  nest : m.stack = [] ↔ Nest.inner = false

theorem Passes.at {img : Image} [Answers img] {w w' : World} {m m' : Mach} {Δ Δ' : Env} {d a b : Nat} (hp : Passes F img w m w' m')
    (h : At img Δ d w m a) (hpc : m'.pc = b) (hm : Models img.constants Δ' m'.fp w' m') : At img Δ' d w' m' b :=
  ⟨hpc, hp.act.quiet, hm, by rw [hp.act.stack, hp.act.maxStack]; exact h.depth, by rw [hp.act.fp]; exact h.low, by rw [hp.act.stack]; exact h.nest⟩

theorem At.less {img : Image} {Δ Δ' : Env} {d a : Nat} {w w' : World} {m : Mach} (h : At img Δ d w m a) (hroom : w'.room = w.room) (htr : w'.trap = w.trap)
    (hsub : ∀ p c, w'.mem p = some c → w.mem p = some c)
    (ht : ∀ p q, w'.mem p ≠ none → Δ.proto p = some q → Δ'.proto p = some q) : At img Δ' d w' m a :=
  ⟨h.pc, h.quiet, h.models.change hroom htr hsub ht, h.depth, h.low, h.nest⟩

/-- The run that ends at `pc`. -/
def Lands (F : FloatOps) (img : Image) [Answers img] (Δ : Env) (w : World) (m : Mach) (w' : World) (pc : Nat) : Prop :=
  ∃ m', Passes F img w m w' m' ∧ m'.pc = pc ∧ Models img.constants Δ m'.fp w' m'

/-- The run that ends at `pc` after at least one step. -/
def Leaps (F : FloatOps) (img : Image) [Answers img] (Δ : Env) (w : World) (m : Mach) (w' : World) (pc : Nat) : Prop :=
  ∃ m', Passes F img w m w' m' ∧ m'.pc = pc ∧ Models img.constants Δ m'.fp w' m' ∧ GoFor F img 1 w.log m w'.log m'

/-- What a run of statements from `m` should do, given what the specification says.  `I` is where errors may happen
after which the program goes on. -/
def SPost (F : FloatOps) (img : Image) [Answers img] (Δ : Env) (T : Targets) (I : Nat → Prop) (w : World) (m : Mach) (b : Nat) :
    Res → Prop
  | .done w' => Lands F img Δ w m w' b
  | .exitDo w' => ∃ t ts, T.dos = t :: ts ∧ Lands F img Δ w m w' t
  | .exitFor w' => ∃ t ts, T.fors = t :: ts ∧ Lands F img Δ w m w' t
  | .leave w' => ∃ t, T.ret = some t ∧ Lands F img Δ w m w' t
  | .err pos e w' => ∃ m' pc, Fails F img w.log m w'.log m' pc pos e ∧ Kept m.fp (Low m.fp) w m w' m' ∧
      Models img.constants Δ m.fp w' m' ∧ (w'.trap.goesOn = true → SameAct m m' ∧ I pc)
  | .ended code w' => ∃ m', Go F img w.log m w'.log m' ∧ Finishes F img m' code ∧ Kept m.fp (Low m.fp) w m w' m' ∧
      Models img.constants Δ m.fp w' m'
  | .going l => ∃ m', GoFor F img Watch.rounds w.log m l m'
  | .jump k w' => ∃ a, Labels.at' k a ∧ Leaps F img Δ w m w' a
  | .back w' => ∃ t, img.code[t]? = some .ret ∧ m.stack ≠ [] ∧ Lands F img Δ w m w' t
  | .stuck => True

variable {img : Image} [Answers img] [Answers L.img] {Δ Δ' : Env} {T : Targets} {I : Nat → Prop}

theorem Lands.after {w w1 w2 : World} {m m1 : Mach} {b : Nat} (hp : Passes F img w m w1 m1) (h : Lands F img Δ w1 m1 w2 b) :
    Lands F img Δ w m w2 b := by
  obtain ⟨m2, h1, h2, h3⟩ := h
  exact ⟨m2, hp.trans h1, h2, h3⟩

theorem Lands.grow {w w2 : World} {m : Mach} {b : Nat} (hd : Fewer Δ Δ') (h : Lands F img Δ w m w2 b) : Lands F img Δ' w m w2 b := by
  obtain ⟨m2, h1, h2, h3⟩ := h
  exact ⟨m2, h1, h2, h3.grow hd⟩

theorem Leaps.after {w w1 w2 : World} {m m1 : Mach} {b : Nat} (hp : Passes F img w m w1 m1) (h : Leaps F img Δ w1 m1 w2 b) :
    Leaps F img Δ w m w2 b := by
  obtain ⟨m2, h1, h2, h3, h4⟩ := h
  exact ⟨m2, hp.trans h1, h2, h3, h4.before hp.go⟩

theorem Leaps.grow {w w2 : World} {m : Mach} {b : Nat} (hd : Fewer Δ Δ') (h : Leaps F img Δ w m w2 b) : Leaps F img Δ' w m w2 b := by
  obtain ⟨m2, h1, h2, h3, h4⟩ := h
  exact ⟨m2, h1, h2, h3.grow hd, h4⟩

/-- Something before. -/
theorem SPost.after {w w1 : World} {m m1 : Mach} {b : Nat} {r : Res} (hp : Passes F img w m w1 m1) (h : SPost F img Δ T I w1 m1 b r) :
    SPost F img Δ T I w m b r := by
  cases r with
  | done w2 => exact Lands.after hp h
  | exitDo w2 => obtain ⟨t, ts, ht, h⟩ := h; exact ⟨t, ts, ht, h.after hp⟩
  | exitFor w2 => obtain ⟨t, ts, ht, h⟩ := h; exact ⟨t, ts, ht, h.after hp⟩
  | leave w2 => obtain ⟨t, ht, h⟩ := h; exact ⟨t, ht, h.after hp⟩
  | jump k w2 => obtain ⟨t, ht, h⟩ := h; exact ⟨t, ht, h.after hp⟩
  | back w2 => obtain ⟨t, ht, hs, h⟩ := h; exact ⟨t, ht, hp.act.stack ▸ hs, h.after hp⟩
  | stuck => trivial
  | going l => obtain ⟨m2, h1⟩ := h; exact ⟨m2, h1.before hp.go⟩
  | err pos e w2 =>
    obtain ⟨m2, pc, h1, h3, h4, h5⟩ := h
    exact ⟨m2, pc, h1.before hp.go, hp.kept.trans (hp.act.fp ▸ h3), hp.act.fp ▸ h4, fun h => ⟨hp.act.trans (h5 h).1, (h5 h).2⟩⟩
  | ended code w2 =>
    obtain ⟨m2, h1, h2, h3, h4⟩ := h
    exact ⟨m2, hp.go.trans h1, h2, hp.kept.trans (hp.act.fp ▸ h3), hp.act.fp ▸ h4⟩

theorem SPost.grow {w : World} {m : Mach} {b : Nat} {r : Res} (hd : Fewer Δ Δ') (h : SPost F img Δ T I w m b r) : SPost F img Δ' T I w m b r := by
  cases r with
  | done w2 => exact Lands.grow hd h
  | exitDo w2 => obtain ⟨t, ts, ht, h⟩ := h; exact ⟨t, ts, ht, h.grow hd⟩
  | exitFor w2 => obtain ⟨t, ts, ht, h⟩ := h; exact ⟨t, ts, ht, h.grow hd⟩
  | leave w2 => obtain ⟨t, ht, h⟩ := h; exact ⟨t, ht, h.grow hd⟩
  | jump k w2 => obtain ⟨t, ht, h⟩ := h; exact ⟨t, ht, h.grow hd⟩
  | back w2 => obtain ⟨t, ht, hs, h⟩ := h; exact ⟨t, ht, hs, h.grow hd⟩
  | stuck => trivial
  | going l => exact h
  | err pos e w2 => obtain ⟨m2, pc, h1, h3, h4, h5⟩ := h; exact ⟨m2, pc, h1, h3, h4.grow hd, h5⟩
  | ended code w2 => obtain ⟨m2, h1, h2, h3, h4⟩ := h; exact ⟨m2, h1, h2, h3, h4.grow hd⟩

theorem SPost.where {I' : Nat → Prop} {w : World} {m : Mach} {b : Nat} {r : Res} (hI : ∀ pc, I pc → I' pc) (h : SPost F img Δ T I w m b r) :
    SPost F img Δ T I' w m b r := by
  cases r with
  | err pos e w2 => obtain ⟨m2, pc, h1, h3, h4, h5⟩ := h; exact ⟨m2, pc, h1, h3, h4, fun h => ⟨(h5 h).1, hI _ (h5 h).2⟩⟩
  | _ => exact h

omit [Watch] in
/-- Something before that takes a step. -/
theorem SPost.later {W W' : Watch} {w w1 : World} {m m1 : Mach} {b : Nat} {r : Res} (hp : Passes F img w m w1 m1)
    (hg : GoFor F img 1 w.log m w1.log m1) (hW : W.rounds ≤ W'.rounds + 1) (h : @SPost _ W' F img _ Δ T I w1 m1 b r) :
    @SPost _ W F img _ Δ T I w m b r := by
  cases r with
  | going l => obtain ⟨m2, h1⟩ := h; exact ⟨m2, (hg.trans h1).less (by omega)⟩
  | _ => exact SPost.after (img := img) hp h

omit [Watch] in
/-- A smaller number of steps. -/
theorem SPost.fewer {W W' : Watch} {w : World} {m : Mach} {b : Nat} {r : Res} (hW : W'.rounds ≤ W.rounds)
    (h : @SPost _ W F img _ Δ T I w m b r) : @SPost _ W' F img _ Δ T I w m b r := by
  cases r with
  | going l => obtain ⟨m2, h1⟩ := h; exact ⟨m2, h1.less hW⟩
  | _ => exact h

/-- One after the other. -/
theorem SPost.bind {w : World} {m : Mach} {b pc : Nat} {r : Res} {f : World → Res} (hx : SPost F img Δ T I w m pc r) (hd : Fewer Δ Δ')
    (hf : ∀ w1 m1, Passes F img w m w1 m1 → m1.pc = pc → Models img.constants Δ m1.fp w1 m1 → SPost F img Δ' T I w1 m1 b (f w1)) :
    SPost F img Δ' T I w m b (r.bind f) := by
  cases r with
  | done w1 =>
    obtain ⟨m1, h1, h2, h3⟩ := hx
    exact (hf w1 m1 h1 h2 h3).after h1
  | _ => exact hx.grow hd

/-- Evaluate, then do. -/
theorem Post.then {α : Type} {K : Nat → Prop} {w : World} {m : Mach} {b pc : Nat} {h : α → Mach → Prop} {x : Out α} {f : α → World → Res} {lo : Nat}
    (hx : Post F img Δ lo K w m pc h x) (hI : ∀ pc, Inside img lo pc → I pc) (hK : ∀ j, Low m.fp j → K j)
    (hd : ∀ p q, w.mem p ≠ none → Δ.proto p = some q → Δ'.proto p = some q)
    (hf : ∀ a w1 m1, Passes F img w m w1 m1 → m1.pc = pc → Models img.constants Δ m1.fp w1 m1 → Dom w w1 → h a m1 →
      Kept m.fp K w m w1 m1 → SPost F img Δ' T I w1 m1 b (f a w1)) :
    SPost F img Δ' T I w m b (x.then f) := by
  have dom : ∀ {w1}, Dom w w1 → ∀ p q, w1.mem p ≠ none → Δ.proto p = some q → Δ'.proto p = some q :=
    fun h p q h1 => hd p q fun h2 => h1 (h p h2)
  cases x with
  | stuck => trivial
  | going l => exact hx
  | err pos e w1 =>
    obtain ⟨m1, pc, f1, k1, md1, d1, r1⟩ := hx
    exact ⟨m1, pc, f1, k1.weaken hK, md1.change rfl rfl (fun _ _ h => h) (dom d1), fun h => ⟨(r1 h).1, hI _ (r1 h).2⟩⟩
  | ended code w1 =>
    obtain ⟨m1, g1, f1, k1, md1, d1⟩ := hx
    exact ⟨m1, g1, f1, k1.weaken hK, md1.change rfl rfl (fun _ _ h => h) (dom d1)⟩
  | ok a w1 =>
    obtain ⟨m1, g1, p1, s1, k1, md1, d1, a1⟩ := hx
    have hp : Passes F img w m w1 m1 := ⟨g1, s1, k1.weaken hK⟩
    exact (hf a w1 m1 hp p1 (s1.fp ▸ md1) d1 a1 k1).after hp

/-! ## Jumps -/

theorem jump_full {a t d : Nat} {w : World} {m : Mach} (hj : Jumps L a t) (h : At L.img Δ d w m a) :
    ∃ m1, Passes F L.img w m w m1 ∧ At L.img Δ d w m1 t ∧ m1.regs = m.regs ∧ m1.heap = m.heap ∧ GoFor F L.img 1 w.log m w.log m1 := by
  obtain ⟨u, hc, hu⟩ := hj
  have go : GoFor F L.img 1 w.log m w.log { m with pc := t } := by
    refine ⟨1, Nat.le_refl _, .step (m1 := doJump m t) (.cont (i := .jump u) (by rw [h.pc]; exact hc) (by rw [← hu]; rfl)) ?_⟩
    have : (doJump m t).calm = { m with pc := t } := by
      have hq := h.quiet
      cases m
      simp only at hq
      subst hq
      rfl
    rw [this]
    exact .refl _ _
  refine ⟨{ m with pc := t }, ⟨go.go, ⟨rfl, rfl, rfl, h.quiet⟩, ?_⟩, ⟨rfl, h.quiet, ?_, h.depth, h.low, h.nest⟩, rfl, rfl, go⟩
  · exact ⟨fun _ _ => rfl, fun _ _ h => h, fun _ _ h _ => h, fun _ _ h => h, Nat.le_refl _, rfl⟩
  · exact ⟨h.models.base, h.models.heap, h.models.room, h.models.cells, h.models.typed, h.models.apart, h.models.trap⟩

theorem jump_passes {a t d : Nat} {w : World} {m : Mach} (hj : Jumps L a t) (h : At L.img Δ d w m a) :
    ∃ m1, Passes F L.img w m w m1 ∧ At L.img Δ d w m1 t := by
  obtain ⟨m1, h1, h2, _⟩ := jump_full (F := F) hj h
  exact ⟨m1, h1, h2⟩

theorem jump_leaps {a t d : Nat} {w : World} {m : Mach} (hj : Jumps L a t) (h : At L.img Δ d w m a) :
    ∃ m1, Passes F L.img w m w m1 ∧ At L.img Δ d w m1 t ∧ GoFor F L.img 1 w.log m w.log m1 := by
  obtain ⟨m1, h1, h2, _, _, h3⟩ := jump_full (F := F) hj h
  exact ⟨m1, h1, h2, h3⟩

theorem skip_passes {a t d : Nat} {r : Reg} {w : World} {m : Mach} {b : Bool} (hj : Skips L a r t) (h : At L.img Δ d w m a)
    (hr : m.get r = ofBool b) : ∃ m1, Passes F L.img w m w m1 ∧ At L.img Δ d w m1 (if b then a + 1 else t) ∧ m1.regs = m.regs ∧ m1.heap = m.heap ∧
      GoFor F L.img 1 w.log m w.log m1 := by
  obtain ⟨u, hc, hu⟩ := hj
  cases b with
  | true =>
    have go : GoFor F L.img 1 w.log m w.log m.next := by
      refine GoFor.one (by rw [h.pc]; exact hc) ?_ h.quiet
      show (if m.get r ≠ 0#64 then _ else _) = _
      rw [hr, if_pos (by decide)]
    refine ⟨m.next, ⟨go.go, ⟨rfl, rfl, rfl, h.quiet⟩, ?_⟩, ⟨by simp [Mach.next, h.pc], h.quiet, ?_, h.depth, h.low, h.nest⟩, rfl, rfl, go⟩
    · exact ⟨fun _ _ => rfl, fun _ _ h => h, fun _ _ h _ => h, fun _ _ h => h, Nat.le_refl _, rfl⟩
    · exact ⟨h.models.base, h.models.heap, h.models.room, h.models.cells, h.models.typed, h.models.apart, h.models.trap⟩
  | false =>
    have go : GoFor F L.img 1 w.log m w.log { m with pc := t } := by
      refine ⟨1, Nat.le_refl _, .step (m1 := doJump m t) (.cont (i := .jumpIfFalse r u) (by rw [h.pc]; exact hc) ?_) ?_⟩
      · show (if m.get r ≠ 0#64 then _ else _) = _
        rw [hr, if_neg (by decide), hu]
      · have : (doJump m t).calm = { m with pc := t } := by
          have hq := h.quiet
          cases m
          simp only at hq
          subst hq
          rfl
        rw [this]
        exact .refl _ _
    refine ⟨{ m with pc := t }, ⟨go.go, ⟨rfl, rfl, rfl, h.quiet⟩, ?_⟩, ⟨rfl, h.quiet, ?_, h.depth, h.low, h.nest⟩, rfl, rfl, go⟩
    · exact ⟨fun _ _ => rfl, fun _ _ h => h, fun _ _ h _ => h, fun _ _ h => h, Nat.le_refl _, rfl⟩
    · exact ⟨h.models.base, h.models.heap, h.models.room, h.models.cells, h.models.typed, h.models.apart, h.models.trap⟩

/-- What the code of a boolean leaves behind. -/
def IsBool (r : Reg) (v : Val) (m : Mach) : Prop := ∃ b, v = .bool b ∧ m.get r = ofBool b

/-- A guard and the jump after it. -/
theorem test_leaps {K : Nat → Prop} {w : World} {m : Mach} {a k t b d : Nat} {r : Reg} {x : Out Val} {f : Bool → World → Res}
    {lo : Nat} (ha : At L.img Δ d w m a)
    (hx : Post F L.img Δ lo K w m k (IsBool r) x) (hI : ∀ pc, Inside L.img lo pc → I pc) (hK : ∀ j, Low m.fp j → K j) (hd : Fewer Δ Δ') (hj : Skips L k r t)
    (hf : ∀ c w1 m0 m1, Passes F L.img w m w1 m0 → Passes F L.img w1 m0 w1 m1 → GoFor F L.img 1 w1.log m0 w1.log m1 →
      At L.img Δ d w1 m1 (if c then k + 1 else t) → SPost F L.img Δ' T I w1 m0 b (f c w1)) :
    SPost F L.img Δ' T I w m b (test x f) := by
  unfold test
  refine Post.then hx hI hK (fun p q _ => hd p q) ?_
  rintro v w1 m1 hp hpc hm _ ⟨c, rfl, hr⟩ _
  obtain ⟨m2, hp2, hat, _, _, hg⟩ := skip_passes (F := F) hj (hp.at ha hpc hm) hr
  exact hf c w1 m1 m2 hp hp2 hg hat

/-! ## Loops -/

/-- Leaving a `DO` loop. -/
theorem catchDo_post {w : World} {m : Mach} {b : Nat} {r : Res} (h : SPost F img Δ { T with dos := b :: T.dos } I w m b r) :
    SPost F img Δ T I w m b (catchDo r) := by
  cases r with
  | exitDo w1 => obtain ⟨t, ts, ht, h⟩ := h; cases ht; exact h
  | _ => exact h

/-- Leaving a `FOR` loop. -/
theorem catchFor_post {w : World} {m : Mach} {b : Nat} {r : Res} (h : SPost F img Δ { T with fors := b :: T.fors } I w m b r) :
    SPost F img Δ T I w m b (catchFor r) := by
  cases r with
  | exitFor w1 => obtain ⟨t, ts, ht, h⟩ := h; cases ht; exact h
  | _ => exact h

end

end EB
