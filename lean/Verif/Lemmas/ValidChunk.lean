import Verif.Lemmas.ValidAll
import Verif.Lemmas.Session
import Verif.Lemmas.SimProg
/-!
# What the compiler accepts: whole programs
-/

namespace EB
open Spec

/-- Where a chunk begins. -/
def Spec.Before.spot (B : Before) : Spot := ⟨B.env, 0, 0, none, B.labels, B.bodies⟩

theorem mkTarget_judged {t : Nat} {pos : LineCol} {e : CErr} (h : mkTarget t pos = .error e) : Limit e := by
  unfold mkTarget at h
  by_cases hlt : t < 65536
  · rw [if_pos hlt] at h; cases h
  · rw [if_neg hlt] at h; cases h; trivial

section
variable {L D : Str → Prop}

/-- One fixup. -/
theorem fixupInstr_judged {g : Codegen} (hl : ∀ k, (∃ a, g.labels.get? k = some a) ↔ L k)
    (hd : ∀ k, (∃ v, g.callables.get? k = some v) ↔ D k) (pos : LineCol) (f : Fixup) :
    match g.fixupInstr pos f with
    | .ok _ => f.Known L D
    | .error e => Limit e ∨ ¬ f.Known L D := by
  have hlab : ∀ l, g.labels.get? (symKey l) = none → ¬ L (symKey l) := fun l hn h => by
    obtain ⟨a, ha⟩ := (hl _).2 h; rw [hn] at ha; cases ha
  cases hf : g.fixupInstr pos f with
  | ok i =>
    unfold Codegen.fixupInstr at hf
    cases f with
    | call r k =>
      simp only at hf
      cases hk : g.callables.get? k with
      | none => rw [hk] at hf; cases hf
      | some v => exact (hd k).1 ⟨v, hk⟩
    | gosub l =>
      simp only at hf
      cases hk : g.labels.get? (symKey l) with
      | none => rw [hk] at hf; cases hf
      | some v => exact (hl _).1 ⟨v, hk⟩
    | goto l =>
      simp only at hf
      cases hk : g.labels.get? (symKey l) with
      | none => rw [hk] at hf; cases hf
      | some v => exact (hl _).1 ⟨v, hk⟩
    | onErrorGoto l =>
      simp only at hf
      cases hk : g.labels.get? (symKey l) with
      | none => rw [hk] at hf; cases hf
      | some v => exact (hl _).1 ⟨v, hk⟩
  | error e =>
    show Limit e ∨ ¬ f.Known L D
    unfold Codegen.fixupInstr at hf
    cases f with
    | call r k =>
      simp only at hf
      cases hk : g.callables.get? k with
      | none => exact .inr fun h => by obtain ⟨a, ha⟩ := (hd _).2 h; rw [hk] at ha; cases ha
      | some v =>
        rw [hk] at hf
        simp only at hf
        cases hm : mkTarget v.1 pos with
        | ok t => rw [hm] at hf; cases hf
        | error e' => rw [hm] at hf; cases hf; exact .inl (mkTarget_judged hm)
    | gosub l =>
      simp only at hf
      cases hk : g.labels.get? (symKey l) with
      | none => exact .inr (hlab l hk)
      | some v =>
        rw [hk] at hf
        simp only at hf
        cases hm : mkTarget v pos with
        | ok t => rw [hm] at hf; cases hf
        | error e' => rw [hm] at hf; cases hf; exact .inl (mkTarget_judged hm)
    | goto l =>
      simp only at hf
      cases hk : g.labels.get? (symKey l) with
      | none => exact .inr (hlab l hk)
      | some v =>
        rw [hk] at hf
        simp only at hf
        cases hm : mkTarget v pos with
        | ok t => rw [hm] at hf; cases hf
        | error e' => rw [hm] at hf; cases hf; exact .inl (mkTarget_judged hm)
    | onErrorGoto l =>
      simp only at hf
      cases hk : g.labels.get? (symKey l) with
      | none => exact .inr (hlab l hk)
      | some v =>
        rw [hk] at hf
        simp only at hf
        cases hm : mkTarget v pos with
        | ok t => rw [hm] at hf; cases hf
        | error e' => rw [hm] at hf; cases hf; exact .inl (mkTarget_judged hm)

/-- All of them. -/
theorem applyFixups_judged {g : Codegen} (hl : ∀ k, (∃ a, g.labels.get? k = some a) ↔ L k)
    (hd : ∀ k, (∃ v, g.callables.get? k = some v) ↔ D k) (fs : FMap Nat Fixup) (hin : ∀ a f, (a, f) ∈ fs → a < g.instrs.length) :
    match g.applyFixups fs with
    | .ok _ => ∀ a f, (a, f) ∈ fs → f.Known L D
    | .error e => Limit e ∨ ¬ ∀ a f, (a, f) ∈ fs → f.Known L D := by
  induction fs with
  | nil => intro a f h; cases h
  | cons p fs ih =>
    obtain ⟨a, f⟩ := p
    have ih := ih fun a f h => hin a f (List.mem_cons_of_mem _ h)
    have ha : a < g.instrs.length := hin a f (List.mem_cons_self ..)
    have h1 := fixupInstr_judged hl hd g.instrs[a].linecol f
    have hr : g.applyFixups ((a, f) :: fs) =
        match g.fixupInstr g.instrs[a].linecol f with
        | .error e => .error e
        | .ok i =>
          match g.applyFixups fs with
          | .error e => .error e
          | .ok code => .ok (code.set a i) := by
      rw [Codegen.applyFixups, List.getElem?_eq_getElem ha]
      rfl
    rw [hr]
    cases hf : g.fixupInstr g.instrs[a].linecol f with
    | error e =>
      rw [hf] at h1
      exact h1.imp id fun h hn => h (hn a f (List.mem_cons_self ..))
    | ok i =>
      rw [hf] at h1
      simp only at h1 ⊢
      cases hx : g.applyFixups fs with
      | error e =>
        rw [hx] at ih
        exact ih.imp id fun h hn => h fun a f hm => hn a f (List.mem_cons_of_mem _ hm)
      | ok code =>
        rw [hx] at ih
        intro a' f' hm
        cases hm with
        | head => exact h1
        | tail _ hm => exact ih a' f' hm
end

/-- A chunk. -/
theorem compileTop_judged {src : Source} {img : Image} {c : Ctx} {B : Before} (hi : Idle c) (H : Here c B.spot) :
    match compileTop src img c with
    | .ok (_, c') => src.err = none ∧ ValidPart B src.stmts ∧ Here c' (B.after src.stmts).spot
    | .error e => src.err = some e ∨ Limit e ∨ ¬ ValidPart B src.stmts := by
  let L : Str → Prop := (· ∈ B.labels ++ labelsStmts src.stmts)
  let D : Str → Prop := (· ∈ B.bodies ++ bodiesStmts src.stmts)
  have H0 : Here { c with cg := c.cg.popEof } B.spot :=
    ⟨H.wf, H.scope, H.user, H.dos, H.fors, H.inside, H.labels, H.defined, H.callables, H.onceLabels, H.onceBodies⟩
  have hf0 : c.cg.popEof.fixups = [] := hi.fixups
  have J := stmts_judged (L := L) (D := D) src.stmts H0
  have hok : ∀ d c', compileTop src img c = .ok (d, c') → _ := fun d c' h => compileTop_ok hi h
  unfold compileTop at hok ⊢
  cases hc : compileStmts src.stmts { c with cg := c.cg.popEof } with
  | error e =>
    rw [hc] at J
    rcases J with J | J
    · exact .inr (.inl J)
    · exact .inr (.inr fun V => J ⟨V.stmts, V.labels, V.bodies⟩)
  | ok r =>
    obtain ⟨⟨⟩, c1⟩ := r
    rw [hc] at J
    obtain ⟨J1, J2, J3⟩ := J
    simp only
    cases he : src.err with
    | some e => exact .inl rfl
    | none =>
      simp only
      have hin0 : FixupsIn c.cg.popEof := fun a f h => by rw [hf0] at h; cases h
      obtain ⟨hin, hall⟩ := J3 hin0
      have hall : AllKnown L D c1.cg ↔ StmtsResolved L D B.env src.stmts := by
        rw [hall]
        exact ⟨fun h => h.2, fun h => ⟨fun a f ha => (by rw [hf0] at ha; cases ha), h⟩⟩
      have hinv : Inv { c with cg := c.cg.popEof } := idle_pop hi
      have E := SStep.compileStmts src.stmts _ _ _ _ hinv (Nat.le_refl _) hc
      have F := applyFixups_judged (L := L) (D := D) (g := c1.cg.push .eof ⟨0, 0⟩) J2.labels J2.callables c1.cg.fixups
        fun a f hm => by
          have := hin a f hm
          have h2 := E.inv.lens
          simp only [Codegen.push, List.length_append]
          omega
      unfold buildDelta
      simp only
      have hpf : (c1.cg.push .eof ⟨0, 0⟩).fixups = c1.cg.fixups := rfl
      rw [hpf]
      cases hx : (c1.cg.push .eof ⟨0, 0⟩).applyFixups c1.cg.fixups with
      | error e =>
        rw [hx] at F
        exact .inr (F.imp id fun h V => h (hall.2 V.resolved))
      | ok code =>
        rw [hx] at F
        refine ⟨trivial, ⟨J1, J2.onceLabels, J2.onceBodies, hall.1 F⟩, ?_⟩
        exact ⟨J2.wf, J2.scope, J2.user, J2.dos, J2.fors, J2.inside, J2.labels, J2.defined, J2.callables, J2.onceLabels, J2.onceBodies⟩

/-! ## Sessions -/

theorem Here.free {α : Type} {x : CS α} {c c' : Ctx} {S : Spot} {a : α} (H : Here c S) (hx : FreeS (fun _ => True) (fun _ => True) x)
    (h : x c = .ok (a, c')) : Here c' S := by
  have h1 := hx c
  rw [h] at h1
  exact H.still h1

theorem prepareScalars_here (defs : List GlobalDef) {c c' : Ctx} {S : Spot} {r} (H : Here c S)
    (h : prepareScalars defs c = .ok (r, c')) : Here c' { S with env := predefine S.env defs } := by
  induction defs generalizing c c' S r with
  | nil => cases CM.pure_ok.1 h; exact H
  | cons d defs ih =>
    cases d with
    | scalar name ty init =>
      unfold prepareScalars at h
      obtain ⟨reg, c1, h1, h⟩ := CM.bind_ok.1 h
      obtain ⟨_, n1, _, s1⟩ := (putGlobal_judged (L := fun _ => True) (D := fun _ => True) H.scope (symKey name) (.scalar ty) ⟨0, 0⟩).ofOk h1
      have H1 := H.near n1 s1
      cases init with
      | none =>
        obtain ⟨_, c2, h2, h⟩ := CM.bind_ok.1 h
        exact ih (H1.free (.onCg (.emitDefault _ _ _)) h2) h
      | some d =>
        simp only at h
        split at h
        · cases h
        · obtain ⟨_, c2, h2, h⟩ := CM.bind_ok.1 h
          exact ih (H1.free (.onCg (.emitValue _ _ _)) h2) h
    | array name ty dims =>
      unfold prepareScalars at h
      split at h
      · cases h
      · obtain ⟨reg, c1, h1, h⟩ := CM.bind_ok.1 h
        obtain ⟨_, n1, _, s1⟩ := (putGlobal_judged (L := fun _ => True) (D := fun _ => True) H.scope (symKey name) (.array ty dims.length) ⟨0, 0⟩).ofOk h1
        obtain ⟨_, c2, h2, h⟩ := CM.bind_ok.1 h
        cases CM.pure_ok.1 h
        exact ih (H.near n1 s1) h2

theorem prepareDims_here (ds : List Nat) (i : Nat) {c c' : Ctx} {S : Spot} {r} (H : Here c S)
    (h : prepareDims i ds c = .ok (r, c')) : Here c' S := by
  induction ds generalizing i c with
  | nil => cases CM.pure_ok.1 h; exact H
  | cons d ds ih =>
    unfold prepareDims at h
    cases hm : mkLocal i with
    | none => rw [hm] at h; cases h
    | some r =>
      rw [hm] at h
      simp only at h
      split at h
      · obtain ⟨_, c1, h1, h⟩ := CM.bind_ok.1 h
        exact ih _ (H.free (.emit _ _) h1) h
      · cases h

theorem prepareArrays_here (as : List (Reg × ExprType × List Nat)) {c c' : Ctx} {S : Spot} {r} (H : Here c S)
    (h : prepareArrays as c = .ok (r, c')) : Here c' S := by
  induction as generalizing c with
  | nil => cases CM.pure_ok.1 h; exact H
  | cons a as ih =>
    obtain ⟨reg, ty, dims⟩ := a
    unfold prepareArrays at h
    obtain ⟨_, c1, h1, h⟩ := CM.bind_ok.1 h
    have H1 := prepareDims_here _ _ H h1
    cases hm : mkLocal 0 with
    | none =>
      rw [hm] at h
      cases hp : PackedArrayType.new ty dims.length <;> rw [hp] at h <;> cases h
    | some first =>
      rw [hm] at h
      cases hp : PackedArrayType.new ty dims.length with
      | none => rw [hp] at h; cases h
      | some packed =>
        rw [hp] at h
        obtain ⟨_, c3, h3, h⟩ := CM.bind_ok.1 h
        exact ih (H1.free (.emit _ _) h3) h

/-- A new compiler. -/
theorem new_here {up : FMap Str Md} {defs : List GlobalDef} {c : Ctx} (hup : ∀ k md, up.get? k = some md → md.userDefined = false)
    (h : Compiler.new up defs = .ok c) : Here c (Before.start up defs).spot := by
  unfold Compiler.new at h
  simp only at h
  split at h
  next u c' hx =>
    cases h
    obtain ⟨arrays, c1, h1, hx⟩ := CM.bind_ok.1 hx
    obtain ⟨u1, c2, h2, hx⟩ := CM.bind_ok.1 hx
    obtain ⟨u2, c3, h3, hx⟩ := CM.bind_ok.1 hx
    cases CM.pure_ok.1 hx
    have H0 : Here ⟨.empty, [], [], [], none, [], [], ⟨.empty, up, [], .empty⟩⟩ (⟨builtins up, [], []⟩ : Before).spot := by
      refine ⟨IdMap.wf_empty, scope_builtins hup, ?_, rfl, rfl, rfl, ?_, ?_, ?_, List.nodup_nil, List.nodup_nil⟩
      · intro k md h; cases h
      · intro k; exact ⟨fun ⟨a, h⟩ => (by cases h), fun h => (by cases h)⟩
      · intro k; exact Iff.rfl
      · intro k; exact ⟨fun ⟨a, h⟩ => (by cases h), fun h => (by cases h)⟩
    exact (prepareArrays_here _ (prepareScalars_here defs H0 h1) h2).free (.emit _ _) h3
  next => cases h

/-- At every point of a session. -/
theorem sofar_here {up : FMap Str Md} {defs : List GlobalDef} (hup : ∀ k md, up.get? k = some md → md.userDefined = false)
    {c : Ctx} {img : Image} {B : Before} (h : Sofar up defs c img B) : Idle c ∧ Here c B.spot := by
  induction h with
  | start h => exact ⟨idle_new h, new_here hup h⟩
  | @accepted _ _ img _ _ src _ hm ih =>
    obtain ⟨hi, H⟩ := ih
    obtain ⟨d, hc, _⟩ := compileMore_ok hm
    have J := compileTop_judged (src := src) (img := img) hi H
    rw [hc] at J
    exact ⟨(idle_top hi hc).1, J.2.2⟩
  | rejected _ hm ih => obtain ⟨rfl, rfl⟩ := compileMore_err hm; exact ih

end EB
