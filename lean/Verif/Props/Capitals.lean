import Verif.Lemmas.CapitalsStmt
import Verif.Props.Names
/-!
# Programs that differ only in the case of names (C22)
-/

namespace EB
open Spec Caps

/-- Names are the same in capitals exactly when they differ only in the case of the letters A to Z. -/
theorem C22_capitals (a b : Str) : capName a = capName b ↔ SameName a b := C22_same_key a b

example : SameName "Total".toList "tOTAL".toList := (C22_capitals _ _).1 (by decide)

/-! ## Parameter lists in any case -/

/-- The images of two programs that differ only in the case of their names are the same if both are accepted.  If one of them is not then
it is because it says that a name is defined already (this is where the spelling of parameters matters, see `C22_counterexample`). -/
theorem C22_program_partial (up : FMap Str Md) (defs : List GlobalDef) {p q : Source} {i : Image} (hs : SameButCase p.stmts q.stmts)
    (he : p.err = q.err) (hp : compileProgram up defs p = .ok i) :
    compileProgram up defs q = .ok i ∨ ∃ pos v, compileProgram up defs q = .error (.alreadyDefined pos v) := by
  have e : source true p = source true q := by
    simp only [source, he]
    rw [show capStmts true p.stmts = capStmts true q.stmts from hs]
  rcases compileProgram_cap (b := true) up defs q with hq | ⟨_, hq⟩
  · rcases compileProgram_cap (b := true) up defs p with h | ⟨_, _, _, h⟩
    · rw [hp, e, hq] at h
      cases hc : compileProgram up defs q with
      | ok j => rw [hc] at h; simp only [plain] at h; rw [h]; exact .inl rfl
      | error e => rw [hc] at h; simp only [plain] at h; cases h
    · rw [hp] at h; cases h
  · exact .inr hq

/-! ## Parameter lists that are spelled in the same way -/

private theorem source_eq {p q : Source} (hs : SameButCaseOfUses p.stmts q.stmts) (he : p.err = q.err) : source false p = source false q := by
  simp only [source, he]
  rw [show capStmts false p.stmts = capStmts false q.stmts from hs]

/-- Two programs that differ only in the case of their names, outside of the parameter lists of functions and subroutines, are accepted or
rejected together.  If they are accepted then their images are the same, and so they do the same in every way.  If they are rejected then
the errors are the same but for the case of the names in them. -/
theorem C22_program (up : FMap Str Md) (defs : List GlobalDef) {p q : Source} (hs : SameButCaseOfUses p.stmts q.stmts) (he : p.err = q.err) :
    (∀ i, compileProgram up defs p = .ok i ↔ compileProgram up defs q = .ok i) ∧
      (∀ e, compileProgram up defs p = .error e → ∃ e', compileProgram up defs q = .error e' ∧ capErr e' = capErr e) := by
  have hp : compileProgram (table false up) defs (source false p) = plain (compileProgram up defs p) := by
    rcases compileProgram_cap (b := false) up defs p with h | ⟨hb, _⟩
    · exact h
    · cases hb
  have hq : compileProgram (table false up) defs (source false q) = plain (compileProgram up defs q) := by
    rcases compileProgram_cap (b := false) up defs q with h | ⟨hb, _⟩
    · exact h
    · cases hb
  rw [source_eq hs he, hq] at hp
  cases h1 : compileProgram up defs p with
  | ok i =>
    rw [h1] at hp
    cases h2 : compileProgram up defs q with
    | ok j =>
      rw [h2] at hp
      cases hp
      exact ⟨fun _ => Iff.rfl, fun _ h => nomatch h⟩
    | error e => rw [h2] at hp; cases hp
  | error e =>
    rw [h1] at hp
    cases h2 : compileProgram up defs q with
    | ok j => rw [h2] at hp; cases hp
    | error e' =>
      rw [h2] at hp
      simp only [plain, Except.error.injEq] at hp
      exact ⟨fun _ => ⟨fun h => (nomatch h), fun h => (nomatch h)⟩, fun _ h => ⟨e', rfl, by cases h; exact hp⟩⟩

private theorem ctx_idle {c : Ctx} (h : c.cg.fixups = []) : ctx false c = c := by
  have : code c.cg = c.cg := by simp only [code, h, List.map_nil]; rw [← h]
  simp only [ctx, syms_false, this]

private theorem compileMore_fixups {src : Source} {c : Ctx} {img : Image} (h : c.cg.fixups = []) : (compileMore src c img).2.1.cg.fixups = [] := by
  unfold compileMore
  cases hc : compileTop src img c with
  | error e => exact h
  | ok r =>
    obtain ⟨d, c'⟩ := r
    unfold compileTop at hc
    cases h1 : compileStmts src.stmts { c with cg := c.cg.popEof } with
    | error e => rw [h1] at hc; cases hc
    | ok r =>
      rw [h1] at hc
      simp only at hc
      cases h2 : src.err with
      | some e => rw [h2] at hc; cases hc
      | none =>
        rw [h2] at hc
        simp only [buildDelta] at hc
        split at hc
        · cases hc
        · cases hc; rfl

/-- One part of a session: whatever has been entered before, the part and the part with its names in another case have the same effect. -/
private theorem more_same {p q : Source} {c : Ctx} {img : Image} (h : c.cg.fixups = []) (hs : SameButCaseOfUses p.stmts q.stmts)
    (he : p.err = q.err) : accepted p (c, img) = accepted q (c, img) ∧ (compileMore p c img).2 = (compileMore q c img).2 := by
  have hp := (compileMore_cap (b := false) p img c).resolve_right (by simp)
  have hq := (compileMore_cap (b := false) q img c).resolve_right (by simp)
  rw [source_eq hs he, ctx_idle h] at hp
  rw [ctx_idle h] at hq
  obtain ⟨p1, p2, p3⟩ := hp
  obtain ⟨q1, q2, q3⟩ := hq
  rw [q1] at p1; rw [q2] at p2; rw [q3] at p3
  rw [ctx_idle (compileMore_fixups h), ctx_idle (compileMore_fixups h)] at p2
  refine ⟨?_, Prod.ext p2.symm p3.symm⟩
  simp only [accepted]
  rcases hm : compileMore p c img with ⟨r, x, y⟩
  rcases hm' : compileMore q c img with ⟨r', x', y'⟩
  rw [hm, hm'] at p1
  cases r <;> cases r' <;> first | rfl | (simp only [plain] at p1; cases p1)

/-- The same at the prompt, for every history: two sessions whose parts differ only in the case of names, outside of parameter lists,
accept the same parts and end with the same compiler and the same image. -/
theorem C22_session {c : Ctx} {img : Image} (hr : Reached c img) {ps qs : List Source}
    (h : List.Forall₂ (fun p q => SameButCaseOfUses p.stmts q.stmts ∧ p.err = q.err) ps qs) :
    session ps (c, img) = session qs (c, img) ∧
      List.Forall₂ (fun p q => SameButCaseOfUses p.stmts q.stmts ∧ p.err = q.err) (acceptedChunks ps (c, img)) (acceptedChunks qs (c, img)) := by
  have hf := (synced_of_reached hr).idle.fixups
  clear hr
  induction h generalizing c img with
  | nil => exact ⟨rfl, .nil⟩
  | @cons p q ps qs hpq _ ih =>
    obtain ⟨ha, hm⟩ := more_same hf hpq.1 hpq.2 (img := img)
    have hf' := compileMore_fixups (src := p) (img := img) hf
    obtain ⟨i1, i2⟩ := ih (c := (compileMore p c img).2.1) (img := (compileMore p c img).2.2) hf'
    simp only [session, acceptedChunks, ← hm, ← ha]
    refine ⟨i1, ?_⟩
    split
    · exact .cons hpq i2
    · exact i2

namespace Ex

private def at' (l c : Nat) : LineCol := ⟨l, c⟩

/-- `DIM Total: total = tOTAL + 1: GOTO Done: @done`. -/
def mixed : Source :=
  ⟨.ofList [.dim "Total".toList (at' 1 5) false .integer,
    .assign ⟨"total".toList, none⟩ (at' 2 1) (.bin .add (.sym ⟨"tOTAL".toList, none⟩ (at' 2 9)) (.int 1#32 (at' 2 17)) (at' 2 15)),
    .goto "Done".toList (at' 3 6), .label "done".toList (at' 4 1)], none⟩

/-- The same in capitals. -/
def loud : Source :=
  ⟨.ofList [.dim "TOTAL".toList (at' 1 5) false .integer,
    .assign ⟨"TOTAL".toList, none⟩ (at' 2 1) (.bin .add (.sym ⟨"TOTAL".toList, none⟩ (at' 2 9)) (.int 1#32 (at' 2 17)) (at' 2 15)),
    .goto "DONE".toList (at' 3 6), .label "DONE".toList (at' 4 1)], none⟩

/-- `DECLARE SUB s(P)`, and `SUB s(p)` if `param` is `p`. -/
def declared (param : String) : Source :=
  ⟨.ofList [.declare ⟨"s".toList, none⟩ (at' 1 13) [⟨"P".toList, none⟩],
    .callable ⟨"s".toList, none⟩ (at' 2 5) [⟨param.toList, none⟩] .nil (at' 3 1)], none⟩

end Ex

example : SameButCaseOfUses Ex.mixed.stmts Ex.loud.stmts := rfl
example : SameButCase Ex.mixed.stmts Ex.loud.stmts := rfl
example : Ex.mixed.stmts ≠ Ex.loud.stmts := by
  intro h
  simp [Ex.mixed, Ex.loud, Stmts.ofList] at h

set_option maxRecDepth 100000 in
example : (compileProgram [] [] Ex.mixed).toOption.isSome = true := by decide +kernel

set_option maxRecDepth 100000 in
example : (compileProgram [] [] (Ex.declared "P")).toOption.isSome = true := by decide +kernel

set_option maxRecDepth 100000 in
/-- The spelling of parameters matters: `DECLARE SUB s(P)` is not a declaration of `SUB s(p)` (finding F19). -/
theorem C22_counterexample :
    SameButCase (Ex.declared "P").stmts (Ex.declared "p").stmts ∧ (compileProgram [] [] (Ex.declared "P")).toOption.isSome = true ∧
      compileProgram [] [] (Ex.declared "p") = .error (.alreadyDefined ⟨2, 5⟩ ⟨"s".toList, none⟩) := by
  refine ⟨rfl, by decide +kernel, by decide +kernel⟩

end EB
