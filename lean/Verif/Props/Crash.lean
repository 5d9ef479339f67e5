import Verif.Lemmas.CrashStmt
import Verif.Props.Positions
import Verif.Props.Valid
/-!
# Compiling a text does not crash (C59)

`Spec/Crash.lean` says which texts are excluded: `DistinctStmts` (the parameters of a callable have different names, and
not the name of the function) and `StmtsResolved (fun _ => True) …` (of the callables that are called, every one is
defined).  `Spec.Sofar up defs c img B`: any history of chunks, accepted or not.
-/

namespace EB
open Spec

theorem predefine_md : ∀ (defs : List GlobalDef) (Γ : Env), (predefine Γ defs).md = Γ.md
  | [], _ => rfl
  | .scalar .. :: rest, Γ => (predefine_md rest _).trans (add_md ..)
  | .array .. :: rest, Γ => (predefine_md rest _).trans (add_md ..)

theorem sofar_funs {up : FMap Str Md} {defs : List GlobalDef}
    (hf : ∀ k md, up.get? k = some md → md.returnType.isSome → ∀ syn ∈ md.syntaxes, NoOutputs syn) {c : Ctx} {img : Image} {B : Before}
    (h : Sofar up defs c img B) : FunsOk B.env.md := by
  induction h with
  | start _ =>
    show FunsOk (predefine (builtins up) defs).md
    rw [predefine_md]
    exact hf
  | accepted _ _ ih => exact funs_stmts _ ih
  | rejected _ _ ih => exact ih

/-- The syntax trees of texts are tidy. -/
theorem parse_tidy (T : TextOps) (F : FloatOps) (s : Str) :
    TidyStmts (parseText T F s).stmts ∧ ((parseText T F s).err = some .panic → NegMin (lexText T false s)) := by
  have h := parseAll_sat (P := TokPos (lexText T false s)) (M := NegMin (lexText T false s)) T F _ (lexText T false s)
    ⟨fun _ h => h, fun h => h⟩ (Nat.le_refl _)
  unfold parseText parseStream
  rcases hp : parseAll T F ((lexText T false s).toks.length + 1) (lexText T false s) with ⟨stmts, e⟩
  rw [hp] at h
  refine ⟨(ofList_pos h.1).tidy, fun he => ?_⟩
  cases e with
  | none => cases he
  | some e =>
    have := h.2 e rfl
    cases e with
    | panic => exact this
    | fuel => exact this.elim
    | bad => cases he
    | io => cases he

/-! ## C59 -/

/-- C59: whatever was compiled before, compiling a text crashes at most if a minus sign stands before the literal that
cannot be negated, if the parameters of a callable do not have different names, or if a callable is called that is
only declared, in the text and in all parts of the program before it. -/
theorem C59_partial {up : FMap Str Md} {defs : List GlobalDef} (hup : ∀ k md, up.get? k = some md → md.userDefined = false)
    (hf : ∀ k md, up.get? k = some md → md.returnType.isSome → ∀ syn ∈ md.syntaxes, NoOutputs syn)
    {c c' : Ctx} {img img' : Image} {B : Before} (h : Sofar up defs c img B) (T : TextOps) (F : FloatOps) (text : Str)
    (he : compileMore (parseText T F text) c img = (.error .panic, c', img')) :
    NegMin (lexText T false text) ∨ ¬ DistinctStmts (parseText T F text).stmts ∨
      ¬ StmtsResolved (fun _ => True) (fun k => k ∈ B.bodies ++ bodiesStmts (parseText T F text).stmts) B.env (parseText T F text).stmts := by
  obtain ⟨hi, H⟩ := sofar_here hup h
  have ht := parse_tidy T F text
  by_cases h1 : NegMin (lexText T false text)
  · exact .inl h1
  by_cases h2 : DistinctStmts (parseText T F text).stmts
  · refine .inr (.inr fun h3 => ?_)
    have hs := compileTop_safe (img := img) hi H (sofar_funs hf h) ht.1 h2 (fun hp => h1 (ht.2 hp)) h3
    unfold compileMore at he
    cases hc : compileTop (parseText T F text) img c with
    | ok r => rw [hc] at he; cases he
    | error e =>
      rw [hc] at he
      simp only [Prod.mk.injEq, Except.error.injEq] at he
      rw [he.1] at hc
      exact hs hc
  · exact .inr (.inl h2)

/-- C59: valid texts do not crash the compiler. -/
theorem C59_valid {up : FMap Str Md} {defs : List GlobalDef} (hup : ∀ k md, up.get? k = some md → md.userDefined = false)
    {c c' : Ctx} {img img' : Image} {B : Before} (h : Sofar up defs c img B) {src : Source} (hs : src.err = none)
    (hv : ValidPart B src.stmts) : compileMore src c img ≠ (.error .panic, c', img') := by
  intro he
  rcases C58_valid hup h hs hv with ⟨_, _, h'⟩ | ⟨e, hl, h'⟩
  · rw [h'] at he; cases he
  · rw [h'] at he
    simp only [Prod.mk.injEq, Except.error.injEq] at he
    rw [he.1] at hl
    exact limit_panic hl

/-- Whether compiling the text as a whole program, without commands, crashes. -/
def Ex.crashes (s : String) : Bool := match compileProgram [] [] (Ex.text s) with
  | .error .panic => true
  | _ => false

theorem Ex.crashes_iff (s : String) : Ex.crashes s = true ↔ compileProgram [] [] (Ex.text s) = .error .panic := by
  unfold Ex.crashes
  cases compileProgram [] [] (Ex.text s) with
  | ok _ => simp
  | error e => cases e <;> simp

/-- C59 fails if a callable is called that is declared and not defined. -/
theorem C59_counterexample : ¬ ∀ s : String, compileProgram [] [] (Ex.text s) ≠ .error .panic := by
  intro h
  exact h "DECLARE SUB f\nf" ((Ex.crashes_iff _).1 (by decide +kernel))

set_option maxRecDepth 100000 in
/-- C59 fails if two parameters have the same name. -/
theorem C59_counterexample_params : compileProgram [] [] (Ex.text "SUB f(a, b, A)\nEND SUB") = .error .panic :=
  (Ex.crashes_iff _).1 (by decide +kernel)

set_option maxRecDepth 100000 in
/-- … or a parameter has the name of the function. -/
theorem C59_counterexample_result : compileProgram [] [] (Ex.text "FUNCTION f(f)\nEND FUNCTION") = .error .panic :=
  (Ex.crashes_iff _).1 (by decide +kernel)

set_option maxRecDepth 100000 in
/-- Wrong programs without any of these: they get errors. -/
example : Ex.crashes "DECLARE FUNCTION f(a)\nx = f(1, 2)" = false ∧ Ex.crashes "DIM a(1)\nb = a(1)(2" = false ∧
    Ex.crashes "FOR i = 1 TO f(\nNEXT" = false ∧ Ex.crashes Ex.valid = false := by decide +kernel

/-- The hypotheses hold of the programs that crash. -/
example (text : String) (h : compileProgram [] [] (Ex.text text) = .error .panic) :
    NegMin (lexText asciiText false text.toList) ∨ ¬ DistinctStmts (Ex.text text).stmts ∨
      ¬ StmtsResolved (fun _ => True) (fun k => k ∈ bodiesStmts (Ex.text text).stmts) (builtins []) (Ex.text text).stmts := by
  have hm : ∃ c' img', compileMore (Ex.text text) Ex.start .default = (.error .panic, c', img') := by
    unfold compileProgram at h
    rw [Ex.start_new] at h
    simp only at h
    rcases hc : compileMore (Ex.text text) Ex.start .default with ⟨e | u, c', img'⟩
    · rw [hc] at h
      simp only [Except.error.injEq] at h
      rw [h]
      exact ⟨_, _, rfl⟩
    · rw [hc] at h; cases h
  obtain ⟨c', img', hm⟩ := hm
  exact C59_partial (up := []) (defs := []) (B := .start [] []) (fun _ _ h => by cases h) (fun _ _ h => by cases h) (.start Ex.start_new)
    asciiText Ex.noFloat text.toList hm

end EB
