import Verif.Lemmas.ValidChunk
import Verif.Props.Jumps
/-!
# The compiler accepts the valid programs and no others (C58)

`Spec.ValidPart B ss`: the statements `ss` are valid behind parts of the program that have left `B`.
`Spec.Sofar up defs c img B`: after some history of chunks the compiler is `c`, the image `img`, and the accepted
chunks have left `B`.
-/

namespace EB
open Spec

/-! ## C58 -/

/-- C58: what is accepted is valid. -/
theorem C58_accepted {up : FMap Str Md} {defs : List GlobalDef} (hup : ∀ k md, up.get? k = some md → md.userDefined = false)
    {c c' : Ctx} {img img' : Image} {B : Before} {src : Source} (h : Sofar up defs c img B)
    (hm : compileMore src c img = (.ok (), c', img')) : src.err = none ∧ ValidPart B src.stmts := by
  obtain ⟨hi, H⟩ := sofar_here hup h
  obtain ⟨d, hc, _⟩ := compileMore_ok hm
  have J := compileTop_judged (src := src) (img := img) hi H
  rw [hc] at J
  exact ⟨J.1, J.2.1⟩

/-- C58: what is valid is accepted, unless a table of the compiler is full. -/
theorem C58_valid {up : FMap Str Md} {defs : List GlobalDef} (hup : ∀ k md, up.get? k = some md → md.userDefined = false)
    {c : Ctx} {img : Image} {B : Before} {src : Source} (h : Sofar up defs c img B) (he : src.err = none)
    (hv : ValidPart B src.stmts) :
    (∃ c' img', compileMore src c img = (.ok (), c', img')) ∨ ∃ e, Limit e ∧ compileMore src c img = (.error e, c, img) := by
  obtain ⟨hi, H⟩ := sofar_here hup h
  have J := compileTop_judged (src := src) (img := img) hi H
  unfold compileMore
  cases hc : compileTop src img c with
  | ok r => obtain ⟨d, c'⟩ := r; exact .inl ⟨c', _, rfl⟩
  | error e =>
    rw [hc] at J
    rcases J with J | J | J
    · rw [he] at J; cases J
    · exact .inr ⟨e, J, rfl⟩
    · exact absurd hv J

/-- Whole programs. -/
theorem program_judged {up : FMap Str Md} (hup : ∀ k md, up.get? k = some md → md.userDefined = false) (src : Source) :
    match compileProgram up [] src with
    | .ok _ => src.err = none ∧ ValidPart (.start up []) src.stmts
    | .error e => src.err = some e ∨ Limit e ∨ ¬ ValidPart (.start up []) src.stmts := by
  unfold compileProgram
  have hn : Compiler.new up [] = .ok ⟨Codegen.empty.push .eof ⟨0, 0⟩, [], [], [], none, [], [], ⟨.empty, up, [], .empty⟩⟩ := rfl
  rw [hn]
  have hs := Sofar.start hn
  obtain ⟨hi, H⟩ := sofar_here hup hs
  have J := compileTop_judged (src := src) (img := .default) hi H
  simp only
  unfold compileMore
  cases hc : compileTop src .default ⟨Codegen.empty.push .eof ⟨0, 0⟩, [], [], [], none, [], [], ⟨.empty, up, [], .empty⟩⟩ with
  | ok r => rw [hc] at J; exact ⟨J.1, J.2.1⟩
  | error e => rw [hc] at J; exact J

/-- C58: a program that is accepted is valid. -/
theorem C58_program_accepted {up : FMap Str Md} (hup : ∀ k md, up.get? k = some md → md.userDefined = false) {src : Source}
    {img : Image} (h : compileProgram up [] src = .ok img) : src.err = none ∧ ValidPart (.start up []) src.stmts := by
  have := program_judged hup src
  rw [h] at this
  exact this

/-- C58: a valid program is accepted, unless a table of the compiler is full. -/
theorem C58_program_valid {up : FMap Str Md} (hup : ∀ k md, up.get? k = some md → md.userDefined = false) {src : Source}
    (he : src.err = none) (hv : ValidPart (.start up []) src.stmts) :
    (∃ img, compileProgram up [] src = .ok img) ∨ ∃ e, Limit e ∧ compileProgram up [] src = .error e := by
  have := program_judged hup src
  cases h : compileProgram up [] src with
  | ok img => exact .inl ⟨img, rfl⟩
  | error e =>
    rw [h] at this
    rcases this with J | J | J
    · rw [he] at J; cases J
    · exact .inr ⟨e, J, rfl⟩
    · exact absurd hv J

/-! ## Examples -/

/-- A program with most statements. -/
def Ex.valid : String := "DECLARE FUNCTION twice%(n%)
DIM SHARED total AS INTEGER
DIM a(3) AS INTEGER
x# = 3
FOR i = 0 TO 2
a(i) = twice%(i)
IF a(i) > 2 THEN EXIT FOR
NEXT
DO
x# = x# - 1
IF x# < 0 THEN GOTO @out
LOOP
@out
SELECT CASE a(1)
CASE 1, IS > 5: total = 7
CASE 2 TO 3: total = 8
END SELECT
END 5
FUNCTION twice%(n%)
IF n% = 0 THEN EXIT FUNCTION
twice% = n% * 2
END FUNCTION"

set_option maxRecDepth 100000 in
theorem Ex.valid_ok : ∃ img, compileProgram [] [] (Ex.text Ex.valid) = .ok img := by
  have h : (match compileProgram [] [] (Ex.text Ex.valid) with
    | .ok _ => true
    | .error _ => false) = true := by decide +kernel
  cases hc : compileProgram [] [] (Ex.text Ex.valid) with
  | ok img => exact ⟨img, rfl⟩
  | error e => rw [hc] at h; cases h

example : ValidPart (.start [] []) (Ex.text Ex.valid).stmts :=
  Ex.valid_ok.elim fun _ h => (C58_program_accepted (fun _ _ h => by cases h) h).2

/-- `a = 1`, `GOTO @x`, `@x`. -/
def Ex.hop : Source := ⟨
  .cons (.assign ⟨"a".toList, none⟩ ⟨1, 1⟩ (.int 1#32 ⟨1, 5⟩))
  (.cons (.goto "x".toList ⟨2, 1⟩) (.cons (.label "X".toList ⟨3, 1⟩) .nil)), none⟩

theorem Ex.hop_valid : ValidPart (.start [] []) Ex.hop.stmts :=
  ⟨⟨⟨rfl, _, .int⟩, trivial, trivial, trivial⟩, by decide, by decide,
    ⟨trivial, show symKey "x".toList ∈ [symKey "X".toList] by decide, trivial, trivial⟩⟩

example : (∃ img, compileProgram [] [] Ex.hop = .ok img) ∨ ∃ e, Limit e ∧ compileProgram [] [] Ex.hop = .error e :=
  C58_program_valid (fun _ _ h => by cases h) rfl Ex.hop_valid

/-- The sessions of `Ex.start`: the first two chunks are accepted, the third one is not. -/
theorem Ex.sofar2 : Sofar [] [] Ex.after2.1 Ex.after2.2 (((Before.start [] []).after Ex.chunk1.stmts).after Ex.chunk2.stmts) :=
  .accepted (.accepted (.start Ex.start_new) Ex.after1_ok) Ex.after2_ok

/-- A second `@top` is not valid in this session. -/
example : ¬ ValidPart (((Before.start [] []).after Ex.chunk1.stmts).after Ex.chunk2.stmts) (.cons (.label "top".toList ⟨1, 1⟩) .nil) :=
  fun h => absurd h.labels (by decide)

/-- … but a jump to it is. -/
example : ValidPart (((Before.start [] []).after Ex.chunk1.stmts).after Ex.chunk2.stmts) (.cons (.goto "TOP".toList ⟨1, 1⟩) .nil) :=
  ⟨⟨trivial, trivial⟩, by decide, by decide,
    ⟨show symKey "TOP".toList ∈ (((Before.start [] []).after Ex.chunk1.stmts).after Ex.chunk2.stmts).labels ++ [] by decide, trivial⟩⟩

/-- `EXIT DO` alone is not valid, nor is `a$ = 1`. -/
example : ¬ ValidPart (.start [] []) (.cons (.exitDo ⟨1, 1⟩) .nil) := fun h => by
  have : false = true := h.stmts.1
  cases this

example : ¬ ValidPart (.start [] []) (.cons (.assign ⟨"a".toList, some .text⟩ ⟨1, 1⟩ (.int 1#32 ⟨1, 6⟩)) .nil) := fun h => by
  obtain ⟨_, t, ht, hc⟩ : _ ∧ Usable _ _ _ := h.stmts.1
  cases ht
  exact absurd hc (by unfold Converts; decide)

end EB
