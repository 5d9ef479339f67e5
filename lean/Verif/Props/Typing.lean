import Verif.Lemmas.TypingExpr
import Verif.Props.Valid
import Verif.Props.Settled
/-!
# C08: types of the expressions and variables of whole programs
-/

namespace EB
open Spec

/-- **C08** When an accepted program ends in any way, whatever the built-in callables do, every variable has a content of
the type it was declared with. -/
theorem C08_variables {up : FMap Str Md} (hup : ∀ k md, up.get? k = some md → md.userDefined = false) {src : Source} {img : Image}
    (h : compileProgram up [] src = .ok img) (F : FloatOps) (n maxStack maxHeap : Nat) (lib : Lib) {w : World}
    (hw : (run F n maxStack lib (builtins up) src.stmts (fresh maxHeap)).world = some w) :
    RightTypes (afterStmts (builtins up) src.stmts) w := by
  have := Typing.program_right (F := F) hup (C58_program_accepted hup h).2 n maxStack lib (fresh maxHeap) (fun p q c _ hc => by cases hc)
  rw [Typing.right_iff]
  revert this hw
  cases run F n maxStack lib (builtins up) src.stmts (fresh maxHeap) <;> intro hw this <;> first | (cases hw; exact this) | cases hw

/-- **C08** Every expression in an accepted program has exactly one type. -/
theorem C08_typed {up : FMap Str Md} (hup : ∀ k md, up.get? k = some md → md.userDefined = false) {src : Source} {img : Image}
    (h : compileProgram up [] src = .ok img) {Γ : Env} {e : Expr} (he : (Γ, e) ∈ exprsStmts (builtins up) src.stmts) :
    ∃ t, ∀ t', WellTyped Γ e t' ↔ t' = t := by
  obtain ⟨hwf, _, t, ht⟩ := Typing.program_exprs hup (C58_program_accepted hup h).2 _ he
  refine ⟨t, fun t' => ⟨fun h' => ?_, fun h' => h' ▸ ht⟩⟩
  rw [← Settle.typeOf_wellTyped hwf e h', ← Settle.typeOf_wellTyped hwf e ht]

/-- **C08** At each place of an accepted program where expressions are evaluated, in the main part and in the bodies of
functions and subroutines, a value has the type of the expression, also of parts of the expression there: whatever the
built-in callables do, and with calls of the functions of the program, as deep as they may be.  The variables have
contents of their types, and keep them. -/
theorem C08_values {up : FMap Str Md} (hup : ∀ k md, up.get? k = some md → md.userDefined = false) {src : Source} {img : Image}
    (h : compileProgram up [] src = .ok img) {Γ : Env} {place : Expr} (hp : (Γ, place) ∈ exprsStmts (builtins up) src.stmts)
    (F : FloatOps) (n maxStack : Nat) (lib : Lib) {e : Expr} {t : ExprType} (ht : WellTyped Γ e t) {w : World}
    (hr : RightTypes (Γ.withShared (afterStmts (builtins up) src.stmts)) w) :
    (∀ v w', eval F (callsOf F n maxStack lib (builtins up) src.stmts) Γ e w = .ok v w' → v.ty = t) ∧
    ∀ w', (eval F (callsOf F n maxStack lib (builtins up) src.stmts) Γ e w).world = some w' →
      RightTypes (Γ.withShared (afterStmts (builtins up) src.stmts)) w' := by
  have hv := (C58_program_accepted hup h).2
  obtain ⟨hwf, hb, _⟩ := Typing.program_exprs hup hv _ hp
  have hcl := Typing.program_calls (F := F) hup hv n maxStack lib
  have hs : Typing.Seat (afterStmts (builtins up) src.stmts) Γ.locals Γ := ⟨hb, List.prefix_refl _⟩
  rw [Typing.right_iff] at hr
  refine ⟨fun v w' he => Typing.eval_type hcl hwf hs e ht hr he, fun w' he => ?_⟩
  rw [Typing.right_iff]
  have := Typing.eval_inv (F := F) hcl hs.users e w hr
  revert this he
  cases eval F (callsOf F n maxStack lib (builtins up) src.stmts) Γ e w <;> intro he this <;>
    first | (cases he; first | exact this.2 | exact this) | cases he

/-- **C08** A function of an accepted program that is called with values of the types of its parameters gives a value of
its type, whatever the variables of the caller are, and these keep their types. -/
theorem C08_functions {up : FMap Str Md} (hup : ∀ k md, up.get? k = some md → md.userDefined = false) {src : Source} {img : Image}
    (h : compileProgram up [] src = .ok img) (F : FloatOps) (n maxStack : Nat) (lib : Lib) {k : Str} {params : List ExprType} {t : ExprType}
    (hk : (afterStmts (builtins up) src.stmts).callable k = some (.user params (some t))) {vs : List Val} (hvs : vs.map Val.ty = params)
    {pos : LineCol} {Γ : Env} (hΓ : Γ.shared = (afterStmts (builtins up) src.stmts).shared) {w w' : World} {v : Val} (hr : RightTypes Γ w)
    (he : (callsOf F n maxStack lib (builtins up) src.stmts).fn k vs pos w = .ok v w') : v.ty = t ∧ RightTypes Γ w' := by
  have hcl := Typing.program_calls (F := F) hup (C58_program_accepted hup h).2 n maxStack lib
  rw [Typing.right_iff, hΓ] at hr
  have := hcl.fn k params (some t) vs pos w hk hvs Γ.locals hr
  rw [he] at this
  rw [Typing.right_iff, hΓ]
  exact ⟨this.1 t rfl, this.2⟩

/-- A function that gives a double whose value is an integer, a shared array, a text and a loop. -/
def Ex.kinds : String := "DIM SHARED a(3) AS DOUBLE\nFUNCTION half#(n%)\na(1) = n\nhalf = n\nEND FUNCTION\nx = 0.5\nFOR i = 1 TO 2\nx = half(i)\nNEXT\n" ++
  "s = STR(i) + \"!\"\nb = x > 1"

set_option maxRecDepth 100000 in
/-- It is accepted, and there are expressions in it, also in the function. -/
example : (compileProgram stdTable [] (Ex.text Ex.kinds)).toOption.isSome = true ∧
    (exprsStmts (builtins stdTable) (Ex.text Ex.kinds).stmts).length = 11 := by
  refine ⟨?_, ?_⟩ <;> decide +kernel

set_option maxRecDepth 100000 in
/-- It comes to its end, with a double, an integer, a text and a truth value. -/
example : (match run Ex.noFloat 50 50 (stdLib Ex.ops byteLen (Stmts.items (Ex.text Ex.kinds).stmts)) (builtins stdTable)
        (Ex.text Ex.kinds).stmts (fresh 50) with
    | .done w => (List.range 4).map fun i => (match w.mem (.local i) with
      | some (.scalar v) => some v.ty
      | _ => none)
    | _ => []) = [some .double, some .integer, some .text, some .boolean] := by
  decide +kernel

set_option maxRecDepth 100000 in
/-- The function is known at its end, with its type. -/
example : (afterStmts (builtins stdTable) (Ex.text Ex.kinds).stmts).callable "HALF".toList = some (.user [.integer] (some .double)) := by
  decide +kernel

end EB
