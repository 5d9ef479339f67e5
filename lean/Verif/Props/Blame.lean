import Verif.Lemmas.Blame
import Verif.Lemmas.ValueTypes
import Verif.Props.Expr
import Verif.Props.Stdlib
/-!
# C08: why expressions are rejected, also those with calls, and the types of their values
-/

namespace EB
open Spec

/-- An expression that is rejected is not well typed, unless a table is full, and the error says what is wrong with
it: see `Blame`.  Also for calls.  `hfull`: no subscript is left out, which the grammar does not allow. -/
theorem C08_rejection_calls {sy : Syms} {Γ : Env} (hs : Scope sy Γ) {e : Expr} (hfull : Full e) {nt : Nat} {reg : Reg} {g : Codegen}
    {err : CErr} (h : compileExpr sy e nt reg g = .error err) : Limit err ∨ (Blame Γ e err ∧ ¬ ∃ t, WellTyped Γ e t) := by
  rcases expr_blamed hs e hfull nt reg g err h with h1 | h1
  · exact .inl h1
  · rcases (expr_judged (L := fun _ => True) (D := fun _ => True) hs e nt reg g).ofError h with h2 | h2
    · exact .inl h2
    · exact .inr ⟨h1, h2⟩

/-- … and one that is accepted is well typed, with the type that the compiler gives to it. -/
theorem C08_accepted_calls {sy : Syms} {Γ : Env} (hs : Scope sy Γ) {e : Expr} {nt : Nat} {reg : Reg} {g g' : Codegen}
    {t : ExprType} (h : compileExpr sy e nt reg g = .ok (t, g')) : ∀ t', WellTyped Γ e t' ↔ t' = t :=
  ((expr_judged (L := fun _ => True) (D := fun _ => True) hs e nt reg g).ofOk h).1

/-- `LEFT("abc", "d")`. -/
def Ex.leftText : Expr := .call ⟨"left".toList, none⟩ ⟨1, 3⟩
  (.cons (.text "abc".toList ⟨1, 8⟩) .long ⟨1, 13⟩ (.cons (.text "d".toList ⟨1, 15⟩) .end ⟨1, 18⟩ .nil))

/-- `LEFT("abc", "d")` is rejected since `"d"` is no number. -/
example : Blame (builtins stdTable) Ex.leftText (.notANumber ⟨1, 15⟩ .text) ∧ ¬ ∃ t, WellTyped (builtins stdTable) Ex.leftText t :=
  (C08_rejection_calls (scope_builtins stdTable_builtin) (e := Ex.leftText) ⟨trivial, trivial, trivial⟩ (nt := 0) (reg := 64#8) (g := .empty)
    (by decide +kernel)).resolve_left (by intro h; cases h)

/-- `LEFT("abc")` is rejected since there is no such number of arguments. -/
example : Blame (builtins stdTable) (.call ⟨"left".toList, none⟩ ⟨1, 3⟩ (.cons (.text "abc".toList ⟨1, 8⟩) .end ⟨1, 13⟩ .nil))
      (.callableSyntax ⟨1, 3⟩ "LEFT".toList) :=
  ((C08_rejection_calls (scope_builtins stdTable_builtin)
    (e := .call ⟨"left".toList, none⟩ ⟨1, 3⟩ (.cons (.text "abc".toList ⟨1, 8⟩) .end ⟨1, 13⟩ .nil)) ⟨trivial, trivial⟩ (nt := 0) (reg := 64#8) (g := .empty)
    (by decide +kernel)).resolve_left (by intro h; cases h)).1

/-- `LEFT("abc", 2) + "d"`. -/
def Ex.leftNumber : Expr := .bin .add (.call ⟨"left".toList, none⟩ ⟨1, 3⟩
  (.cons (.text "abc".toList ⟨1, 8⟩) .long ⟨1, 13⟩ (.cons (.int 2#32 ⟨1, 15⟩) .end ⟨1, 16⟩ .nil))) (.text "d".toList ⟨1, 20⟩) ⟨1, 18⟩

theorem Ex.leftNumber_ok : ∃ g', compileExpr ⟨.empty, stdTable, [], .empty⟩ Ex.leftNumber 0 64#8 .empty = .ok (.text, g') := by
  have h : (compileExpr ⟨.empty, stdTable, [], .empty⟩ Ex.leftNumber 0 64#8 .empty).map (·.1) = .ok .text := by decide +kernel
  cases hc : compileExpr ⟨.empty, stdTable, [], .empty⟩ Ex.leftNumber 0 64#8 .empty with
  | ok r =>
    obtain ⟨t, g⟩ := r
    rw [hc] at h
    simp only [Except.map, Except.ok.injEq] at h
    subst h
    exact ⟨_, rfl⟩
  | error e => rw [hc] at h; cases h

example : ∀ t', WellTyped (builtins stdTable) Ex.leftNumber t' ↔ t' = .text :=
  Ex.leftNumber_ok.elim fun _ h => C08_accepted_calls (scope_builtins stdTable_builtin) h

/-- A value has the type of its expression, also with calls: of built-in functions whatever they do, and of functions
of the program, provided that these return values of their types. -/
theorem C08_value_type_calls {F : FloatOps} {cl : Calls} {Γ : Env} (hfn : ReturnsRight Γ cl) {e : Expr} {t : ExprType}
    (ht : HasType Γ e t) {w w' : World} {v : Val} (hr : RightTypes Γ w) (he : eval F cl Γ e w = .ok v w') :
    v.ty = t ∧ RightTypes Γ w' :=
  ⟨eval_rightType hfn ht hr he, eval_right hfn e w hr v w' he⟩

/-- What `LEFT("abc", 2) + "d"` gives is a text, for any library. -/
example (F : FloatOps) (lib : Lib) {w w' : World} {v : Val} (hr : RightTypes (builtins stdTable) w)
    (he : eval F (onlyLib lib) (builtins stdTable) Ex.leftNumber w = .ok v w') : v.ty = .text :=
  Ex.leftNumber_ok.elim fun _ h =>
    (C08_value_type_calls (fun _ _ _ _ _ _ _ h => by cases h) (C08_static_type (scope_builtins stdTable_builtin).syms h).1 hr he).1

end EB
