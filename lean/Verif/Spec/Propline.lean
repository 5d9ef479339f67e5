import Verif.Model.Propline
/-!
# How a script asks for a console
-/

namespace EB.Spec

/-- The second line of a script which begins with `#!`. -/
def SecondLine (text line : Str) : Prop :=
  ∃ first tail, text = "#!".toList ++ first ++ ['\n'] ++ line ++ tail ∧ '\n' ∉ first ∧ '\n' ∉ line ∧
    ((tail = [] ∧ line ≠ []) ∨ ((∃ more, tail = '\n' :: more) ∧ line.getLast? ≠ some '\r') ∨ ∃ more, tail = '\r' :: '\n' :: more)

/-- A line with a remark. -/
inductive Remark : Str → Str → Prop
  | quote {remark} : Remark ("' ".toList ++ remark) remark
  | rem {word remark} : word.map Char.toLower = "rem".toList → Remark (word ++ [' '] ++ remark) remark

end EB.Spec
