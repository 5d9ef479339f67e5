import Verif.Spec.Stdlib
/-!
# What a user types, and what arrives at the console
-/

namespace EB.Spec

/-- The prompt that `INPUT` was called with, the type and the place of its variable: without a prompt, with one that ends in a
comma (it is shown as it is) or in a semicolon (a question mark follows). -/
inductive Asks : List (Arg × LineCol) → Str → ExprType → Place → Prop
  | plain {t p pos} : Asks [(.ref (.scalar t) p, pos)] [] t p
  | comma {s pos t p pos'} : Asks [(.opt .long (.text s), pos), (.ref (.scalar t) p, pos')] s t p
  | semicolon {s pos t p pos'} : Asks [(.opt .short (.text s), pos), (.ref (.scalar t) p, pos')] (s ++ "? ".toList) t p
  | noneComma {pos t p pos'} : Asks [(.missing .long, pos), (.ref (.scalar t) p, pos')] [] t p
  | noneSemicolon {pos t p pos'} : Asks [(.missing .short, pos), (.ref (.scalar t) p, pos')] "? ".toList t p

/-- The answer is refused, for some reason. -/
def Refused (O : StdOps) (t : ExprType) (a : Answer) (why : Str) : Prop := taking O t a = .error why

/-- The questions and complaints for some answers that are refused: before each of them, the text of the last one is offered
again. -/
def complaints (prompt : Str) (refused : List (Answer × Str)) : List Printed :=
  (List.range refused.length).flatMap fun i =>
    match refused[i]? with
    | some (_, why) =>
      [.asked prompt (offered ((refused.take i).map (·.1))), .line ("Retry input: ".toList ++ why)]
    | none => []

/-- Numbers as the drawing methods take them: a coordinate fits into 16 bits with a sign, a radius into 16 bits without. -/
def Measured : Measure → Int → Prop
  | .coordinate, n => -32768 ≤ n ∧ n ≤ 32767
  | .radius, n => 0 ≤ n ∧ n ≤ 65535

/-- What the console can be given: positions on the screen, and shapes with all their numbers in range. -/
def Displayable (O : StdOps) : Printed → Prop
  | .moved column row => column ≤ O.lastColumn.val ∧ row ≤ O.lastRow.val
  | .drawn shape numbers => List.Forall₂ Measured (Orders.parts shape) numbers
  | _ => True

end EB.Spec
