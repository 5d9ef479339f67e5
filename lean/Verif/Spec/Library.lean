import Verif.Model.Types
/-!
# Specifications for the small library commands
-/

namespace EB.Spec

/-- Reading from a list of remaining items: each variable takes the first remaining item.  `conv`
converts an item to the type of the variable.  Returns what is left, the values read, and the error
that stopped it. -/
def readFrom {D T V E : Type} (conv : T → D → Except E V) (outOfData : E) :
    List D → List T → List D × List V × Option E
  | rest, [] => (rest, [], none)
  | [], _ :: _ => ([], [], some outOfData)
  | d :: rest, t :: ts =>
    match conv t d with
    | .error e => (rest, [], some e)
    | .ok v =>
      let (r, vs, e) := readFrom conv outOfData rest ts
      (r, v :: vs, e)

/-- `ws` are the words of `s`: maximal runs of characters that are not separators (`w`). -/
inductive WordsOf (w : Char → Bool) : Str → List Str → Prop where
  | nil : WordsOf w [] []
  | sep (c : Char) (s : Str) (ws : List Str) : w c = true → WordsOf w s ws → WordsOf w (c :: s) ws
  | word (a s : Str) (ws : List Str) : a ≠ [] → (∀ c ∈ a, w c = false) →
      (∀ c, s.head? = some c → w c = true) → WordsOf w s ws → WordsOf w (a ++ s) (a :: ws)

/-- Rows of a screen of width `x` taken by `n` columns of output (at least one). -/
def rows (x n : Nat) : Nat := max 1 ((n + x - 1) / x)

end EB.Spec
