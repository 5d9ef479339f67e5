import Verif.Spec.Stdlib
/-!
# Random numbers and angles over a whole run

What the calls of a run so far say about the next random number and about the unit of angles, without a state.
-/

namespace EB.Spec

/-- The numbers that a generator gives from a state on, counted from 0. -/
def nthNumber (O : StdOps) : Nat → Nat → BitVec 32
  | state, 0 => (O.rngNext state).1
  | state, n + 1 => nthNumber O (O.rngNext state).2 n

/-- A random number as a double from 0 to 1. -/
def fraction (O : StdOps) (x : BitVec 32) : Val := .dbl (O.div (O.ofU32 x) (O.ofU32 (BitVec.allOnes 32)))

/-- A call with an integer. -/
def Request.integer (q : Request) : Option Int :=
  match q.args with
  | [(.val (.int n), _)] => some n.toInt
  | _ => none

/-- A call that starts the generator with a seed: `RANDOMIZE` with a number, or `RND` with a negative one. -/
def Request.Seeds (q : Request) (n : Int) : Prop :=
  q.integer = some n ∧ (q.name = "RANDOMIZE".toList ∨ (q.name = "RND".toList ∧ n < 0))

/-- A call that starts the generator. -/
def Request.Restarts (q : Request) : Prop :=
  q.name = "RANDOMIZE".toList ∨ (q.name = "RND".toList ∧ ∃ n, q.integer = some n ∧ n < 0)

/-- A call that takes a new number: `RND`, unless with 0 or a negative number. -/
def Request.draws (q : Request) : Bool :=
  decide (q.name = "RND".toList) && (match q.integer with
    | some n => decide (0 < n)
    | none => true)

end EB.Spec
