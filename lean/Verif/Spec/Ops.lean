import Verif.Spec.Arith
import Verif.Model.Ast
/-!
# What the operators of the language mean

Stated over mathematical integers and over strings as sequences of code points, without any
reference to how the code computes them.  Only the syntax of operators (`SrcBin`) and the names of the
errors (`RtErr`) are shared with the model.
-/

namespace EB.Spec

/-- The exact result if it fits in 32 bits, an error otherwise. -/
def exact (x : Int) (e : RtErr) : Except RtErr Int := if InRange x then .ok x else .error e

/-- The signed number that 32 bits stand for, bit by bit. -/
def bitwise (f : I32 → I32 → I32) (l r : Int) : Int := (f (BitVec.ofInt 32 l) (BitVec.ofInt 32 r)).toInt

/-- Integer operators that give an integer.  Division truncates towards zero.  `MOD` has the sign of
the dividend; it reports the overflow of the division that it belongs to (only `MIN MOD -1`). -/
def intArith : SrcBin → Int → Int → Option (Except RtErr Int)
  | .add, l, r => some (exact (l + r) .integerOverflow)
  | .sub, l, r => some (exact (l - r) .integerUnderflow)
  | .mul, l, r => some (exact (l * r) .integerOverflow)
  | .div, l, r => some (if r = 0 then .error .divisionByZero else exact (l.tdiv r) .integerUnderflow)
  | .mod, l, r => some (if r = 0 then .error .moduloByZero
      else if InRange (l.tdiv r) then .ok (l.tmod r) else .error .integerUnderflow)
  | .pow, l, r => some (if r < 0 then .error (.negativeExponent r)
      else exact (l ^ r.toNat) .integerOverflow)
  | .shl, l, r => some (if r < 0 then .error (.negativeShl r)
      else .ok ((l * 2 ^ r.toNat).bmod (2 ^ 32)))
  | .shr, l, r => some (if r < 0 then .error (.negativeShr r) else .ok (l / 2 ^ r.toNat))
  | .and, l, r => some (.ok (bitwise (· &&& ·) l r))
  | .or, l, r => some (.ok (bitwise (· ||| ·) l r))
  | .xor, l, r => some (.ok (bitwise (· ^^^ ·) l r))
  | _, _, _ => none

/-- Integer comparisons. -/
def intRel : SrcBin → Int → Int → Option Bool
  | .eq, l, r => some (decide (l = r))
  | .ne, l, r => some (decide (l ≠ r))
  | .lt, l, r => some (decide (l < r))
  | .le, l, r => some (decide (l ≤ r))
  | .gt, l, r => some (decide (r < l))
  | .ge, l, r => some (decide (r ≤ l))
  | _, _, _ => none

/-- `l` comes before `r`: it is a proper prefix, or the first code point in which they differ is
smaller in `l`. -/
def TextLt (l r : Str) : Prop :=
  (∃ c t, r = l ++ c :: t) ∨
  (∃ p a b s t, l = p ++ a :: s ∧ r = p ++ b :: t ∧ a.toNat < b.toNat)

end EB.Spec
