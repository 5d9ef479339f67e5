import Verif.Model.Timing
/-!
# Numbers and durations

A double is zero or more units of `2 ^ -1074`, with a sign.
-/

namespace EB.Spec

/-- The double is finite: a sign, an exponent below 2047 and a fraction, and its size is so many units. -/
def HasSize (b : BitVec 64) (units : Nat) : Prop :=
  ∃ sign e f, b.toNat = sign * 2 ^ 63 + e * 2 ^ 52 + f ∧ sign < 2 ∧ e < 2047 ∧ f < 2 ^ 52 ∧
    units = if e = 0 then f else (2 ^ 52 + f) * 2 ^ (e - 1)

/-- The sign of the double is a minus. -/
def HasMinus (b : BitVec 64) : Prop := 2 ^ 63 ≤ b.toNat

/-- So many nanoseconds are as near as possible to the number of seconds. -/
def Nearest (units nanos : Nat) : Prop :=
  2 * (nanos * 2 ^ 1074) ≤ 2 * (units * 1000000000) + 2 ^ 1074 ∧ 2 * (units * 1000000000) ≤ 2 * (nanos * 2 ^ 1074) + 2 ^ 1074

end EB.Spec
