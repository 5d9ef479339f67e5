import Verif.Model.Types
/-!
# What the string functions mean, over sequences of characters
-/

namespace EB.Spec

/-- `search` occurs in `s` at the 1-based position `p`. -/
def OccursAt (s search : Str) (p : Nat) : Prop := ∃ pre post, s = pre ++ search ++ post ∧ p = pre.length + 1

/-- `r` is `s` without the leading characters satisfying `w`. -/
def IsTrimStart (w : Char → Bool) (s r : Str) : Prop :=
  ∃ pre, s = pre ++ r ∧ (∀ c ∈ pre, w c = true) ∧ (∀ c, r.head? = some c → w c = false)

/-- `r` is `s` without the trailing characters satisfying `w`. -/
def IsTrimEnd (w : Char → Bool) (s r : Str) : Prop :=
  ∃ post, s = r ++ post ∧ (∀ c ∈ post, w c = true) ∧ (∀ c, r.getLast? = some c → w c = false)

/-- A non-empty sequence of decimal digits. -/
def Digits (s : Str) : Prop := s ≠ [] ∧ ∀ c ∈ s, '0' ≤ c ∧ c ≤ '9'

/-- Optional sign. -/
def SignOpt (s : Str) : Prop := s = [] ∨ s = ['+'] ∨ s = ['-']

/-- Digits, digits with a point, or a point and digits. -/
def Mantissa (s : Str) : Prop :=
  Digits s ∨ (∃ a b, (a = [] ∨ Digits a) ∧ (b = [] ∨ Digits b) ∧ (a ≠ [] ∨ b ≠ []) ∧ s = a ++ '.' :: b)

/-- Exponent: `e` or `E`, an optional sign and digits. -/
def Exponent (s : Str) : Prop := ∃ e sg d, (e = 'e' ∨ e = 'E') ∧ SignOpt sg ∧ Digits d ∧ s = e :: (sg ++ d)

/-- Decimal floating-point literals, as accepted by Rust's `str::parse::<f64>` (without the special
names inf and nan). -/
def FloatLit (s : Str) : Prop :=
  ∃ sg m x, SignOpt sg ∧ Mantissa m ∧ (x = [] ∨ Exponent x) ∧ s = sg ++ (m ++ x)

end EB.Spec
