/-!
# What integer arithmetic should do

An independent statement over mathematical integers.
-/

namespace EB.Spec

/-- The 32-bit signed range. -/
def InRange (x : Int) : Prop := -2147483648 ≤ x ∧ x ≤ 2147483647

instance (x : Int) : Decidable (InRange x) := inferInstanceAs (Decidable (_ ∧ _))

end EB.Spec
