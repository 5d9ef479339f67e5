import Verif.Model.Fonts
import Verif.Spec.EditorLcd
/-!
# Text on an LCD, to be read
-/

namespace EB.Spec

/-- What a character looks like on an LCD: a control character like a blank, and one out of ASCII like a question mark. -/
def look (ch : Char) : Char :=
  let c := shownChar ch
  if 32 ≤ c.toNat ∧ c.toNat ≤ 126 then c else '?'

end EB.Spec
