import Verif.Model.Lexer
import Verif.Model.Mem
/-!
# Constants as source text

Models `ConstantDatum::as_source` of core/src/mem.rs.
-/

namespace EB

/-- `str::replace('"', "\"\"")`. -/
def doubleQuotes (s : Str) : Str := s.flatMap (fun c => if c = '"' then ['"', '"'] else [c])

/-- `ConstantDatum::as_source` (core/src/mem.rs 147-166). -/
def ConstantDatum.asSource (T : TextOps) : ConstantDatum → Str
  | .boolean b => if b then "TRUE".toList else "FALSE".toList
  | .double d =>
    let s := T.showDouble d
    if s.contains '.' || s.contains 'e' || s.contains 'E' then s else s ++ ".0".toList
  | .integer i => showI32 i
  | .text s => '"' :: doubleQuotes s ++ "\"".toList

end EB
