import Verif.Model.Storage
import Verif.Model.Strings
/-!
# The console that a script asks for

Models cli/src/propline.rs on the text of the script.  Errors of the file system and texts that are not UTF-8 are not modelled.
-/

namespace EB

/-- `BufRead::read_line`: the line with its end, and what follows. -/
def takeLine : Str → Str × Str
  | [] => ([], [])
  | c :: cs => if c = '\n' then (['\n'], cs) else let (l, rest) := takeLine cs; (c :: l, rest)

/-- `String::pop` if the text ends with the character. -/
def popIf (c : Char) (s : Str) : Option Str := if s.getLast? = some c then some s.dropLast else none

/-- `strip_newline` (cli/src/propline.rs 30-37). -/
def stripNewline (s : Str) : Str :=
  match popIf '\n' s with
  | some s' => (popIf '\r' s').getD s'
  | none => s

/-- `str::strip_prefix`. -/
def stripPrefix (p s : Str) : Option Str := if p.isPrefixOf s then some (s.drop p.length) else none

/-- The comment of the line, if it is one (cli/src/propline.rs 43-53). -/
def lineComment (line : Str) : Outcome (Option Str) :=
  match stripPrefix "' ".toList line with
  | some l => .ok (some l)
  | none =>
    if byteLen line ≤ 4 then .ok none
    else
      match takeBytes line 4 with
      | none => .panic
      | some token =>
        if asciiCase.low token = "rem ".toList then
          match dropBytes line 4 with
          | none => .panic
          | some l => .ok (some l)
        else .ok none

/-- `parse_propline` (cli/src/propline.rs 42-78). -/
def parsePropline (line : Str) : Outcome (Option Str) :=
  match lineComment line with
  | .panic => .panic
  | .error e => .error e
  | .ok none => .ok none
  | .ok (some payload) =>
    match stripPrefix "endbasic cli: ".toList payload with
    | none => .ok none
    | some payload =>
      match stripPrefix "console=".toList payload with
      | none => .error "Invalid EndBASIC propline"
      | some spec => if spec = [] then .error "Invalid EndBASIC propline: missing console specification" else .ok (some spec)

/-- `extract_propline` (cli/src/propline.rs 81-100). -/
def extractPropline (text : Str) : Outcome (Option Str) :=
  let (line1, rest) := takeLine text
  if byteLen line1 = 0 then .ok none
  else if !"#!".toList.isPrefixOf (stripNewline line1) then .ok none
  else
    let (line2, _) := takeLine rest
    if byteLen line2 = 0 then .ok none else parsePropline (stripNewline line2)

end EB
