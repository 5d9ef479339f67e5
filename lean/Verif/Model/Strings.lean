import Verif.Model.Types
/-!
# String functions of the standard library

Models `std/src/strings.rs`.  Strings are lists of characters; byte offsets into their UTF-8
encoding are explicit numbers and slicing at an offset that is not a character boundary is `none`
(a panic).  Error messages are kept without the interpolated values.
-/

namespace EB

/-- Characters with the Unicode property White_Space (`char::is_whitespace`, used by `trim*`). -/
def isWhite (c : Char) : Bool :=
  let n := c.toNat
  (9 ≤ n && n ≤ 13) || n == 0x20 || n == 0x85 || n == 0xA0 || n == 0x1680 ||
  (0x2000 ≤ n && n ≤ 0x200A) || n == 0x2028 || n == 0x2029 || n == 0x202F || n == 0x205F || n == 0x3000

/-- `str::len`: size in bytes. -/
def byteLen : Str → Nat
  | [] => 0
  | c :: s => c.utf8Size + byteLen s

/-- `&s[n..]` in bytes; `none` if `n` is out of range or not a boundary. -/
def dropBytes : Str → Nat → Option Str
  | s, 0 => some s
  | [], _ + 1 => none
  | c :: s, n + 1 => if c.utf8Size ≤ n + 1 then dropBytes s (n + 1 - c.utf8Size) else none

/-- `&s[..n]` in bytes; `none` if `n` is out of range or not a boundary. -/
def takeBytes : Str → Nat → Option Str
  | _, 0 => some []
  | [], _ + 1 => none
  | c :: s, n + 1 =>
    if c.utf8Size ≤ n + 1 then (takeBytes s (n + 1 - c.utf8Size)).map (c :: ·) else none

/-- `&s[a..b]` in bytes. -/
def sliceBytes (s : Str) (a b : Nat) : Option Str :=
  if a ≤ b then (takeBytes s b).bind (dropBytes · a) else none

/-- The offsets of `str::char_indices`. -/
def charIndices : Str → Nat → List Nat
  | [], _ => []
  | c :: s, o => o :: charIndices s (o + c.utf8Size)

/-- `char_index_to_byte_index` (std/src/strings.rs 77-79). -/
def charIndexToByteIndex (s : Str) (i : Nat) : Nat := ((charIndices s 0)[i]?).getD (byteLen s)

/-- `byte_index_to_char_index` (std/src/strings.rs 82-84); `none` is a panic. -/
def byteIndexToCharIndex (s : Str) (b : Nat) : Option Nat := (takeBytes s b).map List.length

/-- `slice_by_char_range` (std/src/strings.rs 92-96); `none` is a panic. -/
def sliceByCharRange (s : Str) (start stop : Nat) : Option Str :=
  sliceBytes s (charIndexToByteIndex s start) (charIndexToByteIndex s stop)

/-- `str::find` with a string pattern: the byte offset of the first occurrence. -/
def findBytes (s search : Str) : Option Nat :=
  if search.isPrefixOf s then some 0
  else match s with
    | [] => none
    | c :: s' => (findBytes s' search).map (c.utf8Size + ·)
termination_by s.length

/-- Outcome of a library function: a value, a reported error, or a panic. -/
inductive Outcome (α : Type) where
  | ok (v : α)
  | error (msg : String)
  | panic
  deriving DecidableEq, Repr

/-- A value or a panic. -/
def Outcome.ofOption {α : Type} : Option α → Outcome α
  | some v => .ok v
  | none => .panic

/-- `n as i32`. -/
def asI32 (n : Nat) : Int := (BitVec.ofNat 32 n).toInt

/-- `ASC` (std/src/strings.rs 181-207). -/
def ascFn (s : Str) : Outcome Int :=
  match s with
  | [] => .error "Input string must be 1-character long"
  | [c] => .ok c.toNat
  | _ :: _ :: _ => .error "Input string must be 1-character long"

/-- `char::from_u32`. -/
def charFromU32 (n : Nat) : Option Char := if h : n.isValidChar then some (Char.ofNatAux n h) else none

/-- `CHR` (std/src/strings.rs 247-266). -/
def chrFn (i : Int) : Outcome Str :=
  if i < 0 then .error "Character code must be positive"
  else match charFromU32 i.toNat with
    | some c => .ok [c]
    | none => .error "Invalid character code"

/-- `INSTR` (std/src/strings.rs 342-373); `start` is `none` when there are only two arguments. -/
def instrFn (start : Option Int) (s search : Str) : Outcome Int :=
  let start := start.getD 1
  if start ≤ 0 then .error "start% must be positive"
  else
    let start := (start - 1).toNat
    if start > s.length then .ok 0
    else if search.isEmpty then .ok (asI32 (start + 1))
    else
      let startByte := charIndexToByteIndex s start
      match dropBytes s startByte with
      | none => .panic
      | some rest =>
        match findBytes rest search with
        | some off =>
          match byteIndexToCharIndex s (startByte + off) with
          | none => .panic
          | some i => .ok (asI32 (i + 1))
        | none => .ok 0

/-- `LEFT` (std/src/strings.rs 461-473). -/
def leftFn (s : Str) (n : Int) : Outcome Str :=
  if n < 0 then .error "n% cannot be negative"
  else .ofOption (sliceByCharRange s 0 (min s.length n.toNat))

/-- `LEN` (std/src/strings.rs 505-513). -/
def lenFn (s : Str) : Outcome Int :=
  if s.length < 2 ^ 31 then .ok s.length else .error "String too long"

/-- `LTRIM` (std/src/strings.rs 545-551). -/
def ltrimFn (s : Str) : Str := s.dropWhile isWhite

/-- `RTRIM` (std/src/strings.rs 750-756). -/
def rtrimFn (s : Str) : Str := (s.reverse.dropWhile isWhite).reverse

/-- `TRIM` (std/src/strings.rs 902-908). -/
def trimFn (s : Str) : Str := rtrimFn (ltrimFn s)

/-- `MID` (std/src/strings.rs 628-658); `length` is `none` when there are only two arguments. -/
def midFn (s : Str) (start : Int) (length : Option Int) : Outcome Str :=
  if start < 0 then .error "start% cannot be negative"
  else
    let slen := s.length
    let start := min slen start.toNat
    match length with
    | some l =>
      if l < 0 then .error "length% cannot be negative"
      else .ofOption (sliceByCharRange s start (min (start + l.toNat) slen))
    | none => .ofOption (sliceByCharRange s start slen)

/-- `RIGHT` (std/src/strings.rs 705-717). -/
def rightFn (s : Str) (n : Int) : Outcome Str :=
  if n < 0 then .error "n% cannot be negative"
  else
    let slen := s.length
    let n := min slen n.toNat
    .ofOption (sliceByCharRange s (slen - n) slen)

/-- `SPACE` (std/src/strings.rs 791-800). -/
def spaceFn (n : Int) : Outcome Str :=
  if n < 0 then .error "n% cannot be negative" else .ok (List.replicate n.toNat ' ')

/-- `u8::is_ascii_digit` on the characters of a string (non-ASCII characters have no byte in that
range). -/
def isAsciiDigit (c : Char) : Bool := '0' ≤ c && c ≤ '9'

/-- Advances an index over digits: `while i < bytes.len() && bytes[i].is_ascii_digit()`
(std/src/strings.rs 109-111).  Indices count characters: everything scanned is ASCII. -/
def skipDigits (s : Str) (i : Nat) : Nat := i + ((s.drop i).takeWhile isAsciiDigit).length

/-- `parse_numeric_prefix` (std/src/strings.rs 99-142): the prefix (after leading whitespace) that
is handed to `str::parse::<f64>`, or `none` when the result is `0.0`. -/
def numericPrefix (s : Str) : Option Str :=
  let s := s.dropWhile isWhite
  let i := if s[0]? = some '+' ∨ s[0]? = some '-' then 1 else 0
  let intStart := i
  let i := skipDigits s i
  let haveInt := decide (i > intStart)
  let afterFrac : Option Nat :=
    if s[i]? = some '.' then
      let fracStart := i + 1
      let j := skipDigits s fracStart
      if !haveInt && j == fracStart then none else some j
    else if !haveInt then none
    else some i
  match afterFrac with
  | none => none
  | some i =>
    let stop :=
      if s[i]? = some 'e' ∨ s[i]? = some 'E' then
        let j := i + 1
        let j := if s[j]? = some '+' ∨ s[j]? = some '-' then j + 1 else j
        let expStart := j
        let j := skipDigits s j
        if j > expStart then j else i
      else i
    some (s.take stop)

end EB
