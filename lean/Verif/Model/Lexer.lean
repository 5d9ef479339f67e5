import Verif.Model.Ast
import Verif.Model.Codegen
import Verif.Model.Strings
/-!
# Characters, positions and tokens

Models core/src/reader.rs and core/src/lexer.rs.  The character reader is the list of decoded
characters with their positions; reading past the last one gives the end of the input, or an I/O
error when the `io` flag is set (a failed read or invalid UTF-8).  The length of a token, which the
parser does not use, is not modelled.
-/

namespace EB

/-- What the lexer takes from Rust's standard library: the Unicode classification and upper-casing
of characters, and the conversion between decimal notation and doubles. -/
structure TextOps where
  /-- `char::is_alphanumeric` -/
  alnum : Char → Bool
  /-- `char::is_numeric` -/
  numeric : Char → Bool
  /-- `char::to_uppercase` -/
  upper : Char → Str
  /-- `str::parse::<f64>` on digits with a dot, which cannot fail -/
  parseDouble : Str → BitVec 64
  /-- `format!("{}", f64)` -/
  showDouble : BitVec 64 → Str

/-- A character with its position: `CharSpan` (core/src/reader.rs 45-53). -/
abbrev CharSpan := Char × LineCol

/-- The position after a character (`CharReader::next`, core/src/reader.rs 106-166). -/
def LineCol.after (p : LineCol) (c : Char) : LineCol :=
  if c = '\n' then ⟨p.line + 1, 1⟩
  else if c = '\t' then ⟨p.line, (p.col - 1 + 8) / 8 * 8 + 1⟩
  else ⟨p.line, p.col + 1⟩

/-- The characters that a `CharReader` at position `p` returns (core/src/reader.rs 106-166). -/
def charSpans : LineCol → Str → List CharSpan
  | _, [] => []
  | p, c :: cs => (c, p) :: charSpans (p.after c) cs

/-- `CharReader::next_pos` at the end of the input (core/src/reader.rs 93-96). -/
def endPos : LineCol → Str → LineCol
  | p, [] => p
  | p, c :: cs => endPos (p.after c) cs

/-- `CharOps::is_space` (core/src/lexer.rs 223-227). -/
def isSpace (c : Char) : Bool := c = ' ' || c = '\t' || c = '\r'

/-- `CharOps::is_separator` (core/src/lexer.rs 215-221). -/
def isSeparator (c : Char) : Bool :=
  c = '\n' || c = ':' || c = '(' || c = ')' || c = '\'' || c = '=' || c = '<' || c = '>' ||
  c = ';' || c = ',' || c = '+' || c = '-' || c = '*' || c = '/' || c = '^' || isSpace c

/-- `CharOps::is_word` (core/src/lexer.rs 229-234). -/
def isWord (T : TextOps) (c : Char) : Bool := c = '_' || T.alnum c

/-- `Token` (core/src/lexer.rs 33-110). -/
inductive Tok where
  | eof | eol
  | bad (msg : Str)
  | boolean (b : Bool)
  | double (bits : BitVec 64)
  | integer (i : I32)
  | text (s : Str)
  | symbol (v : VarRef)
  | label (s : Str)
  | comma | semicolon | leftParen | rightParen
  | plus | minus | multiply | divide | modulo | exponent
  | equal | notEqual | less | lessEqual | greater | greaterEqual
  | and | not | or | xor
  | shiftLeft | shiftRight
  | case | data | declare | do | else | elseif | end | error | exit | for | function | gosub
  | goto | if | is | loop | next | on | resume | return | select | sub | step | then | to | until
  | wend | while
  | dim | shared | as | booleanName | doubleName | integerName | textName
  deriving DecidableEq, Repr

/-- `ExprType::annotation` (core/src/ast.rs 234-241). -/
def ExprType.annotation : ExprType → Char
  | .boolean => '?'
  | .double => '#'
  | .integer => '%'
  | .text => '$'

/-- `Display for VarRef` (core/src/ast.rs 296-303). -/
def VarRef.show (v : VarRef) : Str :=
  match v.ty with
  | none => v.name
  | some t => v.name ++ [t.annotation]

/-- Decimal digits of a natural number. -/
def showNat (n : Nat) : Str := Nat.toDigits 10 n

/-- `Display for i32`. -/
def showI32 (i : I32) : Str :=
  if i.toInt < 0 then '-' :: showNat i.toInt.natAbs else showNat i.toInt.natAbs

/-- `Display for Token` (core/src/lexer.rs 112-196). -/
def Tok.show (T : TextOps) : Tok → Str
  | .eof => "<<EOF>>".toList
  | .eol => "<<NEWLINE>>".toList
  | .bad s => "<<".toList ++ s ++ ">>".toList
  | .boolean false => "FALSE".toList
  | .boolean true => "TRUE".toList
  | .double d => T.showDouble d
  | .integer i => showI32 i
  | .text t => t
  | .symbol v => v.show
  | .label l => '@' :: l
  | .comma => ",".toList
  | .semicolon => ";".toList
  | .leftParen => "(".toList
  | .rightParen => ")".toList
  | .plus => "+".toList
  | .minus => "-".toList
  | .multiply => "*".toList
  | .divide => "/".toList
  | .modulo => "MOD".toList
  | .exponent => "^".toList
  | .equal => "=".toList
  | .notEqual => "<>".toList
  | .less => "<".toList
  | .lessEqual => "<=".toList
  | .greater => ">".toList
  | .greaterEqual => ">=".toList
  | .and => "AND".toList
  | .not => "NOT".toList
  | .or => "OR".toList
  | .xor => "XOR".toList
  | .shiftLeft => "<<".toList
  | .shiftRight => ">>".toList
  | .case => "CASE".toList
  | .data => "DATA".toList
  | .declare => "DECLARE".toList
  | .do => "DO".toList
  | .else => "ELSE".toList
  | .elseif => "ELSEIF".toList
  | .end => "END".toList
  | .error => "ERROR".toList
  | .exit => "EXIT".toList
  | .for => "FOR".toList
  | .function => "FUNCTION".toList
  | .gosub => "GOSUB".toList
  | .goto => "GOTO".toList
  | .if => "IF".toList
  | .is => "IS".toList
  | .loop => "LOOP".toList
  | .next => "NEXT".toList
  | .on => "ON".toList
  | .resume => "RESUME".toList
  | .return => "RETURN".toList
  | .select => "SELECT".toList
  | .sub => "SUB".toList
  | .step => "STEP".toList
  | .then => "THEN".toList
  | .to => "TO".toList
  | .until => "UNTIL".toList
  | .wend => "WEND".toList
  | .while => "WHILE".toList
  | .dim => "DIM".toList
  | .shared => "SHARED".toList
  | .as => "AS".toList
  | .booleanName => "BOOLEAN".toList
  | .doubleName => "DOUBLE".toList
  | .integerName => "INTEGER".toList
  | .textName => "STRING".toList

/-- `TokenSpan` without its length (core/src/lexer.rs 242-252). -/
structure TokSpan where
  tok : Tok
  pos : LineCol
  deriving DecidableEq, Repr

/-- What a lexer function returns: the token and the unread characters, or `none` for an I/O
error. -/
abbrev LexR := Option (TokSpan × List CharSpan)

/-- `handle_bad_read` (core/src/lexer.rs 274-297). -/
def handleBad (io : Bool) (msg : Str) (pos : LineCol) : List CharSpan → LexR
  | [] => if io then none else some (⟨.bad msg, pos⟩, [])
  | c :: cs =>
    if isSeparator c.1 then some (⟨.bad msg, pos⟩, c :: cs) else handleBad io msg pos cs

/-- The value of a digit in bases up to 16 (`char::to_digit`). -/
def digitVal (c : Char) : Option Nat :=
  if '0' ≤ c ∧ c ≤ '9' then some (c.toNat - 48)
  else if 'a' ≤ c ∧ c ≤ 'z' then some (c.toNat - 87)
  else if 'A' ≤ c ∧ c ≤ 'Z' then some (c.toNat - 55)
  else none

/-- `from_str_radix` on characters without sign, with results below `limit`; the message is the
one of the `ParseIntError`. -/
def parseRadix (limit base : Nat) : Nat → Str → Except Str Nat
  | acc, [] => .ok acc
  | acc, c :: cs =>
    match digitVal c with
    | none => .error "invalid digit found in string".toList
    | some d =>
      if d < base then
        if acc * base + d < limit then parseRadix limit base (acc * base + d) cs
        else .error "number too large to fit in target type".toList
      else .error "invalid digit found in string".toList

/-- The end of `consume_number` (core/src/lexer.rs 327-344). -/
def finishNumber (T : TextOps) (io : Bool) (pos : LineCol) (s : Str) (dot : Bool)
    (cs : List CharSpan) : LexR :=
  if dot then
    if s.getLast? = some '.' then handleBad io "Unknown character: .".toList pos cs
    else some (⟨.double (T.parseDouble s), pos⟩, cs)
  else
    match parseRadix (2 ^ 31) 10 0 s with
    | .ok n => some (⟨.integer (BitVec.ofNat 32 n), pos⟩, cs)
    | .error e => handleBad io ("Bad integer ".toList ++ s ++ ": ".toList ++ e) pos cs

/-- `consume_number` (core/src/lexer.rs 298-345); `s` is what has been read. -/
def consumeNumber (T : TextOps) (io : Bool) (pos : LineCol) : Str → Bool → List CharSpan → LexR
  | s, dot, [] => if io then none else finishNumber T io pos s dot []
  | s, dot, c :: cs =>
    if c.1 = '.' then
      if dot then handleBad io "Too many dots in numeric literal".toList pos cs
      else consumeNumber T io pos (s ++ ['.']) true cs
    else if isAsciiDigit c.1 then consumeNumber T io pos (s ++ [c.1]) dot cs
    else if isSeparator c.1 then finishNumber T io pos s dot (c :: cs)
    else handleBad io ("Unexpected character in numeric literal: ".toList ++ [c.1]) pos cs

/-- The end of `consume_integer` (core/src/lexer.rs 377-384). -/
def finishInteger (io : Bool) (base : Nat) (pos : LineCol) (s : Str) (cs : List CharSpan) : LexR :=
  if s = [] then handleBad io "No digits in integer literal".toList pos cs
  else
    match parseRadix (2 ^ 32) base 0 s with
    | .ok n => some (⟨.integer (BitVec.ofNat 32 n), pos⟩, cs)
    | .error e => handleBad io ("Bad integer ".toList ++ s ++ ": ".toList ++ e) pos cs

/-- `consume_integer` (core/src/lexer.rs 346-385). -/
def consumeInteger (io : Bool) (base : Nat) (pos : LineCol) : Str → List CharSpan → LexR
  | s, [] => if io then none else finishInteger io base pos s []
  | s, c :: cs =>
    if c.1 = '.' then handleBad io "Numbers in base syntax must be integers".toList pos cs
    else if isAsciiDigit c.1 then consumeInteger io base pos (s ++ [c.1]) cs
    else if ('a' ≤ c.1 ∧ c.1 ≤ 'f') ∨ ('A' ≤ c.1 ∧ c.1 ≤ 'F') then
      consumeInteger io base pos (s ++ [c.1]) cs
    else if isSeparator c.1 then finishInteger io base pos s (c :: cs)
    else handleBad io ("Unexpected character in numeric literal: ".toList ++ [c.1]) pos cs

/-- The base that a letter after `&` selects (core/src/lexer.rs 393-398). -/
def baseOf (c : Char) : Option Nat :=
  if c = 'b' ∨ c = 'B' then some 2
  else if c = 'd' ∨ c = 'D' then some 10
  else if c = 'o' ∨ c = 'O' then some 8
  else if c = 'x' ∨ c = 'X' then some 16
  else none

/-- `consume_integer_with_base` (core/src/lexer.rs 387-430). -/
def consumeIntegerWithBase (io : Bool) (pos : LineCol) : List CharSpan → LexR
  | [] => if io then none else handleBad io "Incomplete integer due to EOF".toList pos []
  | c :: cs =>
    match baseOf c.1 with
    | none =>
      if isSeparator c.1 then handleBad io "Missing base in integer literal".toList pos (c :: cs)
      else handleBad io ("Unknown base ".toList ++ [c.1] ++ " in integer literal".toList) pos cs
    | some base =>
      match cs with
      | [] => if io then none else handleBad io "Incomplete integer due to EOF".toList pos []
      | d :: ds =>
        if d.1 = '_' then consumeInteger io base pos [] ds
        else consumeInteger io base pos [] (d :: ds)

/-- `consume_operator` (core/src/lexer.rs 432-464). -/
def consumeOperator (io : Bool) (first : CharSpan) : List CharSpan → LexR
  | [] =>
    if io then none
    else some (⟨if first.1 = '<' then .less else .greater, first.2⟩, [])
  | c :: cs =>
    if first.1 = '<' then
      if c.1 = '>' then some (⟨.notEqual, first.2⟩, cs)
      else if c.1 = '=' then some (⟨.lessEqual, first.2⟩, cs)
      else if c.1 = '<' then some (⟨.shiftLeft, first.2⟩, cs)
      else some (⟨.less, first.2⟩, c :: cs)
    else
      if c.1 = '=' then some (⟨.greaterEqual, first.2⟩, cs)
      else if c.1 = '>' then some (⟨.shiftRight, first.2⟩, cs)
      else some (⟨.greater, first.2⟩, c :: cs)

/-- `consume_rest_of_line` (core/src/lexer.rs 636-653); `eofPos` is `next_pos` at the end. -/
def consumeRestOfLine (io : Bool) (eofPos : LineCol) : List CharSpan → LexR
  | [] => if io then none else some (⟨.eof, eofPos⟩, [])
  | c :: cs => if c.1 = '\n' then some (⟨.eol, c.2⟩, cs) else consumeRestOfLine io eofPos cs

/-- The keyword table of `consume_symbol` (core/src/lexer.rs 516-561) without `REM`. -/
def keywords : List (Str × Tok) :=
  [ ("AND".toList, .and), ("AS".toList, .as), ("BOOLEAN".toList, .booleanName),
    ("CASE".toList, .case), ("DATA".toList, .data), ("DECLARE".toList, .declare),
    ("DIM".toList, .dim), ("DO".toList, .do), ("DOUBLE".toList, .doubleName),
    ("ELSE".toList, .else), ("ELSEIF".toList, .elseif), ("END".toList, .end),
    ("ERROR".toList, .error), ("EXIT".toList, .exit), ("FALSE".toList, .boolean false),
    ("FOR".toList, .for), ("FUNCTION".toList, .function), ("GOSUB".toList, .gosub),
    ("GOTO".toList, .goto), ("IF".toList, .if), ("IS".toList, .is),
    ("INTEGER".toList, .integerName), ("LOOP".toList, .loop), ("MOD".toList, .modulo),
    ("NEXT".toList, .next), ("NOT".toList, .not), ("ON".toList, .on), ("OR".toList, .or),
    ("RESUME".toList, .resume), ("RETURN".toList, .return), ("SELECT".toList, .select),
    ("SHARED".toList, .shared), ("STEP".toList, .step), ("STRING".toList, .textName),
    ("SUB".toList, .sub), ("THEN".toList, .then), ("TO".toList, .to),
    ("TRUE".toList, .boolean true), ("UNTIL".toList, .until), ("WEND".toList, .wend),
    ("WHILE".toList, .while), ("XOR".toList, .xor) ]

/-- `str::to_uppercase`. -/
def upperStr (T : TextOps) (s : Str) : Str := s.flatMap T.upper

/-- The end of `consume_symbol` (core/src/lexer.rs 512-563). -/
def finishSymbol (T : TextOps) (io : Bool) (eofPos pos : LineCol) (s : Str) (ty : Option ExprType)
    (cs : List CharSpan) : LexR :=
  if upperStr T s = "REM".toList then consumeRestOfLine io eofPos cs
  else
    match keywords.lookup (upperStr T s) with
    | some t => some (⟨t, pos⟩, cs)
    | none => some (⟨.symbol ⟨s, ty⟩, pos⟩, cs)

/-- The type annotations (core/src/lexer.rs 479-502). -/
def annotationOf (c : Char) : Option ExprType :=
  if c = '?' then some .boolean
  else if c = '#' then some .double
  else if c = '%' then some .integer
  else if c = '$' then some .text
  else none

/-- `consume_symbol` (core/src/lexer.rs 466-564). -/
def consumeSymbol (T : TextOps) (io : Bool) (eofPos pos : LineCol) : Str → List CharSpan → LexR
  | s, [] => if io then none else finishSymbol T io eofPos pos s none []
  | s, c :: cs =>
    if isWord T c.1 then consumeSymbol T io eofPos pos (s ++ [c.1]) cs
    else if isSeparator c.1 then finishSymbol T io eofPos pos s none (c :: cs)
    else
      match annotationOf c.1 with
      | some ty => finishSymbol T io eofPos pos s (some ty) cs
      | none => handleBad io ("Unexpected character in symbol: ".toList ++ [c.1]) pos cs

/-- `consume_text` (core/src/lexer.rs 566-598). -/
def consumeText (io : Bool) (delim : CharSpan) : Str → Bool → List CharSpan → LexR
  | s, _, [] =>
    if io then none
    else handleBad io ("Incomplete string due to EOF: ".toList ++ s) delim.2 []
  | s, esc, c :: cs =>
    if esc then consumeText io delim (s ++ [c.1]) false cs
    else if c.1 = '\\' then consumeText io delim s true cs
    else if c.1 = delim.1 then some (⟨.text s, delim.2⟩, cs)
    else consumeText io delim (s ++ [c.1]) false cs

/-- The loop of `consume_label` (core/src/lexer.rs 617-634). -/
def consumeLabelRest (T : TextOps) (io : Bool) (pos : LineCol) : Str → List CharSpan → LexR
  | s, [] => if io then none else some (⟨.label s, pos⟩, [])
  | s, c :: cs =>
    if isWord T c.1 then consumeLabelRest T io pos (s ++ [c.1]) cs
    else if isSeparator c.1 then some (⟨.label s, pos⟩, c :: cs)
    else handleBad io ("Unexpected character in label: ".toList ++ [c.1]) pos (c :: cs)

/-- `consume_label` (core/src/lexer.rs 601-634). -/
def consumeLabel (T : TextOps) (io : Bool) (pos : LineCol) : List CharSpan → LexR
  | [] => if io then none else some (⟨.bad "Empty label name".toList, pos⟩, [])
  | c :: cs =>
    if isWord T c.1 ∧ ¬ T.numeric c.1 then consumeLabelRest T io pos [c.1] cs
    else some (⟨.bad "Empty label name".toList, pos⟩, c :: cs)

/-- The tokens made of one character (core/src/lexer.rs 699-717). -/
def singleTok (c : Char) : Option Tok :=
  if c = '\n' ∨ c = ':' then some .eol
  else if c = ';' then some .semicolon
  else if c = ',' then some .comma
  else if c = '(' then some .leftParen
  else if c = ')' then some .rightParen
  else if c = '+' then some .plus
  else if c = '-' then some .minus
  else if c = '*' then some .multiply
  else if c = '/' then some .divide
  else if c = '^' then some .exponent
  else if c = '=' then some .equal
  else none

/-- The dispatch of `Lexer::read` on the first character of a token (core/src/lexer.rs 698-727). -/
def readFrom (T : TextOps) (io : Bool) (eofPos : LineCol) (c : CharSpan) (cs : List CharSpan) :
    LexR :=
  match singleTok c.1 with
  | some t => some (⟨t, c.2⟩, cs)
  | none =>
    if c.1 = '\'' then consumeRestOfLine io eofPos cs
    else if c.1 = '"' then consumeText io c [] false cs
    else if c.1 = '<' ∨ c.1 = '>' then consumeOperator io c cs
    else if c.1 = '@' then consumeLabel T io c.2 cs
    else if c.1 = '&' then consumeIntegerWithBase io c.2 cs
    else if isAsciiDigit c.1 then consumeNumber T io c.2 [c.1] false cs
    else if isWord T c.1 then consumeSymbol T io eofPos c.2 [c.1] cs
    else handleBad io ("Unknown character: ".toList ++ [c.1]) c.2 cs

/-- `advance_and_read_next` and the dispatch (core/src/lexer.rs 655-665, 692-727). -/
def readPlain (T : TextOps) (io : Bool) (eofPos : LineCol) : List CharSpan → LexR
  | [] => if io then none else some (⟨.eof, eofPos⟩, [])
  | c :: cs => if isSpace c.1 then readPlain T io eofPos cs else readFrom T io eofPos c cs

/-- `Lexer::read` (core/src/lexer.rs 667-728).  The recursive call after a `#!` line is the plain
read, because no later character is at 1:1. -/
def readTok (T : TextOps) (io : Bool) (eofPos : LineCol) (cs : List CharSpan) : LexR :=
  match cs with
  | c :: rest =>
    if c.2 = ⟨1, 1⟩ ∧ c.1 = '#' then
      match rest with
      | [] => if io then none else handleBad io "Unknown character: #".toList c.2 []
      | d :: rest' =>
        if d.1 = '!' then
          match consumeRestOfLine io eofPos rest' with
          | none => none
          | some (_, rest'') => readPlain T io eofPos rest''
        else handleBad io "Unknown character: #".toList c.2 rest
    else readPlain T io eofPos cs
  | [] => readPlain T io eofPos cs

/-- All the tokens before the end of the file or the I/O error: repeated `Lexer::read`.  The bound
is the number of characters. -/
def lexLoop (T : TextOps) (io : Bool) (eofPos : LineCol) : Nat → List CharSpan → List TokSpan
  | 0, _ => []
  | n + 1, cs =>
    match readTok T io eofPos cs with
    | none => []
    | some (t, rest) => if t.tok = .eof then [] else t :: lexLoop T io eofPos n rest

/-- What a `PeekableLexer` has left (core/src/lexer.rs 735-783): the tokens, the position of the
end of the file that follows them, and whether an I/O error is returned in its place. -/
structure TokStream where
  toks : List TokSpan
  eofPos : LineCol
  io : Bool
  deriving DecidableEq, Repr

/-- `Lexer::from` on a text; `io` tells whether reading the input fails after these characters. -/
def lexText (T : TextOps) (io : Bool) (s : Str) : TokStream :=
  let e := endPos ⟨1, 1⟩ s
  ⟨lexLoop T io e s.length (charSpans ⟨1, 1⟩ s), e, io⟩

end EB
