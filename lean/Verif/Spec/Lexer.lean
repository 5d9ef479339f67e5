import Verif.Model.Lexer
/-!
# Source positions and the lexical grammar of the language

Written without reference to the functions of the lexer.
-/

namespace EB.Spec

/-! ## Positions -/

/-- The width of a line: a tab goes to the next multiple of 8. -/
def width (line : Str) : Nat := line.foldl (fun w c => if c = '\t' then (w / 8 + 1) * 8 else w + 1) 0

/-- The part of a text after its last newline. -/
def lastLine (s : Str) : Str := (s.reverse.takeWhile (· != '\n')).reverse

/-- The 1-based line and column of the character that follows `before`. -/
def posOf (before : Str) : LineCol := ⟨1 + before.count '\n', 1 + width (lastLine before)⟩

/-! ## Character classes -/

/-- Characters that end a word. -/
def separators : Str := "\n:()'=<>;,+-*/^ \t\r".toList

/-- Characters that only separate tokens. -/
def blanks : Str := " \t\r".toList

/-- The documented behaviour of Rust's character functions on ASCII. -/
structure TextOk (T : TextOps) : Prop where
  alnum : ∀ c : Char, c.toNat < 128 → T.alnum c = c.isAlphanum
  numeric : ∀ c : Char, c.toNat < 128 → T.numeric c = c.isDigit
  upper : ∀ c : Char, c.toNat < 128 → T.upper c = [c.toUpper]

/-- Characters of names: letters, digits and the underscore. -/
def WordChar (T : TextOps) (c : Char) : Prop := c = '_' ∨ T.alnum c = true

/-- The text after a word is empty or starts with a separator. -/
def EndsWord (rest : Str) : Prop := ∀ c, rest.head? = some c → c ∈ separators

/-- A name: word characters of which the first is not a decimal digit. -/
def Name (T : TextOps) (w : Str) : Prop :=
  w ≠ [] ∧ (∀ c ∈ w, WordChar T c) ∧ ∀ c, w.head? = some c → ¬ ('0' ≤ c ∧ c ≤ '9')

/-- The annotation of a type, if any. -/
def annotation : Option ExprType → Str
  | none => []
  | some .boolean => "?".toList
  | some .double => "#".toList
  | some .integer => "%".toList
  | some .text => "$".toList

/-- A word is followed by a separator, or annotated. -/
def WordEnd (ty : Option ExprType) (rest : Str) : Prop := ty = none → EndsWord rest

/-! ## Numbers -/

/-- The sixteen digits. -/
def digitChars : Str := "0123456789ABCDEF".toList

/-- The value of a digit, in either case. -/
def digitOf (c : Char) : Option Nat := digitChars.findIdx? (· == c.toUpper)

/-- All characters are digits of the base. -/
def DigitsIn (base : Nat) (s : Str) : Prop := ∀ c ∈ s, ∃ d, digitOf c = some d ∧ d < base

/-- The number that digits denote in a base. -/
def valueIn (base : Nat) (s : Str) : Nat := s.foldl (fun n c => n * base + (digitOf c).getD 0) 0

/-- The letters that select a base. -/
def baseLetters : List (Char × Nat) :=
  [('b', 2), ('B', 2), ('o', 8), ('O', 8), ('d', 10), ('D', 10), ('x', 16), ('X', 16)]

/-! ## Text -/

/-- `TextBody written s`: between quotes, `written` denotes `s`; a backslash makes the next
character literal. -/
inductive TextBody : Str → Str → Prop
  | nil : TextBody [] []
  | plain {c : Char} {w s : Str} (h : c ≠ '"') (h' : c ≠ '\\') (t : TextBody w s) : TextBody (c :: w) (c :: s)
  | escaped (c : Char) {w s : Str} (t : TextBody w s) : TextBody ('\\' :: c :: w) (c :: s)

/-! ## Tokens -/

/-- Tokens of one character, whatever follows. -/
def punctuation : List (Char × Tok) :=
  [('\n', .eol), (':', .eol), (';', .semicolon), (',', .comma), ('(', .leftParen), (')', .rightParen),
   ('+', .plus), ('-', .minus), ('*', .multiply), ('/', .divide), ('^', .exponent), ('=', .equal)]

/-- Tokens of two characters. -/
def operators : List (Str × Tok) :=
  [("<>".toList, .notEqual), ("<=".toList, .lessEqual), ("<<".toList, .shiftLeft),
   (">=".toList, .greaterEqual), (">>".toList, .shiftRight)]

/-- The reserved words and their tokens. -/
def reserved : List (Str × Tok) :=
  [ ("AND".toList, .and), ("AS".toList, .as), ("BOOLEAN".toList, .booleanName),
    ("CASE".toList, .case), ("DATA".toList, .data), ("DECLARE".toList, .declare),
    ("DIM".toList, .dim), ("DO".toList, .do), ("DOUBLE".toList, .doubleName),
    ("ELSE".toList, .else), ("ELSEIF".toList, .elseif), ("END".toList, .end),
    ("ERROR".toList, .error), ("EXIT".toList, .exit), ("FALSE".toList, .boolean false),
    ("FOR".toList, .for), ("FUNCTION".toList, .function), ("GOSUB".toList, .gosub),
    ("GOTO".toList, .goto), ("IF".toList, .if), ("IS".toList, .is),
    ("INTEGER".toList, .integerName), ("LOOP".toList, .loop), ("MOD".toList, .modulo),
    ("NEXT".toList, .next), ("NOT".toList, .not), ("ON".toList, .on), ("OR".toList, .or),
    ("RESUME".toList, .resume), ("RETURN".toList, .return), ("SELECT".toList, .select),
    ("SHARED".toList, .shared), ("STEP".toList, .step), ("STRING".toList, .textName),
    ("SUB".toList, .sub), ("THEN".toList, .then), ("TO".toList, .to),
    ("TRUE".toList, .boolean true), ("UNTIL".toList, .until), ("WEND".toList, .wend),
    ("WHILE".toList, .while), ("XOR".toList, .xor) ]

/-- A word in upper case. -/
def upperWord (T : TextOps) (w : Str) : Str := w.flatMap T.upper

/-- `Lexeme T lex t rest`: the characters `lex`, followed by `rest`, are the well-formed token `t`. -/
inductive Lexeme (T : TextOps) : Str → Tok → Str → Prop
  | punct {c : Char} {t : Tok} {rest : Str} (h : (c, t) ∈ punctuation) : Lexeme T [c] t rest
  | operator {s : Str} {t : Tok} {rest : Str} (h : (s, t) ∈ operators) : Lexeme T s t rest
  | less {rest : Str} (h : ∀ c, rest.head? = some c → c ∉ "<=>".toList) : Lexeme T "<".toList .less rest
  | greater {rest : Str} (h : ∀ c, rest.head? = some c → c ∉ "=>".toList) : Lexeme T ">".toList .greater rest
  | text {w s rest : Str} (h : TextBody w s) : Lexeme T ('"' :: w ++ "\"".toList) (.text s) rest
  | integer {ds rest : Str} (h : ds ≠ []) (hd : DigitsIn 10 ds) (hv : valueIn 10 ds < 2 ^ 31)
      (hr : EndsWord rest) : Lexeme T ds (.integer (BitVec.ofNat 32 (valueIn 10 ds))) rest
  | double {a b rest : Str} (ha : a ≠ []) (hb : b ≠ []) (hda : DigitsIn 10 a) (hdb : DigitsIn 10 b)
      (hr : EndsWord rest) : Lexeme T (a ++ '.' :: b) (.double (T.parseDouble (a ++ '.' :: b))) rest
  | based {l : Char} {base : Nat} {u ds rest : Str} (hl : (l, base) ∈ baseLetters)
      (hu : u = [] ∨ u = "_".toList) (h : ds ≠ []) (hd : DigitsIn base ds)
      (hv : valueIn base ds < 2 ^ 32) (hr : EndsWord rest) :
      Lexeme T ('&' :: l :: u ++ ds) (.integer (BitVec.ofNat 32 (valueIn base ds))) rest
  | reserved {w rest : Str} {t : Tok} {ty : Option ExprType} (hw : Name T w)
      (hk : (upperWord T w, t) ∈ reserved) (hr : WordEnd ty rest) : Lexeme T (w ++ annotation ty) t rest
  | symbol {w rest : Str} {ty : Option ExprType} (hw : Name T w)
      (hk : ∀ t, (upperWord T w, t) ∉ Spec.reserved) (hrem : upperWord T w ≠ "REM".toList)
      (hr : WordEnd ty rest) : Lexeme T (w ++ annotation ty) (.symbol ⟨w, ty⟩) rest
  | label {w rest : Str} (hw : ∀ c ∈ w, WordChar T c) (hh : ∃ c, w.head? = some c ∧ T.numeric c = false)
      (hr : EndsWord rest) : Lexeme T ('@' :: w) (.label w) rest

/-- A comment: an apostrophe or the word `REM`, and anything up to the end of the line. -/
inductive Comment (T : TextOps) : Str → Prop
  | quote {body : Str} (h : '\n' ∉ body) : Comment T ('\'' :: body)
  | rem {w body : Str} {ty : Option ExprType} (hw : Name T w) (hk : upperWord T w = "REM".toList)
      (hr : WordEnd ty body) (h : '\n' ∉ body) : Comment T (w ++ annotation ty ++ body)

/-- What may stand between two tokens: blanks, and a comment if the line ends there. -/
def Skipped (T : TextOps) (s rest : Str) : Prop :=
  ∃ b c, s = b ++ c ∧ (∀ x ∈ b, x ∈ blanks) ∧
    (c = [] ∨ (Comment T c ∧ (rest = [] ∨ rest.head? = some '\n')))

/-- What may stand before the first token: also a `#!` line. -/
def SkippedFirst (T : TextOps) (s rest : Str) : Prop :=
  Skipped T s rest ∨
  (∃ line, s = '#' :: '!' :: line ∧ '\n' ∉ line ∧ rest = []) ∨
  ∃ line s', s = '#' :: '!' :: line ++ '\n' :: s' ∧ '\n' ∉ line ∧ Skipped T s' rest

/-- A piece of the text: what is skipped, the characters of the token, and the token. -/
structure Piece where
  skip : Str
  lex : Str
  tok : Tok

/-- The text of pieces. -/
def piecesText : List Piece → Str
  | [] => []
  | p :: ps => p.skip ++ p.lex ++ piecesText ps

/-- The tokens of pieces that follow the text `before`, at their positions. -/
def piecesTokens : Str → List Piece → List TokSpan
  | _, [] => []
  | before, p :: ps => ⟨p.tok, posOf (before ++ p.skip)⟩ :: piecesTokens (before ++ p.skip ++ p.lex) ps

/-- No token can be read at the beginning of a text. -/
def NoToken (T : TextOps) (s : Str) : Prop := ∀ lex t rest, s = lex ++ rest → ¬ Lexeme T lex t rest

/-- A piece followed by `rest`: it takes at least one character and its token is well formed, or is
an error token at a place where no well-formed token begins. -/
def PieceOk (T : TextOps) (p : Piece) (rest : Str) : Prop :=
  p.lex ≠ [] ∧ (Lexeme T p.lex p.tok rest ∨ ((∃ msg, p.tok = .bad msg) ∧ NoToken T (p.lex ++ rest)))

/-- The pieces of a text that continues until `tail`, where nothing but skipped text follows. -/
def PiecesOk (T : TextOps) : List Piece → Str → Prop
  | [], tail => Skipped T tail []
  | p :: ps, tail =>
    Skipped T p.skip (p.lex ++ (piecesText ps ++ tail)) ∧ PieceOk T p (piecesText ps ++ tail) ∧
    PiecesOk T ps tail

/-- The pieces of a whole text. -/
def TextPieces (T : TextOps) : List Piece → Str → Prop
  | [], tail => SkippedFirst T tail []
  | p :: ps, tail =>
    SkippedFirst T p.skip (p.lex ++ (piecesText ps ++ tail)) ∧ PieceOk T p (piecesText ps ++ tail) ∧
    PiecesOk T ps tail

end EB.Spec
