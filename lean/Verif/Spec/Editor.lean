import Verif.Model.Editor
/-!
# What editing a document means, and what a console shows

The document is one string in which every line ends with a newline.
-/

namespace EB.Spec
open EB.Edit

/-- A document being edited: the text before and after the cursor, and the column that vertical moves aim for. -/
structure Doc where
  before : Str
  after : Str
  goal : Nat
  deriving DecidableEq

namespace Doc

/-- The document. -/
def text (d : Doc) : Str := d.before ++ d.after

/-- The row of the cursor: the newlines before it. -/
def row (d : Doc) : Nat := d.before.count '\n'

/-- What there is between the beginning of the row and the cursor. -/
def left (d : Doc) : Str := (d.before.reverse.takeWhile (· ≠ '\n')).reverse

/-- What there is between the cursor and the end of the row. -/
def right (d : Doc) : Str := d.after.takeWhile (· ≠ '\n')

/-- The column of the cursor. -/
def col (d : Doc) : Nat := d.left.length

/-- The row. -/
def line (d : Doc) : Str := d.left ++ d.right

/-- A text split at the column `c` of the row `r`, or at the end of this row if it is shorter. -/
def place (r c : Nat) : Str → Str × Str
  | [] => ([], [])
  | x :: xs => match r, c with
    | 0, 0 => ([], x :: xs)
    | 0, c + 1 => if x = '\n' then ([], x :: xs) else (x :: (place 0 c xs).1, (place 0 c xs).2)
    | r + 1, c => let r' := if x = '\n' then r else r + 1
      (x :: (place r' c xs).1, (place r' c xs).2)

/-- The cursor at another place; the goal stays. -/
def moveTo (d : Doc) (r c : Nat) : Doc := ⟨(place r c d.text).1, (place r c d.text).2, d.goal⟩

/-- The column is the one that vertical moves aim for. -/
def aimed (d : Doc) : Doc := { d with goal := d.col }

/-- `n` rows up, or to the first one. -/
def up (d : Doc) (n : Nat) : Doc := d.moveTo (d.row - n) d.goal

/-- `n` rows down, or to the last one. -/
def down (d : Doc) (n : Nat) : Doc := d.moveTo (min (d.row + n) (d.text.count '\n' - 1)) d.goal

/-- What the keys do, on a console of `H` rows.  Lines are not longer than the place that is left for them: the cursor
cannot leave its row to the sides, and the newline that ends the document cannot be deleted.  Backspace in the
indentation goes back to the last multiple of four; the home key goes to the end of the indentation, or, if it is
there already, to the beginning of the row; the enter key copies the indentation. -/
def press (d : Doc) (H : Nat) : Key → Doc
  | .char c => aimed { d with before := d.before ++ [c] }
  | .tab => aimed { d with before := d.before ++ List.replicate (4 - d.col % 4) ' ' }
  | .newLine | .carriageReturn => aimed { d with before := d.before ++ '\n' :: d.line.takeWhile isWhite }
  | .backspace =>
    if d.left ≠ [] ∧ ∀ c ∈ d.left, c = ' ' then
      aimed { d with before := d.before.take (d.before.length - (d.col - (d.col - 1) / 4 * 4)) }
    else aimed { d with before := d.before.dropLast }
  | .delete | .eofOrDelete => if d.after.length ≤ 1 then d else { d with after := d.after.tail }
  | .arrowLeft =>
    if d.left = [] then d
    else aimed { d with before := d.before.dropLast, after := d.before.getLast?.toList ++ d.after }
  | .arrowRight =>
    if d.right = [] then d
    else aimed { d with before := d.before ++ d.after.head?.toList, after := d.after.tail }
  | .end => aimed { d with before := d.before ++ d.right, after := d.after.dropWhile (· ≠ '\n') }
  | .home =>
    let indent := (d.line.takeWhile (· = ' ')).length
    aimed (d.moveTo d.row (if d.col = indent then 0 else indent))
  | .arrowUp => d.up 1
  | .arrowDown => d.down 1
  | .pageUp => d.up (H - 2)
  | .pageDown => d.down (H - 2)
  | .escape | .interrupt | .unknown => d

end Doc

/-- What the users of the editor see: the name, the document, and whether there are changes since it was loaded or
saved. -/
structure Buffer where
  name : Option Str
  doc : Doc
  dirty : Bool
  deriving DecidableEq

namespace Buffer

/-- A key: the buffer has changes if the text is another one. -/
def press (b : Buffer) (H : Nat) (k : Key) : Buffer :=
  { b with doc := b.doc.press H k, dirty := b.dirty || (b.doc.press H k).text != b.doc.text }

/-- The keys, until the one that ends the editor. -/
def keys (b : Buffer) (H : Nat) : List Key → Buffer
  | [] => b
  | k :: ks => if k = .escape ∨ k = .interrupt then b else (b.press H k).keys H ks

/-- The text as it is loaded: newlines as `\r\n` become `\n`, and the last line is terminated. -/
def normalize : Str → Str
  | [] => []
  | '\r' :: '\n' :: s => '\n' :: normalize s
  | [c] => if c = '\n' then [c] else [c, '\n']
  | c :: s => c :: normalize s

/-- What is done with the editor. -/
inductive Call where
  | load (name : Option Str) (text : Str)
  | setName (name : Str)
  | edit (W H : Nat) (ks : List Key)

/-- The editor always has a line to edit. -/
def opened (b : Buffer) : Buffer := { b with doc := if b.doc.text = [] then ⟨[], ['\n'], b.doc.goal⟩ else b.doc }

/-- What the calls do. -/
def call (b : Buffer) : Call → Buffer
  | .load name text => ⟨name, ⟨[], normalize text, 0⟩, false⟩
  | .setName name => { b with name := some name, dirty := false }
  | .edit _ H ks => b.opened.keys H ks

/-- The calls one after the other, on a new editor. -/
def calls (cs : List Call) : Buffer := cs.foldl call ⟨none, ⟨[], [], 0⟩, false⟩

end Buffer

/-- A character that the editor deals with well: not a newline, and, if it is white space, in ASCII. -/
def Typable (c : Char) : Prop := c ≠ '\n' ∧ (isWhite c = true → c.toNat < 128)

/-- The calls with reasonable texts, keys and consoles. -/
def Buffer.Call.Fine : Buffer.Call → Prop
  | .load _ text => ∀ c ∈ text, c = '\n' ∨ Typable c
  | .setName _ => True
  | .edit W H ks => 1 ≤ W ∧ W < 65536 ∧ 2 ≤ H ∧ H < 65536 ∧ ∀ c, .char c ∈ ks → Typable c

/-! ## Consoles -/

/-- A cell: a character on a background.  The foreground of a space is not seen. -/
structure Glyph where
  char : Char
  fg : Option Nat
  bg : Option Nat
  deriving DecidableEq

/-- Characters as they are shown: control characters are blanks. -/
def shownChar (c : Char) : Char := if c.toNat < 32 ∨ (127 ≤ c.toNat ∧ c.toNat < 160) then ' ' else c

/-- A character in some colors. -/
def glyph (t : Tint) (c : Char) : Glyph := ⟨shownChar c, if shownChar c = ' ' then none else t.1, t.2⟩

/-- What a console shows: the cells by row and column, and the cursor. -/
structure Picture where
  cell : Nat → Nat → Glyph
  x : Nat
  y : Nat
  visible : Bool

/-- A console while it is not in sync with what is shown: the picture being made, the colors, and what is shown. -/
structure Console where
  back : Picture
  tint : Tint
  front : Picture

/-- A text in a row of cells. -/
def Picture.put (p : Picture) (t : Tint) (s : Str) (r c : Nat) : Glyph :=
  if r = p.y ∧ p.x ≤ c ∧ c < p.x + s.length then glyph t (s.getD (c - p.x) ' ') else p.cell r c

/-- The operations that a console of `W` columns and `H` rows can do: the cursor cannot be moved out of it.  A delicate
console also needs that the cursor is not behind the last column while it is shown or the rest of the row is cleared, that
it is not shown twice, and that nothing is deleted before the first column while it is shown. -/
def Console.Allows (delicate : Bool) (W H : Nat) (s : Console) : EdOp → Prop
  | .locate x y => x < W ∧ y < H
  | .write t => delicate = true → s.back.visible = true → s.back.x + t.length < W
  | .showCursor => delicate = true → s.back.visible = false ∧ s.back.x < W
  | .clear .previousChar => delicate = true → s.back.visible = true → 0 < s.back.x
  | .clear .untilNewLine => delicate = true → s.back.x < W
  | _ => True

/-- What a console may do.  Writing a text that reaches the end of the row leaves the cursor after the last column.
Texts that do not fit in the row, and rows after the last one, may change all of the picture.  Deleting the character
before the first column may change this column, and clearing a row may move the cursor to its beginning. -/
def Console.Does (W H : Nat) (s : Console) : EdOp → Console → Prop
  | .hideCursor, s' => s' = { s with back := { s.back with visible := false } }
  | .showCursor, s' => s' = { s with back := { s.back with visible := true } }
  | .setColor t, s' => s' = { s with tint := t }
  | .locate x y, s' => s' = { s with back := { s.back with x := x, y := y } }
  | .syncNow, s' => s' = { s with front := s.back }
  | .write t, s' => s'.tint = s.tint ∧ s'.front = s.front ∧ s'.back.visible = s.back.visible ∧
      (s.back.x + t.length ≤ W →
        s'.back.cell = s.back.put s.tint t ∧ s'.back.x = s.back.x + t.length ∧ s'.back.y = s.back.y)
  | .print t, s' => s'.tint = s.tint ∧ s'.front = s.front ∧ s'.back.visible = s.back.visible ∧
      (s.back.x + t.length ≤ W → s.back.y + 1 < H →
        s'.back.cell = s.back.put s.tint t ∧ s'.back.x = 0 ∧ s'.back.y = s.back.y + 1)
  | .clear .all, s' => s' = { s with back := ⟨fun _ _ => glyph s.tint ' ', 0, 0, s.back.visible⟩ }
  | .clear .currentLine, s' => s'.tint = s.tint ∧ s'.front = s.front ∧ s'.back.visible = s.back.visible ∧
      s'.back.cell = (fun r c => if r = s.back.y then glyph s.tint ' ' else s.back.cell r c) ∧
      s'.back.y = s.back.y ∧ (s'.back.x = s.back.x ∨ s'.back.x = 0)
  | .clear .untilNewLine, s' => s' = { s with back := { s.back with
      cell := fun r c => if r = s.back.y ∧ s.back.x ≤ c then glyph s.tint ' ' else s.back.cell r c } }
  | .clear .previousChar, s' => s'.tint = s.tint ∧ s'.front = s.front ∧ s'.back.visible = s.back.visible ∧
      s'.back.y = s.back.y ∧ s'.back.x = s.back.x - 1 ∧
      (∀ r c, (r ≠ s.back.y ∨ c ≠ s.back.x - 1) → s'.back.cell r c = s.back.cell r c) ∧
      (0 < s.back.x → s'.back.cell s.back.y (s.back.x - 1) = glyph s.tint ' ')

/-- After the operations, all of which the console can do, `P` holds whatever it did. -/
def Console.After (delicate : Bool) (W H : Nat) (P : Console → Prop) : List EdOp → Console → Prop
  | [], s => P s
  | o :: os, s => s.Allows delicate W H o ∧ ∀ s', s.Does W H o s' → After delicate W H P os s'

/-- The character at a place of a document. -/
def charAt (text : Str) (r c : Nat) : Char := ((Doc.place r c text).2.head?.filter (· ≠ '\n')).getD ' '

/-- The status of a buffer on a console of `W` columns: how to leave, the name with a mark if there are changes, and
the place of the cursor, counted from one; or just this place if there are not enough columns. -/
def Buffer.status (b : Buffer) (W : Nat) : Str :=
  let details := " | ".toList ++ b.name.getD "<NO NAME>".toList ++ (if b.dirty then ['*'] else []) ++ " | Ln ".toList ++
    (Nat.repr (b.doc.row + 1)).toList ++ ", Col ".toList ++ (Nat.repr (b.doc.col + 1)).toList ++ [' ']
  let short := [' '] ++ (Nat.repr (b.doc.row + 1)).toList ++ [':'] ++ (Nat.repr (b.doc.col + 1)).toList ++ [' ']
  if 10 + byteLen details < W then " ESC Exit ".toList ++ List.replicate (W - 10 - byteLen details) ' ' ++ details
  else (List.replicate (W - short.length) ' ' ++ short).take W

/-- A console shows a buffer: in all rows but the last there is the part of the document that begins in the row `top`
and the column `left`; the cursor is there, where the next character goes; the status is in the last row. -/
structure Buffer.Shown (W H : Nat) (b : Buffer) (top left : Nat) (p : Picture) : Prop where
  rows : top ≤ b.doc.row ∧ b.doc.row < top + (H - 1)
  cols : left ≤ b.doc.col ∧ b.doc.col < left + W
  cells : ∀ y < H - 1, ∀ x < W, p.cell y x = glyph (some 7, none) (charAt b.doc.text (top + y) (left + x))
  cursor : p.x = b.doc.col - left ∧ p.y = b.doc.row - top ∧ p.visible = true
  status : ∀ x < (b.status W).length, p.cell (H - 1) x = glyph (some 15, some 4) ((b.status W).getD x ' ')

end EB.Spec
