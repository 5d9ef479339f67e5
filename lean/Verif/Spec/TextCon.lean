import Verif.Spec.Lcd
import Verif.Spec.Editor
import Verif.Model.Colors
import Verif.Model.TextCon
/-!
# A terminal on a screen of pixels

What the user sees of the text on a graphics console.
-/

namespace EB.Spec

open Edit (Clear)

/-- What is in a cell: a character, or nothing, in some colors. -/
structure Tile where
  char : Option Char
  fg : BitVec 8
  bg : BitVec 8

/-- A picture: the cells by row and column, where the cursor is, and its color if it is shown. -/
structure Sheet where
  tile : Nat → Nat → Tile
  x : Nat
  y : Nat
  cursor : Option (BitVec 8)

/-- A terminal: the picture that is made, the picture that is shown, the colors, what is kept while the alternate screen is used,
and whether both pictures change together. -/
structure Terminal where
  back : Sheet
  front : Sheet
  fg : Option (BitVec 8)
  bg : Option (BitVec 8)
  saved : Option (Sheet × Option (BitVec 8) × Option (BitVec 8))
  sync : Bool

/-- The size of the terminal in characters and its default colors. -/
structure Format where
  cols : Nat
  rows : Nat
  fg : BitVec 8
  bg : BitVec 8

/-- An empty cell. -/
def Tile.empty (bg : BitVec 8) : Tile := ⟨none, bg, bg⟩

/-- The cursor goes to the beginning of the next row; at the bottom all rows move up, and the last one is empty. -/
def Sheet.newLine (F : Format) (bg : BitVec 8) (s : Sheet) : Sheet :=
  if s.y + 1 < F.rows then { s with x := 0, y := s.y + 1 }
  else { s with x := 0, tile := fun r c => if r + 1 < F.rows then s.tile (r + 1) c else Tile.empty bg }

/-- A character is written at the cursor, which moves on.  Behind the last column a new row is begun first. -/
def Sheet.type (F : Format) (fg bg : BitVec 8) (s : Sheet) (ch : Char) : Sheet :=
  let s := if s.x < F.cols then s else s.newLine F bg
  { s with x := s.x + 1, tile := fun r c => if r = s.y ∧ c = s.x then ⟨some (shownChar ch), fg, bg⟩ else s.tile r c }

/-- The cells that are emptied, and where the cursor is then. -/
def Sheet.erase (bg : BitVec 8) (s : Sheet) : Clear → Sheet
  | .all => { s with tile := fun _ _ => .empty bg, x := 0, y := 0 }
  | .currentLine => { s with tile := fun r c => if r = s.y then .empty bg else s.tile r c, x := 0 }
  | .previousChar =>
    if 0 < s.x then { s with tile := fun r c => if r = s.y ∧ c = s.x - 1 then .empty bg else s.tile r c, x := s.x - 1 } else s
  | .untilNewLine => { s with tile := fun r c => if r = s.y ∧ s.x ≤ c then .empty bg else s.tile r c }

namespace Terminal

/-- The current colors. -/
def ink (F : Format) (t : Terminal) : BitVec 8 := t.fg.getD F.fg

/-- See `ink`. -/
def paper (F : Format) (t : Terminal) : BitVec 8 := t.bg.getD F.bg

/-- A new picture is made.  If it is shown, the cursor has the foreground color. -/
def make (F : Format) (t : Terminal) (s : Sheet) : Terminal :=
  { t with back := { s with cursor := s.cursor.map fun _ => t.ink F } }

/-- What each operation does to the picture that is made. -/
def act (F : Format) (t : Terminal) : TextOp → Terminal
  | .clear how => t.make F (t.back.erase (t.paper F) how)
  | .setColor fg bg => { t with fg := fg, bg := bg }
  | .enterAlt => { t with saved := some (t.back, t.fg, t.bg) }.make F (t.back.erase (t.paper F) .all)
  | .leaveAlt =>
    match t.saved with
    | some (s, fg, bg) => { t with fg := fg, bg := bg, saved := none }.make F { s with cursor := t.back.cursor }
    | none => t
  | .hideCursor => { t with back := { t.back with cursor := none } }
  | .showCursor => if t.back.cursor.isSome then t else { t with back := { t.back with cursor := some (t.ink F) } }
  | .locate x y => t.make F { t.back with x := x, y := y }
  | .move off => t.make F { t.back with x := (t.back.x + off).toNat }
  | .print text => t.make F ((text.foldl (Sheet.type F (t.ink F) (t.paper F)) t.back).newLine F (t.paper F))
  | .write text => t.make F (text.foldl (Sheet.type F (t.ink F) (t.paper F)) t.back)
  | .setSync on => { t with sync := on }
  | .syncNow => { t with front := t.back }

/-- What each operation does: with syncing the new picture is shown. -/
def perform (F : Format) (t : Terminal) (op : TextOp) : Terminal :=
  let t := t.act F op
  if t.sync then { t with front := t.back } else t

/-- An empty terminal. -/
def blank (F : Format) : Terminal :=
  let s : Sheet := ⟨fun _ _ => .empty F.bg, 0, 0, some F.fg⟩
  ⟨s, s, none, none, none, true⟩

/-- The operations that the graphics console is made for.  The cursor has to stay in the row; it may be behind the last column,
but only if it is hidden.  (1) Nothing is deleted before the first column while the cursor is shown.  (2) The alternate screen is
entered with a hidden cursor. -/
def Handles (F : Format) (t : Terminal) (op : TextOp) : Prop :=
  (match op with
    | .locate x y => x < F.cols ∧ y < F.rows
    | .move off => 0 ≤ t.back.x + off ∧ t.back.x + off ≤ F.cols
    | .clear .previousChar => t.back.cursor.isSome → 0 < t.back.x
    | .clear .untilNewLine => t.back.x < F.cols
    | .enterAlt => t.saved = none ∧ t.back.cursor = none
    | .leaveAlt => t.saved.isSome
    | _ => True) ∧
  ((t.act F op).back.cursor.isSome → (t.act F op).back.x < F.cols)

/-- All the operations are such, one after the other. -/
def HandlesAll (F : Format) (t : Terminal) : List TextOp → Prop
  | [] => True
  | op :: ops => t.Handles F op ∧ (t.perform F op).HandlesAll F ops

end Terminal

/-- The bytes of a color. -/
def inkOf (encode : RGB → List Byte) (k : BitVec 8) : List Byte := encode ((colors[k.toNat]?).getD (0, 0, 0))

/-- The pixel in column `i` and row `j` of a cell: the dots of the character have the foreground color. -/
def Tile.pixel (font : Font) (encode : RGB → List Byte) (t : Tile) (i j : Nat) : List Byte :=
  match t.char with
  | some ch => if dot font ch i j then inkOf encode t.fg else inkOf encode t.bg
  | none => inkOf encode t.bg

/-- The same with the cursor, which is a block. -/
def Sheet.pixel (font : Font) (encode : RGB → List Byte) (s : Sheet) (r c i j : Nat) : List Byte :=
  match s.cursor with
  | some k => if r = s.y ∧ c = s.x then inkOf encode k else (s.tile r c).pixel font encode i j
  | none => (s.tile r c).pixel font encode i j

/-- Pixels show a picture: those of each cell are where they belong. -/
def Depicts (F : Format) (font : Font) (encode : RGB → List Byte) (pic : LXY → List Byte) (s : Sheet) : Prop :=
  ∀ r < F.rows, ∀ c < F.cols, ∀ i < font.width, ∀ j < font.height,
    pic ⟨c * font.width + i, r * font.height + j⟩ = s.pixel font encode r c i j

end EB.Spec
