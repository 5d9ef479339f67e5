import Verif.Spec.TextCon
/-!
# The full-screen editor on an LCD

What the user sees, in pixels.
-/

namespace EB.Spec

open Edit (EdOp)

/-- The operations of a console by their names. -/
def textOp : EdOp → TextOp
  | .hideCursor => .hideCursor
  | .showCursor => .showCursor
  | .setColor t => .setColor (t.1.map (BitVec.ofNat 8)) (t.2.map (BitVec.ofNat 8))
  | .clear how => .clear how
  | .locate x y => .locate x y
  | .write t => .write t
  | .print t => .print t
  | .syncNow => .syncNow

/-- The pixel in column `i` and row `j` of the cell of a character. -/
def charPixel (font : Font) (encode : RGB → List Byte) (ch : Char) (fg bg : BitVec 8) (i j : Nat) : List Byte :=
  if dot font (shownChar ch) i j then inkOf encode fg else inkOf encode bg

/-- An LCD of text cells as `F` says shows a buffer: in all rows but the last there is the part of the document that begins in the
row `top` and the column `left`, in white; the cell where the next character goes is all white; the status is in the last row,
bright white on blue. -/
structure Buffer.OnLcd (F : Format) (font : Font) (encode : RGB → List Byte) (b : Buffer) (top left : Nat) (pixel : LXY → List Byte) : Prop where
  rows : top ≤ b.doc.row ∧ b.doc.row < top + (F.rows - 1)
  cols : left ≤ b.doc.col ∧ b.doc.col < left + F.cols
  text : ∀ y < F.rows - 1, ∀ x < F.cols, (top + y ≠ b.doc.row ∨ left + x ≠ b.doc.col) → ∀ i < font.width, ∀ j < font.height,
    pixel ⟨x * font.width + i, y * font.height + j⟩ = charPixel font encode (charAt b.doc.text (top + y) (left + x)) 7 F.bg i j
  cursor : ∀ i < font.width, ∀ j < font.height,
    pixel ⟨(b.doc.col - left) * font.width + i, (b.doc.row - top) * font.height + j⟩ = inkOf encode 7
  status : ∀ x < F.cols, ∀ ch, (b.status F.cols)[x]? = some ch → ∀ i < font.width, ∀ j < font.height,
    pixel ⟨x * font.width + i, (F.rows - 1) * font.height + j⟩ = charPixel font encode ch 15 4 i j

end EB.Spec
