import Verif.Model.Lcd
import Verif.Spec.Drawing
/-!
# What a buffered screen does

A canvas: what has been drawn, and what is shown of it.
-/

namespace EB.Spec

/-- The picture that has been drawn, the one that is shown, whether both change together, and the colour to draw with. -/
structure Canvas where
  drawn : LXY → List Byte
  shown : LXY → List Byte
  sync : Bool
  color : List Byte

/-- A point of the grid of the user as one of the screen. -/
def At (p : Pt) (q : LXY) : Prop := p.x = q.x ∧ p.y = q.y

instance (p : Pt) (q : LXY) : Decidable (At p q) := inferInstanceAs (Decidable (_ ∧ _))

/-- A rectangle by its corner and its size. -/
def InRect (p : Pt) (w h : Nat) (q : LXY) : Prop := p.x ≤ q.x ∧ q.x < p.x + w ∧ p.y ≤ q.y ∧ q.y < p.y + h

instance (p : Pt) (w h : Nat) (q : LXY) : Decidable (InRect p w h q) := inferInstanceAs (Decidable (_ ∧ _))

/-- A new picture is drawn; with syncing it is also shown. -/
def Canvas.draw (c : Canvas) (pic : LXY → List Byte) : Canvas :=
  { c with drawn := pic, shown := if c.sync then pic else c.shown }

/-- Some of the pixels get the current colour. -/
def Canvas.paint (c : Canvas) (s : LXY → Prop) [DecidablePred s] : Canvas :=
  c.draw fun q => if s q then c.color else c.drawn q

/-- The pixel of `data` at some place of a rectangle, given row by row. -/
def pixelAt (stride w : Nat) (p : Pt) (data : List Byte) (q : LXY) : List Byte :=
  (data.drop (((q.y - p.y).toNat * w + (q.x - p.x).toNat) * stride)).take stride

/-- The pixels set by some operations. -/
def pixelsOf (ops : List RasOp) : List Pt := ops.flatMap fun o => (pixels o).getD []

/-- The fonts that there are: the data has the glyphs of the characters from the space to the tilde, row by row, and the
rows are bytes.  A glyph is at most 8 pixels wide, or a whole number of bytes. -/
structure GoodFont (font : Font) : Prop where
  data : 95 * (font.height * font.stride) ≤ font.data.length
  shape : (font.stride = 1 ∧ font.width ≤ 8) ∨ font.width = 8 * font.stride

/-- The pixel in column `i` and row `j` of the glyph of a character is set.  The leftmost pixel is the highest bit.
Other characters than the printable ones of ASCII look like a question mark. -/
def dot (font : Font) (ch : Char) (i j : Nat) : Bool :=
  let code := if 32 ≤ ch.toNat ∧ ch.toNat ≤ 126 then ch.toNat else 63
  let byte := font.data.getD (((code - 32) * font.height + j) * font.stride + i / 8) 0
  decide (i < font.width) && decide (j < font.height) && byte.getLsbD (7 - i % 8)

/-- The pixel is set when the text is written at `p`: the glyphs stand side by side. -/
def lit (font : Font) (p : Pt) (text : List Char) (q : LXY) : Bool :=
  decide (p.x ≤ q.x) && decide (p.y ≤ q.y) &&
  match text[(q.x - p.x).toNat / font.width]? with
  | some ch => dot font ch ((q.x - p.x).toNat % font.width) (q.y - p.y).toNat
  | none => false

/-- What each operation does. -/
def Canvas.perform (stride : Nat) (c : Canvas) : LcdOp → Canvas
  | .setColor color => { c with color := color }
  | .clear => c.paint fun _ => True
  | .setSync on => { c with sync := on, shown := if on then c.drawn else c.shown }
  | .present => { c with shown := c.drawn }
  | .pixel p => c.paint (At p)
  | .rectFilled p w h => c.paint (InRect p w h)
  | .put p data w h => c.draw fun q => if InRect p w h q then pixelAt stride w p data q else c.drawn q
  | .move p p' w h => c.draw fun q =>
      if InRect p' w h q then c.drawn ⟨(q.x - p'.x + p.x).toNat, (q.y - p'.y + p.y).toNat⟩
      else if InRect p w h q then c.color else c.drawn q
  | .shape ops => c.paint fun q => (⟨q.x, q.y⟩ : Pt) ∈ pixelsOf ops
  | .text font p text => c.paint fun q => lit font p text q = true

/-- A rectangle within the screen. -/
def Within (width height : Nat) (p : Pt) (w h : Nat) : Prop :=
  0 ≤ p.x ∧ 0 ≤ p.y ∧ 0 < w ∧ 0 < h ∧ p.x + w ≤ width ∧ p.y + h ≤ height

/-- The operations that the LCD expects.  Pixels may be anywhere.  A filled rectangle may be partly outside, but has to
start before the right and the bottom edge.  Copied areas have to be inside.  The coordinates of text have to be
16-bit integers. -/
def Expected (width height stride : Nat) : LcdOp → Prop
  | .setColor color => color.length = stride
  | .rectFilled p w h => 0 < w ∧ 0 < h ∧ p.x < width ∧ p.y < height
  | .put p data w h => Within width height p w h ∧ data.length = w * h * stride
  | .move p q w h => Within width height p w h ∧ Within width height q w h
  | .shape ops => ∀ o ∈ ops, (pixels o).isSome
  | .text font p text => GoodFont font ∧ -32768 ≤ p.x ∧ -32768 ≤ p.y ∧ p.x + font.width * text.length ≤ 32767 ∧ p.y + font.height ≤ 32767
  | _ => True

/-- A pixel of the screen. -/
def OnScreen (s : Lcd) (q : LXY) : Prop := q.x < s.width ∧ q.y < s.height

/-- The LCD is in the state of a canvas: its memory holds what is drawn, the device shows what is shown. -/
structure Renders (s : Lcd) (c : Canvas) : Prop where
  drawn : ∀ q, OnScreen s q → sliceOf s.fb ((q.y * s.width + q.x) * s.stride) s.stride = some (c.drawn q)
  shown : ∀ q, OnScreen s q → s.screen q = c.shown q
  sync : s.sync = c.sync
  color : s.color = c.color

end EB.Spec
