import Verif.Model.Drawing
/-!
# The buffered LCD (std/src/gfx/lcd)

`BufferedLcd` and the drawing operations that go through it.  The device is part of the state: `screen` is what it
shows, changed by `Lcd::set_data` as the documentation of that function says (std/src/gfx/lcd/mod.rs 55-57).  The device
accepts all data; its errors are not modelled.  `none` is a panic.  Pixels of the user are `Pt`, those of the LCD `LXY`.
-/

namespace EB

/-- A byte of pixel data. -/
abbrev Byte := BitVec 8

/-- `LcdXY` (std/src/gfx/lcd/mod.rs 65-71). -/
structure LXY where
  x : Nat
  y : Nat
  deriving DecidableEq, Repr

/-- `Font` (std/src/gfx/lcd/fonts/mod.rs 34-46). -/
structure Font where
  width : Nat
  height : Nat
  stride : Nat
  data : List Byte

/-- `BufferedLcd` (std/src/gfx/lcd/buffered/mod.rs 37-52) with the device behind it.  `draw_color` is kept encoded.  The
table of colours and the sizes in characters are left out. -/
structure Lcd where
  width : Nat
  height : Nat
  stride : Nat
  fb : List Byte
  sync : Bool
  damage : Option (LXY × LXY)
  color : List Byte
  screen : LXY → List Byte

/-- Part of a slice, `none` if out of range. -/
def sliceOf (l : List Byte) (start len : Nat) : Option (List Byte) :=
  if start + len ≤ l.length then some ((l.drop start).take len) else none

/-- `copy_from_slice` into a part of a vector, `none` if out of range. -/
def copyInto (l : List Byte) (start : Nat) (data : List Byte) : Option (List Byte) :=
  if start + data.length ≤ l.length then some (l.take start ++ data ++ l.drop (start + data.length)) else none

namespace Lcd

/-- `BufferedLcd::new` (std/src/gfx/lcd/buffered/mod.rs 59-96), for a device that shows `screen` and encodes white as
`white`. -/
def new (width height stride : Nat) (white : List Byte) (screen : LXY → List Byte) : Lcd :=
  ⟨width, height, stride, List.replicate (width * height * stride) 0, true, none, white, screen⟩

/-- `Lcd::set_data` of the device (std/src/gfx/lcd/mod.rs 55-57): the window shows the data, row by row. -/
def setData (s : Lcd) (a b : LXY) (data : List Byte) : Lcd :=
  { s with screen := fun q =>
      if a.x ≤ q.x ∧ q.x ≤ b.x ∧ a.y ≤ q.y ∧ q.y ≤ b.y then
        (data.drop (((q.y - a.y) * (b.x - a.x + 1) + (q.x - a.x)) * s.stride)).take s.stride
      else s.screen q }

/-- The `clamp` of `clip_xy` (std/src/gfx/lcd/buffered/mod.rs 123-130). -/
def clip (value : Int) (max : Nat) : Option Nat :=
  if value < 0 then none else if value.toNat > max then none else some value.toNat

/-- `clip_xy` (std/src/gfx/lcd/buffered/mod.rs 122-138). -/
def clipXY (s : Lcd) (p : Pt) : Option LXY := do
  let x ← clip p.x (s.width - 1)
  let y ← clip p.y (s.height - 1)
  some ⟨x, y⟩

/-- The `clamp` of `clamp_xy` (std/src/gfx/lcd/buffered/mod.rs 142-149). -/
def clamp (value : Int) (max : Nat) : Nat :=
  if value < 0 then 0 else if value.toNat > max then max else value.toNat

/-- `clamp_xy` (std/src/gfx/lcd/buffered/mod.rs 141-155). -/
def clampXY (s : Lcd) (p : Pt) : LXY := ⟨clamp p.x (s.width - 1), clamp p.y (s.height - 1)⟩

/-- The `clamp` of `clip_x2y2` (std/src/gfx/lcd/buffered/mod.rs 160-171). -/
def clipEnd (value : Int) (delta : Nat) (max : Nat) : Option Nat :=
  if value + delta < 0 then none else if (value + delta).toNat > max then some max else some (value + delta).toNat

/-- `clip_x2y2` (std/src/gfx/lcd/buffered/mod.rs 159-179).  The outer `none` is the underflow for a size of zero. -/
def clipX2Y2 (s : Lcd) (p : Pt) (w h : Nat) : Option (Option LXY) :=
  if w = 0 ∨ h = 0 then none
  else some do
    let x ← clipEnd p.x (w - 1) (s.width - 1)
    let y ← clipEnd p.y (h - 1) (s.height - 1)
    some ⟨x, y⟩

/-- `fb_addr` (std/src/gfx/lcd/buffered/mod.rs 221-225). -/
def addr (s : Lcd) (x y : Nat) : Nat := (y * s.width + x) * s.stride

/-- `damage` (std/src/gfx/lcd/buffered/mod.rs 232-258). -/
def addDamage (s : Lcd) (a b : LXY) : Lcd :=
  match s.damage with
  | none => { s with damage := some (a, b) }
  | some (c, d) => { s with damage := some (⟨if c.x > a.x then a.x else c.x, if c.y > a.y then a.y else c.y⟩,
      ⟨if d.x < b.x then b.x else d.x, if d.y < b.y then b.y else d.y⟩) }

/-- The pixels of a window, row by row: the order of the nested loops over `y` and `x`. -/
def cells (a b : LXY) : List LXY :=
  (List.range (b.y + 1 - a.y)).flatMap fun j => (List.range (b.x + 1 - a.x)).map fun i => ⟨a.x + i, a.y + j⟩

/-- The loop of `fill` over the rows (std/src/gfx/lcd/buffered/mod.rs 282-286, 289-292). -/
def fillRows (s : Lcd) (x : Nat) (row : List Byte) (ys : List Nat) : Option (List Byte) :=
  ys.foldlM (fun fb y => copyInto fb (s.addr x y) row) s.fb

/-- `fill` (std/src/gfx/lcd/buffered/mod.rs 265-297). -/
def fill (s : Lcd) (a b : LXY) : Option Lcd := do
  let row := (List.replicate (b.x - a.x + 1) s.color).flatten
  let ys := (List.range (b.y + 1 - a.y)).map (a.y + ·)
  let fb ← fillRows s a.x row ys
  if s.sync then some (({ s with fb := fb } : Lcd).setData a b (ys.flatMap fun _ => row))
  else some (({ s with fb := fb } : Lcd).addDamage a b)

/-- The loops that collect the pixels of a window (std/src/gfx/lcd/buffered/mod.rs 307-312, 390-395). -/
def collect (s : Lcd) (a b : LXY) : Option (List Byte) :=
  ((cells a b).mapM fun q => sliceOf s.fb (s.addr q.x q.y) s.stride).map List.flatten

/-- `force_present_canvas` (std/src/gfx/lcd/buffered/mod.rs 300-326). -/
def forcePresent (s : Lcd) : Option Lcd :=
  match s.damage with
  | none => some s
  | some (a, b) => do
    let data ← s.collect a b
    some { (s.setData a b data) with damage := none }

/-- `present_canvas` (std/src/gfx/lcd/buffered/mod.rs 368-370). -/
def present (s : Lcd) : Option Lcd := if s.sync then some s else s.forcePresent

/-- `without_sync` (std/src/gfx/lcd/buffered/mod.rs 99-118), for operations that return no error. -/
def withoutSync (s : Lcd) (ops : Lcd → Option Lcd) : Option Lcd :=
  if s.sync then do
    let s' ← ops { s with sync := false }
    ({ s' with sync := true } : Lcd).forcePresent
  else ops s

/-- `clear` (std/src/gfx/lcd/buffered/mod.rs 357-362). -/
def clear (s : Lcd) : Option Lcd := s.fill ⟨0, 0⟩ ⟨s.width - 1, s.height - 1⟩

/-- `draw_pixel` (std/src/gfx/lcd/buffered/mod.rs 468-474). -/
def drawPixel (s : Lcd) (p : Pt) : Option Lcd :=
  match s.clipXY p with
  | some q => s.fill q q
  | none => some s

/-- `draw_rect_filled` (std/src/gfx/lcd/buffered/mod.rs 488-495). -/
def drawRectFilled (s : Lcd) (p : Pt) (w h : Nat) : Option Lcd := do
  let e ← s.clipX2Y2 p w h
  match e with
  | some e => s.fill (s.clampXY p) e
  | none => some s

/-- `read_pixels` (std/src/gfx/lcd/buffered/mod.rs 383-402).  The assertions of test and debug builds are left out. -/
def readPixels (s : Lcd) (p : Pt) (w h : Nat) : Option (List Byte) := do
  let a ← s.clipXY p
  let b ← (← s.clipX2Y2 p w h)
  s.collect a b

/-- `put_pixels` (std/src/gfx/lcd/buffered/mod.rs 404-431).  The assertions of test and debug builds are left out. -/
def putPixels (s : Lcd) (p : Pt) (pixels : List Byte) (w h : Nat) : Option Lcd := do
  let a ← s.clipXY p
  let b ← (← s.clipX2Y2 p w h)
  let fb ← (cells a b).zipIdx.foldlM (fun fb (q, k) => do
    let data ← sliceOf pixels (k * s.stride) s.stride
    copyInto fb (s.addr q.x q.y) data) s.fb
  if s.sync then some (({ s with fb := fb } : Lcd).setData a b pixels)
  else some (({ s with fb := fb } : Lcd).addDamage a b)

/-- `move_pixels` (std/src/gfx/lcd/buffered/mod.rs 433-450). -/
def movePixels (s : Lcd) (p q : Pt) (w h : Nat) : Option Lcd := do
  let data ← s.readPixels p w h
  s.withoutSync fun s => do
    let s ← s.drawRectFilled p w h
    s.putPixels q data w h

/-- `draw_line` (std/src/gfx/lcd/buffered/mod.rs 464-466 with std/src/console/drawing.rs 100-123). -/
def drawLine (s : Lcd) (p q : Pt) : Option Lcd :=
  s.withoutSync fun s => do
    let l ← Draw.line p q
    l.foldlM drawPixel s

/-- One operation of a drawing function. -/
def drawOp (s : Lcd) : RasOp → Option Lcd
  | .pixel p => s.drawPixel p
  | .line p q => s.drawLine p q

/-- The shapes (std/src/gfx/lcd/buffered/mod.rs 456-462, 476-486, 497-511): the operations of a drawing function without
syncing. -/
def drawShape (s : Lcd) (ops : List RasOp) : Option Lcd := s.withoutSync fun s => ops.foldlM drawOp s

end Lcd

namespace Draw

/-- `Font::glyph` (std/src/gfx/lcd/fonts/mod.rs 53-63). -/
def glyph (font : Font) (ch : Char) : Option (List Byte) :=
  let ch := if ' ' ≤ ch ∧ ch ≤ '~' then ch else '?'
  let height := font.height * font.stride
  sliceOf font.data ((ch.toNat - 32) * height) height

/-- `draw_char` (std/src/console/drawing.rs 384-408): the pixels it sets, `none` for an overflow. -/
def charPixels (font : Font) (pos : Pt) (ch : Char) : Option (List Pt) := do
  let g ← glyph font ch
  let rows ← (List.range font.height).mapM fun j =>
    (List.range font.stride).mapM fun k =>
      (List.range font.width).mapM fun i =>
        if i < 8 ∧ (g.getD (j * font.stride + k) 0).getLsbD (7 - i) then do
          let x ← i16? (pos.x + i)
          let x ← i16? (x + k * 8)
          let y ← i16? (pos.y + j)
          some [(⟨x, y⟩ : Pt)]
        else some []
  some (rows.flatten.flatten.flatten)

/-- `draw_text` (std/src/console/drawing.rs 411-421): the pixels it sets, `none` for an overflow. -/
def textPixels (font : Font) (pos : Pt) : List Char → Option (List Pt)
  | [] => some []
  | ch :: text => do
    let l ← charPixels font pos ch
    let x ← i16? (pos.x + font.width)
    let rest ← textPixels font ⟨x, pos.y⟩ text
    some (l ++ rest)

end Draw

/-- `write_text` (std/src/gfx/lcd/buffered/mod.rs 452-454). -/
def Lcd.writeText (s : Lcd) (font : Font) (p : Pt) (text : List Char) : Option Lcd :=
  s.withoutSync fun s => do
    let l ← Draw.textPixels font p text
    l.foldlM Lcd.drawPixel s

/-- The operations of the LCD as the graphics console uses them. -/
inductive LcdOp where
  | setColor (color : List Byte)
  | clear
  | setSync (on : Bool)
  | present
  | pixel (p : Pt)
  | rectFilled (p : Pt) (w h : Nat)
  | put (p : Pt) (pixels : List Byte) (w h : Nat)
  | move (p q : Pt) (w h : Nat)
  | shape (ops : List RasOp)
  | text (font : Font) (p : Pt) (text : List Char)

/-- What an operation does.  Syncing is set as the graphics console does: with the canvas presented before it is
enabled (`set_sync`, std/src/console/graphics.rs 813-821). -/
def Lcd.perform (s : Lcd) : LcdOp → Option Lcd
  | .setColor color => some { s with color := color }
  | .clear => s.clear
  | .setSync on => do
    let s ← if !s.sync && on then s.present else some s
    some { s with sync := on }
  | .present => s.present
  | .pixel p => s.drawPixel p
  | .rectFilled p w h => s.drawRectFilled p w h
  | .put p pixels w h => s.putPixels p pixels w h
  | .move p q w h => s.movePixels p q w h
  | .shape ops => s.drawShape ops
  | .text font p text => s.writeText font p text

end EB
