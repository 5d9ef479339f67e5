import Verif.Model.Lcd
import Verif.Model.Colors
import Verif.Model.Editor
/-!
# The text of the graphics console (std/src/console/graphics.rs)

`GraphicsConsole` on the buffered LCD of `Model/Lcd`.  `none` is a panic or an I/O error: the LCD has none of its own.  Keys,
sound and the drawing operations, which are those of `Model/Lcd`, are left out.
-/

namespace EB

open Edit (Clear)

/-- What `enter_alt` keeps (std/src/console/graphics.rs 325-327). -/
structure TextAlt where
  pixels : List Byte
  x : Nat
  y : Nat
  ansiFg : Option (BitVec 8)
  ansiBg : Option (BitVec 8)
  fg : RGB
  bg : RGB

/-- `GraphicsConsole` (std/src/console/graphics.rs 276-331), with the font and the encoding of colors of the LCD.  The size in
pixels is that of the LCD, the glyph size that of the font. -/
structure TextCon where
  lcd : Lcd
  font : Font
  encode : RGB → List Byte
  cols : Nat
  rows : Nat
  x : Nat
  y : Nat
  visible : Bool
  backup : Option (List Byte)
  defFg : BitVec 8
  defBg : BitVec 8
  ansiFg : Option (BitVec 8)
  ansiBg : Option (BitVec 8)
  fg : RGB
  bg : RGB
  alt : Option TextAlt
  sync : Bool

/-- `char::is_control`. -/
def isControl (c : Char) : Bool := c.toNat < 32 || (127 ≤ c.toNat && c.toNat < 160)

/-- `remove_control_chars` (std/src/console/mod.rs 423-445). -/
def removeControlChars (s : Str) : Str := s.map fun c => if isControl c then ' ' else c

/-- `clamped_mul` of `u16` into `i16` (std/src/console/graphics.rs 88-93). -/
def clampedMul (a b : Nat) : Int := if a * b > 32767 then 32767 else ((a * b : Nat) : Int)

/-- `clamped_mul` of `u16` into `u16` (std/src/console/graphics.rs 95-100). -/
def clampedMulU (a b : Nat) : Nat := if a * b > 65535 then 65535 else a * b

/-- `clamped_into` of `u16` into `i16` (std/src/console/graphics.rs 48-52). -/
def clampedInto (a : Nat) : Int := if a > 32767 then 32767 else (a : Int)

namespace TextCon

/-- An operation of the LCD. -/
def ras (s : TextCon) (op : LcdOp) : Option TextCon := (s.lcd.perform op).map fun l => { s with lcd := l }

/-- `set_draw_color` (std/src/gfx/lcd/buffered/mod.rs 353-355). -/
def ink (s : TextCon) (color : RGB) : Option TextCon := s.ras (.setColor (s.encode color))

/-- `clamped_mul` of a position and the glyph size (std/src/console/graphics.rs 123-127). -/
def place (s : TextCon) (x y : Nat) : Pt := ⟨clampedMul x s.font.width, clampedMul y s.font.height⟩

/-- `present_canvas` (std/src/console/graphics.rs 379-381). -/
def present (s : TextCon) : Option TextCon := if s.sync then s.ras .present else some s

/-- `draw_cursor` (std/src/console/graphics.rs 387-404): the assertion holds in all builds. -/
def drawCursor (s : TextCon) : Option TextCon :=
  if !s.visible then some s
  else if s.backup.isSome then none
  else do
    let data ← s.lcd.readPixels (s.place s.x s.y) s.font.width s.font.height
    let s ← ({ s with backup := some data } : TextCon).ink s.fg
    s.ras (.rectFilled (s.place s.x s.y) s.font.width s.font.height)

/-- `clear_cursor` (std/src/console/graphics.rs 409-419). -/
def clearCursor (s : TextCon) : Option TextCon :=
  match s.visible, s.backup with
  | true, some data => do
    let s ← s.ras (.put (s.place s.x s.y) data s.font.width s.font.height)
    some { s with backup := none }
  | _, _ => some s

/-- `open_line` (std/src/console/graphics.rs 424-447). -/
def openLine (s : TextCon) : Option TextCon :=
  if s.rows = 0 then none
  else if s.y < s.rows - 1 then some { s with x := 0, y := s.y + 1 }
  else do
    let height := clampedMulU s.rows s.font.height
    if height < s.font.height then none
    else
      let s ← s.ink s.bg
      let s ← s.ras (.move ⟨0, clampedInto s.font.height⟩ ⟨0, 0⟩ s.lcd.width (height - s.font.height))
      let s ← if height < s.lcd.height then s.ras (.rectFilled ⟨0, clampedInto height⟩ s.lcd.width (s.lcd.height - height)) else some s
      some { s with x := 0 }

/-- The part of `raw_write_wrapped` that writes the text that fits (std/src/console/graphics.rs 463-476). -/
def writeFit (s : TextCon) (text : Str) : Option TextCon :=
  if text.length > 65535 then none
  else if text.length = 0 then some s
  else do
    let s ← s.ink s.bg
    let s ← s.ras (.rectFilled (s.place s.x s.y) (clampedMulU text.length s.font.width) s.font.height)
    let s ← s.ink s.fg
    let s ← s.ras (.text s.font (s.place s.x s.y) text)
    some { s with x := s.x + text.length }

/-- The loop of `raw_write_wrapped` (std/src/console/graphics.rs 454-484); the number bounds the rounds. -/
def rawWriteLoop : Nat → TextCon → Str → Option TextCon
  | 0, _, _ => none
  | n + 1, s, text =>
    if s.cols < s.x then none
    else do
      let fit := s.cols - s.x
      let s ← s.writeFit (text.take fit)
      if (text.drop fit).isEmpty then some s
      else do
        let s ← s.openLine
        rawWriteLoop n s (text.drop fit)

/-- `raw_write_wrapped` (std/src/console/graphics.rs 451-487).  Every round but the first writes something. -/
def rawWrite (s : TextCon) (text : Str) : Option TextCon := rawWriteLoop (text.length + 2) s text

/-- `set_color` (std/src/console/graphics.rs 545-551). -/
def setColor (s : TextCon) (fg bg : Option (BitVec 8)) : Option TextCon := do
  let f ← ansiColorToRgb (fg.getD s.defFg)
  let b ← ansiColorToRgb (bg.getD s.defBg)
  some { s with ansiFg := fg, fg := f, ansiBg := bg, bg := b }

/-- `set_sync` (std/src/console/graphics.rs 813-821), with that of the LCD (std/src/gfx/lcd/buffered/mod.rs 364-366). -/
def setSync (s : TextCon) (on : Bool) : Option TextCon := do
  let s ← if !s.sync && on then s.ras .present else some s
  some { s with sync := on, lcd := { s.lcd with sync := on } }

/-- `sync_now` (std/src/console/graphics.rs 809-811). -/
def syncNow (s : TextCon) : Option TextCon := if s.sync then some s else s.ras .present

/-- The part of `clear` before the cursor is drawn (std/src/console/graphics.rs 498-536). -/
def erase (s : TextCon) : Clear → Option TextCon
  | .all => do
    let s ← s.ink s.bg
    let s ← s.ras .clear
    some { s with x := 0, y := 0, backup := none }
  | .currentLine => do
    let s ← s.clearCursor
    let s ← s.ink s.bg
    let s ← s.ras (.rectFilled ⟨0, clampedMul s.y s.font.height⟩ s.lcd.width s.font.height)
    some { s with x := 0 }
  | .previousChar =>
    if 0 < s.x then do
      let s ← s.clearCursor
      let s ← s.ink s.bg
      let s ← s.ras (.rectFilled (s.place (s.x - 1) s.y) s.font.width s.font.height)
      some { s with x := s.x - 1 }
    else some s
  | .untilNewLine => do
    let s ← s.clearCursor
    let p := s.place s.x s.y
    let s ← s.ink s.bg
    s.ras (.rectFilled p ((s.lcd.width : Int) - p.x).toNat s.font.height)

/-- `clear` (std/src/console/graphics.rs 497-539). -/
def clear (s : TextCon) (how : Clear) : Option TextCon := do
  let s ← s.erase how
  let s ← s.drawCursor
  s.present

/-- `new` (std/src/console/graphics.rs 340-376), on a new LCD; `chars_in_area` (std/src/gfx/lcd/fonts/mod.rs 66-75). -/
def new (lcd : Lcd) (font : Font) (encode : RGB → List Byte) (defFg defBg : BitVec 8) : Option TextCon := do
  let f ← ansiColorToRgb defFg
  let b ← ansiColorToRgb defBg
  let s : TextCon := ⟨lcd, font, encode, lcd.width / font.width, lcd.height / font.height, 0, 0, true, none, defFg, defBg,
    none, none, f, b, none, true⟩
  let s ← s.setColor none none
  s.clear .all

/-- `enter_alt` (std/src/console/graphics.rs 553-572). -/
def enterAlt (s : TextCon) : Option TextCon :=
  if s.alt.isSome then none
  else do
    let pixels ← s.lcd.readPixels ⟨0, 0⟩ s.lcd.width s.lcd.height
    ({ s with alt := some ⟨pixels, s.x, s.y, s.ansiFg, s.ansiBg, s.fg, s.bg⟩ } : TextCon).clear .all

/-- `leave_alt` (std/src/console/graphics.rs 584-610). -/
def leaveAlt (s : TextCon) : Option TextCon := do
  let a ← s.alt
  let s ← ({ s with alt := none } : TextCon).clearCursor
  let s ← s.ras (.put ⟨0, 0⟩ a.pixels s.lcd.width s.lcd.height)
  let s ← ({ s with x := a.x, y := a.y, ansiFg := a.ansiFg, ansiBg := a.ansiBg, fg := a.fg, bg := a.bg } : TextCon).drawCursor
  s.present

/-- `hide_cursor` (std/src/console/graphics.rs 574-578). -/
def hideCursor (s : TextCon) : Option TextCon := do
  let s ← s.clearCursor
  ({ s with visible := false } : TextCon).present

/-- `show_cursor` (std/src/console/graphics.rs 661-670). -/
def showCursor (s : TextCon) : Option TextCon := do
  let s ← if !s.visible then ({ s with visible := true } : TextCon).drawCursor else some s
  s.present

/-- Something that is done without the cursor and without syncing. -/
def quietly (s : TextCon) (f : TextCon → Option TextCon) : Option TextCon := do
  let previous := s.sync
  let s ← s.setSync false
  let s ← s.clearCursor
  let s ← f s
  let s ← s.drawCursor
  s.setSync previous

/-- `locate` (std/src/console/graphics.rs 612-622), with its debug assertions. -/
def locate (s : TextCon) (x y : Nat) : Option TextCon :=
  if x < s.cols ∧ y < s.rows then s.quietly fun s => some { s with x := x, y := y } else none

/-- `move_within_line` (std/src/console/graphics.rs 624-635). -/
def move (s : TextCon) (off : Int) : Option TextCon :=
  s.quietly fun s => if (s.x : Int) + off < 0 ∨ 65535 < (s.x : Int) + off then none else some { s with x := ((s.x : Int) + off).toNat }

/-- `print` (std/src/console/graphics.rs 637-647). -/
def print (s : TextCon) (text : Str) : Option TextCon :=
  s.quietly fun s => do
    let s ← s.rawWrite (removeControlChars text)
    s.openLine

/-- `write` (std/src/console/graphics.rs 684-693). -/
def write (s : TextCon) (text : Str) : Option TextCon := s.quietly fun s => s.rawWrite (removeControlChars text)

end TextCon

/-- The operations of `Console` that concern text (std/src/console/mod.rs 200-340). -/
inductive TextOp where
  | clear (how : Clear)
  | setColor (fg bg : Option (BitVec 8))
  | enterAlt
  | leaveAlt
  | hideCursor
  | showCursor
  | locate (x y : Nat)
  | move (off : Int)
  | print (text : Str)
  | write (text : Str)
  | setSync (on : Bool)
  | syncNow

/-- What an operation does. -/
def TextCon.perform (s : TextCon) : TextOp → Option TextCon
  | .clear how => s.clear how
  | .setColor fg bg => s.setColor fg bg
  | .enterAlt => s.enterAlt
  | .leaveAlt => s.leaveAlt
  | .hideCursor => s.hideCursor
  | .showCursor => s.showCursor
  | .locate x y => s.locate x y
  | .move off => s.move off
  | .print text => s.print text
  | .write text => s.write text
  | .setSync on => s.setSync on
  | .syncNow => s.syncNow

end EB
