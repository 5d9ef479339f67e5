import Verif.Model.St7735s
/-!
# The controller ST7735S

What the data sheet says about the registers for a window (0x2a, 0x2b) and for pixels (0x2c).
-/

namespace EB.Spec

/-- The controller: the register that was selected, the data that came for it, the window, where the next pixel goes, and the
memory of pixels by column and row. -/
structure Panel where
  reg : Byte
  args : List Byte
  x1 : Nat
  x2 : Nat
  y1 : Nat
  y2 : Nat
  x : Nat
  y : Nat
  memory : Nat → Nat → List Byte

namespace Panel

/-- A register is selected.  With 0x2c the next pixel goes into the upper left corner of the window. -/
def select (p : Panel) (r : Byte) : Panel :=
  if r = 0x2c then { p with reg := r, args := [], x := p.x1, y := p.y1 } else { p with reg := r, args := [] }

/-- Data for the register: two numbers of two bytes for a window, or two bytes for each pixel; the pixels fill the window from left to right
and from top to bottom, and then from the beginning again.  Other registers have no effect on pixels. -/
def data (p : Panel) (b : Byte) : Panel :=
  let args := p.args ++ [b]
  if p.reg = 0x2a then
    match args with
    | [a, b, c, d] => { p with args := [], x1 := a.toNat * 256 + b.toNat, x2 := c.toNat * 256 + d.toNat }
    | _ => { p with args := args }
  else if p.reg = 0x2b then
    match args with
    | [a, b, c, d] => { p with args := [], y1 := a.toNat * 256 + b.toNat, y2 := c.toNat * 256 + d.toNat }
    | _ => { p with args := args }
  else if p.reg = 0x2c then
    match args with
    | [a, b] =>
      { p with
        args := []
        memory := fun x y => if x = p.x ∧ y = p.y then [a, b] else p.memory x y
        x := if p.x = p.x2 then p.x1 else p.x + 1
        y := if p.x = p.x2 then (if p.y = p.y2 then p.y1 else p.y + 1) else p.y }
    | _ => { p with args := args }
  else p

/-- The controller on the SPI bus. -/
def device : SpiDevice Panel := ⟨fun dc b p => if dc then p.data b else p.select b⟩

/-- What can be seen: the glass begins in column 1 and row 2 of the memory. -/
def seen (p : Panel) (q : LXY) : List Byte := p.memory (q.x + 1) (q.y + 2)

end Panel

/-- A bus without errors: it takes some of the bytes that it is given, at least one. -/
def Works (bus : SpiBus) : Prop := 0 < bus.maxSize ∧ ∀ k len, 0 < len → ∃ n, bus.takes k len = .ok n ∧ 0 < n ∧ n ≤ len

end EB.Spec

namespace EB.Spec

/-- A device that only writes down what it is given. -/
def recorder : SpiDevice (List (Bool × Byte)) := ⟨fun dc b l => l ++ [(dc, b)]⟩

/-- The pixel of the data for a window with the corners `a` and `b`, if it has one there: the data has two bytes for each pixel,
row by row. -/
def windowPixel (a b : LXY) (data : List Byte) (q : LXY) : Option (List Byte) :=
  let left := min a.x b.x
  let right := max a.x b.x
  let top := min a.y b.y
  let bottom := max a.y b.y
  if left ≤ q.x ∧ q.x ≤ right ∧ top ≤ q.y ∧ q.y ≤ bottom then
    let number := (q.y - top) * (right - left + 1) + (q.x - left)
    some ((data.drop (2 * number)).take 2)
  else none

/-- Corners on the glass of 128 by 128 pixels, and data for all of the window. -/
def GoodWindow (a b : LXY) (data : List Byte) : Prop :=
  a.x < 128 ∧ a.y < 128 ∧ b.x < 128 ∧ b.y < 128 ∧
  data.length = 2 * ((max a.x b.x - min a.x b.x + 1) * (max a.y b.y - min a.y b.y + 1))

end EB.Spec
