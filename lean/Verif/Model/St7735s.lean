import Verif.Model.Lcd
import Verif.Model.Colors
/-!
# The driver of the ST7735S LCD

Models how st7735s/src/lib.rs sends pixels to the LCD over an SPI bus.  The registers that are set at the beginning, the
buttons and the waiting are left out.
-/

namespace EB

/-- What the driver is connected to (a controller of an LCD): it is given bytes, each with the level of the pin `DC`, which is
`false` for the number of a register and `true` for data. -/
structure SpiDevice (σ : Type) where
  byte : Bool → Byte → σ → σ

/-- The SPI bus (std/src/spi.rs 33-37): how many bytes it takes at once at most, and how many it takes of those that it is given
in the first, second, … call of `Write::write`, or an error. -/
structure SpiBus where
  maxSize : Nat
  takes : Nat → Nat → Except Str Nat

/-- `ST7735SLcd` (st7735s/src/lib.rs 157-161): the pin `DC`, how often the bus was written to, and the device behind it. -/
structure St7735s (σ : Type) where
  dc : Bool
  writes : Nat
  device : σ

/-- How the driver stops early: an error of the bus, a panic, or a loop without end. -/
inductive SpiStop where
  | error (msg : Str)
  | panic
  | forever
  deriving DecidableEq, Repr

namespace St7735s

variable {σ : Type}

/-- The bytes arrive at the device. -/
def arrive (D : SpiDevice σ) (s : St7735s σ) (data : List Byte) : St7735s σ :=
  { s with writes := s.writes + 1, device := data.foldl (fun d b => D.byte s.dc b d) s.device }

/-- The loop over a chunk in `lcd_write` (st7735s/src/lib.rs 144-151); `rest` is `chunk[i..]`.  Simplified: if the bus takes
nothing, the code asks again at once, which is `forever` here. -/
def writeChunk (D : SpiDevice σ) (bus : SpiBus) (s : St7735s σ) (rest : List Byte) : St7735s σ × Except SpiStop Unit :=
  match bus.takes s.writes rest.length with
  | .error e => ({ s with writes := s.writes + 1 }, .error (.error e))
  | .ok n =>
    let s := arrive D s (rest.take n)
    if n = rest.length then (s, .ok ())
    else if h : n = 0 then (s, .error .forever)
    else if h' : rest.length < n then (s, .error .panic)
    else writeChunk D bus s (rest.drop n)
  termination_by rest.length
  decreasing_by simp; omega

/-- `lcd_write` (st7735s/src/lib.rs 140-154): chunk by chunk; `chunks` panics if the size is zero. -/
def write (D : SpiDevice σ) (bus : SpiBus) (s : St7735s σ) (data : List Byte) : St7735s σ × Except SpiStop Unit :=
  if h : bus.maxSize = 0 then (s, .error .panic)
  else if h' : data = [] then (s, .ok ())
  else
    match writeChunk D bus s (data.take bus.maxSize) with
    | (s, .error e) => (s, .error e)
    | (s, .ok ()) => write D bus s (data.drop bus.maxSize)
  termination_by data.length
  decreasing_by
    have := List.length_pos_iff.2 h'
    simp; omega

/-- `lcd_write_reg` (st7735s/src/lib.rs 187-190); writing to the pin does not fail. -/
def writeReg (D : SpiDevice σ) (bus : SpiBus) (s : St7735s σ) (regs : List Byte) : St7735s σ × Except SpiStop Unit :=
  write D bus { s with dc := false } regs

/-- `lcd_write_data` (st7735s/src/lib.rs 193-196). -/
def writeData (D : SpiDevice σ) (bus : SpiBus) (s : St7735s σ) (data : List Byte) : St7735s σ × Except SpiStop Unit :=
  write D bus { s with dc := true } data

/-- One thing after the other, with `?`. -/
def andThen (r : St7735s σ × Except SpiStop Unit) (f : St7735s σ → St7735s σ × Except SpiStop Unit) : St7735s σ × Except SpiStop Unit :=
  match r with
  | (s, .error e) => (s, .error e)
  | (s, .ok ()) => f s

/-- `lcd_set_window` (st7735s/src/lib.rs 316-334). -/
def setWindow (D : SpiDevice σ) (bus : SpiBus) (s : St7735s σ) (xy : LXY) (width height : Nat) : St7735s σ × Except SpiStop Unit :=
  let adjustX := 1
  let adjustY := 2
  let x1 : Byte := BitVec.ofNat 8 (xy.x % 256 + adjustX)
  let x2 : Byte := BitVec.ofNat 8 ((xy.x + width + adjustX - 1) % 256)
  let y1 : Byte := BitVec.ofNat 8 (xy.y % 256 + adjustY)
  let y2 : Byte := BitVec.ofNat 8 ((xy.y + height + adjustY - 1) % 256)
  andThen (writeReg D bus s [0x2a]) fun s =>
  andThen (writeData D bus s [0, x1, 0, x2]) fun s =>
  andThen (writeReg D bus s [0x2b]) fun s =>
  andThen (writeData D bus s [0, y1, 0, y2]) fun s =>
  writeReg D bus s [0x2c]

/-- `to_xy_size` (std/src/gfx/lcd/mod.rs 109-117). -/
def toXySize (a b : LXY) : LXY × Nat × Nat :=
  let x1 := min a.x b.x
  let y1 := min a.y b.y
  (⟨x1, y1⟩, max a.x b.x + 1 - x1, max a.y b.y + 1 - y1)

/-- `set_data` (st7735s/src/lib.rs 372-377). -/
def setData (D : SpiDevice σ) (bus : SpiBus) (s : St7735s σ) (a b : LXY) (data : List Byte) : St7735s σ × Except SpiStop Unit :=
  let (xy, width, height) := toXySize a b
  andThen (setWindow D bus s xy width height) fun s => writeData D bus s data

end St7735s

/-- `encode` (st7735s/src/lib.rs 362-370). -/
def st7735sEncode (c : RGB) : List Byte :=
  let pixel : BitVec 16 := ((c.1.setWidth 16 >>> 3) <<< 11) ||| ((c.2.1.setWidth 16 >>> 2) <<< 5) ||| (c.2.2.setWidth 16 >>> 3)
  [(pixel >>> 8).setWidth 8, (pixel &&& 0xff#16).setWidth 8]

/-- `decode` (st7735s/src/lib.rs 351-360), of the two bytes of a pixel. -/
def st7735sDecode (high low : Byte) : RGB :=
  let pixel : BitVec 16 := (high.setWidth 16 <<< 8) ||| low.setWidth 16
  let r : Byte := ((pixel >>> 11) &&& 0x1f#16).setWidth 8
  let g : Byte := ((pixel >>> 5) &&& 0x3f#16).setWidth 8
  let b : Byte := (pixel &&& 0x1f#16).setWidth 8
  ((r <<< 3) ||| (r >>> 2), (g <<< 2) ||| (g >>> 4), (b <<< 3) ||| (b >>> 2))

end EB
