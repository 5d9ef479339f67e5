import Verif.Model.Lcd
/-!
# The fonts for LCDs

The tables of std/src/gfx/lcd/fonts/, glyph by glyph.
-/

namespace EB

/-- `DATA` (std/src/gfx/lcd/fonts/font_5x8.rs 65-921), in glyphs of 8 bytes. -/
def font5x8Glyphs : List (List Nat) := [
  [0x0, 0x0, 0x0, 0x0, 0x0, 0x0, 0x0, 0x0],
  [0x20, 0x20, 0x20, 0x20, 0x0, 0x20, 0x0, 0x0],
  [0x50, 0x50, 0x0, 0x0, 0x0, 0x0, 0x0, 0x0],
  [0x28, 0x50, 0xf8, 0x50, 0xf8, 0x50, 0xa0, 0x0],
  [0x20, 0x30, 0x60, 0x30, 0x10, 0x60, 0x20, 0x0],
  [0x20, 0x20, 0x18, 0x60, 0x10, 0x10, 0x0, 0x0],
  [0x0, 0x38, 0x20, 0x60, 0x50, 0x78, 0x0, 0x0],
  [0x20, 0x20, 0x20, 0x0, 0x0, 0x0, 0x0, 0x0],
  [0x10, 0x20, 0x20, 0x20, 0x20, 0x20, 0x10, 0x0],
  [0x40, 0x20, 0x20, 0x20, 0x20, 0x20, 0x40, 0x0],
  [0x20, 0x70, 0x20, 0x50, 0x0, 0x0, 0x0, 0x0],
  [0x0, 0x20, 0x20, 0xf8, 0x20, 0x20, 0x0, 0x0],
  [0x0, 0x0, 0x0, 0x0, 0x10, 0x20, 0x20, 0x0],
  [0x0, 0x0, 0x0, 0x70, 0x0, 0x0, 0x0, 0x0],
  [0x0, 0x0, 0x0, 0x0, 0x0, 0x20, 0x0, 0x0],
  [0x10, 0x20, 0x20, 0x20, 0x40, 0x40, 0x80, 0x0],
  [0x20, 0x50, 0x50, 0x50, 0x50, 0x20, 0x0, 0x0],
  [0x60, 0x20, 0x20, 0x20, 0x20, 0xf8, 0x0, 0x0],
  [0x20, 0x50, 0x20, 0x20, 0x40, 0x70, 0x0, 0x0],
  [0x20, 0x50, 0x10, 0x20, 0x10, 0x60, 0x0, 0x0],
  [0x10, 0x30, 0x50, 0x78, 0x10, 0x38, 0x0, 0x0],
  [0x70, 0x40, 0x60, 0x10, 0x50, 0x20, 0x0, 0x0],
  [0x30, 0x40, 0x60, 0x50, 0x50, 0x60, 0x0, 0x0],
  [0x70, 0x50, 0x10, 0x20, 0x20, 0x20, 0x0, 0x0],
  [0x20, 0x50, 0x20, 0x50, 0x50, 0x20, 0x0, 0x0],
  [0x30, 0x50, 0x50, 0x30, 0x10, 0x60, 0x0, 0x0],
  [0x0, 0x0, 0x20, 0x0, 0x0, 0x20, 0x0, 0x0],
  [0x0, 0x0, 0x10, 0x0, 0x10, 0x20, 0x0, 0x0],
  [0x0, 0x10, 0x20, 0xc0, 0x20, 0x10, 0x0, 0x0],
  [0x0, 0x70, 0x0, 0x70, 0x0, 0x0, 0x0, 0x0],
  [0x0, 0x40, 0x20, 0x18, 0x20, 0x40, 0x0, 0x0],
  [0x20, 0x50, 0x10, 0x20, 0x0, 0x20, 0x0, 0x0],
  [0x30, 0x48, 0x48, 0x58, 0x48, 0x40, 0x38, 0x0],
  [0x60, 0x20, 0x50, 0x70, 0x88, 0xd8, 0x0, 0x0],
  [0xf0, 0x48, 0x70, 0x48, 0x48, 0xf0, 0x0, 0x0],
  [0x70, 0x50, 0x40, 0x40, 0x40, 0x30, 0x0, 0x0],
  [0xf0, 0x48, 0x48, 0x48, 0x48, 0xf0, 0x0, 0x0],
  [0xf8, 0x48, 0x60, 0x40, 0x48, 0xf8, 0x0, 0x0],
  [0xf8, 0x48, 0x60, 0x40, 0x40, 0xe0, 0x0, 0x0],
  [0x70, 0x40, 0x40, 0x58, 0x50, 0x30, 0x0, 0x0],
  [0xe8, 0x48, 0x78, 0x48, 0x48, 0xe8, 0x0, 0x0],
  [0x70, 0x20, 0x20, 0x20, 0x20, 0x70, 0x0, 0x0],
  [0x38, 0x10, 0x10, 0x50, 0x50, 0x20, 0x0, 0x0],
  [0xd8, 0x50, 0x60, 0x70, 0x50, 0xd8, 0x0, 0x0],
  [0xe0, 0x40, 0x40, 0x40, 0x48, 0xf8, 0x0, 0x0],
  [0xd8, 0xd8, 0xd8, 0xa8, 0x88, 0xd8, 0x0, 0x0],
  [0xd8, 0x68, 0x68, 0x58, 0x58, 0xe8, 0x0, 0x0],
  [0x30, 0x48, 0x48, 0x48, 0x48, 0x30, 0x0, 0x0],
  [0xf0, 0x48, 0x48, 0x70, 0x40, 0xe0, 0x0, 0x0],
  [0x30, 0x48, 0x48, 0x48, 0x48, 0x30, 0x18, 0x0],
  [0xf0, 0x48, 0x48, 0x70, 0x48, 0xe8, 0x0, 0x0],
  [0x70, 0x50, 0x20, 0x10, 0x50, 0x70, 0x0, 0x0],
  [0xf8, 0xa8, 0x20, 0x20, 0x20, 0x70, 0x0, 0x0],
  [0xd8, 0x48, 0x48, 0x48, 0x48, 0x30, 0x0, 0x0],
  [0xd8, 0x88, 0x48, 0x50, 0x50, 0x30, 0x0, 0x0],
  [0xd8, 0x88, 0xa8, 0xa8, 0xa8, 0x50, 0x0, 0x0],
  [0xd8, 0x50, 0x20, 0x20, 0x50, 0xd8, 0x0, 0x0],
  [0xd8, 0x88, 0x50, 0x20, 0x20, 0x70, 0x0, 0x0],
  [0x78, 0x48, 0x10, 0x20, 0x48, 0x78, 0x0, 0x0],
  [0x30, 0x20, 0x20, 0x20, 0x20, 0x20, 0x30, 0x0],
  [0x80, 0x40, 0x40, 0x20, 0x20, 0x20, 0x10, 0x0],
  [0x60, 0x20, 0x20, 0x20, 0x20, 0x20, 0x60, 0x0],
  [0x20, 0x20, 0x50, 0x0, 0x0, 0x0, 0x0, 0x0],
  [0x0, 0x0, 0x0, 0x0, 0x0, 0x0, 0x0, 0xf8],
  [0x20, 0x10, 0x0, 0x0, 0x0, 0x0, 0x0, 0x0],
  [0x0, 0x0, 0x30, 0x10, 0x70, 0x78, 0x0, 0x0],
  [0xc0, 0x40, 0x70, 0x48, 0x48, 0xf0, 0x0, 0x0],
  [0x0, 0x0, 0x70, 0x40, 0x40, 0x70, 0x0, 0x0],
  [0x18, 0x8, 0x38, 0x48, 0x48, 0x38, 0x0, 0x0],
  [0x0, 0x0, 0x70, 0x70, 0x40, 0x30, 0x0, 0x0],
  [0x10, 0x20, 0x70, 0x20, 0x20, 0x70, 0x0, 0x0],
  [0x0, 0x0, 0x38, 0x48, 0x48, 0x38, 0x8, 0x30],
  [0xc0, 0x40, 0x70, 0x48, 0x48, 0xe8, 0x0, 0x0],
  [0x20, 0x0, 0x60, 0x20, 0x20, 0x70, 0x0, 0x0],
  [0x20, 0x0, 0x70, 0x10, 0x10, 0x10, 0x10, 0x70],
  [0xc0, 0x40, 0x58, 0x70, 0x50, 0xd8, 0x0, 0x0],
  [0x60, 0x20, 0x20, 0x20, 0x20, 0x70, 0x0, 0x0],
  [0x0, 0x0, 0xd0, 0xa8, 0xa8, 0xa8, 0x0, 0x0],
  [0x0, 0x0, 0xf0, 0x48, 0x48, 0xc8, 0x0, 0x0],
  [0x0, 0x0, 0x30, 0x48, 0x48, 0x30, 0x0, 0x0],
  [0x0, 0x0, 0xf0, 0x48, 0x48, 0x70, 0x40, 0xe0],
  [0x0, 0x0, 0x38, 0x48, 0x48, 0x38, 0x8, 0x18],
  [0x0, 0x0, 0x78, 0x20, 0x20, 0x70, 0x0, 0x0],
  [0x0, 0x0, 0x30, 0x20, 0x10, 0x60, 0x0, 0x0],
  [0x0, 0x40, 0xf0, 0x40, 0x48, 0x30, 0x0, 0x0],
  [0x0, 0x0, 0xd8, 0x48, 0x48, 0x38, 0x0, 0x0],
  [0x0, 0x0, 0xc8, 0x48, 0x30, 0x30, 0x0, 0x0],
  [0x0, 0x0, 0xd8, 0xa8, 0xa8, 0x50, 0x0, 0x0],
  [0x0, 0x0, 0x48, 0x30, 0x30, 0x48, 0x0, 0x0],
  [0x0, 0x0, 0xd8, 0x50, 0x50, 0x20, 0x20, 0x60],
  [0x0, 0x0, 0x78, 0x50, 0x28, 0x78, 0x0, 0x0],
  [0x10, 0x20, 0x20, 0x60, 0x20, 0x20, 0x10, 0x0],
  [0x20, 0x20, 0x20, 0x20, 0x20, 0x20, 0x20, 0x0],
  [0x40, 0x20, 0x20, 0x30, 0x20, 0x20, 0x40, 0x0],
  [0x0, 0x0, 0x0, 0x28, 0x50, 0x0, 0x0, 0x0]]

/-- `FONT_5X8` (std/src/gfx/lcd/fonts/font_5x8.rs 924-929). -/
def font5x8 : Font := ⟨5, 8, 1, font5x8Glyphs.flatten.map (BitVec.ofNat 8)⟩

/-- `DATA` (std/src/gfx/lcd/fonts/font_16x16.rs 35-321), in glyphs of 32 bytes. -/
def font16x16Glyphs : List (List Nat) := [
  [0x0, 0x0, 0x0, 0x0, 0x0, 0x0, 0x0, 0x0, 0x0, 0x0, 0x0, 0x0, 0x0, 0x0, 0x0, 0x0, 0x0, 0x0, 0x0, 0x0, 0x0, 0x0, 0x0, 0x0, 0x0, 0x0, 0x0, 0x0, 0x0, 0x0, 0x0, 0x0],
  [0x0, 0x0, 0x0, 0x0, 0x7, 0x0, 0xf, 0x80, 0xf, 0x80, 0xf, 0x80, 0xf, 0x80, 0xf, 0x80, 0x7, 0x0, 0x7, 0x0, 0x0, 0x0, 0x0, 0x0, 0x7, 0x0, 0x7, 0x0, 0x7, 0x0, 0x0, 0x0],
  [0x0, 0x0, 0xe, 0x38, 0xe, 0x38, 0xe, 0x38, 0xe, 0x38, 0x6, 0x30, 0x0, 0x0, 0x0, 0x0, 0x0, 0x0, 0x0, 0x0, 0x0, 0x0, 0x0, 0x0, 0x0, 0x0, 0x0, 0x0, 0x0, 0x0, 0x0, 0x0],
  [0x0, 0x0, 0xc, 0x30, 0xc, 0x30, 0xc, 0x30, 0x7f, 0xfe, 0x7f, 0xfe, 0xc, 0x30, 0xc, 0x30, 0xc, 0x30, 0xc, 0x30, 0x7f, 0xfe, 0x7f, 0xfe, 0xc, 0x30, 0xc, 0x30, 0xc, 0x30, 0x0, 0x0],
  [0x0, 0x0, 0x2, 0x40, 0x2, 0x40, 0xf, 0xf8, 0x1f, 0xf8, 0x1a, 0x40, 0x1a, 0x40, 0x1f, 0xf0, 0xf, 0xf8, 0x2, 0x58, 0x2, 0x58, 0x1f, 0xf8, 0x1f, 0xf0, 0x2, 0x40, 0x2, 0x40, 0x0, 0x0],
  [0x0, 0x0, 0x0, 0x0, 0x0, 0x0, 0xe, 0x10, 0xe, 0x30, 0xe, 0x70, 0x0, 0xe0, 0x1, 0xc0, 0x3, 0x80, 0x7, 0x0, 0xe, 0x70, 0xc, 0x70, 0x8, 0x70, 0x0, 0x0, 0x0, 0x0, 0x0, 0x0],
  [0x0, 0x0, 0x0, 0x0, 0xf, 0x0, 0x19, 0x80, 0x19, 0x80, 0x19, 0x80, 0xf, 0x0, 0xf, 0x8, 0xf, 0x98, 0x19, 0xf8, 0x18, 0xf0, 0x18, 0xe0, 0x19, 0xf0, 0xf, 0x98, 0x0, 0x0, 0x0, 0x0],
  [0x0, 0x0, 0x0, 0x0, 0x7, 0x0, 0x7, 0x0, 0x7, 0x0, 0xe, 0x0, 0x0, 0x0, 0x0, 0x0, 0x0, 0x0, 0x0, 0x0, 0x0, 0x0, 0x0, 0x0, 0x0, 0x0, 0x0, 0x0, 0x0, 0x0, 0x0, 0x0],
  [0x0, 0x0, 0x0, 0x0, 0x0, 0xf0, 0x1, 0xc0, 0x3, 0x80, 0x7, 0x0, 0xe, 0x0, 0xe, 0x0, 0xe, 0x0, 0xe, 0x0, 0x7, 0x0, 0x3, 0x80, 0x1, 0xc0, 0x0, 0xf0, 0x0, 0x0, 0x0, 0x0],
  [0x0, 0x0, 0x0, 0x0, 0xf, 0x0, 0x3, 0x80, 0x1, 0xc0, 0x0, 0xe0, 0x0, 0x70, 0x0, 0x70, 0x0, 0x70, 0x0, 0x70, 0x0, 0xe0, 0x1, 0xc0, 0x3, 0x80, 0xf, 0x0, 0x0, 0x0, 0x0, 0x0],
  [0x0, 0x0, 0x0, 0x0, 0x1, 0x80, 0x11, 0x88, 0x9, 0x90, 0x7, 0xe0, 0x7, 0xe0, 0x3f, 0xfc, 0x3f, 0xfc, 0x7, 0xe0, 0x7, 0xe0, 0x9, 0x90, 0x11, 0x88, 0x1, 0x80, 0x0, 0x0, 0x0, 0x0],
  [0x0, 0x0, 0x0, 0x0, 0x0, 0x0, 0x0, 0x0, 0x1, 0x80, 0x1, 0x80, 0x1, 0x80, 0xf, 0xf0, 0xf, 0xf0, 0x1, 0x80, 0x1, 0x80, 0x1, 0x80, 0x0, 0x0, 0x0, 0x0, 0x0, 0x0, 0x0, 0x0],
  [0x0, 0x0, 0x0, 0x0, 0x0, 0x0, 0x0, 0x0, 0x0, 0x0, 0x0, 0x0, 0x0, 0x0, 0x0, 0x0, 0x0, 0x0, 0x0, 0x0, 0x0, 0x0, 0x7, 0x0, 0x7, 0x0, 0x7, 0x0, 0xe, 0x0, 0x0, 0x0],
  [0x0, 0x0, 0x0, 0x0, 0x0, 0x0, 0x0, 0x0, 0x0, 0x0, 0x0, 0x0, 0x0, 0x0, 0x1f, 0xf8, 0x1f, 0xf8, 0x0, 0x0, 0x0, 0x0, 0x0, 0x0, 0x0, 0x0, 0x0, 0x0, 0x0, 0x0, 0x0, 0x0],
  [0x0, 0x0, 0x0, 0x0, 0x0, 0x0, 0x0, 0x0, 0x0, 0x0, 0x0, 0x0, 0x0, 0x0, 0x0, 0x0, 0x0, 0x0, 0x0, 0x0, 0x0, 0x0, 0x7, 0x0, 0x7, 0x0, 0x7, 0x0, 0x0, 0x0, 0x0, 0x0],
  [0x0, 0x0, 0x0, 0x0, 0x0, 0x2, 0x0, 0x6, 0x0, 0xe, 0x0, 0x1c, 0x0, 0x38, 0x0, 0x70, 0x0, 0xe0, 0x1, 0xc0, 0x3, 0x80, 0x7, 0x0, 0xe, 0x0, 0x1c, 0x0, 0x0, 0x0, 0x0, 0x0],
  [0x0, 0x0, 0x0, 0x0, 0xf, 0xf0, 0x1c, 0x38, 0x1c, 0x78, 0x1c, 0xf8, 0x1c, 0xf8, 0x1d, 0xb8, 0x1d, 0xb8, 0x1f, 0x38, 0x1f, 0x38, 0x1e, 0x38, 0x1c, 0x38, 0xf, 0xf0, 0x0, 0x0, 0x0, 0x0],
  [0x0, 0x0, 0x0, 0x0, 0x1, 0x80, 0x1, 0x80, 0x3, 0x80, 0x1f, 0x80, 0x1f, 0x80, 0x3, 0x80, 0x3, 0x80, 0x3, 0x80, 0x3, 0x80, 0x3, 0x80, 0x3, 0x80, 0x1f, 0xf0, 0x0, 0x0, 0x0, 0x0],
  [0x0, 0x0, 0x0, 0x0, 0xf, 0xe0, 0x1c, 0x70, 0x1c, 0x38, 0x0, 0x38, 0x0, 0x70, 0x0, 0xe0, 0x1, 0xc0, 0x3, 0x80, 0x7, 0x0, 0xe, 0x38, 0x1c, 0x38, 0x1f, 0xf8, 0x0, 0x0, 0x0, 0x0],
  [0x0, 0x0, 0x0, 0x0, 0xf, 0xe0, 0x1c, 0x70, 0x1c, 0x38, 0x0, 0x38, 0x0, 0x70, 0x3, 0xc0, 0x3, 0xc0, 0x0, 0x70, 0x0, 0x38, 0x1c, 0x38, 0x1c, 0x70, 0xf, 0xe0, 0x0, 0x0, 0x0, 0x0],
  [0x0, 0x0, 0x0, 0x0, 0x0, 0xe0, 0x1, 0xe0, 0x3, 0xe0, 0x6, 0xe0, 0xc, 0xe0, 0x18, 0xe0, 0x1f, 0xf8, 0x1f, 0xf8, 0x0, 0xe0, 0x0, 0xe0, 0x0, 0xe0, 0x3, 0xf8, 0x0, 0x0, 0x0, 0x0],
  [0x0, 0x0, 0x0, 0x0, 0x1f, 0xf8, 0x1c, 0x0, 0x1c, 0x0, 0x1c, 0x0, 0x1c, 0x0, 0x1f, 0xe0, 0x1f, 0xf0, 0x0, 0x78, 0x0, 0x38, 0x1c, 0x38, 0x1c, 0x70, 0xf, 0xe0, 0x0, 0x0, 0x0, 0x0],
  [0x0, 0x0, 0x0, 0x0, 0x3, 0xe0, 0x7, 0x0, 0xe, 0x0, 0x1c, 0x0, 0x1c, 0x0, 0x1f, 0xf0, 0x1f, 0xf8, 0x1c, 0x38, 0x1c, 0x38, 0x1c, 0x38, 0x1c, 0x38, 0xf, 0xf0, 0x0, 0x0, 0x0, 0x0],
  [0x0, 0x0, 0x0, 0x0, 0x1f, 0xfc, 0x1c, 0x1c, 0x1c, 0x1c, 0x1c, 0x1c, 0x0, 0x1c, 0x0, 0x38, 0x0, 0x70, 0x0, 0xe0, 0x1, 0xc0, 0x3, 0x80, 0x3, 0x80, 0x3, 0x80, 0x0, 0x0, 0x0, 0x0],
  [0x0, 0x0, 0x0, 0x0, 0xf, 0xf0, 0x1c, 0x38, 0x1c, 0x38, 0x1c, 0x38, 0x1f, 0x38, 0x7, 0xe0, 0x7, 0xe0, 0x1c, 0xf8, 0x1c, 0x38, 0x1c, 0x38, 0x1c, 0x38, 0xf, 0xf0, 0x0, 0x0, 0x0, 0x0],
  [0x0, 0x0, 0x0, 0x0, 0xf, 0xf0, 0x1c, 0x38, 0x1c, 0x38, 0x1c, 0x38, 0x1c, 0x38, 0x1f, 0xf8, 0xf, 0xf8, 0x0, 0x38, 0x0, 0x38, 0x0, 0x70, 0x0, 0xe0, 0x7, 0xc0, 0x0, 0x0, 0x0, 0x0],
  [0x0, 0x0, 0x0, 0x0, 0x0, 0x0, 0x0, 0x0, 0x3, 0x80, 0x3, 0x80, 0x3, 0x80, 0x0, 0x0, 0x0, 0x0, 0x3, 0x80, 0x3, 0x80, 0x3, 0x80, 0x0, 0x0, 0x0, 0x0, 0x0, 0x0, 0x0, 0x0],
  [0x0, 0x0, 0x0, 0x0, 0x0, 0x0, 0x0, 0x0, 0x3, 0x80, 0x3, 0x80, 0x3, 0x80, 0x0, 0x0, 0x0, 0x0, 0x3, 0x80, 0x3, 0x80, 0x3, 0x80, 0x7, 0x0, 0x0, 0x0, 0x0, 0x0, 0x0, 0x0],
  [0x0, 0x0, 0x0, 0x70, 0x0, 0xe0, 0x1, 0xc0, 0x3, 0x80, 0x7, 0x0, 0xe, 0x0, 0x1c, 0x0, 0x1c, 0x0, 0xe, 0x0, 0x7, 0x0, 0x3, 0x80, 0x1, 0xc0, 0x0, 0xe0, 0x0, 0x70, 0x0, 0x0],
  [0x0, 0x0, 0x0, 0x0, 0x0, 0x0, 0x0, 0x0, 0x0, 0x0, 0x3f, 0xfc, 0x3f, 0xfc, 0x0, 0x0, 0x0, 0x0, 0x3f, 0xfc, 0x3f, 0xfc, 0x0, 0x0, 0x0, 0x0, 0x0, 0x0, 0x0, 0x0, 0x0, 0x0],
  [0x0, 0x0, 0x1c, 0x0, 0xe, 0x0, 0x7, 0x0, 0x3, 0x80, 0x1, 0xc0, 0x0, 0xe0, 0x0, 0x70, 0x0, 0x70, 0x0, 0xe0, 0x1, 0xc0, 0x3, 0x80, 0x7, 0x0, 0xe, 0x0, 0x1c, 0x0, 0x0, 0x0],
  [0x0, 0x0, 0x3, 0xc0, 0xf, 0xf0, 0x1e, 0x78, 0x18, 0x38, 0x0, 0x38, 0x0, 0x70, 0x0, 0xe0, 0x1, 0xc0, 0x1, 0xc0, 0x0, 0x0, 0x0, 0x0, 0x1, 0xc0, 0x1, 0xc0, 0x1, 0xc0, 0x0, 0x0],
  [0x0, 0x0, 0xf, 0xf8, 0x1c, 0x1c, 0x1c, 0x1c, 0x1c, 0x1c, 0x1c, 0x1c, 0x1c, 0xfc, 0x1c, 0xfc, 0x1c, 0xfc, 0x1c, 0xfc, 0x1c, 0x0, 0x1c, 0x0, 0x1c, 0x0, 0x1f, 0xf0, 0x7, 0xf8, 0x0, 0x0],
  [0x0, 0x0, 0x0, 0x0, 0x3, 0xc0, 0x7, 0xe0, 0xe, 0x70, 0x1c, 0x38, 0x1c, 0x38, 0x1c, 0x38, 0x1c, 0x38, 0x1f, 0xf8, 0x1c, 0x38, 0x1c, 0x38, 0x1c, 0x38, 0x1c, 0x38, 0x0, 0x0, 0x0, 0x0],
  [0x0, 0x0, 0x0, 0x0, 0x1f, 0xf0, 0xe, 0x38, 0xe, 0x38, 0xe, 0x38, 0xe, 0x38, 0xf, 0xf0, 0xf, 0xf0, 0xe, 0x38, 0xe, 0x38, 0xe, 0x38, 0xe, 0x38, 0x1f, 0xf0, 0x0, 0x0, 0x0, 0x0],
  [0x0, 0x0, 0x0, 0x0, 0x7, 0xf0, 0xe, 0x38, 0x1c, 0x38, 0x1c, 0x0, 0x1c, 0x0, 0x1c, 0x0, 0x1c, 0x0, 0x1c, 0x0, 0x1c, 0x0, 0x1c, 0x38, 0xe, 0x38, 0x7, 0xf0, 0x0, 0x0, 0x0, 0x0],
  [0x0, 0x0, 0x0, 0x0, 0x1f, 0xe0, 0xe, 0x70, 0xe, 0x38, 0xe, 0x38, 0xe, 0x38, 0xe, 0x38, 0xe, 0x38, 0xe, 0x38, 0xe, 0x38, 0xe, 0x38, 0xe, 0x70, 0x1f, 0xe0, 0x0, 0x0, 0x0, 0x0],
  [0x0, 0x0, 0x0, 0x0, 0x1f, 0xf8, 0xe, 0x18, 0xe, 0x8, 0xe, 0x0, 0xe, 0x30, 0xf, 0xf0, 0xf, 0xf0, 0xe, 0x30, 0xe, 0x0, 0xe, 0x8, 0xe, 0x18, 0x1f, 0xf8, 0x0, 0x0, 0x0, 0x0],
  [0x0, 0x0, 0x0, 0x0, 0x1f, 0xf8, 0xe, 0x18, 0xe, 0x8, 0xe, 0x0, 0xe, 0x30, 0xf, 0xf0, 0xf, 0xf0, 0xe, 0x30, 0xe, 0x0, 0xe, 0x0, 0xe, 0x0, 0x1f, 0x0, 0x0, 0x0, 0x0, 0x0],
  [0x0, 0x0, 0x0, 0x0, 0x7, 0xf0, 0xe, 0x38, 0x1c, 0x38, 0x1c, 0x38, 0x1c, 0x0, 0x1c, 0x0, 0x1c, 0x0, 0x1c, 0xf8, 0x1c, 0x38, 0x1c, 0x38, 0xe, 0x38, 0x7, 0xf8, 0x0, 0x0, 0x0, 0x0],
  [0x0, 0x0, 0x0, 0x0, 0x1c, 0x70, 0x1c, 0x70, 0x1c, 0x70, 0x1c, 0x70, 0x1c, 0x70, 0x1f, 0xf0, 0x1f, 0xf0, 0x1c, 0x70, 0x1c, 0x70, 0x1c, 0x70, 0x1c, 0x70, 0x1c, 0x70, 0x0, 0x0, 0x0, 0x0],
  [0x0, 0x0, 0x0, 0x0, 0xf, 0xe0, 0x3, 0x80, 0x3, 0x80, 0x3, 0x80, 0x3, 0x80, 0x3, 0x80, 0x3, 0x80, 0x3, 0x80, 0x3, 0x80, 0x3, 0x80, 0x3, 0x80, 0xf, 0xe0, 0x0, 0x0, 0x0, 0x0],
  [0x0, 0x0, 0x0, 0x0, 0x1, 0xfc, 0x0, 0x70, 0x0, 0x70, 0x0, 0x70, 0x0, 0x70, 0x0, 0x70, 0x0, 0x70, 0x38, 0x70, 0x38, 0x70, 0x38, 0x70, 0x38, 0x70, 0xf, 0xe0, 0x0, 0x0, 0x0, 0x0],
  [0x0, 0x0, 0x0, 0x0, 0x1e, 0x38, 0xe, 0x38, 0xe, 0x70, 0xe, 0xe0, 0xf, 0xc0, 0xf, 0x80, 0xf, 0x80, 0xf, 0xc0, 0xe, 0xe0, 0xe, 0x70, 0xe, 0x38, 0x1e, 0x38, 0x0, 0x0, 0x0, 0x0],
  [0x0, 0x0, 0x0, 0x0, 0x1f, 0x0, 0xe, 0x0, 0xe, 0x0, 0xe, 0x0, 0xe, 0x0, 0xe, 0x0, 0xe, 0x0, 0xe, 0x0, 0xe, 0x8, 0xe, 0x18, 0xe, 0x38, 0x1f, 0xf8, 0x0, 0x0, 0x0, 0x0],
  [0x0, 0x0, 0x0, 0x0, 0x1c, 0x1c, 0x1e, 0x3c, 0x1f, 0x7c, 0x1f, 0xfc, 0x1f, 0xfc, 0x1d, 0xdc, 0x1c, 0x9c, 0x1c, 0x1c, 0x1c, 0x1c, 0x1c, 0x1c, 0x1c, 0x1c, 0x1c, 0x1c, 0x0, 0x0, 0x0, 0x0],
  [0x0, 0x0, 0x0, 0x0, 0x1c, 0x1c, 0x1c, 0x1c, 0x1e, 0x1c, 0x1f, 0x1c, 0x1f, 0x9c, 0x1d, 0xdc, 0x1c, 0xfc, 0x1c, 0x7c, 0x1c, 0x3c, 0x1c, 0x1c, 0x1c, 0x1c, 0x1c, 0x1c, 0x0, 0x0, 0x0, 0x0],
  [0x0, 0x0, 0x0, 0x0, 0x3, 0xe0, 0x7, 0xf0, 0xe, 0x38, 0x1c, 0x1c, 0x1c, 0x1c, 0x1c, 0x1c, 0x1c, 0x1c, 0x1c, 0x1c, 0x1c, 0x1c, 0xe, 0x38, 0x7, 0xf0, 0x3, 0xe0, 0x0, 0x0, 0x0, 0x0],
  [0x0, 0x0, 0x0, 0x0, 0x1f, 0xf0, 0xe, 0x38, 0xe, 0x38, 0xe, 0x38, 0xe, 0x38, 0xf, 0xf0, 0xf, 0xf0, 0xe, 0x0, 0xe, 0x0, 0xe, 0x0, 0xe, 0x0, 0x1f, 0x0, 0x0, 0x0, 0x0, 0x0],
  [0x0, 0x0, 0x0, 0x0, 0x3, 0xe0, 0xf, 0x78, 0xe, 0x38, 0x1c, 0x1c, 0x1c, 0x1c, 0x1c, 0x1c, 0x1c, 0x1c, 0x1c, 0x7c, 0x1c, 0xfc, 0xf, 0xf8, 0xf, 0xf8, 0x0, 0x38, 0x0, 0xfc, 0x0, 0x0],
  [0x0, 0x0, 0x0, 0x0, 0x1f, 0xf0, 0xe, 0x38, 0xe, 0x38, 0xe, 0x38, 0xe, 0x38, 0xf, 0xf0, 0xf, 0xf0, 0xe, 0x70, 0xe, 0x38, 0xe, 0x38, 0xe, 0x38, 0x1e, 0x38, 0x0, 0x0, 0x0, 0x0],
  [0x0, 0x0, 0x0, 0x0, 0xf, 0xf0, 0x1c, 0x38, 0x1c, 0x38, 0x1c, 0x38, 0x1c, 0x0, 0xf, 0xe0, 0x7, 0xf0, 0x0, 0x38, 0x1c, 0x38, 0x1c, 0x38, 0x1c, 0x38, 0xf, 0xf0, 0x0, 0x0, 0x0, 0x0],
  [0x0, 0x0, 0x0, 0x0, 0x1f, 0xfc, 0x19, 0xcc, 0x11, 0xc4, 0x1, 0xc0, 0x1, 0xc0, 0x1, 0xc0, 0x1, 0xc0, 0x1, 0xc0, 0x1, 0xc0, 0x1, 0xc0, 0x1, 0xc0, 0x7, 0xf0, 0x0, 0x0, 0x0, 0x0],
  [0x0, 0x0, 0x0, 0x0, 0x1c, 0x70, 0x1c, 0x70, 0x1c, 0x70, 0x1c, 0x70, 0x1c, 0x70, 0x1c, 0x70, 0x1c, 0x70, 0x1c, 0x70, 0x1c, 0x70, 0x1c, 0x70, 0x1c, 0x70, 0xf, 0xe0, 0x0, 0x0, 0x0, 0x0],
  [0x0, 0x0, 0x0, 0x0, 0x1c, 0x70, 0x1c, 0x70, 0x1c, 0x70, 0x1c, 0x70, 0x1c, 0x70, 0x1c, 0x70, 0x1c, 0x70, 0x1c, 0x70, 0x1c, 0x70, 0xe, 0xe0, 0x7, 0xc0, 0x3, 0x80, 0x0, 0x0, 0x0, 0x0],
  [0x0, 0x0, 0x0, 0x0, 0x1c, 0x1c, 0x1c, 0x1c, 0x1c, 0x1c, 0x1c, 0x1c, 0x1c, 0x1c, 0x1c, 0x9c, 0x1c, 0x9c, 0x1c, 0x9c, 0xf, 0xf8, 0xf, 0xf8, 0x7, 0x70, 0x7, 0x70, 0x0, 0x0, 0x0, 0x0],
  [0x0, 0x0, 0x0, 0x0, 0x1c, 0x70, 0x1c, 0x70, 0x1c, 0x70, 0xe, 0xe0, 0x7, 0xc0, 0x3, 0x80, 0x3, 0x80, 0x7, 0xc0, 0xe, 0xe0, 0x1c, 0x70, 0x1c, 0x70, 0x1c, 0x70, 0x0, 0x0, 0x0, 0x0],
  [0x0, 0x0, 0x0, 0x0, 0x1c, 0x70, 0x1c, 0x70, 0x1c, 0x70, 0x1c, 0x70, 0x1c, 0x70, 0xe, 0xe0, 0x7, 0xc0, 0x3, 0x80, 0x3, 0x80, 0x3, 0x80, 0x3, 0x80, 0xf, 0xe0, 0x0, 0x0, 0x0, 0x0],
  [0x0, 0x0, 0x0, 0x0, 0x1f, 0xf8, 0x1c, 0x38, 0x18, 0x38, 0x10, 0x70, 0x0, 0xe0, 0x1, 0xc0, 0x3, 0x80, 0x7, 0x0, 0xe, 0x8, 0x1c, 0x18, 0x1c, 0x38, 0x1f, 0xf8, 0x0, 0x0, 0x0, 0x0],
  [0x0, 0x0, 0x0, 0x0, 0x7, 0xf0, 0x7, 0x0, 0x7, 0x0, 0x7, 0x0, 0x7, 0x0, 0x7, 0x0, 0x7, 0x0, 0x7, 0x0, 0x7, 0x0, 0x7, 0x0, 0x7, 0x0, 0x7, 0xf0, 0x0, 0x0, 0x0, 0x0],
  [0x0, 0x0, 0x0, 0x0, 0x10, 0x0, 0x18, 0x0, 0x1c, 0x0, 0xe, 0x0, 0x7, 0x0, 0x3, 0x80, 0x1, 0xc0, 0x0, 0xe0, 0x0, 0x70, 0x0, 0x38, 0x0, 0x1c, 0x0, 0x7, 0x0, 0x0, 0x0, 0x0],
  [0x0, 0x0, 0x0, 0x0, 0x7, 0xf0, 0x0, 0x70, 0x0, 0x70, 0x0, 0x70, 0x0, 0x70, 0x0, 0x70, 0x0, 0x70, 0x0, 0x70, 0x0, 0x70, 0x0, 0x70, 0x0, 0x70, 0x7, 0xf0, 0x0, 0x0, 0x0, 0x0],
  [0x0, 0x0, 0x1, 0x80, 0x3, 0xc0, 0x7, 0xe0, 0xe, 0x70, 0x1c, 0x38, 0x0, 0x0, 0x0, 0x0, 0x0, 0x0, 0x0, 0x0, 0x0, 0x0, 0x0, 0x0, 0x0, 0x0, 0x0, 0x0, 0x0, 0x0, 0x0, 0x0],
  [0x0, 0x0, 0x0, 0x0, 0x0, 0x0, 0x0, 0x0, 0x0, 0x0, 0x0, 0x0, 0x0, 0x0, 0x0, 0x0, 0x0, 0x0, 0x0, 0x0, 0x0, 0x0, 0x0, 0x0, 0x0, 0x0, 0x0, 0x0, 0x7f, 0xff, 0x7f, 0xff],
  [0x0, 0x0, 0x0, 0x0, 0x1c, 0x0, 0x1c, 0x0, 0x7, 0x0, 0x7, 0x0, 0x0, 0x0, 0x0, 0x0, 0x0, 0x0, 0x0, 0x0, 0x0, 0x0, 0x0, 0x0, 0x0, 0x0, 0x0, 0x0, 0x0, 0x0, 0x0, 0x0],
  [0x0, 0x0, 0x0, 0x0, 0x0, 0x0, 0x0, 0x0, 0x0, 0x0, 0x0, 0x0, 0xf, 0xe0, 0x0, 0x70, 0x0, 0x70, 0xf, 0xf0, 0x1c, 0x70, 0x1c, 0x70, 0x1c, 0x70, 0xf, 0xd8, 0x0, 0x0, 0x0, 0x0],
  [0x0, 0x0, 0x0, 0x0, 0x1e, 0x0, 0xe, 0x0, 0xe, 0x0, 0xe, 0x0, 0xf, 0xf0, 0xe, 0x38, 0xe, 0x38, 0xe, 0x38, 0xe, 0x38, 0xe, 0x38, 0xe, 0x38, 0x1b, 0xf0, 0x0, 0x0, 0x0, 0x0],
  [0x0, 0x0, 0x0, 0x0, 0x0, 0x0, 0x0, 0x0, 0x0, 0x0, 0x0, 0x0, 0xf, 0xe0, 0x1c, 0x70, 0x1c, 0x70, 0x1c, 0x0, 0x1c, 0x0, 0x1c, 0x70, 0x1c, 0x70, 0xf, 0xe0, 0x0, 0x0, 0x0, 0x0],
  [0x0, 0x0, 0x0, 0x0, 0x0, 0xf8, 0x0, 0x70, 0x0, 0x70, 0x0, 0x70, 0xf, 0xf0, 0x1c, 0x70, 0x1c, 0x70, 0x1c, 0x70, 0x1c, 0x70, 0x1c, 0x70, 0x1c, 0x70, 0xf, 0xd8, 0x0, 0x0, 0x0, 0x0],
  [0x0, 0x0, 0x0, 0x0, 0x0, 0x0, 0x0, 0x0, 0x0, 0x0, 0x0, 0x0, 0xf, 0xe0, 0x1c, 0x70, 0x1c, 0x70, 0x1f, 0xf0, 0x1c, 0x0, 0x1c, 0x70, 0x1c, 0x70, 0xf, 0xe0, 0x0, 0x0, 0x0, 0x0],
  [0x0, 0x0, 0x0, 0x0, 0x3, 0xe0, 0x7, 0x70, 0x7, 0x70, 0x7, 0x0, 0x7, 0x0, 0x1f, 0xe0, 0x1f, 0xe0, 0x7, 0x0, 0x7, 0x0, 0x7, 0x0, 0x7, 0x0, 0x1f, 0xc0, 0x0, 0x0, 0x0, 0x0],
  [0x0, 0x0, 0x0, 0x0, 0x0, 0x0, 0x0, 0x0, 0x0, 0x0, 0x0, 0x0, 0xf, 0xd8, 0x1c, 0x70, 0x1c, 0x70, 0x1c, 0x70, 0x1c, 0x70, 0xf, 0xf0, 0x7, 0xf0, 0x0, 0x70, 0x1c, 0x70, 0xf, 0xe0],
  [0x0, 0x0, 0x0, 0x0, 0x1e, 0x0, 0xe, 0x0, 0xe, 0x0, 0xe, 0x0, 0xe, 0xf0, 0xf, 0x38, 0xf, 0x38, 0xe, 0x38, 0xe, 0x38, 0xe, 0x38, 0xe, 0x38, 0x1e, 0x38, 0x0, 0x0, 0x0, 0x0],
  [0x0, 0x0, 0x0, 0x0, 0x1, 0xc0, 0x1, 0xc0, 0x1, 0xc0, 0x0, 0x0, 0xf, 0xc0, 0x1, 0xc0, 0x1, 0xc0, 0x1, 0xc0, 0x1, 0xc0, 0x1, 0xc0, 0x1, 0xc0, 0xf, 0xf8, 0x0, 0x0, 0x0, 0x0],
  [0x0, 0x0, 0x0, 0x0, 0x0, 0x70, 0x0, 0x70, 0x0, 0x70, 0x0, 0x0, 0x3, 0xf0, 0x0, 0x70, 0x0, 0x70, 0x0, 0x70, 0x0, 0x70, 0x0, 0x70, 0x0, 0x70, 0x1c, 0x70, 0xc, 0xf0, 0x7, 0xe0],
  [0x0, 0x0, 0x0, 0x0, 0x1e, 0x0, 0xe, 0x0, 0xe, 0x0, 0xe, 0x0, 0xe, 0x38, 0xe, 0x70, 0xe, 0xe0, 0xf, 0xc0, 0xe, 0xe0, 0xe, 0x70, 0xe, 0x38, 0x1e, 0x38, 0x0, 0x0, 0x0, 0x0],
  [0x0, 0x0, 0x0, 0x0, 0xf, 0xc0, 0x1, 0xc0, 0x1, 0xc0, 0x1, 0xc0, 0x1, 0xc0, 0x1, 0xc0, 0x1, 0xc0, 0x1, 0xc0, 0x1, 0xc0, 0x1, 0xc0, 0x1, 0xc0, 0xf, 0xf8, 0x0, 0x0, 0x0, 0x0],
  [0x0, 0x0, 0x0, 0x0, 0x0, 0x0, 0x0, 0x0, 0x0, 0x0, 0x0, 0x0, 0x1f, 0xf8, 0x1c, 0x9c, 0x1c, 0x9c, 0x1c, 0x9c, 0x1c, 0x9c, 0x1c, 0x9c, 0x1c, 0x9c, 0x1c, 0x9c, 0x0, 0x0, 0x0, 0x0],
  [0x0, 0x0, 0x0, 0x0, 0x0, 0x0, 0x0, 0x0, 0x0, 0x0, 0x0, 0x0, 0x1f, 0xe0, 0x1c, 0x70, 0x1c, 0x70, 0x1c, 0x70, 0x1c, 0x70, 0x1c, 0x70, 0x1c, 0x70, 0x1c, 0x70, 0x0, 0x0, 0x0, 0x0],
  [0x0, 0x0, 0x0, 0x0, 0x0, 0x0, 0x0, 0x0, 0x0, 0x0, 0x0, 0x0, 0xf, 0xe0, 0x1c, 0x70, 0x1c, 0x70, 0x1c, 0x70, 0x1c, 0x70, 0x1c, 0x70, 0x1c, 0x70, 0xf, 0xe0, 0x0, 0x0, 0x0, 0x0],
  [0x0, 0x0, 0x0, 0x0, 0x0, 0x0, 0x0, 0x0, 0x0, 0x0, 0x0, 0x0, 0x1b, 0xf0, 0xe, 0x38, 0xe, 0x38, 0xe, 0x38, 0xe, 0x38, 0xe, 0x38, 0xf, 0xf0, 0xe, 0x0, 0xe, 0x0, 0x1f, 0x0],
  [0x0, 0x0, 0x0, 0x0, 0x0, 0x0, 0x0, 0x0, 0x0, 0x0, 0x0, 0x0, 0x1f, 0xb0, 0x38, 0xe0, 0x38, 0xe0, 0x38, 0xe0, 0x38, 0xe0, 0x38, 0xe0, 0x1f, 0xe0, 0x0, 0xe0, 0x0, 0xe0, 0x1, 0xf0],
  [0x0, 0x0, 0x0, 0x0, 0x0, 0x0, 0x0, 0x0, 0x0, 0x0, 0x0, 0x0, 0x1e, 0xf0, 0xf, 0xf8, 0xf, 0x38, 0xe, 0x0, 0xe, 0x0, 0xe, 0x0, 0xe, 0x0, 0x1f, 0x0, 0x0, 0x0, 0x0, 0x0],
  [0x0, 0x0, 0x0, 0x0, 0x0, 0x0, 0x0, 0x0, 0x0, 0x0, 0x0, 0x0, 0xf, 0xe0, 0x1c, 0x30, 0x1c, 0x30, 0xf, 0x80, 0x3, 0xe0, 0x18, 0x70, 0x18, 0x70, 0xf, 0xe0, 0x0, 0x0, 0x0, 0x0],
  [0x0, 0x0, 0x0, 0x0, 0x0, 0x0, 0x1, 0x0, 0x3, 0x0, 0x7, 0x0, 0x1f, 0xf0, 0x7, 0x0, 0x7, 0x0, 0x7, 0x0, 0x7, 0x0, 0x7, 0x70, 0x7, 0x70, 0x3, 0xe0, 0x0, 0x0, 0x0, 0x0],
  [0x0, 0x0, 0x0, 0x0, 0x0, 0x0, 0x0, 0x0, 0x0, 0x0, 0x0, 0x0, 0x1c, 0x70, 0x1c, 0x70, 0x1c, 0x70, 0x1c, 0x70, 0x1c, 0x70, 0x1c, 0x70, 0x1c, 0x70, 0xf, 0xd8, 0x0, 0x0, 0x0, 0x0],
  [0x0, 0x0, 0x0, 0x0, 0x0, 0x0, 0x0, 0x0, 0x0, 0x0, 0x0, 0x0, 0x1c, 0x70, 0x1c, 0x70, 0x1c, 0x70, 0x1c, 0x70, 0x1c, 0x70, 0xe, 0xe0, 0x7, 0xc0, 0x3, 0x80, 0x0, 0x0, 0x0, 0x0],
  [0x0, 0x0, 0x0, 0x0, 0x0, 0x0, 0x0, 0x0, 0x0, 0x0, 0x0, 0x0, 0x1c, 0x1c, 0x1c, 0x1c, 0x1c, 0x1c, 0x1c, 0x9c, 0x1c, 0x9c, 0xf, 0xf8, 0x7, 0x70, 0x7, 0x70, 0x0, 0x0, 0x0, 0x0],
  [0x0, 0x0, 0x0, 0x0, 0x0, 0x0, 0x0, 0x0, 0x0, 0x0, 0x0, 0x0, 0x1c, 0xe0, 0x1c, 0xe0, 0xf, 0xc0, 0x7, 0x80, 0x7, 0x80, 0xf, 0xc0, 0x1c, 0xe0, 0x1c, 0xe0, 0x0, 0x0, 0x0, 0x0],
  [0x0, 0x0, 0x0, 0x0, 0x0, 0x0, 0x0, 0x0, 0x0, 0x0, 0x0, 0x0, 0xe, 0x38, 0xe, 0x38, 0xe, 0x38, 0xe, 0x38, 0xe, 0x38, 0x7, 0xf0, 0x3, 0xe0, 0x0, 0xe0, 0x1, 0xc0, 0x1f, 0x80],
  [0x0, 0x0, 0x0, 0x0, 0x0, 0x0, 0x0, 0x0, 0x0, 0x0, 0x0, 0x0, 0x1f, 0xe0, 0x18, 0xe0, 0x11, 0xc0, 0x3, 0x80, 0x7, 0x0, 0xe, 0x20, 0x1c, 0x60, 0x1f, 0xe0, 0x0, 0x0, 0x0, 0x0],
  [0x0, 0x0, 0x0, 0x0, 0x1, 0xf8, 0x3, 0x80, 0x3, 0x80, 0x3, 0x80, 0x7, 0x0, 0x1c, 0x0, 0x1c, 0x0, 0x7, 0x0, 0x3, 0x80, 0x3, 0x80, 0x3, 0x80, 0x1, 0xf8, 0x0, 0x0, 0x0, 0x0],
  [0x0, 0x0, 0x1, 0xc0, 0x1, 0xc0, 0x1, 0xc0, 0x1, 0xc0, 0x1, 0xc0, 0x1, 0xc0, 0x1, 0xc0, 0x1, 0xc0, 0x1, 0xc0, 0x1, 0xc0, 0x1, 0xc0, 0x1, 0xc0, 0x1, 0xc0, 0x1, 0xc0, 0x0, 0x0],
  [0x0, 0x0, 0x0, 0x0, 0x1f, 0x80, 0x1, 0xc0, 0x1, 0xc0, 0x1, 0xc0, 0x0, 0xe0, 0x0, 0x38, 0x0, 0x38, 0x0, 0xe0, 0x1, 0xc0, 0x1, 0xc0, 0x1, 0xc0, 0x1f, 0x80, 0x0, 0x0, 0x0, 0x0],
  [0x0, 0x0, 0x0, 0x0, 0x1f, 0x1c, 0x3b, 0x9c, 0x39, 0xdc, 0x38, 0xf8, 0x0, 0x0, 0x0, 0x0, 0x0, 0x0, 0x0, 0x0, 0x0, 0x0, 0x0, 0x0, 0x0, 0x0, 0x0, 0x0, 0x0, 0x0, 0x0, 0x0]]

/-- `FONT_16X16` (std/src/gfx/lcd/fonts/font_16x16.rs 324-329). -/
def font16x16 : Font := ⟨16, 16, 2, font16x16Glyphs.flatten.map (BitVec.ofNat 8)⟩

/-- `DATA` (std/src/gfx/lcd/fonts/font_vga8x16.rs 47-1663), in glyphs of 16 bytes. -/
def fontVga8x16Glyphs : List (List Nat) := [
  [0x0, 0x0, 0x0, 0x0, 0x0, 0x0, 0x0, 0x0, 0x0, 0x0, 0x0, 0x0, 0x0, 0x0, 0x0, 0x0],
  [0x0, 0x0, 0x18, 0x3c, 0x3c, 0x3c, 0x18, 0x18, 0x18, 0x0, 0x18, 0x18, 0x0, 0x0, 0x0, 0x0],
  [0x0, 0x66, 0x66, 0x66, 0x24, 0x0, 0x0, 0x0, 0x0, 0x0, 0x0, 0x0, 0x0, 0x0, 0x0, 0x0],
  [0x0, 0x0, 0x0, 0x6c, 0x6c, 0xfe, 0x6c, 0x6c, 0x6c, 0xfe, 0x6c, 0x6c, 0x0, 0x0, 0x0, 0x0],
  [0x18, 0x18, 0x7c, 0xc6, 0xc2, 0xc0, 0x7c, 0x6, 0x6, 0x86, 0xc6, 0x7c, 0x18, 0x18, 0x0, 0x0],
  [0x0, 0x0, 0x0, 0x0, 0xc2, 0xc6, 0xc, 0x18, 0x30, 0x60, 0xc6, 0x86, 0x0, 0x0, 0x0, 0x0],
  [0x0, 0x0, 0x38, 0x6c, 0x6c, 0x38, 0x76, 0xdc, 0xcc, 0xcc, 0xcc, 0x76, 0x0, 0x0, 0x0, 0x0],
  [0x0, 0x30, 0x30, 0x30, 0x60, 0x0, 0x0, 0x0, 0x0, 0x0, 0x0, 0x0, 0x0, 0x0, 0x0, 0x0],
  [0x0, 0x0, 0xc, 0x18, 0x30, 0x30, 0x30, 0x30, 0x30, 0x30, 0x18, 0xc, 0x0, 0x0, 0x0, 0x0],
  [0x0, 0x0, 0x30, 0x18, 0xc, 0xc, 0xc, 0xc, 0xc, 0xc, 0x18, 0x30, 0x0, 0x0, 0x0, 0x0],
  [0x0, 0x0, 0x0, 0x0, 0x0, 0x66, 0x3c, 0xff, 0x3c, 0x66, 0x0, 0x0, 0x0, 0x0, 0x0, 0x0],
  [0x0, 0x0, 0x0, 0x0, 0x0, 0x18, 0x18, 0x7e, 0x18, 0x18, 0x0, 0x0, 0x0, 0x0, 0x0, 0x0],
  [0x0, 0x0, 0x0, 0x0, 0x0, 0x0, 0x0, 0x0, 0x0, 0x18, 0x18, 0x18, 0x30, 0x0, 0x0, 0x0],
  [0x0, 0x0, 0x0, 0x0, 0x0, 0x0, 0x0, 0xfe, 0x0, 0x0, 0x0, 0x0, 0x0, 0x0, 0x0, 0x0],
  [0x0, 0x0, 0x0, 0x0, 0x0, 0x0, 0x0, 0x0, 0x0, 0x0, 0x18, 0x18, 0x0, 0x0, 0x0, 0x0],
  [0x0, 0x0, 0x0, 0x0, 0x2, 0x6, 0xc, 0x18, 0x30, 0x60, 0xc0, 0x80, 0x0, 0x0, 0x0, 0x0],
  [0x0, 0x0, 0x38, 0x6c, 0xc6, 0xc6, 0xd6, 0xd6, 0xc6, 0xc6, 0x6c, 0x38, 0x0, 0x0, 0x0, 0x0],
  [0x0, 0x0, 0x18, 0x38, 0x78, 0x18, 0x18, 0x18, 0x18, 0x18, 0x18, 0x7e, 0x0, 0x0, 0x0, 0x0],
  [0x0, 0x0, 0x7c, 0xc6, 0x6, 0xc, 0x18, 0x30, 0x60, 0xc0, 0xc6, 0xfe, 0x0, 0x0, 0x0, 0x0],
  [0x0, 0x0, 0x7c, 0xc6, 0x6, 0x6, 0x3c, 0x6, 0x6, 0x6, 0xc6, 0x7c, 0x0, 0x0, 0x0, 0x0],
  [0x0, 0x0, 0xc, 0x1c, 0x3c, 0x6c, 0xcc, 0xfe, 0xc, 0xc, 0xc, 0x1e, 0x0, 0x0, 0x0, 0x0],
  [0x0, 0x0, 0xfe, 0xc0, 0xc0, 0xc0, 0xfc, 0x6, 0x6, 0x6, 0xc6, 0x7c, 0x0, 0x0, 0x0, 0x0],
  [0x0, 0x0, 0x38, 0x60, 0xc0, 0xc0, 0xfc, 0xc6, 0xc6, 0xc6, 0xc6, 0x7c, 0x0, 0x0, 0x0, 0x0],
  [0x0, 0x0, 0xfe, 0xc6, 0x6, 0x6, 0xc, 0x18, 0x30, 0x30, 0x30, 0x30, 0x0, 0x0, 0x0, 0x0],
  [0x0, 0x0, 0x7c, 0xc6, 0xc6, 0xc6, 0x7c, 0xc6, 0xc6, 0xc6, 0xc6, 0x7c, 0x0, 0x0, 0x0, 0x0],
  [0x0, 0x0, 0x7c, 0xc6, 0xc6, 0xc6, 0x7e, 0x6, 0x6, 0x6, 0xc, 0x78, 0x0, 0x0, 0x0, 0x0],
  [0x0, 0x0, 0x0, 0x0, 0x18, 0x18, 0x0, 0x0, 0x0, 0x18, 0x18, 0x0, 0x0, 0x0, 0x0, 0x0],
  [0x0, 0x0, 0x0, 0x0, 0x18, 0x18, 0x0, 0x0, 0x0, 0x18, 0x18, 0x30, 0x0, 0x0, 0x0, 0x0],
  [0x0, 0x0, 0x0, 0x6, 0xc, 0x18, 0x30, 0x60, 0x30, 0x18, 0xc, 0x6, 0x0, 0x0, 0x0, 0x0],
  [0x0, 0x0, 0x0, 0x0, 0x0, 0x7e, 0x0, 0x0, 0x7e, 0x0, 0x0, 0x0, 0x0, 0x0, 0x0, 0x0],
  [0x0, 0x0, 0x0, 0x60, 0x30, 0x18, 0xc, 0x6, 0xc, 0x18, 0x30, 0x60, 0x0, 0x0, 0x0, 0x0],
  [0x0, 0x0, 0x7c, 0xc6, 0xc6, 0xc, 0x18, 0x18, 0x18, 0x0, 0x18, 0x18, 0x0, 0x0, 0x0, 0x0],
  [0x0, 0x0, 0x0, 0x7c, 0xc6, 0xc6, 0xde, 0xde, 0xde, 0xdc, 0xc0, 0x7c, 0x0, 0x0, 0x0, 0x0],
  [0x0, 0x0, 0x10, 0x38, 0x6c, 0xc6, 0xc6, 0xfe, 0xc6, 0xc6, 0xc6, 0xc6, 0x0, 0x0, 0x0, 0x0],
  [0x0, 0x0, 0xfc, 0x66, 0x66, 0x66, 0x7c, 0x66, 0x66, 0x66, 0x66, 0xfc, 0x0, 0x0, 0x0, 0x0],
  [0x0, 0x0, 0x3c, 0x66, 0xc2, 0xc0, 0xc0, 0xc0, 0xc0, 0xc2, 0x66, 0x3c, 0x0, 0x0, 0x0, 0x0],
  [0x0, 0x0, 0xf8, 0x6c, 0x66, 0x66, 0x66, 0x66, 0x66, 0x66, 0x6c, 0xf8, 0x0, 0x0, 0x0, 0x0],
  [0x0, 0x0, 0xfe, 0x66, 0x62, 0x68, 0x78, 0x68, 0x60, 0x62, 0x66, 0xfe, 0x0, 0x0, 0x0, 0x0],
  [0x0, 0x0, 0xfe, 0x66, 0x62, 0x68, 0x78, 0x68, 0x60, 0x60, 0x60, 0xf0, 0x0, 0x0, 0x0, 0x0],
  [0x0, 0x0, 0x3c, 0x66, 0xc2, 0xc0, 0xc0, 0xde, 0xc6, 0xc6, 0x66, 0x3a, 0x0, 0x0, 0x0, 0x0],
  [0x0, 0x0, 0xc6, 0xc6, 0xc6, 0xc6, 0xfe, 0xc6, 0xc6, 0xc6, 0xc6, 0xc6, 0x0, 0x0, 0x0, 0x0],
  [0x0, 0x0, 0x3c, 0x18, 0x18, 0x18, 0x18, 0x18, 0x18, 0x18, 0x18, 0x3c, 0x0, 0x0, 0x0, 0x0],
  [0x0, 0x0, 0x1e, 0xc, 0xc, 0xc, 0xc, 0xc, 0xcc, 0xcc, 0xcc, 0x78, 0x0, 0x0, 0x0, 0x0],
  [0x0, 0x0, 0xe6, 0x66, 0x66, 0x6c, 0x78, 0x78, 0x6c, 0x66, 0x66, 0xe6, 0x0, 0x0, 0x0, 0x0],
  [0x0, 0x0, 0xf0, 0x60, 0x60, 0x60, 0x60, 0x60, 0x60, 0x62, 0x66, 0xfe, 0x0, 0x0, 0x0, 0x0],
  [0x0, 0x0, 0xc6, 0xee, 0xfe, 0xfe, 0xd6, 0xc6, 0xc6, 0xc6, 0xc6, 0xc6, 0x0, 0x0, 0x0, 0x0],
  [0x0, 0x0, 0xc6, 0xe6, 0xf6, 0xfe, 0xde, 0xce, 0xc6, 0xc6, 0xc6, 0xc6, 0x0, 0x0, 0x0, 0x0],
  [0x0, 0x0, 0x7c, 0xc6, 0xc6, 0xc6, 0xc6, 0xc6, 0xc6, 0xc6, 0xc6, 0x7c, 0x0, 0x0, 0x0, 0x0],
  [0x0, 0x0, 0xfc, 0x66, 0x66, 0x66, 0x7c, 0x60, 0x60, 0x60, 0x60, 0xf0, 0x0, 0x0, 0x0, 0x0],
  [0x0, 0x0, 0x7c, 0xc6, 0xc6, 0xc6, 0xc6, 0xc6, 0xc6, 0xd6, 0xde, 0x7c, 0xc, 0xe, 0x0, 0x0],
  [0x0, 0x0, 0xfc, 0x66, 0x66, 0x66, 0x7c, 0x6c, 0x66, 0x66, 0x66, 0xe6, 0x0, 0x0, 0x0, 0x0],
  [0x0, 0x0, 0x7c, 0xc6, 0xc6, 0x60, 0x38, 0xc, 0x6, 0xc6, 0xc6, 0x7c, 0x0, 0x0, 0x0, 0x0],
  [0x0, 0x0, 0x7e, 0x7e, 0x5a, 0x18, 0x18, 0x18, 0x18, 0x18, 0x18, 0x3c, 0x0, 0x0, 0x0, 0x0],
  [0x0, 0x0, 0xc6, 0xc6, 0xc6, 0xc6, 0xc6, 0xc6, 0xc6, 0xc6, 0xc6, 0x7c, 0x0, 0x0, 0x0, 0x0],
  [0x0, 0x0, 0xc6, 0xc6, 0xc6, 0xc6, 0xc6, 0xc6, 0xc6, 0x6c, 0x38, 0x10, 0x0, 0x0, 0x0, 0x0],
  [0x0, 0x0, 0xc6, 0xc6, 0xc6, 0xc6, 0xd6, 0xd6, 0xd6, 0xfe, 0xee, 0x6c, 0x0, 0x0, 0x0, 0x0],
  [0x0, 0x0, 0xc6, 0xc6, 0x6c, 0x7c, 0x38, 0x38, 0x7c, 0x6c, 0xc6, 0xc6, 0x0, 0x0, 0x0, 0x0],
  [0x0, 0x0, 0x66, 0x66, 0x66, 0x66, 0x3c, 0x18, 0x18, 0x18, 0x18, 0x3c, 0x0, 0x0, 0x0, 0x0],
  [0x0, 0x0, 0xfe, 0xc6, 0x86, 0xc, 0x18, 0x30, 0x60, 0xc2, 0xc6, 0xfe, 0x0, 0x0, 0x0, 0x0],
  [0x0, 0x0, 0x3c, 0x30, 0x30, 0x30, 0x30, 0x30, 0x30, 0x30, 0x30, 0x3c, 0x0, 0x0, 0x0, 0x0],
  [0x0, 0x0, 0x0, 0x80, 0xc0, 0xe0, 0x70, 0x38, 0x1c, 0xe, 0x6, 0x2, 0x0, 0x0, 0x0, 0x0],
  [0x0, 0x0, 0x3c, 0xc, 0xc, 0xc, 0xc, 0xc, 0xc, 0xc, 0xc, 0x3c, 0x0, 0x0, 0x0, 0x0],
  [0x10, 0x38, 0x6c, 0xc6, 0x0, 0x0, 0x0, 0x0, 0x0, 0x0, 0x0, 0x0, 0x0, 0x0, 0x0, 0x0],
  [0x0, 0x0, 0x0, 0x0, 0x0, 0x0, 0x0, 0x0, 0x0, 0x0, 0x0, 0x0, 0x0, 0xff, 0x0, 0x0],
  [0x30, 0x30, 0x18, 0x0, 0x0, 0x0, 0x0, 0x0, 0x0, 0x0, 0x0, 0x0, 0x0, 0x0, 0x0, 0x0],
  [0x0, 0x0, 0x0, 0x0, 0x0, 0x78, 0xc, 0x7c, 0xcc, 0xcc, 0xcc, 0x76, 0x0, 0x0, 0x0, 0x0],
  [0x0, 0x0, 0xe0, 0x60, 0x60, 0x78, 0x6c, 0x66, 0x66, 0x66, 0x66, 0x7c, 0x0, 0x0, 0x0, 0x0],
  [0x0, 0x0, 0x0, 0x0, 0x0, 0x7c, 0xc6, 0xc0, 0xc0, 0xc0, 0xc6, 0x7c, 0x0, 0x0, 0x0, 0x0],
  [0x0, 0x0, 0x1c, 0xc, 0xc, 0x3c, 0x6c, 0xcc, 0xcc, 0xcc, 0xcc, 0x76, 0x0, 0x0, 0x0, 0x0],
  [0x0, 0x0, 0x0, 0x0, 0x0, 0x7c, 0xc6, 0xfe, 0xc0, 0xc0, 0xc6, 0x7c, 0x0, 0x0, 0x0, 0x0],
  [0x0, 0x0, 0x38, 0x6c, 0x64, 0x60, 0xf0, 0x60, 0x60, 0x60, 0x60, 0xf0, 0x0, 0x0, 0x0, 0x0],
  [0x0, 0x0, 0x0, 0x0, 0x0, 0x76, 0xcc, 0xcc, 0xcc, 0xcc, 0xcc, 0x7c, 0xc, 0xcc, 0x78, 0x0],
  [0x0, 0x0, 0xe0, 0x60, 0x60, 0x6c, 0x76, 0x66, 0x66, 0x66, 0x66, 0xe6, 0x0, 0x0, 0x0, 0x0],
  [0x0, 0x0, 0x18, 0x18, 0x0, 0x38, 0x18, 0x18, 0x18, 0x18, 0x18, 0x3c, 0x0, 0x0, 0x0, 0x0],
  [0x0, 0x0, 0x6, 0x6, 0x0, 0xe, 0x6, 0x6, 0x6, 0x6, 0x6, 0x6, 0x66, 0x66, 0x3c, 0x0],
  [0x0, 0x0, 0xe0, 0x60, 0x60, 0x66, 0x6c, 0x78, 0x78, 0x6c, 0x66, 0xe6, 0x0, 0x0, 0x0, 0x0],
  [0x0, 0x0, 0x38, 0x18, 0x18, 0x18, 0x18, 0x18, 0x18, 0x18, 0x18, 0x3c, 0x0, 0x0, 0x0, 0x0],
  [0x0, 0x0, 0x0, 0x0, 0x0, 0xec, 0xfe, 0xd6, 0xd6, 0xd6, 0xd6, 0xc6, 0x0, 0x0, 0x0, 0x0],
  [0x0, 0x0, 0x0, 0x0, 0x0, 0xdc, 0x66, 0x66, 0x66, 0x66, 0x66, 0x66, 0x0, 0x0, 0x0, 0x0],
  [0x0, 0x0, 0x0, 0x0, 0x0, 0x7c, 0xc6, 0xc6, 0xc6, 0xc6, 0xc6, 0x7c, 0x0, 0x0, 0x0, 0x0],
  [0x0, 0x0, 0x0, 0x0, 0x0, 0xdc, 0x66, 0x66, 0x66, 0x66, 0x66, 0x7c, 0x60, 0x60, 0xf0, 0x0],
  [0x0, 0x0, 0x0, 0x0, 0x0, 0x76, 0xcc, 0xcc, 0xcc, 0xcc, 0xcc, 0x7c, 0xc, 0xc, 0x1e, 0x0],
  [0x0, 0x0, 0x0, 0x0, 0x0, 0xdc, 0x76, 0x66, 0x60, 0x60, 0x60, 0xf0, 0x0, 0x0, 0x0, 0x0],
  [0x0, 0x0, 0x0, 0x0, 0x0, 0x7c, 0xc6, 0x60, 0x38, 0xc, 0xc6, 0x7c, 0x0, 0x0, 0x0, 0x0],
  [0x0, 0x0, 0x10, 0x30, 0x30, 0xfc, 0x30, 0x30, 0x30, 0x30, 0x36, 0x1c, 0x0, 0x0, 0x0, 0x0],
  [0x0, 0x0, 0x0, 0x0, 0x0, 0xcc, 0xcc, 0xcc, 0xcc, 0xcc, 0xcc, 0x76, 0x0, 0x0, 0x0, 0x0],
  [0x0, 0x0, 0x0, 0x0, 0x0, 0x66, 0x66, 0x66, 0x66, 0x66, 0x3c, 0x18, 0x0, 0x0, 0x0, 0x0],
  [0x0, 0x0, 0x0, 0x0, 0x0, 0xc6, 0xc6, 0xd6, 0xd6, 0xd6, 0xfe, 0x6c, 0x0, 0x0, 0x0, 0x0],
  [0x0, 0x0, 0x0, 0x0, 0x0, 0xc6, 0x6c, 0x38, 0x38, 0x38, 0x6c, 0xc6, 0x0, 0x0, 0x0, 0x0],
  [0x0, 0x0, 0x0, 0x0, 0x0, 0xc6, 0xc6, 0xc6, 0xc6, 0xc6, 0xc6, 0x7e, 0x6, 0xc, 0xf8, 0x0],
  [0x0, 0x0, 0x0, 0x0, 0x0, 0xfe, 0xcc, 0x18, 0x30, 0x60, 0xc6, 0xfe, 0x0, 0x0, 0x0, 0x0],
  [0x0, 0x0, 0xe, 0x18, 0x18, 0x18, 0x70, 0x18, 0x18, 0x18, 0x18, 0xe, 0x0, 0x0, 0x0, 0x0],
  [0x0, 0x0, 0x18, 0x18, 0x18, 0x18, 0x0, 0x18, 0x18, 0x18, 0x18, 0x18, 0x0, 0x0, 0x0, 0x0],
  [0x0, 0x0, 0x70, 0x18, 0x18, 0x18, 0xe, 0x18, 0x18, 0x18, 0x18, 0x70, 0x0, 0x0, 0x0, 0x0],
  [0x0, 0x0, 0x76, 0xdc, 0x0, 0x0, 0x0, 0x0, 0x0, 0x0, 0x0, 0x0, 0x0, 0x0, 0x0, 0x0]]

/-- `FONT_VGA8X16` (std/src/gfx/lcd/fonts/font_vga8x16.rs 1666-1671). -/
def fontVga8x16 : Font := ⟨8, 16, 1, fontVga8x16Glyphs.flatten.map (BitVec.ofNat 8)⟩

/-- `Fonts::all` (std/src/gfx/lcd/fonts/mod.rs 81-87): a hash map, here in the order of insertion. -/
def allFonts : List (Str × Font) :=
  [("5x8".toList, font5x8), ("16x16".toList, font16x16), ("vga8x16".toList, fontVga8x16)]

/-- `Fonts::get` (std/src/gfx/lcd/fonts/mod.rs 90-103); the names in the error are sorted. -/
def fontByName (name : Str) : Except Str Font :=
  match allFonts.find? (fun f => f.1 = name) with
  | some f => .ok f.2
  | none => .error ("Unknown font: ".toList ++ name ++ "; valid names are: 16x16, 5x8, vga8x16".toList)

end EB
