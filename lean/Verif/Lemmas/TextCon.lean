import Verif.Spec.TextCon
import Verif.Props.Lcd
/-!
# Lemmas about the text of the graphics console
-/

namespace EB

open Spec
open Edit (Clear)

/-- What is read is what is drawn. -/
theorem readPixels_ok {s : Lcd} {c : Canvas} (h : LcdOk s c) {p : Pt} {w k : Nat} (hp : Within s.width s.height p w k) :
    ∃ data, s.readPixels p w k = some data ∧ data.length = w * k * s.stride ∧
      ∀ q, InRect p w k q → pixelAt s.stride w p data q = c.drawn q := by
  obtain ⟨hc1, hc2⟩ := within_window hp
  obtain ⟨h1, h2, h3, h4, h5, h6⟩ := hp
  obtain ⟨a, ha⟩ : ∃ a : LXY, a = ⟨p.x.toNat, p.y.toNat⟩ := ⟨_, rfl⟩
  obtain ⟨b, hb⟩ : ∃ b : LXY, b = ⟨p.x.toNat + (w - 1), p.y.toNat + (k - 1)⟩ := ⟨_, rfl⟩
  have hab : a.x ≤ b.x ∧ a.y ≤ b.y := by rw [ha, hb]; simp only; omega
  have hbs : OnScreen s b := by rw [hb]; unfold OnScreen; simp only; omega
  have hcol := collect_ok h.mem hab.1 hbs
  have hlenOf : ∀ q, InWindow a b q → (c.drawn q).length = s.stride := by
    rintro q ⟨q1, q2, q3, q4⟩
    exact h.mem.length (by have := hbs.1; omega) (by have := hbs.2; omega)
  obtain ⟨data, hdata⟩ : ∃ data, data = ((Lcd.cells a b).map c.drawn).flatten := ⟨_, rfl⟩
  refine ⟨data, ?_, ?_, fun q hq' => ?_⟩
  · unfold Lcd.readPixels
    rw [hc1, hc2, ← ha, ← hb, hdata]
    exact hcol
  · rw [hdata, flatten_length (n := s.stride) (fun r hr => ?_), List.length_map, cells_eq, List.length_map, List.length_range]
    · have e1 : b.x + 1 - a.x = w := by rw [ha, hb]; simp only; omega
      have e2 : b.y + 1 - a.y = k := by rw [ha, hb]; simp only; omega
      rw [e1, e2, Nat.mul_comm k w]
    · obtain ⟨q, hq, rfl⟩ := List.mem_map.1 hr
      obtain ⟨j, hj⟩ := List.mem_iff_getElem?.1 hq
      exact hlenOf q (cells_mem hab.1 hj).1
  · unfold pixelAt
    have hrw : InWindow a b q := by
      unfold InRect at hq'
      rw [ha, hb]; unfold InWindow; simp only; omega
    rw [hdata, ← window_data hlenOf hab.1 q hrw]
    have i1 : q.y - a.y = ((q.y : Int) - p.y).toNat := by unfold InRect at hq'; rw [ha]; simp only; omega
    have i2 : q.x - a.x = ((q.x : Int) - p.x).toNat := by unfold InRect at hq'; rw [ha]; simp only; omega
    have i3 : b.x - a.x + 1 = w := by rw [ha, hb]; simp only; omega
    rw [i1, i2, i3]

namespace Tele

/-- The things that do not change. -/
structure Setup where
  F : Format
  font : Font
  encode : RGB → List Byte
  width : Nat
  height : Nat
  stride : Nat

/-- What is expected of them. -/
structure Setup.Good (u : Setup) : Prop where
  glyphs : GoodFont u.font
  gw : 0 < u.font.width
  gh : 0 < u.font.height
  wide : u.F.cols * u.font.width ≤ u.width
  high : u.F.rows * u.font.height ≤ u.height
  c1 : 1 ≤ u.F.cols
  r2 : 2 ≤ u.F.rows
  wmax : u.width ≤ 32767
  hmax : u.height ≤ 32767
  enc : ∀ k, (u.encode k).length = u.stride

/-- The state apart from the pixels. -/
structure Base (u : Setup) (s : TextCon) (c : Canvas) (x y : Nat) (fg bg : Option (BitVec 8)) : Prop where
  lcd : LcdOk s.lcd c
  w : s.lcd.width = u.width
  h : s.lcd.height = u.height
  st : s.lcd.stride = u.stride
  font : s.font = u.font
  encode : s.encode = u.encode
  cols : s.cols = u.F.cols
  rows : s.rows = u.F.rows
  defFg : s.defFg = u.F.fg
  defBg : s.defBg = u.F.bg
  px : s.x = x
  py : s.y = y
  xle : x ≤ u.F.cols
  ylt : y < u.F.rows
  af : s.ansiFg = fg
  ab : s.ansiBg = bg
  fgc : ansiColorToRgb (fg.getD u.F.fg) = some s.fg
  bgc : ansiColorToRgb (bg.getD u.F.bg) = some s.bg
  sync : s.sync = c.sync

/-- Without syncing nothing is shown. -/
def Still (c c' : Canvas) : Prop := c'.sync = c.sync ∧ (c.sync = false → c'.shown = c.shown)

theorem Still.refl (c : Canvas) : Still c c := ⟨rfl, fun _ => rfl⟩

theorem Still.trans {a b c : Canvas} (h : Still a b) (h' : Still b c) : Still a c :=
  ⟨h'.1.trans h.1, fun e => (h'.2 (h.1.trans e)).trans (h.2 e)⟩

theorem still_draw (c : Canvas) (pic : LXY → List Byte) : Still c (c.draw pic) :=
  ⟨rfl, fun e => by show (if c.sync then _ else _) = _; rw [e]; rfl⟩

theorem still_paint (c : Canvas) (p : LXY → Prop) [DecidablePred p] : Still c (c.paint p) := still_draw _ _

theorem still_color (c : Canvas) (k : List Byte) : Still c { c with color := k } := ⟨rfl, fun _ => rfl⟩

theorem inkOf_eq {encode : RGB → List Byte} {k : BitVec 8} {rgb : RGB} (h : ansiColorToRgb k = some rgb) : inkOf encode k = encode rgb := by
  have hl : colors.length = 256 := by decide +kernel
  unfold ansiColorToRgb at h
  rw [hl, Nat.mod_eq_of_lt (by have := k.isLt; omega)] at h
  unfold inkOf
  rw [h]; rfl

theorem color_some (k : BitVec 8) : ∃ rgb, ansiColorToRgb k = some rgb := by
  have hl : colors.length = 256 := by decide +kernel
  unfold ansiColorToRgb
  refine ⟨colors[k.toNat % colors.length]'(Nat.mod_lt _ (by omega)), ?_⟩
  exact List.getElem?_eq_getElem _

variable {u : Setup} {s : TextCon} {c : Canvas} {x y : Nat} {fg bg : Option (BitVec 8)}

/-- An operation of the LCD. -/
theorem step (b : Base u s c x y fg bg) {op : LcdOp} (ho : Expected u.width u.height u.stride op)
    (hs : (c.perform u.stride op).sync = c.sync) :
    ∃ l, s.ras op = some { s with lcd := l } ∧ Base u { s with lcd := l } (c.perform u.stride op) x y fg bg := by
  obtain ⟨l, h1, h2, h3⟩ := perform_ok (op := op) b.lcd (by rw [b.w, b.h, b.st]; exact ho)
  refine ⟨l, by unfold TextCon.ras; rw [h1]; rfl, ?_⟩
  rw [b.st] at h3
  exact { b with lcd := h3, w := h2.1.trans b.w, h := h2.2.1.trans b.h, st := h2.2.2.trans b.st, sync := b.sync.trans hs.symm }

theorem ink_ok (hu : u.Good) (b : Base u s c x y fg bg) (k : RGB) :
    ∃ l, s.ink k = some { s with lcd := l } ∧ Base u { s with lcd := l } { c with color := u.encode k } x y fg bg := by
  have e : s.ink k = s.ras (.setColor (u.encode k)) := by unfold TextCon.ink; rw [b.encode]
  obtain ⟨l, h1, h2⟩ := step b (op := .setColor (u.encode k)) (hu.enc k) rfl
  exact ⟨l, e.trans h1, h2⟩

theorem le_cell {x c w i : Nat} (hi : i < w) : x * w ≤ c * w + i ↔ x ≤ c := by
  constructor
  · intro h
    by_contra hc
    have : (c + 1) * w ≤ x * w := Nat.mul_le_mul_right _ (by omega)
    rw [Nat.add_mul] at this
    omega
  · intro h
    have := Nat.mul_le_mul_right w h
    omega

theorem clampedMul_ok {a b m : Nat} (h : a * b ≤ m) (hm : m ≤ 32767) : clampedMul a b = ((a * b : Nat) : Int) := if_neg (by omega)

theorem col_le (hu : u.Good) {x : Nat} (hx : x ≤ u.F.cols) : x * u.font.width ≤ u.width := (Nat.mul_le_mul_right _ hx).trans hu.wide

theorem row_le (hu : u.Good) {y : Nat} (hy : y ≤ u.F.rows) : y * u.font.height ≤ u.height := (Nat.mul_le_mul_right _ hy).trans hu.high

theorem place_ok (hu : u.Good) (b : Base u s c x y fg bg) {x' y' : Nat} (hx : x' ≤ u.F.cols) (hy : y' ≤ u.F.rows) :
    s.place x' y' = ⟨((x' * u.font.width : Nat) : Int), ((y' * u.font.height : Nat) : Int)⟩ := by
  unfold TextCon.place
  rw [b.font, clampedMul_ok (col_le hu hx) hu.wmax, clampedMul_ok (row_le hu hy) hu.hmax]

theorem rect_at (hu : u.Good) (b : Base u s c x y fg bg) (hx : x ≤ u.F.cols) :
    s.ras (.rectFilled (s.place s.x s.y) s.font.width s.font.height) =
      s.ras (.rectFilled ⟨((x * u.font.width : Nat) : Int), ((y * u.font.height : Nat) : Int)⟩ u.font.width u.font.height) := by
  congr 2
  · rw [b.px, b.py, place_ok hu b hx (Nat.le_of_lt b.ylt)]
  · rw [b.font]
  · rw [b.font]

/-- The pixels of cells. -/
theorem inRect_cells {x y n r c w h i j : Nat} (hi : i < w) (hj : j < h) :
    InRect ⟨((x * w : Nat) : Int), ((y * h : Nat) : Int)⟩ (n * w) h ⟨c * w + i, r * h + j⟩ ↔ r = y ∧ x ≤ c ∧ c < x + n := by
  have h1 := le_cell (x := x) (c := c) hi
  have h2 := le_cell (x := x + n) (c := c) hi
  have h3 := le_cell (x := y) (c := r) hj
  have h4 := le_cell (x := y + 1) (c := r) hj
  rw [Nat.add_mul] at h2 h4
  rw [Nat.one_mul] at h4
  unfold InRect
  simp only
  omega

theorem inRect_cell {x y r c w h i j : Nat} (hi : i < w) (hj : j < h) :
    InRect ⟨((x * w : Nat) : Int), ((y * h : Nat) : Int)⟩ w h ⟨c * w + i, r * h + j⟩ ↔ r = y ∧ c = x := by
  have := inRect_cells (x := x) (y := y) (n := 1) (r := r) (c := c) hi hj
  rw [Nat.one_mul] at this
  rw [this]; omega

/-- The pixels are those of the cells. -/
def Tiles (u : Setup) (pic : LXY → List Byte) (tile : Nat → Nat → Tile) : Prop :=
  ∀ r < u.F.rows, ∀ c < u.F.cols, ∀ i < u.font.width, ∀ j < u.font.height,
    pic ⟨c * u.font.width + i, r * u.font.height + j⟩ = (tile r c).pixel u.font u.encode i j

/-- The foreground and the background colors as numbers. -/
def inkNo (u : Setup) (fg : Option (BitVec 8)) : BitVec 8 := fg.getD u.F.fg

/-- See `inkNo`. -/
def paperNo (u : Setup) (bg : Option (BitVec 8)) : BitVec 8 := bg.getD u.F.bg

theorem pixel_empty (k : BitVec 8) (i j : Nat) : (Tile.empty k).pixel u.font u.encode i j = inkOf u.encode k := rfl

/-- Cells are emptied. -/
theorem wipe_ok (hu : u.Good) (b : Base u s c x y fg bg) {tile : Nat → Nat → Tile} (ht : Tiles u c.drawn tile) {p : Pt} {w h : Nat}
    (ho : Expected u.width u.height u.stride (.rectFilled p w h)) {which : Nat → Nat → Prop} [∀ r c, Decidable (which r c)]
    (hr : ∀ r < u.F.rows, ∀ c < u.F.cols, ∀ i < u.font.width, ∀ j < u.font.height,
      InRect p w h ⟨c * u.font.width + i, r * u.font.height + j⟩ ↔ which r c) :
    ∃ l c', (s.ink s.bg).bind (fun s => s.ras (.rectFilled p w h)) = some { s with lcd := l } ∧ Still c c' ∧
      Base u { s with lcd := l } c' x y fg bg ∧
      Tiles u c'.drawn (fun r c => if which r c then .empty (paperNo u bg) else tile r c) := by
  obtain ⟨l, h1, h2⟩ := ink_ok hu b s.bg
  obtain ⟨l', h3, h4⟩ := step h2 ho rfl
  refine ⟨l', _, by rw [h1]; exact h3, ((still_color _ _).trans (still_paint _ _)), h4, fun r hr' q hq i hi j hj => ?_⟩
  show (if InRect p w h _ then u.encode s.bg else c.drawn _) = _
  simp only [hr r hr' q hq i hi j hj]
  by_cases hw : which r q
  · rw [if_pos hw, if_pos hw, pixel_empty]
    exact (inkOf_eq b.bgc).symm
  · rw [if_neg hw, if_neg hw]
    exact ht r hr' q hq i hi j hj

/-- The picture with or without the cursor. -/
def Cursor (u : Setup) (s : TextCon) (c : Canvas) (sh : Sheet) : Prop :=
  match sh.cursor with
  | none => s.visible = false ∧ s.backup = none ∧ Tiles u c.drawn sh.tile
  | some k => s.visible = true ∧ sh.x < u.F.cols ∧
    (∃ data, s.backup = some data ∧ data.length = u.font.width * u.font.height * u.stride ∧
      ∀ i < u.font.width, ∀ j < u.font.height,
        pixelAt u.stride u.font.width ⟨((sh.x * u.font.width : Nat) : Int), ((sh.y * u.font.height : Nat) : Int)⟩ data
          ⟨sh.x * u.font.width + i, sh.y * u.font.height + j⟩ = (sh.tile sh.y sh.x).pixel u.font u.encode i j) ∧
    Depicts u.F u.font u.encode c.drawn { sh with cursor := some k }

theorem within_cell (hu : u.Good) (hx : x < u.F.cols) (hy : y < u.F.rows) :
    Within u.width u.height ⟨((x * u.font.width : Nat) : Int), ((y * u.font.height : Nat) : Int)⟩ u.font.width u.font.height := by
  have h1 := col_le hu (x := x + 1) (by omega)
  have h2 := row_le hu (y := y + 1) (by omega)
  have := hu.gw
  have := hu.gh
  rw [Nat.add_mul, Nat.one_mul] at h1 h2
  unfold Within
  simp only
  omega

/-- The cursor is taken away. -/
theorem clearCursor_ok (hu : u.Good) {sh : Sheet} (b : Base u s c sh.x sh.y fg bg) (h : Cursor u s c sh) :
    ∃ l c', s.clearCursor = some { s with lcd := l, backup := none } ∧ Still c c' ∧
      Base u { s with lcd := l, backup := none } c' sh.x sh.y fg bg ∧ Tiles u c'.drawn sh.tile := by
  unfold Cursor at h
  cases hc : sh.cursor with
  | none =>
    rw [hc] at h
    obtain ⟨h1, h2, h3⟩ := h
    have e : s.clearCursor = some s := by unfold TextCon.clearCursor; rw [h1]
    have e' : s = { s with lcd := s.lcd, backup := none } := by rw [← h2]
    exact ⟨s.lcd, c, e.trans (congrArg some e'), .refl c, { b with }, h3⟩
  | some k =>
    rw [hc] at h
    obtain ⟨h1, hx, ⟨data, h2, h3, h4⟩, h5⟩ := h
    have e : s.clearCursor = (s.ras (.put ⟨((sh.x * u.font.width : Nat) : Int), ((sh.y * u.font.height : Nat) : Int)⟩ data u.font.width u.font.height)).bind
        fun s => some { s with backup := none } := by
      unfold TextCon.clearCursor
      rw [h1, h2]
      simp only
      rw [b.px, b.py, place_ok hu b (Nat.le_of_lt hx) (Nat.le_of_lt b.ylt), b.font]
      rfl
    obtain ⟨l, e1, e2⟩ := step b (op := .put ⟨((sh.x * u.font.width : Nat) : Int), ((sh.y * u.font.height : Nat) : Int)⟩ data u.font.width u.font.height)
      ⟨within_cell hu hx b.ylt, h3⟩ rfl
    refine ⟨l, _, by rw [e, e1]; rfl, still_draw _ _, { e2 with }, fun r hr q hq i hi j hj => ?_⟩
    show (if InRect _ _ _ _ then _ else c.drawn _) = _
    simp only [inRect_cell hi hj]
    by_cases hh : r = sh.y ∧ q = sh.x
    · rw [if_pos hh, hh.1, hh.2]
      exact h4 i hi j hj
    · rw [if_neg hh, h5 r hr q hq i hi j hj]
      unfold Sheet.pixel
      simp only
      rw [if_neg hh]

/-- The cursor is drawn. -/
theorem drawCursor_ok (hu : u.Good) {sh : Sheet} (b : Base u s c sh.x sh.y fg bg) (hb : s.backup = none) (ht : Tiles u c.drawn sh.tile)
    (hv : s.visible = sh.cursor.isSome) (hx : sh.cursor.isSome → sh.x < u.F.cols) :
    ∃ l c' back, s.drawCursor = some { s with lcd := l, backup := back } ∧ Still c c' ∧
      Base u { s with lcd := l, backup := back } c' sh.x sh.y fg bg ∧
      Cursor u { s with lcd := l, backup := back } c' { sh with cursor := sh.cursor.map fun _ => inkNo u fg } := by
  unfold Cursor
  cases hc : sh.cursor with
  | none =>
    rw [hc] at hv
    have hv : s.visible = false := hv
    have e : s.drawCursor = some s := by unfold TextCon.drawCursor; rw [hv]; rfl
    have e' : s = { s with lcd := s.lcd, backup := none } := by rw [← hb]
    exact ⟨s.lcd, c, none, e.trans (congrArg some e'), .refl c, { b with }, hv, rfl, ht⟩
  | some k =>
    rw [hc] at hv hx
    have hv : s.visible = true := hv
    have hx := hx rfl
    have hw := within_cell hu hx b.ylt
    have e : s.drawCursor = (s.lcd.readPixels ⟨((sh.x * u.font.width : Nat) : Int), ((sh.y * u.font.height : Nat) : Int)⟩ u.font.width u.font.height).bind fun data =>
        (({ s with backup := some data } : TextCon).ink s.fg).bind fun s =>
          s.ras (.rectFilled (s.place s.x s.y) s.font.width s.font.height) := by
      have e' := place_ok hu b (Nat.le_of_lt hx) (Nat.le_of_lt b.ylt)
      rw [← e', ← b.px, ← b.py, ← b.font]
      unfold TextCon.drawCursor
      rw [if_neg (by rw [hv]; decide), if_neg (by rw [hb]; decide)]
      rfl
    obtain ⟨data, d1, d2, d3⟩ := readPixels_ok b.lcd (by rw [b.w, b.h]; exact hw)
    obtain ⟨l, e1, e2⟩ := ink_ok hu (s := { s with backup := some data }) { b with } s.fg
    obtain ⟨l', e3, e4⟩ := step e2 (op := .rectFilled ⟨((sh.x * u.font.width : Nat) : Int), ((sh.y * u.font.height : Nat) : Int)⟩ u.font.width u.font.height)
      ⟨hu.gw, hu.gh, by unfold Within at hw; omega, by unfold Within at hw; omega⟩ rfl
    have e5 := (rect_at hu e2 (Nat.le_of_lt hx)).trans e3
    refine ⟨l', _, some data, ?_, (still_color _ _).trans (still_paint _ _), e4, hv, hx, ⟨data, rfl, by rw [d2, b.st], fun i hi j hj => ?_⟩, ?_⟩
    · rw [e, d1, Option.bind_some, e1, Option.bind_some]
      exact e5
    · show pixelAt u.stride u.font.width ⟨((sh.x * u.font.width : Nat) : Int), ((sh.y * u.font.height : Nat) : Int)⟩ data _ = _
      rw [← b.st, d3 _ ((inRect_cell hi hj).2 ⟨rfl, rfl⟩)]
      exact ht _ b.ylt _ hx i hi j hj
    · intro r hr q hq i hi j hj
      show (if InRect _ _ _ _ then u.encode s.fg else c.drawn _) = if r = sh.y ∧ q = sh.x then inkOf u.encode (inkNo u fg) else _
      simp only [inRect_cell hi hj]
      by_cases hh : r = sh.y ∧ q = sh.x
      · rw [if_pos hh, if_pos hh]
        exact (inkOf_eq b.fgc).symm
      · rw [if_neg hh, if_neg hh]
        exact ht r hr q hq i hi j hj

/-- The parts that the text does not change. -/
structure Frame (s s' : TextCon) : Prop where
  visible : s'.visible = s.visible
  alt : s'.alt = s.alt
  sync : s'.sync = s.sync

theorem Frame.trans {a b c : TextCon} (h : Frame a b) (h' : Frame b c) : Frame a c :=
  ⟨h'.visible.trans h.visible, h'.alt.trans h.alt, h'.sync.trans h.sync⟩

theorem clampedMulU_ok {a b m : Nat} (h : a * b ≤ m) (hm : m ≤ 32767) : clampedMulU a b = a * b := if_neg (by omega)

theorem clampedInto_ok {a m : Nat} (h : a ≤ m) (hm : m ≤ 32767) : clampedInto a = (a : Int) := if_neg (by omega)

/-- The state without the cursor. -/
structure Bare (u : Setup) (s : TextCon) (c : Canvas) (sh : Sheet) (fg bg : Option (BitVec 8)) : Prop where
  base : Base u s c sh.x sh.y fg bg
  backup : s.backup = none
  tiles : Tiles u c.drawn sh.tile

/-- The next line. -/
theorem openLine_ok (hu : u.Good) {sh : Sheet} (b : Bare u s c sh fg bg) :
    ∃ s' c', s.openLine = some s' ∧ Frame s s' ∧ Still c c' ∧ Bare u s' c' (sh.newLine u.F (paperNo u bg)) fg bg := by
  obtain ⟨b, hb, ht⟩ := b
  have hr := hu.r2
  have hy := b.ylt
  unfold Sheet.newLine
  have e0 : ¬ s.rows = 0 := by rw [b.rows]; omega
  unfold TextCon.openLine
  rw [if_neg e0]
  by_cases hl : sh.y + 1 < u.F.rows
  · rw [if_pos hl, if_pos (by rw [b.rows, b.py]; omega)]
    refine ⟨_, c, rfl, ⟨rfl, rfl, rfl⟩, .refl c, { b with px := rfl, py := by show s.y + 1 = _; rw [b.py], xle := Nat.zero_le _, ylt := hl }, hb, ht⟩
  · rw [if_neg hl, if_neg (by rw [b.rows, b.py]; omega)]
    have hh := row_le hu (y := u.F.rows) (Nat.le_refl _)
    have hm := hu.hmax
    have hg := hu.gh
    have hw0 : 0 < u.width := by
      have h1 := hu.wide
      have h2 := Nat.mul_le_mul_right u.font.width hu.c1
      have h3 := hu.gw
      omega
    have h2 : 2 * u.font.height ≤ u.F.rows * u.font.height := Nat.mul_le_mul_right _ hr
    have eh : clampedMulU s.rows s.font.height = u.F.rows * u.font.height := by
      rw [b.rows, b.font]; exact clampedMulU_ok hh hm
    have eg : clampedInto s.font.height = (u.font.height : Int) := by
      rw [b.font]; exact clampedInto_ok (m := u.height) (by omega) hm
    have et : clampedInto (u.F.rows * u.font.height) = ((u.F.rows * u.font.height : Nat) : Int) := clampedInto_ok hh hm
    simp only [eh]
    rw [if_neg (by rw [b.font]; omega)]
    obtain ⟨l, e1, e2⟩ := ink_ok hu b s.bg
    obtain ⟨l', e3, e4⟩ := step e2 (op := .move ⟨0, (u.font.height : Int)⟩ ⟨0, 0⟩ u.width (u.F.rows * u.font.height - u.font.height))
      (by unfold Expected Within; simp only; omega) rfl
    -- the picture after the rows have moved
    have hmoved : Tiles u (({ c with color := u.encode s.bg } : Canvas).perform u.stride (.move ⟨0, (u.font.height : Int)⟩ ⟨0, 0⟩ u.width (u.F.rows * u.font.height - u.font.height))).drawn
        (fun r c => if r + 1 < u.F.rows then sh.tile (r + 1) c else Tile.empty (paperNo u bg)) := by
      intro r hr' q hq i hi j hj
      have hx := le_cell (x := u.F.cols) (c := q) hi
      have hwd := hu.wide
      have hy1 := le_cell (x := u.F.rows) (c := r + 1) hj
      have hy2 := le_cell (x := u.F.rows) (c := r) hj
      have hy3 : (r + 1) * u.font.height = r * u.font.height + u.font.height := by rw [Nat.add_mul, Nat.one_mul]
      have hy4 := le_cell (x := 1) (c := r) hj
      show (if InRect _ _ _ _ then c.drawn _ else if InRect _ _ _ _ then u.encode s.bg else c.drawn _) = _
      by_cases hlast : r + 1 < u.F.rows
      · rw [if_pos (by unfold InRect; simp only; omega)]
        simp only
        rw [if_pos hlast, ← ht (r + 1) hlast q hq i hi j hj]
        congr 1
        have a1 : (((q * u.font.width + i : Nat) : Int) - 0 + 0).toNat = q * u.font.width + i := by omega
        have a2 : (((r * u.font.height + j : Nat) : Int) - 0 + (u.font.height : Int)).toNat = (r + 1) * u.font.height + j := by omega
        rw [a1, a2]
      · rw [if_neg (by unfold InRect; simp only; omega), if_pos (by unfold InRect; simp only; omega)]
        simp only
        rw [if_neg hlast, pixel_empty]
        exact (inkOf_eq b.bgc).symm
    rw [e1]
    simp only [Option.bind_eq_bind, Option.bind_some]
    have e3' : ({ s with lcd := l } : TextCon).ras (.move ⟨0, clampedInto s.font.height⟩ ⟨0, 0⟩ l.width (u.F.rows * u.font.height - s.font.height)) = some { s with lcd := l' } := by
      rw [eg, show l.width = u.width from e2.w, show s.font.height = u.font.height by rw [b.font]]
      exact e3
    rw [e3']
    simp only [Option.bind_some]
    rw [show l'.height = u.height from e4.h, show l'.width = u.width from e4.w, et]
    by_cases hlow : u.F.rows * u.font.height < u.height
    · rw [if_pos hlow]
      obtain ⟨l'', e5, e6⟩ := step e4 (op := .rectFilled ⟨0, ((u.F.rows * u.font.height : Nat) : Int)⟩ u.width (u.height - u.F.rows * u.font.height))
        (by unfold Expected; simp only; omega) rfl
      rw [e5]
      simp only [Option.bind_some]
      refine ⟨_, _, rfl, ⟨rfl, rfl, rfl⟩, ((still_color _ _).trans (still_draw _ _)).trans (still_paint _ _), { e6 with px := rfl, xle := Nat.zero_le _ }, hb, ?_⟩
      intro r hr' q hq i hi j hj
      show (if InRect _ _ _ _ then _ else _) = _
      have hy2 := le_cell (x := u.F.rows) (c := r) hj
      rw [if_neg (by unfold InRect; simp only; omega)]
      exact hmoved r hr' q hq i hi j hj
    · rw [if_neg hlow]
      exact ⟨_, _, rfl, ⟨rfl, rfl, rfl⟩, (still_color _ _).trans (still_draw _ _), { e4 with px := rfl, xle := Nat.zero_le _ }, hb, hmoved⟩

/-- Text that fits. -/
theorem writeFit_ok (hu : u.Good) {sh : Sheet} (b : Bare u s c sh fg bg) {text : Str} (hlen : sh.x + text.length ≤ u.F.cols) :
    ∃ s' c', s.writeFit text = some s' ∧ Frame s s' ∧ Still c c' ∧ Bare u s' c' { sh with
      x := sh.x + text.length
      tile := fun r c => if r = sh.y ∧ sh.x ≤ c ∧ c < sh.x + text.length then ⟨text[c - sh.x]?, inkNo u fg, paperNo u bg⟩ else sh.tile r c } fg bg := by
  obtain ⟨b, hb, ht⟩ := b
  have hy := b.ylt
  have hw := hu.wide
  have hm := hu.wmax
  have hx1 := Nat.mul_le_mul_right u.font.width hlen
  rw [Nat.add_mul] at hx1
  unfold TextCon.writeFit
  rw [if_neg (by
    have : text.length * 1 ≤ text.length * u.font.width := Nat.mul_le_mul_left _ hu.gw
    omega)]
  by_cases h0 : text.length = 0
  · rw [if_pos h0]
    refine ⟨s, c, rfl, ⟨rfl, rfl, rfl⟩, .refl c, { b with px := ?_, xle := ?_ }, hb, ?_⟩
    · rw [h0]; exact b.px
    · exact hlen
    · intro r hr q hq i hi j hj
      simp only
      rw [if_neg (by omega)]
      exact ht r hr q hq i hi j hj
  · rw [if_neg h0]
    have hxs : sh.x < u.F.cols := by omega
    have hwi := within_cell hu hxs hy
    unfold Within at hwi
    simp only at hwi
    have ep : ∀ l, ({ s with lcd := l } : TextCon).place s.x s.y = ⟨((sh.x * u.font.width : Nat) : Int), ((sh.y * u.font.height : Nat) : Int)⟩ := by
      intro l
      have := place_ok hu b (Nat.le_of_lt hxs) (Nat.le_of_lt hy)
      rw [← this, b.px, b.py]
      rfl
    have ef : clampedMulU text.length s.font.width = text.length * u.font.width := by
      rw [b.font]; exact clampedMulU_ok (m := u.width) (by omega) hm
    have hpos : 0 < text.length * u.font.width := Nat.mul_pos (by omega) hu.gw
    obtain ⟨l1, a1, b1⟩ := ink_ok hu b s.bg
    obtain ⟨l2, a2, b2⟩ := step b1 (op := .rectFilled ⟨((sh.x * u.font.width : Nat) : Int), ((sh.y * u.font.height : Nat) : Int)⟩ (text.length * u.font.width) u.font.height)
      ⟨hpos, hu.gh, by simp only; omega, by simp only; omega⟩ rfl
    obtain ⟨l3, a3, b3⟩ := ink_ok hu b2 s.fg
    obtain ⟨l4, a4, b4⟩ := step b3 (op := .text u.font ⟨((sh.x * u.font.width : Nat) : Int), ((sh.y * u.font.height : Nat) : Int)⟩ text)
      ⟨hu.glyphs, by simp only; omega, by simp only; omega, by
        simp only
        have : (u.font.width : Int) * (text.length : Int) = ((text.length * u.font.width : Nat) : Int) := by push_cast; ring
        rw [this]; omega, by have := hu.hmax; simp only; omega⟩ rfl
    have a2' : ({ s with lcd := l1 } : TextCon).ras (.rectFilled (({ s with lcd := l1 } : TextCon).place s.x s.y) (clampedMulU text.length s.font.width) s.font.height) = some { s with lcd := l2 } := by
      rw [ep, ef, show s.font.height = u.font.height by rw [b.font]]
      exact a2
    have a4' : ({ s with lcd := l3 } : TextCon).ras (.text s.font (({ s with lcd := l3 } : TextCon).place s.x s.y) text) = some { s with lcd := l4 } := by
      have hf : LcdOp.text s.font (({ s with lcd := l3 } : TextCon).place s.x s.y) text = .text u.font ⟨((sh.x * u.font.width : Nat) : Int), ((sh.y * u.font.height : Nat) : Int)⟩ text := by
        rw [ep, b.font]
      rw [hf]; exact a4
    rw [a1]
    simp only [Option.bind_eq_bind, Option.bind_some]
    rw [a2']
    simp only [Option.bind_some]
    rw [a3]
    simp only [Option.bind_some]
    rw [a4']
    simp only [Option.bind_some]
    refine ⟨_, _, rfl, ⟨rfl, rfl, rfl⟩, (((still_color _ _).trans (still_paint _ _)).trans (still_color _ _)).trans (still_paint _ _),
      { b4 with px := by show s.x + _ = _; rw [b.px], xle := hlen }, hb, ?_⟩
    intro r hr q hq i hi j hj
    show (if lit _ _ _ _ = true then u.encode s.fg else if InRect _ _ _ _ then u.encode s.bg else c.drawn _) = _
    simp only [inRect_cells hi hj]
    have hj2 := le_cell (x := sh.y) (c := r) hj
    have hj3 := le_cell (x := sh.y + 1) (c := r) hj
    rw [Nat.add_mul, Nat.one_mul] at hj3
    have hi2 := le_cell (x := sh.x) (c := q) hi
    by_cases hin : r = sh.y ∧ sh.x ≤ q ∧ q < sh.x + text.length
    · rw [if_pos hin, if_pos hin]
      obtain ⟨h1, h2, h3⟩ := hin
      have hg : text[q - sh.x]? = some (text[q - sh.x]'(by omega)) := List.getElem?_eq_getElem _
      have e1 : (((q * u.font.width + i : Nat) : Int) - ((sh.x * u.font.width : Nat) : Int)).toNat = (q - sh.x) * u.font.width + i := by
        rw [Nat.sub_mul]
        have := Nat.mul_le_mul_right u.font.width h2
        omega
      have e2 : (((r * u.font.height + j : Nat) : Int) - ((sh.y * u.font.height : Nat) : Int)).toNat = j := by rw [h1]; omega
      have e3 : ((q - sh.x) * u.font.width + i) / u.font.width = q - sh.x := by
        rw [Nat.mul_comm, Nat.mul_add_div hu.gw, Nat.div_eq_of_lt hi, Nat.add_zero]
      have e4 : ((q - sh.x) * u.font.width + i) % u.font.width = i := by
        rw [Nat.mul_comm, Nat.mul_add_mod, Nat.mod_eq_of_lt hi]
      unfold lit Tile.pixel
      simp only [e1, e2, e3, e4, hg]
      rw [show decide (((sh.x * u.font.width : Nat) : Int) ≤ ((q * u.font.width + i : Nat) : Int)) = true from decide_eq_true (by omega),
        show decide (((sh.y * u.font.height : Nat) : Int) ≤ ((r * u.font.height + j : Nat) : Int)) = true from decide_eq_true (by omega)]
      simp only [Bool.true_and]
      rw [inkOf_eq (encode := u.encode) (k := inkNo u fg) b.fgc, inkOf_eq (encode := u.encode) (k := paperNo u bg) b.bgc]
    · rw [if_neg hin, if_neg hin]
      rw [if_neg]
      · exact ht r hr q hq i hi j hj
      · unfold lit
        simp only
        intro hl
        simp only [Bool.and_eq_true, decide_eq_true_eq] at hl
        obtain ⟨⟨l1, l2⟩, l3⟩ := hl
        have hq' : sh.x ≤ q := by omega
        have e1 : (((q * u.font.width + i : Nat) : Int) - ((sh.x * u.font.width : Nat) : Int)).toNat = (q - sh.x) * u.font.width + i := by
          rw [Nat.sub_mul]
          have := Nat.mul_le_mul_right u.font.width hq'
          omega
        have e3 : ((q - sh.x) * u.font.width + i) / u.font.width = q - sh.x := by
          rw [Nat.mul_comm, Nat.mul_add_div hu.gw, Nat.div_eq_of_lt hi, Nat.add_zero]
        rw [e1, e3] at l3
        by_cases hr' : r = sh.y
        · rw [List.getElem?_eq_none (by omega)] at l3
          cases l3
        · cases hg : text[q - sh.x]? with
          | none => rw [hg] at l3; cases l3
          | some ch =>
            rw [hg] at l3
            unfold dot at l3
            simp only [Bool.and_eq_true, decide_eq_true_eq] at l3
            obtain ⟨⟨_, l4⟩, _⟩ := l3
            omega

/-- Characters that fit. -/
theorem type_fit {F : Format} {k p : BitVec 8} (text : Str) : ∀ {sh : Sheet}, sh.x + text.length ≤ F.cols →
    text.foldl (Sheet.type F k p) sh = { sh with
      x := sh.x + text.length
      tile := fun r c => if r = sh.y ∧ sh.x ≤ c ∧ c < sh.x + text.length then ⟨(text.map shownChar)[c - sh.x]?, k, p⟩ else sh.tile r c } := by
  induction text with
  | nil =>
    intro sh _
    simp only [List.foldl_nil, List.length_nil, Nat.add_zero]
    have : (fun r c => if r = sh.y ∧ sh.x ≤ c ∧ c < sh.x then ⟨(([] : Str).map shownChar)[c - sh.x]?, k, p⟩ else sh.tile r c) = sh.tile := by
      funext r c
      rw [if_neg (by omega)]
    rw [this]
  | cons ch text ih =>
    intro sh h
    rw [List.length_cons] at h
    rw [List.foldl_cons]
    have e : sh.type F k p ch = { sh with x := sh.x + 1, tile := fun r c => if r = sh.y ∧ c = sh.x then ⟨some (shownChar ch), k, p⟩ else sh.tile r c } := by
      unfold Sheet.type
      rw [if_pos (by omega)]
    rw [e, ih (by simp only; omega)]
    simp only [List.length_cons]
    have hx : sh.x + 1 + text.length = sh.x + (text.length + 1) := by omega
    rw [hx]
    congr 1
    funext r c
    by_cases h1 : r = sh.y ∧ sh.x + 1 ≤ c ∧ c < sh.x + (text.length + 1)
    · rw [if_pos h1, if_pos ⟨h1.1, by omega, h1.2.2⟩]
      have : c - sh.x = (c - (sh.x + 1)) + 1 := by omega
      rw [this, List.map_cons, List.getElem?_cons_succ]
    · rw [if_neg h1]
      by_cases h2 : r = sh.y ∧ c = sh.x
      · rw [if_pos h2, if_pos ⟨h2.1, by omega, by omega⟩, h2.2, Nat.sub_self]
        rfl
      · rw [if_neg h2, if_neg (by omega)]

theorem removeControl_eq (text : Str) : removeControlChars text = text.map shownChar := by
  unfold removeControlChars
  congr 1
  funext ch
  unfold isControl shownChar
  simp only [Bool.or_eq_true, Bool.and_eq_true, decide_eq_true_eq]

theorem newLine_x {F : Format} {p : BitVec 8} (sh : Sheet) : (sh.newLine F p).x = 0 := by
  unfold Sheet.newLine
  split <;> rfl

theorem newLine_cursor {F : Format} {p : BitVec 8} (sh : Sheet) : (sh.newLine F p).cursor = sh.cursor := by
  unfold Sheet.newLine
  split <;> rfl

theorem type_cursor {F : Format} {k p : BitVec 8} (sh : Sheet) (ch : Char) : (sh.type F k p ch).cursor = sh.cursor := by
  unfold Sheet.type
  simp only
  split
  · rfl
  · exact newLine_cursor sh

theorem types_cursor {F : Format} {k p : BitVec 8} (text : Str) : ∀ sh : Sheet, (text.foldl (Sheet.type F k p) sh).cursor = sh.cursor := by
  induction text with
  | nil => intro sh; rfl
  | cons ch text ih => intro sh; rw [List.foldl_cons, ih, type_cursor]

/-- Text. -/
theorem rawWriteLoop_ok (hu : u.Good) (n : Nat) : ∀ {s : TextCon} {c : Canvas} {sh : Sheet} {text : Str}, Bare u s c sh fg bg →
    text.length + (if sh.x < u.F.cols then 1 else 2) ≤ n →
    ∃ s' c', TextCon.rawWriteLoop n s (text.map shownChar) = some s' ∧ Frame s s' ∧ Still c c' ∧
      Bare u s' c' (text.foldl (Sheet.type u.F (inkNo u fg) (paperNo u bg)) sh) fg bg := by
  induction n with
  | zero => intro s c sh text _ h; split at h <;> omega
  | succ n ih =>
    intro s c sh text b hn
    have hxle := b.base.xle
    have hc1 := hu.c1
    have efit : s.cols - s.x = u.F.cols - sh.x := by rw [b.base.cols, b.base.px]
    unfold TextCon.rawWriteLoop
    rw [if_neg (by rw [b.base.cols, b.base.px]; omega)]
    simp only [efit]
    rw [← List.map_take, ← List.map_drop]
    have htl : (text.take (u.F.cols - sh.x)).length ≤ u.F.cols - sh.x := by rw [List.length_take]; omega
    obtain ⟨s1, c1, w1, w2, w3, w4⟩ := writeFit_ok hu b (text := (text.take (u.F.cols - sh.x)).map shownChar) (by rw [List.length_map]; omega)
    rw [w1]
    simp only [Option.bind_eq_bind, Option.bind_some]
    rw [List.length_map] at w4
    rw [← type_fit (F := u.F) (text.take (u.F.cols - sh.x)) (by omega)] at w4
    by_cases hd : text.drop (u.F.cols - sh.x) = []
    · rw [hd]
      have : text.take (u.F.cols - sh.x) = text := by
        have := List.take_append_drop (u.F.cols - sh.x) text
        rw [hd, List.append_nil] at this
        exact this
      rw [this] at w4
      exact ⟨s1, c1, by simp, w2, w3, w4⟩
    · obtain ⟨ch, rest, hcr⟩ := List.exists_cons_of_ne_nil hd
      have hlong : u.F.cols - sh.x < text.length := by
        by_contra hh
        exact hd (List.drop_eq_nil_of_le (by omega))
      rw [if_neg (by rw [hcr]; simp)]
      obtain ⟨s2, c2, o1, o2, o3, o4⟩ := openLine_ok hu w4
      rw [o1]
      simp only [Option.bind_some]
      obtain ⟨s3, c3, r1, r2, r3, r4⟩ := ih (text := text.drop (u.F.cols - sh.x)) o4 (by
        rw [newLine_x, if_pos (by omega), List.length_drop]
        split at hn <;> omega)
      refine ⟨s3, c3, r1, (w2.trans o2).trans r2, (w3.trans o3).trans r3, ?_⟩
      have hfull : ((text.take (u.F.cols - sh.x)).foldl (Sheet.type u.F (inkNo u fg) (paperNo u bg)) sh).x = u.F.cols := by
        rw [type_fit _ (by omega)]
        simp only [List.length_take]
        omega
      have hsplit : text.foldl (Sheet.type u.F (inkNo u fg) (paperNo u bg)) sh =
          (text.drop (u.F.cols - sh.x)).foldl (Sheet.type u.F (inkNo u fg) (paperNo u bg))
            ((text.take (u.F.cols - sh.x)).foldl (Sheet.type u.F (inkNo u fg) (paperNo u bg)) sh) := by
        rw [← List.foldl_append, List.take_append_drop]
      rw [hsplit]
      generalize (text.take (u.F.cols - sh.x)).foldl (Sheet.type u.F (inkNo u fg) (paperNo u bg)) sh = sh1 at hfull r4
      have : (text.drop (u.F.cols - sh.x)).foldl (Sheet.type u.F (inkNo u fg) (paperNo u bg)) sh1 =
          (text.drop (u.F.cols - sh.x)).foldl (Sheet.type u.F (inkNo u fg) (paperNo u bg)) (sh1.newLine u.F (paperNo u bg)) := by
        rw [hcr, List.foldl_cons, List.foldl_cons]
        congr 1
        unfold Sheet.type
        simp only
        rw [if_neg (by omega), if_pos (by rw [newLine_x]; omega)]
      rw [this]
      exact r4

theorem rawWrite_ok (hu : u.Good) {sh : Sheet} (b : Bare u s c sh fg bg) (text : Str) :
    ∃ s' c', s.rawWrite (removeControlChars text) = some s' ∧ Frame s s' ∧ Still c c' ∧
      Bare u s' c' (text.foldl (Sheet.type u.F (inkNo u fg) (paperNo u bg)) sh) fg bg := by
  unfold TextCon.rawWrite
  rw [removeControl_eq]
  exact rawWriteLoop_ok hu _ b (by rw [List.length_map]; split <;> omega)

theorem erase_cursor {p : BitVec 8} (sh : Sheet) (how : Clear) : (sh.erase p how).cursor = sh.cursor := by
  cases how <;> try rfl
  unfold Sheet.erase
  simp only
  split <;> rfl

/-- The whole screen is emptied. -/
theorem eraseAll_ok (hu : u.Good) (b : Base u s c x y fg bg) (sh : Sheet) :
    ∃ s' c', s.erase .all = some s' ∧ Frame s s' ∧ Still c c' ∧ Bare u s' c' (sh.erase (paperNo u bg) .all) fg bg := by
  obtain ⟨l1, a1, b1⟩ := ink_ok hu b s.bg
  obtain ⟨l2, a2, b2⟩ := step b1 (op := .clear) trivial rfl
  unfold TextCon.erase
  rw [a1]
  simp only [Option.bind_eq_bind, Option.bind_some]
  rw [a2]
  simp only [Option.bind_some]
  refine ⟨_, ({ c with color := u.encode s.bg } : Canvas).perform u.stride .clear, rfl, ⟨rfl, rfl, rfl⟩, (still_color c (u.encode s.bg)).trans (still_paint _ fun _ => True),
    { b2 with px := rfl, py := rfl, xle := Nat.zero_le _, ylt := by have := hu.r2; show 0 < u.F.rows; omega }, rfl, ?_⟩
  intro r hr q hq i hi j hj
  exact (inkOf_eq b.bgc).symm

/-- Something is emptied. -/
theorem erase_ok (hu : u.Good) {sh : Sheet} (b : Base u s c sh.x sh.y fg bg) (h : Cursor u s c sh) {how : Clear}
    (hp : how = .previousChar → sh.cursor.isSome → 0 < sh.x) (hn : how = .untilNewLine → sh.x < u.F.cols) :
    ∃ s' c', s.erase how = some s' ∧ Frame s s' ∧ Still c c' ∧ Bare u s' c' (sh.erase (paperNo u bg) how) fg bg := by
  obtain ⟨l1, c1, a1, s1, b1, t1⟩ := clearCursor_ok hu b h
  have hw0 : 0 < u.width := by
    have h1 := hu.wide
    have h2 := Nat.mul_le_mul_right u.font.width hu.c1
    have h3 := hu.gw
    omega
  have hy := b.ylt
  have hyl := row_le hu (y := sh.y + 1) hy
  rw [Nat.add_mul, Nat.one_mul] at hyl
  have hgh := hu.gh
  cases how with
  | all => exact eraseAll_ok hu b sh
  | currentLine =>
    obtain ⟨l2, c2, a2, s2, b2, t2⟩ := wipe_ok hu b1 t1 (p := ⟨0, ((sh.y * u.font.height : Nat) : Int)⟩) (w := u.width) (h := u.font.height)
      (by unfold Expected; simp only; omega) (which := fun r _ => r = sh.y) (fun r hr q hq i hi j hj => by
        have h1 := le_cell (x := sh.y) (c := r) hj
        have h2 := le_cell (x := sh.y + 1) (c := r) hj
        have h3 := le_cell (x := u.F.cols) (c := q) hi
        have h4 := hu.wide
        rw [Nat.add_mul, Nat.one_mul] at h2
        unfold InRect
        simp only
        omega)
    refine ⟨{ s with lcd := l2, backup := none, x := 0 }, c2, ?_, ⟨rfl, rfl, rfl⟩, s1.trans s2, { b2 with px := rfl, xle := Nat.zero_le _ }, rfl, t2⟩
    unfold TextCon.erase
    rw [a1]
    simp only [Option.bind_eq_bind, Option.bind_some]
    have e : ∀ t : TextCon, t.font = s.font → t.y = s.y → t.lcd.width = u.width →
        t.ras (.rectFilled ⟨0, clampedMul t.y t.font.height⟩ t.lcd.width t.font.height) =
        t.ras (.rectFilled ⟨0, ((sh.y * u.font.height : Nat) : Int)⟩ u.width u.font.height) := by
      intro t h1 h2 h3
      rw [h1, h2, h3, b.font, b.py, clampedMul_ok (m := u.height) (by omega) hu.hmax]
    cases hi : ({ s with lcd := l1, backup := none } : TextCon).ink s.bg with
    | none => rw [hi] at a2; cases a2
    | some t =>
      obtain ⟨l', hi', bi'⟩ := ink_ok hu b1 s.bg
      rw [hi] at a2 hi'
      injection hi' with hi'
      subst hi'
      simp only [Option.bind_some] at a2 ⊢
      have hlw : l'.width = u.width := bi'.w
      have e' := e { s with lcd := l', backup := none } rfl rfl hlw
      simp only at e'
      rw [e', a2]
      rfl
  | previousChar =>
    unfold Sheet.erase
    by_cases hx : 0 < sh.x
    · have hxl : sh.x - 1 < u.F.cols := by have := b.xle; omega
      have hwi := within_cell hu hxl hy
      unfold Within at hwi
      simp only at hwi
      obtain ⟨l2, c2, a2, s2, b2, t2⟩ := wipe_ok hu b1 t1 (p := ⟨(((sh.x - 1) * u.font.width : Nat) : Int), ((sh.y * u.font.height : Nat) : Int)⟩) (w := u.font.width) (h := u.font.height)
        (by unfold Expected; simp only; omega) (which := fun r c => r = sh.y ∧ c = sh.x - 1) (fun r hr q hq i hi j hj => inRect_cell hi hj)
      rw [if_pos hx]
      refine ⟨{ s with lcd := l2, backup := none, x := s.x - 1 }, c2, ?_, ⟨rfl, rfl, rfl⟩, s1.trans s2,
        { b2 with px := by show s.x - 1 = _; rw [b.px], xle := Nat.le_of_lt hxl }, rfl, t2⟩
      unfold TextCon.erase
      simp only
      rw [if_pos (by rw [b.px]; exact hx), a1]
      simp only [Option.bind_eq_bind, Option.bind_some]
      have e : ∀ t : TextCon, t.font = s.font → t.x = s.x → t.y = s.y →
          t.ras (.rectFilled (t.place (t.x - 1) t.y) t.font.width t.font.height) =
          t.ras (.rectFilled ⟨(((sh.x - 1) * u.font.width : Nat) : Int), ((sh.y * u.font.height : Nat) : Int)⟩ u.font.width u.font.height) := by
        intro t h1 h2 h3
        unfold TextCon.place
        rw [h1, h2, h3, b.font, b.px, b.py, clampedMul_ok (a := sh.x - 1) (m := u.width) (by omega) hu.wmax, clampedMul_ok (a := sh.y) (m := u.height) (by omega) hu.hmax]
      cases hi : ({ s with lcd := l1, backup := none } : TextCon).ink s.bg with
      | none => rw [hi] at a2; cases a2
      | some t =>
        obtain ⟨l', hi', bi'⟩ := ink_ok hu b1 s.bg
        rw [hi] at a2 hi'
        injection hi' with hi'
        subst hi'
        simp only [Option.bind_some] at a2 ⊢
        have e' := e { s with lcd := l', backup := none } rfl rfl rfl
        simp only at e'
        rw [e', a2]
        rfl
    · rw [if_neg hx]
      unfold TextCon.erase
      simp only
      rw [if_neg (by rw [b.px]; exact hx)]
      have hc : sh.cursor = none := by
        cases hcc : sh.cursor with
        | none => rfl
        | some k => exact absurd (hp rfl (by rw [hcc]; rfl)) hx
      unfold Cursor at h
      rw [hc] at h
      exact ⟨s, c, rfl, ⟨rfl, rfl, rfl⟩, .refl c, b, h.2.1, h.2.2⟩
  | untilNewLine =>
    have hx := hn rfl
    have hwi := within_cell hu hx hy
    unfold Within at hwi
    simp only at hwi
    obtain ⟨l2, c2, a2, s2, b2, t2⟩ := wipe_ok hu b1 t1 (p := ⟨((sh.x * u.font.width : Nat) : Int), ((sh.y * u.font.height : Nat) : Int)⟩)
      (w := u.width - sh.x * u.font.width) (h := u.font.height)
      (by have := hu.gw; unfold Expected; simp only; omega) (which := fun r c => r = sh.y ∧ sh.x ≤ c) (fun r hr q hq i hi j hj => by
        have h1 := le_cell (x := sh.y) (c := r) hj
        have h2 := le_cell (x := sh.y + 1) (c := r) hj
        have h3 := le_cell (x := u.F.cols) (c := q) hi
        have h4 := hu.wide
        have h5 := le_cell (x := sh.x) (c := q) hi
        rw [Nat.add_mul, Nat.one_mul] at h2
        unfold InRect
        simp only
        omega)
    refine ⟨{ s with lcd := l2, backup := none }, c2, ?_, ⟨rfl, rfl, rfl⟩, s1.trans s2, b2, rfl, t2⟩
    unfold TextCon.erase
    rw [a1]
    simp only [Option.bind_eq_bind, Option.bind_some]
    have e : ({ s with lcd := l1, backup := none } : TextCon).place s.x s.y = ⟨((sh.x * u.font.width : Nat) : Int), ((sh.y * u.font.height : Nat) : Int)⟩ := by
      have := place_ok hu b1 b.xle (Nat.le_of_lt hy)
      rw [← this, b.px, b.py]
    rw [e]
    cases hi : ({ s with lcd := l1, backup := none } : TextCon).ink s.bg with
    | none => rw [hi] at a2; cases a2
    | some t =>
      obtain ⟨l', hi', bi'⟩ := ink_ok hu b1 s.bg
      rw [hi] at a2 hi'
      injection hi' with hi'
      subst hi'
      simp only [Option.bind_some] at a2 ⊢
      have e2 : (((l'.width : Nat) : Int) - ((sh.x * u.font.width : Nat) : Int)).toNat = u.width - sh.x * u.font.width := by
        rw [show l'.width = u.width from bi'.w]; omega
      rw [e2, show s.font.height = u.font.height by rw [b.font]]
      exact a2

/-- What is kept of the main screen. -/
def Kept (u : Setup) : Option TextAlt → Option (Sheet × Option (BitVec 8) × Option (BitVec 8)) → Prop
  | none, none => True
  | some a, some (sh, fg, bg) => a.x = sh.x ∧ a.y = sh.y ∧ sh.x ≤ u.F.cols ∧ sh.y < u.F.rows ∧ a.ansiFg = fg ∧ a.ansiBg = bg ∧
    ansiColorToRgb (fg.getD u.F.fg) = some a.fg ∧ ansiColorToRgb (bg.getD u.F.bg) = some a.bg ∧
    a.pixels.length = u.width * u.height * u.stride ∧ Tiles u (pixelAt u.stride u.width ⟨0, 0⟩ a.pixels) sh.tile
  | _, _ => False

/-- The console and the terminal, apart from what is shown. -/
structure Core (u : Setup) (s : TextCon) (c : Canvas) (t : Terminal) : Prop where
  base : Base u s c t.back.x t.back.y t.fg t.bg
  cursor : Cursor u s c t.back
  kept : Kept u s.alt t.saved
  sync : s.sync = t.sync

theorem present_ok {sh : Sheet} (b : Base u s c x y fg bg) (h : Cursor u s c sh) :
    ∃ l c', s.present = some { s with lcd := l } ∧ Still c c' ∧ Base u { s with lcd := l } c' x y fg bg ∧ Cursor u { s with lcd := l } c' sh := by
  unfold TextCon.present
  by_cases hs : s.sync = true
  · rw [if_pos hs]
    obtain ⟨l, h1, h2⟩ := step b (op := .present) trivial rfl
    refine ⟨l, { c with shown := c.drawn }, h1, ⟨rfl, fun e => ?_⟩, h2, h⟩
    rw [← b.sync, hs] at e
    cases e
  · rw [if_neg hs]
    exact ⟨s.lcd, c, rfl, .refl c, b, h⟩

theorem setSync_ok (b : Base u s c x y fg bg) (on : Bool) :
    ∃ l, s.setSync on = some { s with sync := on, lcd := l } ∧
      Base u { s with sync := on, lcd := l } { c with sync := on, shown := if on then c.drawn else c.shown } x y fg bg := by
  obtain ⟨l, h1, h2, h3⟩ := perform_ok (op := .setSync on) b.lcd trivial
  refine ⟨l, ?_, { b with lcd := h3, w := h2.1.trans b.w, h := h2.2.1.trans b.h, st := h2.2.2.trans b.st, sync := rfl }⟩
  unfold TextCon.setSync TextCon.ras
  unfold Lcd.perform at h1 ⊢
  rw [b.sync, ← b.lcd.sync]
  simp only at h1 ⊢
  by_cases hc : (!s.lcd.sync && on) = true
  · rw [if_pos hc] at h1 ⊢
    cases hp : s.lcd.present with
    | none => rw [hp] at h1; cases h1
    | some l1 =>
      rw [hp] at h1
      have h1 : some { l1 with sync := on } = some l := h1
      injection h1 with h1
      subst h1
      rfl
  · rw [if_neg hc] at h1 ⊢
    have h1 : some { s.lcd with sync := on } = some l := h1
    injection h1 with h1
    subst h1
    rfl

/-- Something is done without the cursor. -/
theorem quietly_ok (hu : u.Good) {t : Terminal} {sh : Sheet} (h : Core u s c t) {f : TextCon → Option TextCon}
    (hf : ∀ {s' c'}, Bare u s' c' t.back t.fg t.bg → ∃ s'' c'', f s' = some s'' ∧ Frame s' s'' ∧ Still c' c'' ∧ Bare u s'' c'' sh t.fg t.bg)
    (hc : sh.cursor = t.back.cursor) (hx : sh.cursor.isSome → sh.x < u.F.cols) :
    ∃ s' c', s.quietly f = some s' ∧ Still c c' ∧ Core u s' c' (t.make u.F sh) := by
  obtain ⟨l1, a1, b1⟩ := setSync_ok h.base false
  obtain ⟨l2, c2, a2, s2, b2, t2⟩ := clearCursor_ok hu b1 (sh := t.back) h.cursor
  obtain ⟨s3, c3, a3, f3, s3', b3⟩ := hf ⟨b2, rfl, t2⟩
  have hv : s3.visible = sh.cursor.isSome := by
    rw [f3.visible, hc]
    have := h.cursor
    unfold Cursor at this
    cases hcc : t.back.cursor with
    | none => rw [hcc] at this; exact this.1
    | some k => rw [hcc] at this; exact this.1
  obtain ⟨l4, c4, back, a4, s4, b4, k4⟩ := drawCursor_ok hu b3.base b3.backup b3.tiles hv hx
  obtain ⟨l5, a5, b5⟩ := setSync_ok b4 s.sync
  refine ⟨{ s3 with lcd := l5, backup := back, sync := s.sync }, _, ?_, ?_, ⟨b5, k4, ?_, h.sync⟩⟩
  · unfold TextCon.quietly
    simp only [Option.bind_eq_bind]
    rw [a1, Option.bind_some, a2, Option.bind_some, a3, Option.bind_some, a4, Option.bind_some, a5]
  · refine ⟨h.base.sync, fun e => ?_⟩
    have e' : s.sync = false := h.base.sync.trans e
    have := ((s2.trans s3').trans s4).2 rfl
    show (if s.sync = true then _ else c4.shown) = _
    rw [if_neg (by rw [e']; decide), this]
    rfl
  · have : s3.alt = s.alt := f3.alt
    show Kept u s3.alt t.saved
    rw [this]
    exact h.kept

end Tele

end EB
