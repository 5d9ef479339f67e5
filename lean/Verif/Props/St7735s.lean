import Verif.Lemmas.St7735s
import Verif.Spec.TextCon
import Mathlib.Tactic.IntervalCases
/-!
# C77: the ST7735S shows the pixels that it is told to show
-/

namespace EB

open Spec St7735s

/-- C77: whatever the bus does with what it is given (it may take only a part, fail, or claim to have taken too much), no byte is sent
twice, left out or sent out of order, and all bytes were sent if the call succeeds. -/
theorem C77_bytes (bus : SpiBus) (s : St7735s (List (Bool × Byte))) (data : List Byte) :
    ∃ n, (write recorder bus s data).1.device = s.device ++ (data.take n).map (fun b => (s.dc, b)) ∧
      ((write recorder bus s data).2 = .ok () → n = data.length) := by
  obtain ⟨_, n, _, h, h'⟩ := write_prefix bus _ s data rfl
  exact ⟨n, h, h'⟩

/-- C77: with a bus without errors the call succeeds, however few bytes it takes each time. -/
theorem C77_succeeds (bus : SpiBus) (hb : Works bus) (s : St7735s (List (Bool × Byte))) (data : List Byte) :
    (write recorder bus s data).2 = .ok () := by
  obtain ⟨k, h⟩ := write_spec (D := recorder) hb _ s data rfl
  rw [h]

/-- C77: data for a window is shown there pixel by pixel, and all other pixels stay what they were, whatever state the controller was in
and however the bus cuts the data into pieces. -/
theorem C77_set_data (bus : SpiBus) (hb : Works bus) (s : St7735s Panel) (a b : LXY) (data : List Byte) (hw : GoodWindow a b data) :
    (setData Panel.device bus s a b data).2 = .ok () ∧
    ∀ q, (setData Panel.device bus s a b data).1.device.seen q = (windowPixel a b data q).getD (s.device.seen q) := by
  obtain ⟨ax, ay, bx, b_y, hl⟩ := hw
  unfold setData toXySize
  simp only
  obtain ⟨k, hk⟩ := setWindow_spec (D := Panel.device) hb s ⟨min a.x b.x, min a.y b.y⟩ (max a.x b.x + 1 - min a.x b.x) (max a.y b.y + 1 - min a.y b.y)
  rw [andThen_ok hk]
  obtain ⟨k', hk'⟩ := writeData_spec (D := Panel.device) hb ⟨false, k, _⟩ data
  rw [hk']
  refine ⟨rfl, ?_⟩
  intro q
  simp only [Panel.seen]
  rw [Panel.window]
  have e1 : (BitVec.ofNat 8 (min a.x b.x % 256 + 1)).toNat = min a.x b.x + 1 := by simp; omega
  have e2 : (BitVec.ofNat 8 ((min a.x b.x + (max a.x b.x + 1 - min a.x b.x) + 1 - 1) % 256)).toNat = max a.x b.x + 1 := by simp; omega
  have e3 : (BitVec.ofNat 8 (min a.y b.y % 256 + 2)).toNat = min a.y b.y + 2 := by simp; omega
  have e4 : (BitVec.ofNat 8 ((min a.y b.y + (max a.y b.y + 1 - min a.y b.y) + 2 - 1) % 256)).toNat = max a.y b.y + 2 := by simp; omega
  rw [e1, e2, e3, e4]
  rw [Panel.pixels (max a.x b.x - min a.x b.x + 1) (max a.y b.y - min a.y b.y + 1) (by omega) (by omega)
    ((max a.x b.x - min a.x b.x + 1) * (max a.y b.y - min a.y b.y + 1)) 0 _ data hl (by omega) rfl rfl
    (by simp only; omega) (by simp only; omega) (by intro _; simp)]
  simp only [windowPixel]
  have d1 : q.y + 2 - (min a.y b.y + 2) = q.y - min a.y b.y := by omega
  have d2 : q.x + 1 - (min a.x b.x + 1) = q.x - min a.x b.x := by omega
  rw [d1, d2]
  by_cases hin : min a.x b.x ≤ q.x ∧ q.x ≤ max a.x b.x ∧ min a.y b.y ≤ q.y ∧ q.y ≤ max a.y b.y
  · rw [if_pos (by omega), if_pos hin]
    simp [Nat.mul_comm]
  · rw [if_neg (by omega), if_neg hin]
    rfl

/-- C77: after any number of windows the glass shows what the abstract LCD of the theorems about drawing, text and the editor (C45, C72, C73,
C76) shows, if it did so before. -/
theorem C77_screens (bus : SpiBus) (hb : Works bus) (calls : List (LXY × LXY × List Byte))
    (hc : ∀ c ∈ calls, c.1.x ≤ c.2.1.x ∧ c.1.y ≤ c.2.1.y ∧ GoodWindow c.1 c.2.1 c.2.2) (s : St7735s Panel) (l : Lcd) (h2 : l.stride = 2)
    (hs : ∀ q, s.device.seen q = l.screen q) :
    ∀ q, (calls.foldl (fun s c => (setData Panel.device bus s c.1 c.2.1 c.2.2).1) s).device.seen q =
      (calls.foldl (fun l c => Lcd.setData l c.1 c.2.1 c.2.2) l).screen q := by
  induction calls generalizing s l with
  | nil => exact hs
  | cons c calls ih =>
    obtain ⟨hx, hy, hw⟩ := hc c (by simp)
    refine ih (fun c' h => hc c' (by simp [h])) _ _ h2 ?_
    intro q
    rw [(C77_set_data bus hb s c.1 c.2.1 c.2.2 hw).2 q]
    simp only [windowPixel, Lcd.setData, min_eq_left hx, max_eq_right hx, min_eq_left hy, max_eq_right hy, h2]
    by_cases hin : c.1.x ≤ q.x ∧ q.x ≤ c.2.1.x ∧ c.1.y ≤ q.y ∧ q.y ≤ c.2.1.y
    · rw [if_pos hin, if_pos hin]
      simp [Nat.mul_comm]
    · rw [if_neg hin, if_neg hin]
      simpa using hs q

/-- C77: a color is shown as the nearest one below that the LCD has: five bits of red, six of green and five of blue are kept, the others repeat the
first ones; and a pixel of the LCD is read back as it was. -/
theorem C77_colors (c : RGB) : ∃ high low, st7735sEncode c = [high, low] ∧
    (st7735sDecode high low).1 >>> 3 = c.1 >>> 3 ∧ (st7735sDecode high low).2.1 >>> 2 = c.2.1 >>> 2 ∧
    (st7735sDecode high low).2.2 >>> 3 = c.2.2 >>> 3 ∧ st7735sEncode (st7735sDecode high low) = [high, low] := by
  obtain ⟨r, g, b⟩ := c
  refine ⟨_, _, rfl, ?_, ?_, ?_, ?_⟩
  · ext i hi
    simp [st7735sDecode]
    interval_cases i <;> simp
  · ext i hi
    simp [st7735sDecode]
    interval_cases i <;> simp
  · ext i hi
    simp [st7735sDecode]
    interval_cases i <;> simp
  · have e : ∀ {u v w z : Byte}, u = w → v = z → [u, v] = [w, z] := by rintro _ _ _ _ rfl rfl; rfl
    refine e ?_ ?_
    · ext i hi
      simp [st7735sDecode]
      interval_cases i <;> simp
    · ext i hi
      simp [st7735sDecode]
      interval_cases i <;> simp

/-- C77: on this LCD the letters of the default colors can be told from the background, as C76 asks for. -/
theorem C77_ink : inkOf st7735sEncode 7 ≠ inkOf st7735sEncode 0 := by decide +kernel

/-! ## A concrete case -/

namespace Ex

/-- A bus for three bytes at once, that takes only one of two or three in each second call. -/
def slowBus : SpiBus := ⟨3, fun k len => .ok (if k % 2 = 1 ∧ 1 < len then 1 else len)⟩

/-- A controller in the middle of other data. -/
def busyPanel : Panel := ⟨0x2b, [1, 2], 7, 3, 9, 9, 5, 100, fun x y => [BitVec.ofNat 8 x, BitVec.ofNat 8 y]⟩

example : Works slowBus := by
  refine ⟨by decide, fun k len h => ?_⟩
  simp only [slowBus]
  split
  · exact ⟨1, rfl, by decide, by omega⟩
  · exact ⟨len, rfl, h, by omega⟩

example : GoodWindow ⟨127, 4⟩ ⟨126, 5⟩ [1, 2, 3, 4, 5, 6, 7, 8] := by unfold GoodWindow; decide

/-- The hypotheses of `C77_screens` are met. -/
example : (⟨126, 4⟩ : LXY).x ≤ (⟨127, 5⟩ : LXY).x ∧ (⟨126, 4⟩ : LXY).y ≤ (⟨127, 5⟩ : LXY).y ∧
    GoodWindow ⟨126, 4⟩ ⟨127, 5⟩ [1, 2, 3, 4, 5, 6, 7, 8] := by unfold GoodWindow; decide

set_option maxRecDepth 100000 in
/-- A window in the right corner: the second pixel of the first row and a neighbour. -/
example : let p := (setData Panel.device slowBus ⟨true, 0, busyPanel⟩ ⟨127, 4⟩ ⟨126, 5⟩ [1, 2, 3, 4, 5, 6, 7, 8]).1.device
    p.seen ⟨127, 4⟩ = [3, 4] ∧ p.seen ⟨126, 5⟩ = [5, 6] ∧ p.seen ⟨125, 5⟩ = [126, 7] := by decide +kernel

/-- A bus that fails in the third call. -/
example : (write recorder ⟨3, fun k len => if k = 2 then .error ['e'] else .ok (min len 2)⟩ ⟨true, 0, []⟩ [1, 2, 3, 4, 5]).1.device =
    [(true, 1), (true, 2), (true, 3)] := by decide +kernel

example : st7735sEncode (192, 192, 192) = [0xc6, 0x18] := by decide

end Ex

end EB
