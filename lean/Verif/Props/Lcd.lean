import Verif.Lemmas.Lcd
/-!
# C45: the LCD shows what was drawn
-/

namespace EB
open Spec

theorem perform_ok {s : Lcd} {c : Canvas} (h : LcdOk s c) {op : LcdOp} (ho : Expected s.width s.height s.stride op) :
    ∃ s', s.perform op = some s' ∧ SameSize s s' ∧ LcdOk s' (c.perform s.stride op) := by
  have hsame : c.sync = true → LcdOk s { c with shown := c.drawn } := fun hs =>
    h.congr (fun _ _ => rfl) (fun q hq => h.shows (h.sync.trans hs) hq) rfl rfl
  have hpres : ∃ s', s.present = some s' ∧ SameSize s s' ∧ LcdOk s' { c with shown := c.drawn } ∧ s'.damage = none := by
    unfold Lcd.present
    cases hs : s.sync with
    | true => exact ⟨s, if_pos rfl, ⟨rfl, rfl, rfl⟩, hsame (h.sync.symm.trans hs), h.calm hs⟩
    | false => exact forcePresent_ok h
  cases op with
  | setColor color => exact ⟨_, rfl, ⟨rfl, rfl, rfl⟩, h.wide, h.high, h.mem, h.shown, h.sync, rfl, ho, h.fresh, h.bounds, h.calm⟩
  | clear =>
    obtain ⟨s', h1, h2, h3⟩ := fill_ok h (a := ⟨0, 0⟩) (b := ⟨s.width - 1, s.height - 1⟩) ⟨Nat.zero_le _, Nat.zero_le _⟩
      (by have := h.wide; have := h.high; unfold OnScreen; simp only; omega)
    refine ⟨s', h1, h2, ?_⟩
    have hin : ∀ q, OnScreen s q → InWindow ⟨0, 0⟩ ⟨s.width - 1, s.height - 1⟩ q := by
      intro q hq; unfold OnScreen at hq; unfold InWindow; simp only; omega
    refine h3.congr (fun q hq => ?_) (fun q hq => ?_) rfl rfl
    · show (if True then c.color else c.drawn q) = if _ then c.color else c.drawn q
      rw [if_pos trivial, if_pos (hin q (h2.onScreen.1 hq))]
    · show (if c.sync then _ else c.shown) q = (if c.sync then _ else c.shown) q
      cases c.sync with
      | true =>
        show (if True then c.color else c.drawn q) = if _ then c.color else c.drawn q
        rw [if_pos trivial, if_pos (hin q (h2.onScreen.1 hq))]
      | false => rfl
  | setSync on =>
    cases on with
    | true =>
      cases hs : s.sync with
      | true =>
        refine ⟨{ s with sync := true }, by unfold Lcd.perform; rw [hs]; rfl, ⟨rfl, rfl, rfl⟩, ?_⟩
        have := hsame (h.sync.symm.trans hs)
        exact ⟨this.wide, this.high, this.mem, this.shown, rfl, this.color, this.len, fun q _ => .inl rfl, this.bounds, fun _ => h.calm hs⟩
      | false =>
        obtain ⟨s', h1, h2, h3, h4⟩ := hpres
        refine ⟨{ s' with sync := true }, by unfold Lcd.perform; rw [hs]; simp only [Bool.not_false, Bool.and_self, if_true]; rw [h1]; rfl, h2, ?_⟩
        exact ⟨h3.wide, h3.high, h3.mem, h3.shown, rfl, h3.color, h3.len, fun q _ => .inl rfl, h3.bounds, fun _ => h4⟩
    | false =>
      refine ⟨{ s with sync := false }, by unfold Lcd.perform; simp, ⟨rfl, rfl, rfl⟩, ?_⟩
      exact ⟨h.wide, h.high, h.mem, h.shown, rfl, h.color, h.len, h.fresh, h.bounds, fun e => by cases e⟩
  | present =>
    obtain ⟨s', h1, h2, h3, _⟩ := hpres
    exact ⟨s', h1, h2, h3⟩
  | pixel p => exact drawPixel_ok h p
  | rectFilled p w k => exact rectFilled_ok h ho.1 ho.2.1 ho.2.2.1 ho.2.2.2
  | put p data w k => exact putPixels_ok h ho.1 ho.2
  | move p q w k => exact movePixels_ok h ho.1 ho.2
  | shape ops => exact drawShape_ok h ho
  | text font p text =>
    obtain ⟨hf, hx, hy, hx', hy'⟩ := ho
    obtain ⟨l, hl, hmem⟩ := textPixels_ok hf hy hy' text p.x hx hx'
    obtain ⟨s', h1, h2, h3⟩ := writeText_ok h hl
    refine ⟨s', h1, h2, h3.congr (fun q hq => ?_) (fun q hq => ?_) rfl rfl⟩ <;> unfold Canvas.perform Canvas.paint Canvas.draw
    · simp only [hmem]
    · cases c.sync
      · rfl
      · simp only [if_true, hmem]

theorem history_ok {ops : List LcdOp} : ∀ {s : Lcd} {c : Canvas}, LcdOk s c → (∀ op ∈ ops, Expected s.width s.height s.stride op) →
    ∃ s', ops.foldlM Lcd.perform s = some s' ∧ SameSize s s' ∧ LcdOk s' (ops.foldl (Canvas.perform s.stride) c) := by
  induction ops with
  | nil => intro s c h _; exact ⟨s, rfl, ⟨rfl, rfl, rfl⟩, h⟩
  | cons op ops ih =>
    intro s c h ho
    obtain ⟨s1, h1, h2, h3⟩ := perform_ok h (ho op (by simp))
    obtain ⟨s2, h4, h5, h6⟩ := ih h3 (fun op' ho' => by rw [h2.1, h2.2.1, h2.2.2]; exact ho op' (List.mem_cons_of_mem _ ho'))
    refine ⟨s2, by rw [List.foldlM_cons, h1]; exact h4, h2.trans h5, ?_⟩
    rw [h2.2.2] at h6
    exact h6

theorem sliceOf_replicate {m a n : Nat} (h : a + n ≤ m) : sliceOf (List.replicate m 0) a n = some (List.replicate n 0) := by
  rw [sliceOf_some (by simpa using h), List.drop_replicate, List.take_replicate]
  congr 2
  omega

theorem LcdOk.renders {s : Lcd} {c : Canvas} (h : LcdOk s c) : Renders s c := ⟨fun q hq => h.mem.at_ q hq.1 hq.2, h.shown, h.sync, h.color⟩

/-- The canvas after the screen was cleared in white. -/
def Spec.blank (white : List Byte) : Canvas := ⟨fun _ => white, fun _ => white, true, white⟩

theorem new_ok {w h n : Nat} (hw : 0 < w) (hh : 0 < h) {white : List Byte} (hl : white.length = n) (screen : LXY → List Byte) :
    ∃ s0, (Lcd.new w h n white screen).clear = some s0 ∧ LcdOk s0 (blank white) ∧ s0.width = w ∧ s0.height = h ∧ s0.stride = n := by
  -- a device that already shows zeros is in order
  have hz : LcdOk (Lcd.new w h n white fun _ => List.replicate n 0) ⟨fun _ => List.replicate n 0, fun _ => List.replicate n 0, true, white⟩ := by
    refine ⟨hw, hh, ⟨by simp [Lcd.new], fun q hx hy => ?_⟩, fun _ _ => rfl, rfl, rfl, hl, fun _ _ => .inl rfl, fun _ _ e => (by cases e), fun _ => rfl⟩
    exact sliceOf_replicate (addr_le hx hy)
  obtain ⟨s', h1, h2, h3⟩ := perform_ok (op := .clear) hz trivial
  have h1 : (Lcd.new w h n white fun _ => List.replicate n 0).fill ⟨0, 0⟩ ⟨w - 1, h - 1⟩ = some s' := h1
  -- what it showed before does not matter
  unfold Lcd.clear Lcd.fill Lcd.fillRows at *
  cases hf : List.foldlM (fun fb y => copyInto fb ((y * w + 0) * n) (List.replicate (w - 1 - 0 + 1) white).flatten)
      (List.replicate (w * h * n) 0) (List.map (0 + ·) (List.range (h - 1 + 1 - 0))) with
  | none =>
    have h1 : (List.foldlM (fun fb y => copyInto fb ((y * w + 0) * n) (List.replicate (w - 1 - 0 + 1) white).flatten)
      (List.replicate (w * h * n) 0) (List.map (0 + ·) (List.range (h - 1 + 1 - 0))) >>= _) = some s' := h1
    rw [hf] at h1; cases h1
  | some fb =>
    have h1 : (List.foldlM (fun fb y => copyInto fb ((y * w + 0) * n) (List.replicate (w - 1 - 0 + 1) white).flatten)
      (List.replicate (w * h * n) 0) (List.map (0 + ·) (List.range (h - 1 + 1 - 0))) >>= _) = some s' := h1
    rw [hf] at h1
    cases h1
    refine ⟨({ Lcd.new w h n white screen with fb := fb } : Lcd).setData ⟨0, 0⟩ ⟨w - 1, h - 1⟩
      ((List.map (0 + ·) (List.range (h - 1 + 1 - 0))).flatMap fun _ => (List.replicate (w - 1 - 0 + 1) white).flatten), ?_, ?_, ?_⟩
    · show (List.foldlM (fun fb y => copyInto fb ((y * w + 0) * n) (List.replicate (w - 1 - 0 + 1) white).flatten)
        (List.replicate (w * h * n) 0) (List.map (0 + ·) (List.range (h - 1 + 1 - 0))) >>= _) = _
      rw [hf]; rfl
    · refine ⟨hw, hh, h3.mem, fun q hq => ?_, rfl, rfl, hl, fun _ _ => .inl rfl, fun _ _ e => (by cases e), fun _ => rfl⟩
      have := h3.shown q hq
      have hin : (0 ≤ q.x ∧ q.x ≤ w - 1 ∧ 0 ≤ q.y ∧ q.y ≤ h - 1) := by
        have a1 : q.x < w := hq.1
        have a2 : q.y < h := hq.2
        omega
      have e1 : (if 0 ≤ q.x ∧ q.x ≤ w - 1 ∧ 0 ≤ q.y ∧ q.y ≤ h - 1 then _ else List.replicate n 0) = white := this
      rw [if_pos hin] at e1
      show (if 0 ≤ q.x ∧ q.x ≤ w - 1 ∧ 0 ≤ q.y ∧ q.y ≤ h - 1 then _ else screen q) = white
      rw [if_pos hin]
      exact e1
    · exact ⟨rfl, rfl, rfl⟩

/-- **C45**: a new LCD that has been cleared, as the graphics console does, behaves as a canvas (`Spec.Canvas`) for every
sequence of operations: its memory holds the picture that was drawn, and the device shows what the canvas shows.  What is
missing: the operations not `Spec.Expected`, among them filled rectangles to the right of the screen or below it
(`C45_counterexample`). -/
theorem C45_canvas_partial {w h n : Nat} (hw : 0 < w) (hh : 0 < h) {white : List Byte} (hl : white.length = n) (screen : LXY → List Byte)
    {ops : List LcdOp} (ho : ∀ op ∈ ops, Expected w h n op) :
    ∃ s0 s, (Lcd.new w h n white screen).clear = some s0 ∧ ops.foldlM Lcd.perform s0 = some s ∧
      Renders s (ops.foldl (Canvas.perform n) (blank white)) := by
  obtain ⟨s0, h1, h2, h3, h4, h5⟩ := new_ok hw hh hl screen
  subst h3 h4 h5
  obtain ⟨s, h6, _, h7⟩ := history_ok h2 ho
  exact ⟨s0, s, h1, h6, h7.renders⟩

/-- **C45**: with syncing on, the device shows the framebuffer after every operation. -/
theorem C45_synced_partial {w h n : Nat} (hw : 0 < w) (hh : 0 < h) {white : List Byte} (hl : white.length = n) (screen : LXY → List Byte)
    {ops : List LcdOp} (ho : ∀ op ∈ ops, Expected w h n op) {s0 s : Lcd} (h0 : (Lcd.new w h n white screen).clear = some s0)
    (hs : ops.foldlM Lcd.perform s0 = some s) :
    (s.sync = true → ∀ x y, x < w → y < h → sliceOf s.fb ((y * w + x) * n) n = some (s.screen ⟨x, y⟩)) ∧
    -- with syncing off, after the next present
    (∀ s', s.perform .present = some s' → ∀ x y, x < w → y < h → sliceOf s'.fb ((y * w + x) * n) n = some (s'.screen ⟨x, y⟩)) ∧
    -- and before it the device shows what it did
    (∀ op s', s.sync = false → op ≠ .present → op ≠ .setSync true → Expected w h n op → s.perform op = some s' →
      ∀ x y, x < w → y < h → s'.screen ⟨x, y⟩ = s.screen ⟨x, y⟩) := by
  obtain ⟨s0', h1, h2, h3, h4, h5⟩ := new_ok hw hh hl screen
  cases h0.symm.trans h1
  obtain ⟨s', h6, h7, h8⟩ := history_ok h2 (by rw [h3, h4, h5]; exact ho)
  cases hs.symm.trans h6
  have z1 : s.width = w := h7.1.trans h3
  have z2 : s.height = h := h7.2.1.trans h4
  have z3 : s.stride = n := h7.2.2.trans h5
  refine ⟨fun hsy x y hx hy => ?_, fun s' hp x y hx hy => ?_, fun op s' hsy hn1 hn2 hexp hp x y hx hy => ?_⟩
  · have hq : OnScreen s ⟨x, y⟩ := ⟨by rw [z1]; exact hx, by rw [z2]; exact hy⟩
    have e1 := h8.mem.at_ ⟨x, y⟩ hq.1 hq.2
    rw [z1, z3] at e1
    rw [h8.shown _ hq, e1, h8.shows hsy hq]
  · obtain ⟨s'', g1, g2, g3⟩ := perform_ok (op := .present) h8 trivial
    cases hp.symm.trans g1
    have hq : OnScreen s ⟨x, y⟩ := ⟨by rw [z1]; exact hx, by rw [z2]; exact hy⟩
    have hq' := g2.onScreen.2 hq
    have e1 := g3.mem.at_ ⟨x, y⟩ hq'.1 hq'.2
    rw [g2.1, g2.2.2, z1, z3] at e1
    rw [g3.shown _ hq', e1]
    rfl
  · obtain ⟨s'', g1, g2, g3⟩ := perform_ok h8 (op := op) (by rw [z1, z2, z3]; exact hexp)
    cases hp.symm.trans g1
    have hq : OnScreen s ⟨x, y⟩ := ⟨by rw [z1]; exact hx, by rw [z2]; exact hy⟩
    rw [g3.shown _ (g2.onScreen.2 hq), h8.shown _ hq]
    have hc : (ops.foldl (Canvas.perform s0.stride) (blank white)).sync = false := h8.sync.symm.trans hsy
    generalize ops.foldl (Canvas.perform s0.stride) (blank white) = c at hc
    cases op with
    | present => exact absurd rfl hn1
    | setSync on => cases on with
      | true => exact absurd rfl hn2
      | false => rfl
    | setColor _ => rfl
    | _ => simp [Canvas.perform, Canvas.paint, Canvas.draw, hc]

/-- **C45**: a pixel outside of the screen changes nothing. -/
theorem C45_outside {s : Lcd} (hw : 0 < s.width) (hh : 0 < s.height) {p : Pt} (hp : p.x < 0 ∨ s.width ≤ p.x ∨ p.y < 0 ∨ s.height ≤ p.y) :
    s.perform (.pixel p) = some s := by
  show s.drawPixel p = some s
  unfold Lcd.drawPixel Lcd.clipXY
  by_cases hx : p.x < 0 ∨ ((s.width - 1 : Nat) : Int) < p.x
  · rw [clip_none hx]; rfl
  · rw [clip_none (v := p.y) (by omega)]
    cases Lcd.clip p.x (s.width - 1) <;> rfl

/-- **C45 fails** for filled rectangles beyond the right or the bottom edge: they fill the last column or row, although
they are outside of the screen.  Here the screen has two pixels, and the rectangle starts at `x = 5`. -/
theorem C45_counterexample : ∃ s s' : Lcd, s.width = 2 ∧ s.height = 1 ∧ s.sync = true ∧ s.perform (.rectFilled ⟨5, 0⟩ 1 1) = some s' ∧
    s.screen ⟨1, 0⟩ = [0] ∧ s'.screen ⟨1, 0⟩ = [255] := by
  refine ⟨Lcd.new 2 1 1 [255] fun _ => [0], _, rfl, rfl, rfl, rfl, rfl, ?_⟩
  decide

/-- **C45 fails** for rectangles without width or height: the size underflows. -/
theorem C45_counterexample_empty (s : Lcd) (p : Pt) (h : Nat) : s.perform (.rectFilled p 0 h) = none := by
  show s.drawRectFilled p 0 h = none
  unfold Lcd.drawRectFilled Lcd.clipX2Y2
  simp

example : ∀ op ∈ [LcdOp.pixel ⟨-3, 900⟩, .setSync false, .rectFilled ⟨-1, 0⟩ 3 2, .move ⟨0, 0⟩ ⟨1, 1⟩ 2 2, .present, .shape [.line ⟨0, 0⟩ ⟨3, 2⟩],
    .put ⟨1, 1⟩ [1, 2, 3, 4] 1 2, .setSync true], Expected 4 4 2 op := by
  simp only [List.mem_cons, List.not_mem_nil, or_false, forall_eq_or_imp, forall_eq]
  simp only [Expected, Within, List.mem_cons, List.not_mem_nil, or_false, forall_eq]
  decide

/-- A font whose characters are all an `L` of three by two pixels. -/
def Ex.font : Font := ⟨3, 2, 1, (List.replicate 95 [0x80, 0xe0]).flatten⟩

example : GoodFont Ex.font := ⟨by decide +kernel, .inl (by decide +kernel)⟩

example : Expected 10 4 2 (.text Ex.font ⟨4, 1⟩ "ab".toList) := ⟨⟨by decide +kernel, .inl (by decide +kernel)⟩, by decide +kernel⟩

example : (List.range 3).map (fun y => (List.range 10).map fun x => lit Ex.font ⟨4, 1⟩ "ab".toList ⟨x, y⟩) =
    [[false, false, false, false, false, false, false, false, false, false],
     [false, false, false, false, true, false, false, true, false, false],
     [false, false, false, false, true, true, true, true, true, true]] := by decide +kernel

end EB
