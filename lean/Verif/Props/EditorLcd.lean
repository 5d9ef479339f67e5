import Verif.Lemmas.EditorLcd
import Verif.Props.TextCon
import Verif.Props.Editor
/-!
# C73: the full-screen editor on an LCD shows the program
-/

namespace EB

open Spec Tele
open Edit (EdOp State textColor after_append edit_shown)

/-- A cell that looks like a character has its pixels. -/
theorem like_pixel {F : Format} {font : Font} (hb : ∀ i j, dot font ' ' i j = false) (encode : RGB → List Byte) {k : Edit.Tint} {ch : Char} {t : Tile}
    (h : Like F (glyph k ch) t) (i j : Nat) : t.pixel font encode i j = charPixel font encode ch (colorOr F.fg k.1) (colorOr F.bg k.2) i j := by
  obtain ⟨h1, h2⟩ := h
  change t.bg = colorOr F.bg k.2 at h1
  unfold Tile.pixel charPixel
  rcases h2 with ⟨h3, h4⟩ | ⟨h3, h4⟩
  · change shownChar ch = ' ' at h3
    rw [h3, hb, ← h1]
    rcases h4 with h4 | h4
    · rw [h4]; rfl
    · rw [h4]; simp only [hb]; rfl
  · change t.char = some (shownChar ch) at h3
    change t.fg = colorOr F.fg (if shownChar ch = ' ' then none else k.1) at h4
    rw [h3, ← h1]
    by_cases hs : shownChar ch = ' '
    · simp only [hs, hb]; rfl
    · rw [if_neg hs] at h4
      rw [← h4]

/-- C73 (partial: no white space out of ASCII, and no tab key that takes the cursor to a column that the LCD does not have):
whatever was done with the editor and with the graphics console of an LCD, after any keys the console has not failed, and the LCD
shows the buffer, pixel by pixel. -/
theorem C73_editor_lcd_partial {width height stride : Nat} {font : Font} (hf : GoodFont font) (hw : 0 < font.width) (hh : 0 < font.height)
    (h1 : font.width ≤ width) (h2 : 2 * font.height ≤ height) (h3 : width ≤ 32767) (h4 : height ≤ 32767) {encode : RGB → List Byte}
    (he : ∀ k, (encode k).length = stride) (hb : ∀ i j, dot font ' ' i j = false) (fg bg : BitVec 8) (white : List Byte) (screen : LXY → List Byte)
    {F : Format} (hF : F = ⟨width / font.width, height / font.height, fg, bg⟩)
    (cs : List Buffer.Call) (hc : ∀ c ∈ cs, c.Fine) (ks : List Key) (hk : ∀ c, .char c ∈ ks → Typable c)
    (ht : ∀ p q, ks = p ++ .tab :: q → (((Buffer.calls cs).opened.keys F.rows p).press F.rows .tab).doc.col < F.cols) :
    ∃ s0 e e' ops ended, TextCon.new (Lcd.new width height stride white screen) font encode fg bg = some s0 ∧
      State.new.calls cs = some e ∧ e.edit F.cols F.rows ks = some (e', ops, ended) ∧
      ∀ before, (Terminal.blank F).HandlesAll F before → (before.foldl (Terminal.perform F) (.blank F)).sync = false →
        ∃ s top left, (before ++ ops.map textOp).foldlM TextCon.perform s0 = some s ∧
          (Buffer.calls (cs ++ [.edit F.cols F.rows ks])).OnLcd F font encode top left s.lcd.screen := by
  have hg := (mirror_new hf hw hh h1 h2 h3 h4 he fg bg white screen).1
  obtain ⟨s0, e0, hrun⟩ := C72_terminal_partial hf hw hh h1 h2 h3 h4 he fg bg white screen hF
  have hcols : 1 ≤ F.cols := by rw [hF]; exact hg.c1
  have hrows : 2 ≤ F.rows := by rw [hF]; exact hg.r2
  have hfine : (Buffer.Call.edit F.cols F.rows ks).Fine := by
    have e1 : F.cols ≤ width := by rw [hF]; exact Nat.div_le_self _ _
    have e2 : F.rows ≤ height := by rw [hF]; exact Nat.div_le_self _ _
    exact ⟨hcols, by omega, hrows, by omega, hk⟩
  obtain ⟨e, e', ops, ended, g1, g2, _, ⟨o, g4⟩, g5⟩ := edit_shown (z := true) cs hc F.cols F.rows ks hfine (fun _ => ht)
  refine ⟨s0, e, e', ops, ended, e0, g1, g2, fun before hbf hsync => ?_⟩
  obtain ⟨t, htt⟩ : ∃ t, t = before.foldl (Terminal.perform F) (.blank F) := ⟨_, rfl⟩
  rw [← htt] at hsync
  have hin : t.back.cursor.isSome → t.back.x < F.cols := by
    rw [htt]
    exact handles_inside (fun _ => hcols) hbf
  have hall := g5 (consoleOf t)
  rw [g4, after_append] at hall
  obtain ⟨w1, s2, ⟨w2, w3⟩, w4⟩ := twin_run hcols (twin_of F hsync) hin hall
  obtain ⟨w5, w6⟩ := w2 rfl
  obtain ⟨_, w7⟩ := w3 _ rfl
  obtain ⟨w8, top, left, w9⟩ := w7 _ rfl
  obtain ⟨t2, ht2⟩ : ∃ t2, t2 = (o.map textOp).foldl (Terminal.perform F) t := ⟨_, rfl⟩
  rw [← ht2] at w4
  have hnone : t2.back.cursor = none := by
    have := w4.back.cursor
    rw [w5] at this
    exact Option.isSome_eq_false_iff.1 this |> Option.isNone_iff_eq_none.1
  have hshow : t2.perform F .showCursor = { t2 with back := { t2.back with cursor := some (t2.ink F) } } := by
    have ha : t2.act F .showCursor = { t2 with back := { t2.back with cursor := some (t2.ink F) } } := by
      show (if t2.back.cursor.isSome then _ else _) = _
      rw [hnone]; rfl
    unfold Terminal.perform
    simp only [ha]
    rw [if_neg (by show ¬ t2.sync = true; rw [w4.sync]; decide)]
  have hlast : (ops.map textOp).foldl (Terminal.perform F) t = { t2 with
      back := { t2.back with cursor := some (t2.ink F) }, front := { t2.back with cursor := some (t2.ink F) } } := by
    rw [g4, List.map_append, List.foldl_append, ← ht2]
    show ((t2.perform F .showCursor).perform F .syncNow) = _
    rw [hshow]
    unfold Terminal.perform Terminal.act
    simp only
    split <;> rfl
  have hhand : (Terminal.blank F).HandlesAll F (before ++ ops.map textOp) := by
    refine handles_append hbf ?_
    rw [← htt, g4, List.map_append]
    refine handles_append w1 ?_
    rw [← ht2]
    refine ⟨⟨trivial, fun _ => ?_⟩, ⟨trivial, fun _ => ?_⟩, trivial⟩
    · rw [← perform_back]
      show (t2.perform F .showCursor).back.x < F.cols
      rw [hshow]
      show t2.back.x < _
      rw [w4.back.x]; exact w6
    · show (t2.perform F .showCursor).back.x < F.cols
      rw [hshow]
      show t2.back.x < _
      rw [w4.back.x]; exact w6
  obtain ⟨s, r1, r2, _⟩ := hrun _ hhand
  rw [List.foldl_append, ← htt, hlast] at r2
  have htint : s2.tint = textColor := w8
  have hink : t2.ink F = 7 := by
    rw [w4.ink, htint]; rfl
  rw [hink] at r2
  have hshown : (Buffer.calls (cs ++ [.edit F.cols F.rows ks])).Shown F.cols F.rows top left { s2.back with visible := true } := w9
  obtain ⟨v1, v2, v3, ⟨v4, v5, _⟩, v6⟩ := hshown
  change s2.back.x = _ at v4
  change s2.back.y = _ at v5
  have hx2 := w4.back.x.trans v4
  have hy2 := w4.back.y.trans v5
  refine ⟨s, top, left, r1, v1, v2, fun y hy x hx hne i hi j hj => ?_, fun i hi j hj => ?_, fun x hx ch hch i hi j hj => ?_⟩
  · rw [r2 y (by omega) x hx i hi j hj]
    show (if y = t2.back.y ∧ x = t2.back.x then _ else Tile.pixel font encode (t2.back.tile y x) i j) = _
    rw [if_neg (by rw [hx2, hy2]; omega)]
    have hl := w4.back.cells y (by omega) x hx
    have hv : s2.back.cell y x = _ := v3 y hy x hx
    rw [hv] at hl
    exact like_pixel hb encode hl i j
  · rw [r2 _ (by omega) _ (by omega) i hi j hj]
    show (if _ = t2.back.y ∧ _ = t2.back.x then _ else _) = _
    rw [if_pos ⟨hy2.symm, hx2.symm⟩]
  · rw [r2 _ (by omega) x hx i hi j hj]
    show (if F.rows - 1 = t2.back.y ∧ x = t2.back.x then _ else Tile.pixel font encode (t2.back.tile (F.rows - 1) x) i j) = _
    rw [if_neg (by rw [hy2]; omega)]
    have hlen : x < ((Buffer.calls (cs ++ [.edit F.cols F.rows ks])).status F.cols).length := by
      by_contra hn
      rw [List.getElem?_eq_none (by omega)] at hch
      cases hch
    have hl := w4.back.cells (F.rows - 1) (by omega) x hx
    have hv : s2.back.cell (F.rows - 1) x = _ := v6 x hlen
    rw [hv, List.getD, hch] at hl
    exact like_pixel hb encode hl i j

namespace Ex

/-- How the alternate screen is entered with a hidden cursor. -/
def alternate : List TextOp := [.hideCursor, .enterAlt, .setSync false]

/-- The editor on an LCD of some size: the rows of pixels after the keys. -/
def edited (width height : Nat) (cs : List Buffer.Call) (ks : List Key) : Option (List (List (List Byte))) := do
  let e ← State.new.calls cs
  let (_, ops, _) ← e.edit (width / 2) (height / 2) ks
  let s ← TextCon.new (Lcd.new width height 1 [255] fun _ => [99]) dots red 15 0
  let s ← (alternate ++ ops.map textOp).foldlM TextCon.perform s
  pure ((List.range height).map fun y => (List.range width).map fun x => s.lcd.screen ⟨x, y⟩)

/-- Keys with a tab that stays on the screen. -/
def keys : List Key := [.end, .char 'x', .arrowDown, .home, .tab]

end Ex

theorem dots_blank (i j : Nat) : dot Ex.dots ' ' i j = false := by
  have hw : Ex.dots.width = 2 := rfl
  have hh : Ex.dots.height = 2 := rfl
  by_cases hi : i < 2
  · by_cases hj : j < 2
    · have h : ∀ i : Fin 2, ∀ j : Fin 2, dot Ex.dots ' ' i j = false := by decide +kernel
      exact h ⟨i, hi⟩ ⟨j, hj⟩
    · unfold dot; rw [hh, decide_eq_false hj, Bool.and_false, Bool.false_and]
  · unfold dot; rw [hw, decide_eq_false hi, Bool.false_and, Bool.false_and]

set_option maxRecDepth 100000 in
/-- The hypotheses of C73 hold of an LCD of 5 columns and 3 rows, with a margin, and of keys with a tab. -/
example : ∃ s0 e e' ops ended, TextCon.new (Lcd.new 11 7 1 [255] fun _ => [99]) Ex.dots Ex.red 15 0 = some s0 ∧
    State.new.calls [.load none "ab\nc".toList] = some e ∧ e.edit 5 3 Ex.keys = some (e', ops, ended) ∧
    ∃ s top left, (Ex.alternate ++ ops.map textOp).foldlM TextCon.perform s0 = some s ∧
      (Buffer.calls [.load none "ab\nc".toList, .edit 5 3 Ex.keys]).OnLcd ⟨5, 3, 15, 0⟩ Ex.dots Ex.red top left s.lcd.screen := by
  obtain ⟨s0, e, e', ops, ended, h1, h2, h3, h4⟩ := C73_editor_lcd_partial (width := 11) (height := 7) (stride := 1) (font := Ex.dots) dots_good
    (by decide +kernel) (by decide +kernel) (by decide +kernel) (by decide +kernel) (by decide) (by decide) (encode := Ex.red) (fun _ => rfl)
    dots_blank 15 0 [255] (fun _ => [99]) (F := ⟨5, 3, 15, 0⟩) rfl [.load none "ab\nc".toList]
    (fun c hc => by
      rw [List.mem_singleton] at hc
      subst hc
      show ∀ c ∈ _, _
      decide +kernel) Ex.keys
    (fun c hc => by
      have : c = 'x' := by simpa [Ex.keys] using hc
      subst this
      show _ ∧ _
      decide +kernel)
    (fun p q hpq => by
      have : p = [.end, .char 'x', .arrowDown, .home] := by
        unfold Ex.keys at hpq
        rcases p with _ | ⟨a, _ | ⟨b, _ | ⟨c, _ | ⟨d, _ | ⟨f, p⟩⟩⟩⟩⟩ <;> simp_all
      subst this
      decide +kernel)
  exact ⟨s0, e, e', ops, ended, h1, h2, h3, h4 Ex.alternate (by decide +kernel) (by decide +kernel)⟩

set_option maxRecDepth 100000 in
/-- The first row is the changed one, the cursor is after the tab, and the status is in the last row. -/
example : Ex.edited 11 7 [.load none "ab\nc".toList] Ex.keys = some [
    [[192], [0], [192], [0], [192], [0], [0], [0], [0], [0], [0]],
    [[0], [0], [0], [0], [0], [0], [0], [0], [0], [0], [0]],
    [[0], [0], [0], [0], [0], [0], [0], [0], [192], [192], [0]],
    [[0], [0], [0], [0], [0], [0], [0], [0], [192], [192], [0]],
    [[0], [0], [255], [0], [255], [0], [255], [0], [0], [0], [0]],
    [[0], [0], [0], [0], [0], [0], [0], [0], [0], [0], [0]],
    [[0], [0], [0], [0], [0], [0], [0], [0], [0], [0], [0]]] := by decide +kernel

set_option maxRecDepth 100000 in
/-- C73 for all keys is wrong (F57): the tab key in an empty program on an LCD of four columns without a margin. -/
theorem C73_counterexample_tab : Ex.edited 8 5 [] [.tab] = none ∧ (Ex.edited 8 5 [] [.char 'a', .char 'b', .char 'c', .char 'd']).isSome = true := by
  decide +kernel

end EB
