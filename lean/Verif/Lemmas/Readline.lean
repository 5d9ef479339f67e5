import Verif.Spec.Readline
import Mathlib.Tactic.SplitIfs
/-!
# Lemmas about the line editor
-/

namespace EB
open Spec

theorem asI16_small {n : Nat} (h : n ≤ 32767) : asI16 n = n := by
  unfold asI16
  rw [BitVec.toInt_eq_toNat_of_lt (by rw [BitVec.toNat_ofNat]; omega), BitVec.toNat_ofNat]
  omega

theorem negI16_small {n : Nat} (h : n ≤ 32767) : negI16 (asI16 n) = some (-(n : Int)) := by
  rw [asI16_small h]
  unfold negI16
  rw [if_neg (by omega)]

theorem execAll_append (w : Nat) (s : Row) (a b : List ConOp) :
    s.execAll w (a ++ b) = (s.execAll w a).bind fun s' => s'.execAll w b := by
  induction a generalizing s with
  | nil => rfl
  | cons o os ih =>
    show (s.exec w o).bind _ = ((s.exec w o).bind _).bind _
    cases s.exec w o with
    | none => rfl
    | some s' => exact ih s'

theorem execAll_one {w : Nat} {s s' : Row} {o : ConOp} (h : s.exec w o = some s') : s.execAll w [o] = some s' := by
  show (s.exec w o).bind _ = _
  rw [h]; rfl

theorem execAll_trans {w : Nat} {s s1 s2 : Row} {a b : List ConOp} (h1 : s.execAll w a = some s1)
    (h2 : s1.execAll w b = some s2) : s.execAll w (a ++ b) = some s2 := by
  rw [execAll_append, h1]; exact h2

namespace Rl

/-- What is shown for a line. -/
def vis (echo : Bool) (line : Str) : Str := line.map fun c => if echo then c else '*'

theorem vis_true (line : Str) : vis true line = line := by simp [vis]
theorem vis_false (line : Str) : vis false line = List.replicate line.length '*' := by
  simp only [vis, Bool.false_eq_true, if_false, List.map_const']
theorem vis_length (e : Bool) (line : Str) : (vis e line).length = line.length := by simp [vis]

/-- The part of the line that is shown. -/
def window (r : Rl) : Str := ((vis r.echo r.line).drop r.viewStart).take r.width

theorem window_length (r : Rl) : r.window.length = min r.width (r.line.length - r.viewStart) := by
  simp [window, vis_length]

theorem sync_ok {r : Rl} (h : r.viewStart ≤ r.line.length) : r.syncRendered = some { r with rendered := r.window } := by
  unfold syncRendered renderLine
  rw [if_pos h]
  cases he : r.echo with
  | true => simp [lineRange, window, he, vis_true]
  | false =>
    simp only [Option.map_some, Bool.false_eq_true, if_false, Option.some.injEq, Rl.mk.injEq, true_and, and_true, window, he, vis_false,
      List.drop_replicate, List.take_replicate]
    rw [Nat.min_comm]

/-- The state of the editor makes sense. -/
structure Ok (r : Rl) : Prop where
  wide : 0 < r.width
  narrow : r.width ≤ 32767
  pos : r.pos ≤ r.line.length
  left : r.viewStart ≤ r.pos
  right : r.pos ≤ r.viewStart + r.width
  shown : r.rendered = r.window

theorem Ok.rendered_le {r : Rl} (h : Ok r) : r.rendered.length ≤ r.width := by
  rw [h.shown, window_length]; omega

/-- The row shows a text from column `p` on, in a field of some width; the rest is as it was. -/
def Field (p width : Nat) (row0 : Nat → Char) (t : Str) (f : Nat → Char) : Prop :=
  ∀ c, f c = if p ≤ c ∧ c < p + width then (t[c - p]?).getD ' ' else row0 c

/-- The row shows the state of the editor. -/
structure Shows (p : Nat) (row0 : Nat → Char) (r : Rl) (s : Row) : Prop where
  text : Field p r.width row0 r.rendered s.text
  col : s.col = p + (r.pos - r.viewStart)
  visible : s.visible = true

theorem moveLeft_ok {n : Nat} (h : n ≤ 32767) {w : Nat} {s : Row} (hs : n ≤ s.col) (hw : s.col < w) :
    ∃ ops, moveLeft n = some ops ∧ s.execAll w ops = some { s with col := s.col - n } := by
  unfold moveLeft
  by_cases h0 : n > 0
  · rw [if_pos h0, negI16_small h]
    refine ⟨_, rfl, ?_⟩
    show (s.exec w _).bind _ = _
    simp only [Row.exec]
    rw [if_pos (by omega)]
    show some _ = _
    simp only [Option.some.injEq, Row.mk.injEq, true_and, and_true]
    omega
  · rw [if_neg h0]
    refine ⟨_, rfl, ?_⟩
    show some s = _
    have : n = 0 := by omega
    subst this
    rfl

theorem exec_write {w : Nat} {s : Row} {t : Str} (h : s.col + t.length < w) :
    s.exec w (.write t) = some { s with text := fun c => if s.col ≤ c ∧ c < s.col + t.length then (t[c - s.col]?).getD ' ' else s.text c, col := s.col + t.length } := by
  simp only [Row.exec]
  rw [if_pos h]

theorem exec_move {w : Nat} {s : Row} {off : Int} {n : Nat} (h : (s.col : Int) + off = n) (hn : n < w) :
    s.exec w (.moveWithinLine off) = some { s with col := n } := by
  simp only [Row.exec]
  rw [if_pos (by omega), h]
  rfl

theorem getD_none {t : Str} {i : Nat} (h : t.length ≤ i) : (t[i]?).getD ' ' = ' ' := by
  rw [List.getElem?_eq_none h]; rfl

theorem redraw_ok {W p : Nat} {row0 : Nat → Char} {r : Rl} {s : Row} {o : Str} {old new : Nat}
    (hn : r.width ≤ 32767) (hW : p + r.width < W) (ho : o.length ≤ r.width) (hr : r.rendered.length ≤ r.width)
    (hold : old ≤ r.width) (hcol : s.col = p + old) (hf : Field p r.width row0 o s.text)
    (hnew : new ≤ max r.rendered.length o.length) :
    ∃ ops s', r.redrawLine old o.length new = some ops ∧ s.execAll W ops = some s' ∧
      Field p r.width row0 r.rendered s'.text ∧ s'.col = p + new ∧ s'.visible = true := by
  unfold redrawLine
  obtain ⟨l, hl, hle⟩ := moveLeft_ok (n := old) (w := W) (s := { s with visible := false }) (by omega) (by show old ≤ s.col; omega) (by show s.col < W; omega)
  simp only [hl, Option.bind_eq_bind, Option.bind_some, if_pos hnew]
  -- the row after the text and the blanks
  have hmid : ∃ s2 : Row, ({ s with visible := false, col := s.col - old } : Row).execAll W ((if r.rendered = [] then [] else [.write r.rendered]) ++
      (if r.rendered.length < o.length then [.write (List.replicate (o.length - r.rendered.length) ' ')] else [])) = some s2 ∧
      Field p r.width row0 r.rendered s2.text ∧ s2.col = p + max r.rendered.length o.length := by
    rw [execAll_append]
    have h1 : ({ s with visible := false, col := s.col - old } : Row).execAll W (if r.rendered = [] then [] else [.write r.rendered]) =
        some { s with visible := false, text := fun c => if p ≤ c ∧ c < p + r.rendered.length then (r.rendered[c - p]?).getD ' ' else s.text c, col := p + r.rendered.length } := by
      have hc : s.col - old = p := by omega
      by_cases he : r.rendered = []
      · rw [if_pos he]
        show some _ = _
        simp only [Option.some.injEq, Row.mk.injEq, and_true, he, List.length_nil]
        refine ⟨?_, by omega⟩
        funext c
        rw [if_neg (by omega)]
      · rw [if_neg he]
        show (Row.exec W _ _).bind _ = _
        rw [exec_write (by show s.col - old + _ < W; omega)]
        simp only [hc]
        rfl
    rw [h1]
    simp only [Option.bind_some]
    by_cases hb : r.rendered.length < o.length
    · rw [if_pos hb]
      refine ⟨_, execAll_one (exec_write (by simp only [List.length_replicate]; omega)), ?_, ?_⟩
      · intro c
        simp only [List.length_replicate]
        have := hf c
        by_cases c1 : p ≤ c ∧ c < p + r.width
        · rw [if_pos c1]
          by_cases c2 : p + r.rendered.length ≤ c ∧ c < p + r.rendered.length + (o.length - r.rendered.length)
          · rw [if_pos c2, getD_none (t := r.rendered) (by omega)]
            rw [List.getElem?_replicate]
            rw [if_pos (by omega)]; rfl
          · rw [if_neg c2]
            by_cases c3 : p ≤ c ∧ c < p + r.rendered.length
            · rw [if_pos c3]
            · rw [if_neg c3, this, if_pos c1, getD_none (by omega), getD_none (by omega)]
        · rw [if_neg c1, if_neg (by omega), if_neg (by omega), this, if_neg c1]
      · simp only [List.length_replicate]; omega
    · rw [if_neg hb]
      refine ⟨_, rfl, ?_, ?_⟩
      · intro c
        have := hf c
        by_cases c1 : p ≤ c ∧ c < p + r.width
        · rw [if_pos c1]
          by_cases c3 : p ≤ c ∧ c < p + r.rendered.length
          · simp only [if_pos c3]
          · simp only [if_neg c3]
            rw [this, if_pos c1, getD_none (by omega), getD_none (by omega)]
        · rw [if_neg c1]
          simp only
          rw [if_neg (by omega), this, if_neg c1]
      · show p + _ = _; omega
  obtain ⟨s2, he2, hf2, hc2⟩ := hmid
  obtain ⟨b, hb, hbe⟩ := moveLeft_ok (n := max r.rendered.length o.length - new) (w := W) (s := s2) (by omega) (by omega) (by omega)
  refine ⟨_, { s2 with col := p + new, visible := true }, by rw [hb]; rfl, ?_, hf2, rfl, rfl⟩
  refine execAll_trans (s1 := { s2 with col := p + new }) (execAll_trans (s1 := s2) ?_ ?_) rfl
  · rw [List.append_assoc]
    exact execAll_trans (execAll_trans (execAll_one rfl) hle) he2
  · rw [hbe]
    simp only [Option.some.injEq, Row.mk.injEq, true_and, and_true]
    omega

/-- The handler succeeds, and the row shows the new state. -/
def Good (W p : Nat) (row0 : Nat → Char) (r : Rl) (s : Row) (x : Option (Rl × List ConOp)) (q : Rl → Prop) : Prop :=
  ∃ r' ops s', x = some (r', ops) ∧ Ok r' ∧ s.execAll W ops = some s' ∧ Shows p row0 r' s' ∧ r'.echo = r.echo ∧
    r'.width = r.width ∧ q r'

theorem currentPos_ok {r : Rl} (h : r.viewStart ≤ r.pos) : r.currentPos = some (r.pos - r.viewStart) := if_pos h

theorem redraw_branch {W p : Nat} {row0 : Nat → Char} {r : Rl} {s : Row} (hW : p + r.width < W) (ok : Ok r) (hs : Shows p row0 r s)
    {r1 : Rl} (he : r1.echo = r.echo) (hw : r1.width = r.width) (h1 : r1.viewStart ≤ r1.pos) (h2 : r1.pos ≤ r1.line.length)
    (h3 : r1.pos ≤ r1.viewStart + r1.width) {q : Rl → Prop} (hq : q { r1 with rendered := r1.window }) :
    Good W p row0 r s (do
      let oldPos ← r.currentPos
      let r2 ← r1.syncRendered
      let newPos ← r2.currentPos
      let ops ← r2.redrawLine oldPos r.rendered.length newPos
      pure (r2, ops)) q := by
  have hl := window_length r1
  obtain ⟨ops, s', e1, e2, e3, e4, e5⟩ := redraw_ok (W := W) (p := p) (row0 := row0) (r := { r1 with rendered := r1.window }) (s := s) (o := r.rendered)
    (old := r.pos - r.viewStart) (new := r1.pos - r1.viewStart)
    (by show r1.width ≤ _; rw [hw]; exact ok.narrow) (by show p + r1.width < W; rw [hw]; exact hW)
    (by show _ ≤ r1.width; rw [hw]; exact ok.rendered_le) (by show r1.window.length ≤ r1.width; omega)
    (by show _ ≤ r1.width; rw [hw]; have := ok.right; omega) hs.col (by show Field p r1.width _ _ _; rw [hw]; exact hs.text)
    (by show _ ≤ max r1.window.length _; omega)
  refine ⟨{ r1 with rendered := r1.window }, ops, s', ?_, ⟨?_, ?_, h2, h1, h3, rfl⟩, e2, ⟨e3, e4, e5⟩, he, hw, hq⟩
  · rw [currentPos_ok ok.left, sync_ok (Nat.le_trans h1 h2)]
    simp only [Option.bind_eq_bind, Option.bind_some]
    rw [currentPos_ok (by exact h1)]
    simp only [Option.bind_some, e1]
    rfl
  · show 0 < r1.width; rw [hw]; exact ok.wide
  · show r1.width ≤ _; rw [hw]; exact ok.narrow

theorem adjust_ok {r : Rl} (hw : 0 < r.width) (pos vs : Nat) :
    r.adjustView pos vs ≤ pos ∧ pos ≤ r.adjustView pos vs + r.width := by
  unfold adjustView
  rw [if_neg (by omega)]
  split_ifs <;> omega

theorem good_same {W p : Nat} {row0 : Nat → Char} {r : Rl} {s : Row} (ok : Ok r) (hs : Shows p row0 r s) {q : Rl → Prop} (hq : q r) :
    Good W p row0 r s (some (r, [])) q := ⟨r, [], s, rfl, ok, rfl, hs, rfl, rfl, hq⟩

theorem good_moveTo {W p : Nat} {row0 : Nat → Char} {r : Rl} {s : Row} (hW : p + r.width < W) (ok : Ok r) (hs : Shows p row0 r s)
    {n : Nat} (hn : n ≤ r.line.length) (hshort : r.line.length ≤ 32767) :
    Good W p row0 r s (r.doMoveTo n) fun r' => r'.line = r.line ∧ r'.pos = n ∧ r'.history = r.history ∧ r'.historyPos = r.historyPos := by
  unfold doMoveTo
  split
  next h => exact good_same ok hs ⟨rfl, h.symm, rfl, rfl⟩
  next h =>
    obtain ⟨a1, a2⟩ := adjust_ok ok.wide n r.viewStart
    by_cases hv : r.adjustView n r.viewStart = r.viewStart
    · rw [hv] at a1 a2
      rw [currentPos_ok ok.left]
      simp only [Option.bind_eq_bind, Option.bind_some, hv, if_true]
      have hp := ok.pos
      have hl := ok.left
      have hnar := ok.narrow
      rw [asI16_small (by omega), asI16_small (by omega)]
      unfold subI16
      rw [if_pos (by omega)]
      refine ⟨{ r with pos := n }, _, { s with col := p + (n - r.viewStart) }, rfl, ⟨ok.wide, ok.narrow, hn, a1, a2, ?_⟩, ?_, ⟨hs.text, rfl, hs.visible⟩, rfl, rfl, rfl, rfl, rfl, rfl⟩
      · exact ok.shown
      · refine execAll_one ?_
        simp only [Row.exec]
        have hc := hs.col
        rw [if_pos (by omega)]
        simp only [Option.some.injEq, Row.mk.injEq, true_and, and_true]
        omega
    · have := redraw_branch hW ok hs (r1 := { r with pos := n, viewStart := r.adjustView n r.viewStart }) rfl rfl a1 hn a2
        (q := fun r' => r'.line = r.line ∧ r'.pos = n ∧ r'.history = r.history ∧ r'.historyPos = r.historyPos) ⟨rfl, rfl, rfl, rfl⟩
      simp only [hv, if_false]
      exact this

theorem erase_ok {W p : Nat} {row0 : Nat → Char} {r : Rl} {s : Row} (hW : p + r.width < W) (ok : Ok r) (hs : Shows p row0 r s)
    (hv : r.viewStart = 0) (hfit : r.line.length ≤ r.width) {n : Nat} (hn : n < r.line.length) (hnp : n ≤ r.pos) :
    ∃ ops s', r.eraseAt r.pos n = some ({ r with line := lineRemove r.line n }, ops) ∧ s.execAll W ops = some s' ∧
      Field p r.width row0 (vis r.echo (lineRemove r.line n)) s'.text ∧ s'.col = p + n ∧ s'.visible = true := by
  unfold eraseAt
  rw [if_pos ⟨hn, hnp⟩]
  have hp := ok.pos
  have hnar := ok.narrow
  have hc : s.col = p + r.pos := by rw [hs.col, hv]; rfl
  obtain ⟨l, hl, hle⟩ := moveLeft_ok (n := r.pos - n) (w := W) (s := { s with visible := false }) (by omega) (by show _ ≤ s.col; omega) (by show s.col < W; omega)
  have hneg : negI16 (asI16 (r.line.length - n - 1 + 1)) = some (-((r.line.length - n - 1 + 1 : Nat) : Int)) := negI16_small (by omega)
  simp only [hl, hneg, Option.bind_eq_bind, Option.bind_some]
  have hren : r.rendered = vis r.echo r.line := by
    rw [ok.shown, window, hv, List.drop_zero, List.take_of_length_le (by rw [vis_length]; exact hfit)]
  have htail : (if r.echo then r.line.drop (n + 1) else List.replicate (r.line.length - n - 1) '*') = (vis r.echo r.line).drop (n + 1) := by
    cases r.echo with
    | true => simp [vis_true]
    | false =>
      simp only [Bool.false_eq_true, if_false, vis_false, List.drop_replicate]
      congr 1
  rw [htail]
  have hlen : ((vis r.echo r.line).drop (n + 1)).length = r.line.length - n - 1 := by
    rw [List.length_drop, vis_length]; omega
  refine ⟨_, _, rfl, execAll_trans (execAll_trans (execAll_trans (execAll_one rfl) hle) (execAll_one (exec_write ?_)))
    (execAll_trans (a := [_]) (execAll_one (exec_write ?_)) (execAll_trans (a := [_]) (execAll_one (exec_move (n := p + n) ?_ ?_)) (execAll_one rfl))), ?_, rfl, rfl⟩
  · show s.col - (r.pos - n) + _ < W
    omega
  · show s.col - (r.pos - n) + _ + 1 < W
    omega
  · simp only [List.length_singleton]
    omega
  · omega
  · intro c
    have hx := hs.text c
    rw [hren] at hx
    have hcc : s.col - (r.pos - n) = p + n := by omega
    simp only [hcc, hlen, List.length_singleton]
    have hrem : vis r.echo (lineRemove r.line n) = (vis r.echo r.line).take n ++ (vis r.echo r.line).drop (n + 1) := by
      simp [vis, lineRemove, List.map_take, List.map_drop]
    rw [hrem]
    have hvl := vis_length r.echo r.line
    generalize vis r.echo r.line = v at hx hvl hlen
    have htl : (v.take n).length = n := by rw [List.length_take]; omega
    by_cases c1 : p ≤ c ∧ c < p + r.width
    · rw [if_pos c1] at hx ⊢
      by_cases c2 : p + n + (r.line.length - n - 1) ≤ c ∧ c < p + n + (r.line.length - n - 1) + 1
      · rw [if_pos c2, getD_none (t := List.take n v ++ _) (by rw [List.length_append, htl, hlen]; omega)]
        have : c - (p + n + (r.line.length - n - 1)) = 0 := by omega
        rw [this]; rfl
      · rw [if_neg c2]
        by_cases c3 : p + n ≤ c ∧ c < p + n + (r.line.length - n - 1)
        · rw [if_pos c3, List.getElem?_append_right (by rw [htl]; omega), htl]
          congr 2
          omega
        · rw [if_neg c3, hx]
          by_cases c4 : c < p + n
          · rw [List.getElem?_append_left (by rw [htl]; omega), List.getElem?_take_of_lt (by omega)]
          · rw [getD_none (by omega), getD_none (by rw [List.length_append, htl, hlen]; omega)]
    · rw [if_neg c1] at hx ⊢
      rw [if_neg (by omega), if_neg (by omega), hx]

theorem remove_length {l : Str} {n : Nat} (h : n < l.length) : (lineRemove l n).length = l.length - 1 := by
  simp [lineRemove]; omega

theorem insert_length {l : Str} {n : Nat} {c : Char} (h : n ≤ l.length) : (lineInsert l n c).length = l.length + 1 := by
  simp [lineInsert]; omega

/-- When the whole line fits, the window is the line. -/
theorem window_all {r : Rl} (hv : r.viewStart = 0) (hfit : r.line.length ≤ r.width) : r.window = vis r.echo r.line := by
  rw [window, hv, List.drop_zero, List.take_of_length_le (by rw [vis_length]; exact hfit)]

theorem good_erase {W p : Nat} {row0 : Nat → Char} {r : Rl} {s : Row} (hW : p + r.width < W) (ok : Ok r) (hs : Shows p row0 r s)
    (hv : r.viewStart = 0) (hfit : r.line.length ≤ r.width) {n : Nat} (hn : n < r.line.length) (hnp : n ≤ r.pos) {q : Rl → Prop}
    (hq : q { r with line := lineRemove r.line n, pos := n, rendered := vis r.echo (lineRemove r.line n) }) :
    Good W p row0 r s (do
      let (r1, ops) ← r.eraseAt r.pos n
      let r2 ← ({ r1 with pos := n } : Rl).syncRendered
      pure (r2, ops)) q := by
  obtain ⟨ops, s', e1, e2, e3, e4, e5⟩ := erase_ok hW ok hs hv hfit hn hnp
  have hl := remove_length hn
  have hw : ({ r with line := lineRemove r.line n, pos := n } : Rl).window = vis r.echo (lineRemove r.line n) :=
    window_all hv (by show (lineRemove r.line n).length ≤ r.width; omega)
  refine ⟨{ r with line := lineRemove r.line n, pos := n, rendered := vis r.echo (lineRemove r.line n) }, ops, s', ?_,
    ⟨ok.wide, ok.narrow, ?_, ?_, ?_, hw.symm⟩, e2, ⟨e3, ?_, e5⟩, rfl, rfl, hq⟩
  · rw [e1]
    simp only [Option.bind_eq_bind, Option.bind_some]
    rw [sync_ok (by show r.viewStart ≤ _; omega), hw]
    rfl
  · show n ≤ (lineRemove r.line n).length; omega
  · show r.viewStart ≤ n; omega
  · show n ≤ r.viewStart + r.width; have := ok.right; omega
  · show s'.col = p + (n - r.viewStart); rw [hv]; exact e4

theorem good_backspace {W p : Nat} {row0 : Nat → Char} {r : Rl} {s : Row} (hW : p + r.width < W) (ok : Ok r) (hs : Shows p row0 r s) :
    Good W p row0 r s r.doBackspace fun r' => r'.line = (if r.pos = 0 then r.line else lineRemove r.line (r.pos - 1)) ∧
      r'.pos = r.pos - 1 ∧ r'.history = r.history ∧ r'.historyPos = r.historyPos := by
  have hp := ok.pos
  unfold doBackspace
  split
  next h => exact good_same ok hs ⟨rfl, by omega, rfl, rfl⟩
  next h =>
    split
    next hc =>
      have := good_erase (q := fun r' => r'.line = lineRemove r.line (r.pos - 1) ∧ r'.pos = r.pos - 1 ∧ r'.history = r.history ∧ r'.historyPos = r.historyPos)
        hW ok hs hc.1 hc.2 (n := r.pos - 1) (by omega) (by omega) ⟨rfl, rfl, rfl, rfl⟩
      obtain ⟨ops, s', e1, _⟩ := erase_ok hW ok hs hc.1 hc.2 (n := r.pos - 1) (by omega) (by omega)
      rw [e1] at this ⊢
      exact this
    next hc =>
      have hl := remove_length (l := r.line) (n := r.pos - 1) (by omega)
      obtain ⟨a1, a2⟩ := adjust_ok (r := { r with line := lineRemove r.line (r.pos - 1), pos := r.pos - 1 }) ok.wide (r.pos - 1) r.viewStart
      exact redraw_branch hW ok hs (r1 := { r with line := lineRemove r.line (r.pos - 1), pos := r.pos - 1, viewStart := _ }) rfl rfl a1
        (by show r.pos - 1 ≤ (lineRemove _ _).length; omega) a2 ⟨rfl, rfl, rfl, rfl⟩

theorem good_delete {W p : Nat} {row0 : Nat → Char} {r : Rl} {s : Row} (hW : p + r.width < W) (ok : Ok r) (hs : Shows p row0 r s) :
    Good W p row0 r s r.doDelete fun r' => r'.line = lineRemove r.line r.pos ∧
      r'.pos = r.pos ∧ r'.history = r.history ∧ r'.historyPos = r.historyPos := by
  have hp := ok.pos
  unfold doDelete
  split
  next h =>
    refine good_same ok hs ⟨?_, rfl, rfl, rfl⟩
    rw [lineRemove, List.drop_of_length_le (by omega), List.take_of_length_le (by omega), List.append_nil]
  next h =>
    split
    next hc =>
      have := good_erase (q := fun r' => r'.line = lineRemove r.line r.pos ∧ r'.pos = r.pos ∧ r'.history = r.history ∧ r'.historyPos = r.historyPos)
        hW ok hs hc.1 hc.2 (n := r.pos) (by omega) (by omega) ⟨rfl, rfl, rfl, rfl⟩
      obtain ⟨ops, s', e1, _⟩ := erase_ok hW ok hs hc.1 hc.2 (n := r.pos) (by omega) (by omega)
      rw [e1] at this ⊢
      exact this
    next hc =>
      have hl := remove_length (l := r.line) (n := r.pos) (by omega)
      obtain ⟨a1, a2⟩ := adjust_ok (r := { r with line := lineRemove r.line r.pos }) ok.wide r.pos r.viewStart
      exact redraw_branch hW ok hs (r1 := { r with line := lineRemove r.line r.pos, viewStart := _ }) rfl rfl a1
        (by show r.pos ≤ (lineRemove _ _).length; omega) a2 ⟨rfl, rfl, rfl, rfl⟩

theorem exec_write2 {w : Nat} {s : Row} {a b : Str} (h : s.col + (a ++ b).length < w) :
    s.execAll w [.write a, .write b] = s.exec w (.write (a ++ b)) := by
  rw [exec_write h]
  rw [List.length_append] at h
  show ((s.exec w (.write a)).bind fun s' => (s'.exec w (.write b)).bind _) = _
  rw [exec_write (by omega)]
  simp only [Option.bind_some]
  rw [exec_write (by show s.col + a.length + b.length < w; omega)]
  simp only [Option.bind_some, List.length_append]
  show some _ = _
  simp only [Option.some.injEq, Row.mk.injEq, and_true]
  refine ⟨?_, by omega⟩
  funext c
  by_cases h1 : s.col + a.length ≤ c ∧ c < s.col + a.length + b.length
  · rw [if_pos h1, if_pos (by omega), List.getElem?_append_right (by omega)]
    congr 2
    omega
  · rw [if_neg h1]
    by_cases h2 : s.col ≤ c ∧ c < s.col + a.length
    · rw [if_pos h2, if_pos (by omega), List.getElem?_append_left (by omega)]
    · rw [if_neg h2, if_neg (by omega)]

theorem good_char {W p : Nat} {row0 : Nat → Char} {r : Rl} {s : Row} (hW : p + r.width < W) (ok : Ok r) (hs : Shows p row0 r s) (c : Char) :
    Good W p row0 r s (r.doChar c) fun r' => r'.line = lineInsert r.line r.pos c ∧
      r'.pos = r.pos + 1 ∧ r'.history = r.history ∧ r'.historyPos = r.historyPos := by
  have hp := ok.pos
  have hnar := ok.narrow
  have hlft := ok.left
  have hwid := ok.wide
  have hrgt := ok.right
  unfold doChar
  rw [if_neg (by omega)]
  obtain ⟨a1, a2⟩ := adjust_ok ok.wide (r.pos + 1) r.viewStart
  have hl := insert_length (c := c) hp
  simp only
  split
  next hc =>
    obtain ⟨hv, hfit⟩ := hc
    rw [hv] at a1 a2
    -- what is written
    obtain ⟨t, ht⟩ : ∃ t, t = vis r.echo (c :: r.line.drop r.pos) := ⟨_, rfl⟩
    have htl : t.length = r.line.length - r.pos + 1 := by rw [ht, vis_length]; simp
    have hwin : ({ r with line := lineInsert r.line r.pos c, pos := r.pos + 1 } : Rl).window =
        ((vis r.echo r.line).take r.pos).drop r.viewStart ++ t := by
      simp only [window]
      have e : vis r.echo (lineInsert r.line r.pos c) = (vis r.echo r.line).take r.pos ++ t := by
        rw [ht]; simp [vis, lineInsert, List.map_take, List.map_drop]
      rw [e, List.take_of_length_le, List.drop_append_of_le_length]
      · rw [List.length_take, vis_length]; omega
      · rw [List.length_drop, List.length_append, List.length_take, vis_length]; omega
    have hcol := hs.col
    have hrow : Field p r.width row0 (((vis r.echo r.line).take r.pos).drop r.viewStart ++ t)
        fun c => if s.col ≤ c ∧ c < s.col + t.length then (t[c - s.col]?).getD ' ' else s.text c := by
      have hx := hs.text
      have hren : r.rendered = (vis r.echo r.line).drop r.viewStart := by
        rw [ok.shown, window, List.take_of_length_le (by rw [List.length_drop, vis_length]; omega)]
      rw [hren] at hx
      have hvl := vis_length r.echo r.line
      generalize vis r.echo r.line = v at hx hvl
      have hdl : ((v.take r.pos).drop r.viewStart).length = r.pos - r.viewStart := by
        rw [List.length_drop, List.length_take]; omega
      intro c
      replace hx := hx c
      simp only
      by_cases c1 : p ≤ c ∧ c < p + r.width
      · rw [if_pos c1] at hx ⊢
        by_cases c2 : s.col ≤ c ∧ c < s.col + t.length
        · rw [if_pos c2, List.getElem?_append_right (by omega), hdl]
          congr 2
          omega
        · rw [if_neg c2, hx]
          by_cases c3 : c < s.col
          · rw [List.getElem?_append_left (by omega), List.getElem?_drop, List.getElem?_drop, List.getElem?_take_of_lt (by omega)]
          · rw [getD_none (by rw [List.length_drop]; omega), getD_none (by rw [List.length_append]; omega)]
      · rw [if_neg c1] at hx ⊢
        rw [if_neg (by omega), hx]
    have hok : Ok { r with line := lineInsert r.line r.pos c, pos := r.pos + 1, rendered := ((vis r.echo r.line).take r.pos).drop r.viewStart ++ t } :=
      ⟨hwid, hnar, by show r.pos + 1 ≤ (lineInsert _ _ _).length; omega, a1, a2, hwin.symm⟩
    have hfin : s.col + t.length < W := by omega
    -- the row with the text written
    obtain ⟨f, hf⟩ : ∃ f : Nat → Char, f = fun c => if s.col ≤ c ∧ c < s.col + t.length then (t[c - s.col]?).getD ' ' else s.text c := ⟨_, rfl⟩
    rw [← hf] at hrow
    have hwr : ∀ b, ({ s with visible := b } : Row).exec W (.write t) = some { text := f, col := s.col + t.length, visible := b } := by
      intro b
      rw [exec_write (s := { s with visible := b }) hfin, hf]
    split
    next hlt =>
      have hneg : negI16 (asI16 (r.line.length - r.pos)) = some (-((r.line.length - r.pos : Nat) : Int)) := negI16_small (by omega)
      have hsync := sync_ok (r := { r with line := lineInsert r.line r.pos c, pos := r.pos + 1 }) (by show r.viewStart ≤ (lineInsert _ _ _).length; omega)
      rw [hwin] at hsync
      have hops : ({ s with visible := false } : Row).execAll W (if r.echo then [.write [c], .write (r.line.drop r.pos)]
            else [.write (List.replicate (r.line.length - r.pos + 1) '*')]) = some { text := f, col := s.col + t.length, visible := false } := by
        cases he : r.echo with
        | true =>
          rw [he, vis_true] at ht
          simp only [if_true]
          rw [exec_write2 (a := [c]) (b := r.line.drop r.pos) (by show s.col + (c :: r.line.drop r.pos).length < W; rw [← ht]; exact hfin)]
          show ({ s with visible := false } : Row).exec W (.write (c :: r.line.drop r.pos)) = _
          rw [← ht]
          exact hwr false
        | false =>
          rw [he, vis_false] at ht
          simp only [Bool.false_eq_true, if_false]
          have : List.replicate (r.line.length - r.pos + 1) '*' = t := by rw [ht]; simp
          rw [this]
          exact execAll_one (hwr false)
      refine ⟨{ r with line := lineInsert r.line r.pos c, pos := r.pos + 1, rendered := ((vis r.echo r.line).take r.pos).drop r.viewStart ++ t }, _,
        { text := f, col := s.col + 1, visible := true }, by rw [hneg, hsync]; rfl, hok, ?_, ⟨hrow, ?_, rfl⟩, rfl, rfl, rfl, rfl, rfl, rfl⟩
      · exact execAll_trans (execAll_trans (execAll_one rfl) hops)
          (execAll_trans (a := [_]) (execAll_one (exec_move (n := s.col + 1) (by show ((s.col + t.length : Nat) : Int) + _ = _; omega) (by omega)))
          (execAll_one rfl))
      · show s.col + 1 = p + (r.pos + 1 - r.viewStart)
        omega
    next hge =>
      have hpl : r.line.length = r.pos := by omega
      have hsync := sync_ok (r := { r with line := lineInsert r.line r.pos c, pos := r.pos + 1 }) (by show r.viewStart ≤ (lineInsert _ _ _).length; omega)
      rw [hwin] at hsync
      have ht1 : (if r.echo then [c] else ['*']) = t := by
        rw [ht, List.drop_of_length_le (by omega)]
        cases r.echo <;> rfl
      refine ⟨{ r with line := lineInsert r.line r.pos c, pos := r.pos + 1, rendered := ((vis r.echo r.line).take r.pos).drop r.viewStart ++ t }, _,
        { text := f, col := s.col + t.length, visible := true }, by rw [hpl, hsync, ht1]; rfl, hok, execAll_one ?_, ⟨hrow, ?_, rfl⟩, rfl, rfl, rfl, rfl, rfl, rfl⟩
      · have := hwr s.visible
        rw [hs.visible] at this
        rw [← this]
        congr 1
        cases s
        simp only [Row.mk.injEq, true_and]
        exact hs.visible
      · show s.col + t.length = p + (r.pos + 1 - r.viewStart)
        omega
  next hc =>
    have hle : r.adjustView (r.pos + 1) r.viewStart ≤ r.pos + 1 := a1
    exact redraw_branch hW ok hs (r1 := { r with line := lineInsert r.line r.pos c, pos := r.pos + 1, viewStart := _ }) rfl rfl a1
      (by show r.pos + 1 ≤ (lineInsert _ _ _).length; omega) a2 ⟨rfl, rfl, rfl, rfl⟩

/-- The editor is at the line and in the history of the specification. -/
structure Rel (kept : Bool) (e : Editor) (r : Rl) : Prop where
  hist : r.history.isSome = kept
  line : r.line = e.text
  pos : r.pos = e.before.length
  none : r.history = none → e.above = [] ∧ e.below = []
  some : ∀ h, r.history = some h → h = e.above.reverse ++ e.entry :: e.below ∧ r.historyPos = e.above.length

theorem good_goTo {W p : Nat} {row0 : Nat → Char} {r : Rl} {s : Row} (hW : p + r.width < W) (ok : Ok r) (hs : Shows p row0 r s)
    {h' : List Str} {n : Nat} {l : Str} (hl : h'[n]? = some l) {kept : Bool} {e : Editor} (he : Rel kept e { r with history := some h', historyPos := n, line := l, pos := l.length }) :
    Good W p row0 r s (do
      let newLine ← h'[n]?
      let oldPos ← r.currentPos
      let clearLen := r.rendered.length
      let r2 ← ({ r with history := some h', historyPos := n, line := newLine, pos := newLine.length } : Rl).resetViewToEnd
      let newPos ← r2.currentPos
      let ops ← r2.redrawLine oldPos clearLen newPos
      pure (r2, ops)) (Rel kept e) := by
  rw [hl]
  have hw := ok.wide
  exact redraw_branch hW ok hs (r1 := { r with history := some h', historyPos := n, line := l, pos := l.length, viewStart := if r.width = 0 then 0 else l.length - r.width }) rfl rfl
    (by simp only [if_neg (show ¬ r.width = 0 by omega)]; omega) (Nat.le_refl _) (by simp only [if_neg (show ¬ r.width = 0 by omega)]; omega)
    (q := Rel kept e) ⟨he.hist, he.line, he.pos, he.none, he.some⟩

theorem good_up {W p : Nat} {row0 : Nat → Char} {r : Rl} {s : Row} (hW : p + r.width < W) (ok : Ok r) (hs : Shows p row0 r s)
    {kept : Bool} {e : Editor} (rel : Rel kept e r) : Good W p row0 r s (r.doUpDown true) (Rel kept e.up) := by
  unfold doUpDown Editor.up
  cases hh : r.history with
  | none =>
    rw [(rel.none hh).1]
    exact good_same ok hs rel
  | some h =>
    obtain ⟨h1, h2⟩ := rel.some h hh
    cases ha : e.above with
    | nil =>
      rw [ha] at h2
      simp only [true_and]
      rw [if_pos (by exact h2)]
      exact good_same ok hs rel
    | cons l ls =>
      rw [ha] at h1 h2
      simp only [List.length_cons] at h2
      simp only [true_and, not_true_eq_false, false_and, if_false, if_true]
      rw [if_neg (by omega)]
      have hset : h.set r.historyPos r.line = ls.reverse ++ l :: r.line :: e.below := by
        rw [h1, h2]
        simp [List.reverse_cons, List.append_assoc]
      rw [if_pos (by rw [h1, h2]; simp), hset]
      have hn : r.historyPos - 1 = ls.length := by omega
      refine good_goTo hW ok hs (l := l) ?_ ⟨(by rw [← rel.hist, hh]; rfl), ?_, ?_, ?_, ?_⟩
      · rw [hn, List.getElem?_append_right (by simp)]; simp
      · simp [Editor.text]
      · rfl
      · intro h; cases h
      · intro h hx
        cases hx
        exact ⟨by rw [rel.line], hn⟩

theorem good_down {W p : Nat} {row0 : Nat → Char} {r : Rl} {s : Row} (hW : p + r.width < W) (ok : Ok r) (hs : Shows p row0 r s)
    {kept : Bool} {e : Editor} (rel : Rel kept e r) : Good W p row0 r s (r.doUpDown false) (Rel kept e.down) := by
  unfold doUpDown Editor.down
  cases hh : r.history with
  | none =>
    rw [(rel.none hh).2]
    exact good_same ok hs rel
  | some h =>
    obtain ⟨h1, h2⟩ := rel.some h hh
    have hlen : h.length = e.above.length + e.below.length + 1 := by rw [h1]; simp; omega
    simp only [Bool.false_eq_true, not_false_eq_true, true_and, false_and, if_false]
    rw [if_neg (by omega)]
    cases hb : e.below with
    | nil =>
      rw [hb] at hlen
      simp only [List.length_nil] at hlen
      rw [if_pos (by omega)]
      exact good_same ok hs rel
    | cons l ls =>
      rw [hb] at h1 hlen
      simp only [List.length_cons] at hlen
      rw [if_neg (by omega)]
      have hset : h.set r.historyPos r.line = e.above.reverse ++ r.line :: l :: ls := by
        rw [h1, h2]
        simp
      rw [if_pos (by omega), hset]
      refine good_goTo hW ok hs (l := l) ?_ ⟨(by rw [← rel.hist, hh]; rfl), ?_, ?_, ?_, ?_⟩
      · rw [h2, List.getElem?_append_right (by simp)]; simp
      · simp [Editor.text]
      · rfl
      · intro h; cases h
      · intro h hx
        cases hx
        refine ⟨by rw [rel.line]; simp, ?_⟩
        show r.historyPos + 1 = _
        rw [h2]; rfl

theorem Good.imp {W p : Nat} {row0 : Nat → Char} {r : Rl} {s : Row} {x : Option (Rl × List ConOp)} {q q' : Rl → Prop}
    (h : Good W p row0 r s x q) (hq : ∀ r', q r' → q' r') : Good W p row0 r s x q' := by
  obtain ⟨r', ops, s', h1, h2, h3, h4, h5, h6, h7⟩ := h
  exact ⟨r', ops, s', h1, h2, h3, h4, h5, h6, hq _ h7⟩

/-- An edit within the line. -/
theorem Rel.edit {kept : Bool} {e : Editor} {r r' : Rl} (rel : Rel kept e r) {b a : Str}
    (h : r'.line = b ++ a ∧ r'.pos = b.length ∧ r'.history = r.history ∧ r'.historyPos = r.historyPos) :
    Rel kept { e with before := b, after := a } r' := by
  obtain ⟨h1, h2, h3, h4⟩ := h
  exact ⟨by rw [h3, rel.hist], h1, h2, fun h => rel.none (h3 ▸ h), fun h hx => by rw [h4]; exact rel.some h (h3 ▸ hx)⟩

/-- The keys that edit. -/
def _root_.EB.Key.edits : Key → Bool
  | .carriageReturn | .newLine | .interrupt => false
  | _ => true

theorem press_ok {W p : Nat} {row0 : Nat → Char} {r : Rl} {s : Row} (hW : p + r.width < W) (ok : Ok r) (hs : Shows p row0 r s)
    {kept : Bool} {e : Editor} (rel : Rel kept e r) (hshort : e.text.length ≤ 32767) {k : Key} (hk : k.edits = true) (heof : k = .eofOrDelete → e.text ≠ []) :
    ∃ r' ops s', r.press k = some (.go r' ops) ∧ Ok r' ∧ s.execAll W ops = some s' ∧ Shows p row0 r' s' ∧ r'.echo = r.echo ∧
      r'.width = r.width ∧ Rel kept (e.press k) r' := by
  have wrap : ∀ {x : Option (Rl × List ConOp)} {e' : Editor}, Good W p row0 r s x (Rel kept e') →
      ∃ r' ops s', (x.map fun p => Act.go p.1 p.2) = some (.go r' ops) ∧ Ok r' ∧ s.execAll W ops = some s' ∧ Shows p row0 r' s' ∧
        r'.echo = r.echo ∧ r'.width = r.width ∧ Rel kept e' r' := by
    rintro x e' ⟨r', ops, s', h1, h2⟩
    exact ⟨r', ops, s', by rw [h1]; rfl, h2⟩
  have hline := rel.line
  have hpos := rel.pos
  have hlen : r.line.length = e.before.length + e.after.length := by rw [hline]; simp [Editor.text]
  have hsl : r.line.length ≤ 32767 := by rw [hline]; exact hshort
  have stay : ∀ r', (r'.line = r.line ∧ r'.pos = r.pos ∧ r'.history = r.history ∧ r'.historyPos = r.historyPos) → Rel kept e r' := by
    rintro r' ⟨h1, h2, h3, h4⟩
    exact rel.edit (b := e.before) (a := e.after) ⟨by rw [h1, hline]; rfl, by rw [h2, hpos], h3, h4⟩
  have del : Good W p row0 r s r.doDelete (Rel kept (e.press .delete)) := by
    refine (good_delete hW ok hs).imp fun r' h => rel.edit (b := e.before) (a := e.after.tail) ⟨?_, by rw [h.2.1, hpos], h.2.2⟩
    rw [h.1, hpos, hline, lineRemove, Editor.text, List.take_left, ← List.drop_drop, List.drop_left, List.drop_one]
  cases k with
  | carriageReturn => cases hk
  | newLine => cases hk
  | interrupt => cases hk
  | arrowDown => exact wrap (good_down hW ok hs rel)
  | arrowUp => exact wrap (good_up hW ok hs rel)
  | escape => exact ⟨r, [], s, rfl, ok, rfl, hs, rfl, rfl, rel⟩
  | pageDown => exact ⟨r, [], s, rfl, ok, rfl, hs, rfl, rfl, rel⟩
  | pageUp => exact ⟨r, [], s, rfl, ok, rfl, hs, rfl, rfl, rel⟩
  | tab => exact ⟨r, [], s, rfl, ok, rfl, hs, rfl, rfl, rel⟩
  | unknown => exact ⟨r, [], s, rfl, ok, rfl, hs, rfl, rfl, rel⟩
  | delete => exact wrap del
  | eofOrDelete =>
    have : r.press .eofOrDelete = r.doDelete.map fun p => Act.go p.1 p.2 := by
      show (if r.line = [] then _ else _) = _
      rw [if_neg (by rw [hline]; exact heof rfl)]
    rw [this]
    exact wrap del
  | char c =>
    refine wrap ((good_char hW ok hs c).imp fun r' h => rel.edit (b := e.before ++ [c]) (a := e.after) ⟨?_, ?_, h.2.2⟩)
    · rw [h.1, hpos, hline, lineInsert, Editor.text, List.take_left, List.drop_left]; simp
    · rw [h.2.1, hpos]; simp
  | backspace =>
    refine wrap ((good_backspace hW ok hs).imp fun r' h => rel.edit (b := e.before.dropLast) (a := e.after) ⟨?_, ?_, h.2.2⟩)
    · rw [h.1, hpos, hline]
      rcases List.eq_nil_or_concat e.before with hb | ⟨b, c, hb⟩
      · rw [if_pos (by rw [hb]; rfl)]; simp [Editor.text, hb]
      · rw [List.concat_eq_append] at hb
        rw [if_neg (by rw [hb]; simp)]
        simp [lineRemove, Editor.text, hb]
    · rw [h.2.1, hpos]; simp
  | home =>
    refine wrap ((good_moveTo hW ok hs (n := 0) (Nat.zero_le _) hsl).imp fun r' h => rel.edit (b := []) (a := e.text) ⟨by rw [h.1, hline]; rfl, by rw [h.2.1]; rfl, h.2.2⟩)
  | «end» =>
    refine wrap ((good_moveTo hW ok hs (n := r.line.length) (Nat.le_refl _) hsl).imp fun r' h => rel.edit (b := e.text) (a := []) ⟨by rw [h.1, hline]; simp, by rw [h.2.1, hline], h.2.2⟩)
  | arrowLeft =>
    refine wrap ((good_moveTo hW ok hs (n := r.pos - 1) (by omega) hsl).imp fun r' h =>
      rel.edit (b := e.before.dropLast) (a := e.before.getLast?.toList ++ e.after) ⟨?_, by rw [h.2.1, hpos]; simp, h.2.2⟩)
    rw [h.1, hline]
    rcases List.eq_nil_or_concat e.before with hb | ⟨b, c, hb⟩
    · simp [Editor.text, hb]
    · rw [List.concat_eq_append] at hb
      simp [Editor.text, hb]
  | arrowRight =>
    refine wrap ((good_moveTo hW ok hs (n := min (r.pos + 1) r.line.length) (by omega) hsl).imp fun r' h =>
      rel.edit (b := e.before ++ e.after.head?.toList) (a := e.after.tail) ⟨?_, ?_, h.2.2⟩)
    · rw [h.1, hline]
      cases ha : e.after <;> simp [Editor.text, ha]
    · rw [h.2.1]
      cases ha : e.after with
      | nil => rw [ha] at hlen; simp at hlen ⊢; omega
      | cons c cs => rw [ha] at hlen; simp at hlen ⊢; omega

end Rl
end EB
