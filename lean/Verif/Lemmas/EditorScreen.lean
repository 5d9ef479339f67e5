import Verif.Lemmas.Editor
import Verif.Props.Library
/-!
# What the full-screen editor shows
-/

namespace EB.Edit
open Spec

variable {z : Bool}

/-- The character at a place of the lines. -/
def cAt (content : List Str) (r c : Nat) : Char := ((content[r]?).getD []).getD c ' '

theorem charAt_flat {content : List Str} (hc : Clean content) (r c : Nat) : charAt (flat content) r c = cAt content r c := by
  unfold charAt cAt
  by_cases hr : r < content.length
  · have hs : content = content.take r ++ content[r] :: content.drop (r + 1) := by
      rw [← List.drop_eq_getElem_cons hr, List.take_append_drop]
    have hlen : (content.take r).length = r := by rw [List.length_take]; omega
    have := place_ok (A := content.take r) (x := content[r]) (B := content.drop (r + 1)) c
      (fun l hl => hc.noNl (List.mem_of_mem_take hl)) (hc.noNl (List.getElem_mem hr))
    rw [hlen, ← hs] at this
    rw [this, List.getElem?_eq_getElem hr]
    show ((content[r].drop c ++ '\n' :: _).head?.filter _).getD ' ' = content[r].getD c ' '
    by_cases hcl : c < content[r].length
    · rw [List.drop_eq_getElem_cons hcl]
      have hn : content[r][c] ≠ '\n' := hc.noNl (List.getElem_mem hr) _ (List.getElem_mem hcl)
      simp [Option.filter, hn, List.getD, List.getElem?_eq_getElem hcl]
    · rw [List.drop_of_length_le (by omega)]
      simp [Option.filter, List.getD, List.getElem?_eq_none (Nat.le_of_not_lt hcl)]
  · rw [place_none (fun l hl => hc.noNl hl) r c (by omega), List.getElem?_eq_none (by omega)]
    rfl

/-! ## Running operations -/

theorem after_append {W H : Nat} {P : Console → Prop} (a b : List EdOp) (s : Console) :
    Console.After z W H P (a ++ b) s ↔ Console.After z W H (fun s' => Console.After z W H P b s') a s := by
  induction a generalizing s with
  | nil => rfl
  | cons o a ih =>
    show (_ ∧ ∀ s', _ → Console.After z W H P (a ++ b) s') ↔ (_ ∧ ∀ s', _ → Console.After z W H _ a s')
    simp only [ih]

theorem after_mono {W H : Nat} {P Q : Console → Prop} (h : ∀ s, P s → Q s) {ops : List EdOp} {s : Console}
    (ha : Console.After z W H P ops s) : Console.After z W H Q ops s := by
  induction ops generalizing s with
  | nil => exact h s ha
  | cons o ops ih => exact ⟨ha.1, fun s' hs => ih (ha.2 s' hs)⟩

/-- The insertion point is in the viewport. -/
def InView (W H : Nat) (e : State) : Prop :=
  e.viewLine ≤ e.line ∧ e.line < e.viewLine + (H - 1) ∧ e.viewCol ≤ e.col ∧ e.col < e.viewCol + W

/-- A row of the screen shows the viewport. -/
def RowOk (W : Nat) (e : State) (p : Picture) (y : Nat) : Prop :=
  ∀ x < W, p.cell y x = glyph textColor (cAt e.content (e.viewLine + y) (e.viewCol + x))

/-- What is on the screen before a refresh of some kind. -/
def Pre (W H : Nat) (e : State) (r : Refresh) (s : Console) : Prop :=
  InView W H e → match r with
    | .full => True
    | .currentLine => ∀ y < H - 1, y ≠ e.line - e.viewLine → RowOk W e s.back y
    | .none => ∀ y < H - 1, RowOk W e s.back y

/-- What is on the screen when a key is read. -/
structure Good (W H : Nat) (b : Buffer) (e : State) (s : Console) : Prop where
  view : InView W H e
  cells : ∀ y < H - 1, RowOk W e s.back y
  cursor : s.back.x = e.col - e.viewCol ∧ s.back.y = e.line - e.viewLine ∧ s.back.visible = true
  tint : s.tint = textColor
  front : s.front = s.back
  status : ∀ x < (b.status W).length, s.back.cell (H - 1) x = glyph statusColor ((b.status W).getD x ' ')

theorem digits_ascii (n : Nat) : ∀ c ∈ (Nat.repr n).toList, c.toNat < 128 := by
  intro c hc
  rw [Nat.toList_repr] at hc
  have := Nat.isDigit_of_mem_toDigits (by decide) (by decide) hc
  unfold Char.isDigit at this
  simp only [Bool.and_eq_true, decide_eq_true_eq] at this
  have h2 : c.val.toNat ≤ 57 := UInt32.le_iff_toNat_le.1 this.2
  show c.val.toNat < 128
  omega

theorem byteLen_replicate (n : Nat) : byteLen (List.replicate n ' ') = n := by
  rw [byteLen_ascii, List.length_replicate]
  intro c hc; rw [List.eq_of_mem_replicate hc]; decide

theorem takeBytes_ascii {s : Str} (h : ∀ c ∈ s, c.toNat < 128) (n : Nat) (hn : n ≤ s.length) : takeBytes s n = some (s.take n) := by
  have := takeBytes_boundary s n
  rwa [byteLen_ascii fun c hc => h c (List.mem_of_mem_take hc), List.length_take, Nat.min_eq_left hn] at this

theorem status_ok {b : Buffer} {e : State} (h : Rel b e) (W : Nat) : e.status W = some (b.status W) ∧ (b.status W).length ≤ W := by
  obtain ⟨A, l, r, B, ha⟩ := h.at_
  unfold State.status Buffer.status
  rw [ha.docCol h.clean, ha.row h.clean, h.name, h.dirty]
  have hk : byteLen keysSummary = 10 := by decide
  obtain ⟨long, hlong⟩ : ∃ long, long = " | ".toList ++ b.name.getD "<NO NAME>".toList ++ (if b.dirty = true then "*".toList else []) ++ " | Ln ".toList ++
    (Nat.repr (e.line + 1)).toList ++ ", Col ".toList ++ (Nat.repr (e.col + 1)).toList ++ " ".toList := ⟨_, rfl⟩
  obtain ⟨short, hshort⟩ : ∃ short, short = " ".toList ++ (Nat.repr (e.line + 1)).toList ++ ":".toList ++ (Nat.repr (e.col + 1)).toList ++ " ".toList := ⟨_, rfl⟩
  have hl2 : " | ".toList ++ b.name.getD "<NO NAME>".toList ++ (if b.dirty = true then ['*'] else []) ++ " | Ln ".toList ++
    (Nat.repr (e.line + 1)).toList ++ ", Col ".toList ++ (Nat.repr (e.col + 1)).toList ++ [' '] = long := by rw [hlong]; rfl
  have hs2 : [' '] ++ (Nat.repr (e.line + 1)).toList ++ [':'] ++ (Nat.repr (e.col + 1)).toList ++ [' '] = short := by rw [hshort]; rfl
  simp only [← hlong, ← hshort, hl2, hs2, hk]
  have hsa : ∀ c ∈ short, c.toNat < 128 := by
    intro c hc
    rw [← hs2] at hc
    simp only [List.mem_append, List.mem_singleton] at hc
    rcases hc with (((rfl | hc) | rfl) | hc) | rfl
    · decide
    · exact digits_ascii _ c hc
    · decide
    · exact digits_ascii _ c hc
    · decide
  have hsl : byteLen short = short.length := byteLen_ascii hsa
  by_cases hw : 10 + byteLen long < W
  · rw [if_neg (by omega), if_pos hw]
    refine ⟨?_, ?_⟩
    · rw [show W - byteLen long - 10 = W - 10 - byteLen long by omega]; rfl
    · have := length_le_byteLen long
      simp only [List.length_append, List.length_replicate]
      show 10 + _ + _ ≤ W
      omega
  · rw [if_pos (by omega), if_neg hw, hsl]
    refine ⟨?_, by rw [List.length_take]; omega⟩
    have hall : ∀ c ∈ List.replicate (W - short.length) ' ' ++ short, c.toNat < 128 := by
      intro c hc
      rcases List.mem_append.1 hc with h1 | h1
      · rw [List.eq_of_mem_replicate h1]; decide
      · exact hsa c h1
    rw [byteLen_ascii hall]
    split
    next hle => rw [List.take_of_length_le hle]
    next hle => exact takeBytes_ascii hall W (by omega)

/-- A text put in a row. -/
theorem put_cell {p : Picture} {t : Tint} {s : Str} {r c : Nat} : p.put t s r c =
    if r = p.y ∧ p.x ≤ c ∧ c < p.x + s.length then glyph t (s.getD (c - p.x) ' ') else p.cell r c := rfl

theorem refreshStatus_ok {b : Buffer} {e : State} (h : Rel b e) {W H : Nat} (hW : 1 ≤ W) (hH : 1 ≤ H) (s : Console) (hid : s.back.visible = false) :
    ∃ ops, e.refreshStatus W H = some ops ∧ Console.After z W H (fun s' => s'.front = s.front ∧ s'.back.visible = s.back.visible ∧
      (∀ r c, r ≠ H - 1 → s'.back.cell r c = s.back.cell r c) ∧
      (∀ x < (b.status W).length, s'.back.cell (H - 1) x = glyph statusColor ((b.status W).getD x ' '))) ops s := by
  obtain ⟨h1, h2⟩ := status_ok h W
  refine ⟨[.locate 0 (H - 1), .setColor statusColor, .write (b.status W)], ?_, ?_⟩
  · unfold State.refreshStatus
    rw [h1, subUsize, if_pos hH]
    rfl
  · refine ⟨⟨by omega, by omega⟩, fun s1 e1 => ?_⟩
    cases e1
    refine ⟨trivial, fun s2 e2 => ?_⟩
    cases e2
    refine ⟨fun _ hv => absurd (hid.symm.trans hv) (by decide), fun s3 e3 => ?_⟩
    obtain ⟨_, f2, f3, f4⟩ := e3
    obtain ⟨f5, _, _⟩ := f4 (by show 0 + _ ≤ W; omega)
    refine ⟨f2, f3, fun r c hr => ?_, fun x hx => ?_⟩
    · rw [f5, put_cell, if_neg (by rintro ⟨h1, _⟩; exact hr h1)]
    · rw [f5, put_cell, if_pos ⟨rfl, Nat.zero_le _, by show x < 0 + _; omega⟩]
      rfl

theorem range_get {line : Str} {v W c : Nat} (hc : c < W) : (lineRange line v (v + W)).getD c ' ' = line.getD (v + c) ' ' := by
  unfold lineRange
  rw [Nat.add_sub_cancel_left]
  simp only [List.getD, List.getElem?_take, if_pos hc, List.getElem?_drop]

theorem range_length {line : Str} {v W : Nat} : (lineRange line v (v + W)).length ≤ W := by
  unfold lineRange; rw [List.length_take]; omega

/-- The text that is printed of a line. -/
def shownLine (v W : Nat) (line : Str) : Str := if line.length > v then lineRange line v (v + W) else []

theorem printLine_eq (e : State) (W : Nat) (line : Str) : e.printLine W line = .print (shownLine e.viewCol W line) := by
  unfold State.printLine shownLine; split <;> rfl

theorem shownLine_get {line : Str} {v W c : Nat} (hc : c < W) : (shownLine v W line).getD c ' ' = line.getD (v + c) ' ' := by
  unfold shownLine
  split
  · exact range_get hc
  · have : (line)[v + c]? = none := List.getElem?_eq_none (by omega)
    simp [List.getD, this]

theorem shownLine_length {line : Str} {v W : Nat} : (shownLine v W line).length ≤ W := by
  unfold shownLine; split
  · exact range_length
  · exact Nat.zero_le _

/-- A row on which a line was put, when it was blank. -/
theorem put_line {p : Picture} {t : Tint} {line : Str} {v W : Nat} {c : Nat} (hx : p.x = 0) (hc : c < W)
    (hb : p.cell p.y c = glyph t ' ') : p.put t (shownLine v W line) p.y c = glyph t (line.getD (v + c) ' ') := by
  rw [put_cell, ← shownLine_get hc]
  split
  next h => rw [hx]; rfl
  next h =>
    have : (shownLine v W line)[c]? = none := List.getElem?_eq_none (by
      rw [hx] at h
      rcases Nat.lt_or_ge c (shownLine v W line).length with h1 | h1
      · exact absurd ⟨rfl, Nat.zero_le _, by omega⟩ h
      · exact h1)
    rw [hb]; simp [List.getD, this]

theorem prints_ok {W H v : Nat} {t : Tint} (L : List Str) {s : Console} (hx : s.back.x = 0) (ht : s.tint = t) (hy : s.back.y + L.length < H)
    (hb : ∀ y, s.back.y ≤ y → y < H - 1 → ∀ x < W, s.back.cell y x = glyph t ' ') :
    Console.After z W H (fun s' => s'.front = s.front ∧ s'.tint = s.tint ∧ s'.back.visible = s.back.visible ∧
      (∀ y x, (y < s.back.y ∨ H - 1 ≤ y) → s'.back.cell y x = s.back.cell y x) ∧
      (∀ y < H - 1, s.back.y ≤ y → ∀ x < W, s'.back.cell y x = glyph t (((L[y - s.back.y]?).getD []).getD (v + x) ' ')))
      (L.map fun l => .print (shownLine v W l)) s := by
  induction L generalizing s with
  | nil =>
    refine ⟨rfl, rfl, rfl, fun _ _ _ => rfl, fun y hy1 hy2 x hx => ?_⟩
    rw [hb y hy2 hy1 x hx]
    rfl
  | cons l L ih =>
    simp only [List.length_cons] at hy
    refine ⟨trivial, fun s1 e1 => ?_⟩
    obtain ⟨g1, g2, g3, g4⟩ := e1
    obtain ⟨g5, g6, g7⟩ := g4 (by rw [hx, Nat.zero_add]; exact shownLine_length) (by omega)
    have hpre : ∀ y, s1.back.y ≤ y → y < H - 1 → ∀ x < W, s1.back.cell y x = glyph t ' ' := by
      intro y h1 h2 x hxW
      rw [g5, put_cell, if_neg (by rintro ⟨h3, _⟩; omega)]
      exact hb y (by omega) h2 x hxW
    refine after_mono ?_ (ih g6 (by rw [g1, ht]) (by omega) hpre)
    rintro s' ⟨k1, k2, k3, k4, k5⟩
    refine ⟨k1.trans g2, k2.trans g1, k3.trans g3, fun y x hyx => ?_, fun y hy1 hy2 x hxW => ?_⟩
    · rw [k4 y x (by omega), g5, put_cell, if_neg (by rintro ⟨h3, _⟩; omega)]
    · by_cases hyy : y = s.back.y
      · subst hyy
        rw [k4 _ x (by omega), g5, ht, put_line hx hxW (hb _ (Nat.le_refl _) (by omega) x hxW)]
        simp
      · rw [k5 y hy1 (by omega) x hxW, g7]
        have : y - s.back.y = (y - (s.back.y + 1)) + 1 := by omega
        rw [this, List.getElem?_cons_succ]

theorem refresh_ok {b : Buffer} {e : State} (h : Rel b e) {W H : Nat} (hW : 1 ≤ W) (hH : 2 ≤ H) (s : Console) (hid : s.back.visible = false) :
    ∃ ops, e.refresh W H = some ops ∧ Console.After z W H (fun s' => s'.front = s.front ∧ s'.back.visible = s.back.visible ∧ s'.tint = textColor ∧
      (∀ y < H - 1, RowOk W e s'.back y) ∧
      (∀ x < (b.status W).length, s'.back.cell (H - 1) x = glyph statusColor ((b.status W).getD x ' '))) ops s := by
  obtain ⟨ops, h1, _⟩ := refreshStatus_ok (z := z) h hW (show 1 ≤ H by omega) s hid
  refine ⟨_, by unfold State.refresh; rw [h1, subUsize, if_pos (by omega)]; rfl, ?_⟩
  rw [List.append_assoc, List.append_assoc]
  refine ⟨trivial, fun s1 e1 => ⟨trivial, fun s2 e2 => ?_⟩⟩
  cases e1; cases e2
  show Console.After z W H _ (ops ++ _) _
  rw [after_append]
  obtain ⟨ops', h1', h2⟩ := refreshStatus_ok h hW (show 1 ≤ H by omega)
    ({ s with tint := textColor, back := ⟨fun _ _ => glyph textColor ' ', 0, 0, s.back.visible⟩ } : Console) hid
  rw [h1] at h1'; cases h1'
  refine after_mono ?_ h2
  rintro s3 ⟨f1, f2, f3, f4⟩
  refine ⟨trivial, fun s4 e4 => ⟨⟨by omega, by omega⟩, fun s5 e5 => ?_⟩⟩
  cases e4; cases e5
  show Console.After z W H _ (List.map (e.printLine W) ((e.content.drop e.viewLine).take (H - 1))) _
  have hmap : (List.map (e.printLine W) ((e.content.drop e.viewLine).take (H - 1))) =
      ((e.content.drop e.viewLine).take (H - 1)).map fun l => EdOp.print (shownLine e.viewCol W l) := by
    exact List.map_congr_left fun l _ => printLine_eq e W l
  rw [hmap]
  have hlen : ((e.content.drop e.viewLine).take (H - 1)).length ≤ H - 1 := by rw [List.length_take]; omega
  refine after_mono ?_ (prints_ok (v := e.viewCol) (t := textColor) _ rfl rfl (by show 0 + _ < H; omega) ?_)
  · rintro s' ⟨k1, k2, k3, k4, k5⟩
    refine ⟨k1.trans f1, k3.trans f2, k2, fun y hy x hx => ?_, fun x hx => ?_⟩
    · rw [k5 y hy (Nat.zero_le _) x hx]
      unfold cAt
      congr 3
      show ((e.content.drop e.viewLine).take (H - 1))[y - 0]? = _
      rw [List.getElem?_take, if_pos (by omega), List.getElem?_drop]
      rfl
    · rw [k4 _ x (.inr (Nat.le_refl _))]
      exact f4 x hx
  · intro y _ hy x hx
    exact f3 y x (by omega)

theorem refreshCurrent_ok {b : Buffer} {e : State} (h : Rel b e) {W H : Nat} (hW : 1 ≤ W) (hH : 2 ≤ H) (hv : InView W H e) (s : Console)
    (hid : s.back.visible = false) (hrows : ∀ y < H - 1, y ≠ e.line - e.viewLine → RowOk W e s.back y) :
    ∃ ops, e.refreshCurrentLine W H = some ops ∧ Console.After z W H (fun s' => s'.front = s.front ∧ s'.back.visible = s.back.visible ∧ s'.tint = textColor ∧
      (∀ y < H - 1, RowOk W e s'.back y) ∧ (∀ x, s'.back.cell (H - 1) x = s.back.cell (H - 1) x)) ops s := by
  obtain ⟨A, l, r, B, ha⟩ := h.at_
  obtain ⟨v1, v2, v3, v4⟩ := hv
  refine ⟨_, by unfold State.refreshCurrentLine; rw [subUsize, if_pos (show 1 ≤ H by omega)]; simp only [Option.bind_eq_bind, Option.bind_some]; rw [if_pos ⟨v1, v2⟩, ha.cur]; rfl, ?_⟩
  refine ⟨trivial, fun s1 e1 => ⟨⟨by omega, by omega⟩, fun s2 e2 => ⟨trivial, fun s3 e3 => ?_⟩⟩⟩
  cases e1; cases e2
  obtain ⟨f1, f2, f3, f4, f5, f6⟩ := e3
  have hx : s3.back.x = 0 := by rcases f6 with h1 | h1 <;> exact h1
  have key : ∀ s' : Console, (s'.tint = s3.tint ∧ s'.front = s3.front ∧ s'.back.visible = s3.back.visible ∧
      s'.back.cell = s3.back.put s3.tint (shownLine e.viewCol W (l ++ r))) →
      s'.front = s.front ∧ s'.back.visible = s.back.visible ∧ s'.tint = textColor ∧
        (∀ y < H - 1, RowOk W e s'.back y) ∧ (∀ x, s'.back.cell (H - 1) x = s.back.cell (H - 1) x) := by
    rintro s' ⟨k1, k2, k3, k4⟩
    refine ⟨k2.trans f2, k3.trans f3, k1.trans f1, fun y hy x hxW => ?_, fun x => ?_⟩
    · rw [k4]
      by_cases hyy : y = e.line - e.viewLine
      · have hy3 : y = s3.back.y := hyy.trans f5.symm
        rw [hy3, put_line hx hxW (by rw [f1, f4]; exact if_pos f5), f1]
        unfold cAt
        rw [← hy3, hyy, Nat.add_sub_cancel' v1, ha.cur]
        rfl
      · rw [put_cell, if_neg (by rintro ⟨h1, _⟩; exact hyy (h1.trans f5)), f4]
        show (if y = e.line - e.viewLine then _ else _) = _
        rw [if_neg hyy]
        exact hrows y hy hyy x hxW
    · rw [k4, put_cell, if_neg (by rintro ⟨h1, _⟩; rw [f5] at h1; simp only at h1; omega), f4]
      show (if H - 1 = e.line - e.viewLine then _ else _) = _
      rw [if_neg (by omega)]
  show Console.After z W H _ (if (l ++ r).length > e.viewCol then _ else _) s3
  by_cases hlen : (l ++ r).length > e.viewCol
  · rw [if_pos hlen]
    refine ⟨fun _ hv => absurd ((f3.trans hid).symm.trans hv) (by decide), fun s4 e4 => ?_⟩
    obtain ⟨k1, k2, k3, k4⟩ := e4
    obtain ⟨k5, _, _⟩ := k4 (by rw [hx, Nat.zero_add]; exact range_length)
    exact key s4 ⟨k1, k2, k3, by rw [k5, shownLine, if_pos hlen]⟩
  · rw [if_neg hlen]
    refine key s3 ⟨rfl, rfl, rfl, ?_⟩
    rw [shownLine, if_neg hlen]
    funext r' c'
    rw [put_cell, if_neg (by rintro ⟨_, h1, h2⟩; simp only [List.length_nil] at h2; omega)]

/-- The viewport after the adjustment: the insertion point is in it, and a viewport that moves is refreshed. -/
theorem adjust_ok {e : State} {W H : Nat} (hW : 1 ≤ W) (hH : 2 ≤ H) (r : Refresh) :
    ∃ vl vc r', (e.adjustLine H r).map (fun p => p.1.adjustCol W p.2) = some ({ e with viewLine := vl, viewCol := vc }, r') ∧
      InView W H { e with viewLine := vl, viewCol := vc } ∧ (r' = .full ∨ (r' = r ∧ vl = e.viewLine ∧ vc = e.viewCol)) := by
  have hup : ∀ r : Refresh, r.upgrade .full = .full := fun r => by cases r <;> rfl
  have hcol : ∀ (vl : Nat) (r1 : Refresh), ∃ vc r', ({ e with viewLine := vl } : State).adjustCol W r1 = ({ e with viewLine := vl, viewCol := vc }, r') ∧
      (vc ≤ e.col ∧ e.col < vc + W) ∧ (r' = .full ∨ (r' = r1 ∧ vc = e.viewCol)) := by
    intro vl r1
    unfold State.adjustCol
    simp only
    split
    · exact ⟨_, _, rfl, by omega, .inl (hup _)⟩
    · split
      · exact ⟨_, _, rfl, by omega, .inl (hup _)⟩
      · exact ⟨_, _, rfl, by omega, .inr ⟨rfl, rfl⟩⟩
  have hline : ∃ vl r1, e.adjustLine H r = some ({ e with viewLine := vl }, r1) ∧ (vl ≤ e.line ∧ e.line < vl + (H - 1)) ∧
      (r1 = .full ∨ (r1 = r ∧ vl = e.viewLine)) := by
    unfold State.adjustLine
    split
    · exact ⟨_, _, rfl, by omega, .inl (hup _)⟩
    · simp only [subUsize, if_pos (show 2 ≤ e.viewLine + H by omega), if_pos hH, Option.bind_eq_bind, Option.bind_some]
      split
      · refine ⟨_, _, rfl, ?_, .inl (hup _)⟩
        split <;> omega
      · exact ⟨_, _, rfl, by omega, .inr ⟨rfl, rfl⟩⟩
  obtain ⟨vl, r1, h1, h2, h3⟩ := hline
  obtain ⟨vc, r', h4, h5, h6⟩ := hcol vl r1
  refine ⟨vl, vc, r', by rw [h1]; exact congrArg some h4, ⟨h2.1, h2.2, h5.1, h5.2⟩, ?_⟩
  rcases h6 with h6 | ⟨h6, h7⟩
  · exact .inl h6
  · rcases h3 with h3 | ⟨h3, h8⟩
    · exact .inl (h6.trans h3)
    · exact .inr ⟨h6.trans h3, h8, h7⟩

theorem show_eq {e e' : State} {W H : Nat} {r r' : Refresh} (h : (e.adjustLine H r).map (fun p => p.1.adjustCol W p.2) = some (e', r')) {ops : List EdOp}
    (hops : (match r' with
      | .full => e'.refresh W H
      | .currentLine => do
        let a ← e'.refreshStatus W H
        let b ← e'.refreshCurrentLine W H
        pure (a ++ b)
      | .none => do
        let a ← e'.refreshStatus W H
        pure (a ++ [.setColor textColor])) = some ops) (hv : InView W H e') (hW : W < 65536) (hH : H < 65536) :
    e.show W H r = some (e', [.hideCursor] ++ ops ++ [.locate (e'.col - e'.viewCol) (e'.line - e'.viewLine), .showCursor, .syncNow]) := by
  obtain ⟨v1, v2, v3, v4⟩ := hv
  unfold State.show
  cases h1 : e.adjustLine H r with
  | none => rw [h1] at h; cases h
  | some p =>
    rw [h1] at h
    simp only [Option.map_some, Option.some.injEq] at h
    simp only [Option.bind_eq_bind, Option.bind_some]
    rw [h]
    simp only
    have hlt : e'.col - e'.viewCol < 65536 ∧ e'.line - e'.viewLine < 65536 := ⟨by omega, by omega⟩
    cases r' with
    | full =>
      simp only at hops ⊢
      simp only [hops, Option.bind_some, subUsize, if_pos v1, if_pos v3, if_pos hlt]
      rfl
    | currentLine =>
      simp only [Option.bind_eq_bind] at hops ⊢
      cases ha : e'.refreshStatus W H with
      | none => rw [ha] at hops; cases hops
      | some a =>
        cases hb : e'.refreshCurrentLine W H with
        | none => rw [ha, hb] at hops; cases hops
        | some c =>
          rw [ha, hb] at hops
          cases hops
          simp only [Option.bind_some, subUsize, if_pos v1, if_pos v3]
          show (if _ then _ else _) = _
          rw [if_pos hlt]
          rfl
    | none =>
      simp only [Option.bind_eq_bind] at hops ⊢
      cases ha : e'.refreshStatus W H with
      | none => rw [ha] at hops; cases hops
      | some a =>
        rw [ha] at hops
        cases hops
        simp only [Option.bind_some, subUsize, if_pos v1, if_pos v3]
        show (if _ then _ else _) = _
        rw [if_pos hlt]
        rfl

theorem rel_view {b : Buffer} {e : State} (h : Rel b e) (vl vc : Nat) : Rel b { e with viewLine := vl, viewCol := vc } :=
  ⟨h.name, h.dirty, h.goal, h.clean, h.at_⟩

/-- The part of the loop before a key is read. -/
theorem show_ok {b : Buffer} {e : State} (h : Rel b e) {W H : Nat} (hW : 1 ≤ W) (hW2 : W < 65536) (hH : 2 ≤ H) (hH2 : H < 65536) (r : Refresh) {s : Console}
    (hpre : Pre W H e r s) : ∃ e' ops, e.show W H r = some (e', ops) ∧ Rel b e' ∧ InView W H e' ∧ Console.After z W H (Good W H b e') ops s ∧
      ∃ o, ops = o ++ [.showCursor, .syncNow] := by
  obtain ⟨vl, vc, r', h1, hv, h3⟩ := adjust_ok (e := e) hW hH r
  have hrel := rel_view h vl vc
  generalize he' : ({ e with viewLine := vl, viewCol := vc } : State) = e' at h1 hv hrel
  have ends : ∀ (a c : List EdOp) (x : EdOp), ∃ o, a ++ c ++ [x, .showCursor, .syncNow] = o ++ [.showCursor, .syncNow] := fun a c x => ⟨a ++ c ++ [x], by simp⟩
  -- all refreshes end in the same way
  have fin : ∀ s1 : Console, (s1.back.visible = false ∧ s1.tint = textColor ∧ (∀ y < H - 1, RowOk W e' s1.back y) ∧
      (∀ x < (b.status W).length, s1.back.cell (H - 1) x = glyph statusColor ((b.status W).getD x ' '))) →
      Console.After z W H (Good W H b e') [.locate (e'.col - e'.viewCol) (e'.line - e'.viewLine), .showCursor, .syncNow] s1 := by
    rintro s1 ⟨f1, f2, f3, f4⟩
    obtain ⟨v1, v2, v3, v4⟩ := hv
    refine ⟨⟨by omega, by omega⟩, fun s2 e2 => ?_⟩
    cases e2
    refine ⟨fun _ => ?_, fun s3 e3 => ⟨trivial, fun s4 e4 => ?_⟩⟩
    · refine ⟨f1, ?_⟩
      show e'.col - e'.viewCol < W
      omega
    cases e3; cases e4
    exact ⟨⟨v1, v2, v3, v4⟩, f3, ⟨rfl, rfl, rfl⟩, f2, rfl, f4⟩
  have build : ∀ {ops : List EdOp}, Console.After z W H (fun s1 => s1.back.visible = false ∧ s1.tint = textColor ∧ (∀ y < H - 1, RowOk W e' s1.back y) ∧
      (∀ x < (b.status W).length, s1.back.cell (H - 1) x = glyph statusColor ((b.status W).getD x ' '))) ops { s with back := { s.back with visible := false } } →
      Console.After z W H (Good W H b e') ([.hideCursor] ++ ops ++ [.locate (e'.col - e'.viewCol) (e'.line - e'.viewLine), .showCursor, .syncNow]) s := by
    intro ops ha
    refine ⟨trivial, fun s1 e1 => ?_⟩
    cases e1
    show Console.After z W H _ (ops ++ _) _
    rw [after_append]
    exact after_mono fin ha
  have full : ∃ ops, e'.refresh W H = some ops ∧ Console.After z W H (fun s1 => s1.back.visible = false ∧ s1.tint = textColor ∧ (∀ y < H - 1, RowOk W e' s1.back y) ∧
      (∀ x < (b.status W).length, s1.back.cell (H - 1) x = glyph statusColor ((b.status W).getD x ' '))) ops { s with back := { s.back with visible := false } } := by
    obtain ⟨ops, g1, g2⟩ := refresh_ok hrel hW hH ({ s with back := { s.back with visible := false } } : Console) rfl
    exact ⟨ops, g1, after_mono (fun s' k => ⟨k.2.1, k.2.2.1, k.2.2.2.1, k.2.2.2.2⟩) g2⟩
  cases r' with
  | full =>
    obtain ⟨ops, g1, g2⟩ := full
    exact ⟨_, _, show_eq h1 g1 hv hW2 hH2, hrel, hv, build g2, ends _ _ _⟩
  | currentLine =>
    rcases h3 with h3 | ⟨h3, h4, h5⟩
    · cases h3
    · have hee : e' = e := by rw [← he', h4, h5]
      subst hee
      rw [← h3] at hpre
      have hrows := hpre hv
      obtain ⟨o1, g1, g2⟩ := refreshStatus_ok h hW (show 1 ≤ H by omega) ({ s with back := { s.back with visible := false } } : Console) rfl
      have hcur : ∀ s1 : Console, (s1.front = s.front ∧ s1.back.visible = false ∧ (∀ r c, r ≠ H - 1 → s1.back.cell r c = s.back.cell r c) ∧
          (∀ x < (b.status W).length, s1.back.cell (H - 1) x = glyph statusColor ((b.status W).getD x ' '))) →
          ∃ o2, e'.refreshCurrentLine W H = some o2 ∧ Console.After z W H (fun s1 => s1.back.visible = false ∧ s1.tint = textColor ∧ (∀ y < H - 1, RowOk W e' s1.back y) ∧
      (∀ x < (b.status W).length, s1.back.cell (H - 1) x = glyph statusColor ((b.status W).getD x ' '))) o2 s1 := by
        rintro s1 ⟨k1, k2, k3, k4⟩
        obtain ⟨o2, j1, j2⟩ := refreshCurrent_ok h hW hH hv s1 k2 (fun y hy hne x hx => by rw [k3 y x (by omega)]; exact hrows y hy hne x hx)
        refine ⟨o2, j1, after_mono (fun s' k => ⟨k.2.1.trans k2, k.2.2.1, k.2.2.2.1, fun x hx => ?_⟩) j2⟩
        rw [k.2.2.2.2 x]; exact k4 x hx
      obtain ⟨o2, hg2⟩ : ∃ o2, e'.refreshCurrentLine W H = some o2 := by
        obtain ⟨o2, j1, _⟩ := refreshCurrent_ok (z := z) h hW hH hv ({ s with back := { s.back with visible := false } } : Console) rfl hrows
        exact ⟨o2, j1⟩
      refine ⟨_, _, show_eq (ops := o1 ++ o2) h1 (by simp only [g1, hg2, Option.bind_eq_bind, Option.bind_some]; rfl) hv hW2 hH2, hrel, hv, build ?_, ends _ _ _⟩
      rw [after_append]
      refine after_mono (fun s1 k => ?_) g2
      obtain ⟨o2', j1, j2⟩ := hcur s1 k
      rw [hg2] at j1; cases j1
      exact j2
  | none =>
    rcases h3 with h3 | ⟨h3, h4, h5⟩
    · cases h3
    · have hee : e' = e := by rw [← he', h4, h5]
      subst hee
      rw [← h3] at hpre
      have hrows := hpre hv
      obtain ⟨o1, g1, g2⟩ := refreshStatus_ok h hW (show 1 ≤ H by omega) ({ s with back := { s.back with visible := false } } : Console) rfl
      refine ⟨_, _, show_eq (ops := o1 ++ [.setColor textColor]) h1 (by simp only [g1, Option.bind_eq_bind, Option.bind_some]; rfl) hv hW2 hH2, hrel, hv, build ?_, ends _ _ _⟩
      rw [after_append]
      refine after_mono ?_ g2
      rintro s1 ⟨k1, k2, k3, k4⟩
      refine ⟨trivial, fun s2 e2 => ?_⟩
      cases e2
      exact ⟨k2, rfl, fun y hy x hx => by rw [show ({ s1 with tint := textColor } : Console).back = s1.back from rfl, k3 y x (by omega)]; exact hrows y hy x hx, k4⟩

/-! ## Keys -/

theorem cAt_cur {A : List Str} {x y : Str} {B : List Str} {r c : Nat} (h : r ≠ A.length) : cAt (A ++ x :: B) r c = cAt (A ++ y :: B) r c := by
  unfold cAt
  rcases Nat.lt_or_ge r A.length with h1 | h1
  · rw [List.getElem?_append_left h1, List.getElem?_append_left h1]
  · rw [List.getElem?_append_right h1, List.getElem?_append_right h1]
    have : r - A.length = (r - A.length - 1) + 1 := by omega
    rw [this, List.getElem?_cons_succ, List.getElem?_cons_succ]

theorem cAt_here {A : List Str} {x : Str} {B : List Str} {c : Nat} : cAt (A ++ x :: B) A.length c = x.getD c ' ' := by
  unfold cAt; simp

/-- Rows other than the one of the cursor do not change with its text. -/
theorem rows_other {b : Buffer} {e e' : State} {A : List Str} {l r : Str} {B : List Str} (ha : At e.content e.line e.col b.doc A l r B) {x : Str}
    (hc : e'.content = A ++ x :: B) (hv1 : e'.viewLine = e.viewLine) (hv2 : e'.viewCol = e.viewCol) (hvl : e.viewLine ≤ e.line) {W : Nat} {p : Picture}
    {y : Nat} (hy : y ≠ e.line - e.viewLine) (h : RowOk W e p y) : RowOk W e' p y := by
  intro c hcW
  rw [h c hcW, hc, hv1, hv2, ha.content, cAt_cur (by rw [ha.line] at hy hvl; omega)]

theorem getD_append_left {l r : Str} {c : Nat} (h : c < l.length) : (l ++ r).getD c ' ' = l.getD c ' ' := by
  simp [List.getD, List.getElem?_append_left h]

theorem getD_ge {l : Str} {c : Nat} (h : l.length ≤ c) : l.getD c ' ' = ' ' := by
  simp [List.getD, List.getElem?_eq_none h]

/-- The text at the end of a row is written. -/
theorem write_end {W H : Nat} {b : Buffer} {e : State} {s : Console} (hg : Good W H b e s) {A : List Str} {l : Str} {B : List Str}
    (ha : At e.content e.line e.col b.doc A l [] B) {t : Str} {e' : State} (hc : e'.content = A ++ ((l ++ t) ++ []) :: B)
    (hl : e'.line = e.line) (hv1 : e'.viewLine = e.viewLine) (hv2 : e'.viewCol = e.viewCol) (hcol : e'.col = e.col + t.length)
    (hz : z = true → e.col - e.viewCol + t.length < W) : Console.After z W H (Pre W H e' .none) [.write t] s := by
  obtain ⟨v1, v2, v3, v4⟩ := hg.view
  refine ⟨fun h _ => by rw [hg.cursor.1]; exact hz h, fun s1 e1 hv => ?_⟩
  obtain ⟨w1, w2, w3, w4⟩ := hv
  obtain ⟨_, _, _, g4⟩ := e1
  obtain ⟨g5, _, _⟩ := g4 (by rw [hg.cursor.1]; omega)
  intro y hy
  by_cases hyy : y = e.line - e.viewLine
  · subst hyy
    intro x hx
    have hrow := hg.cells _ hy x hx
    rw [g5, put_cell, hg.cursor.1, hg.cursor.2.1, hg.tint]
    rw [hc, hv1, hv2, Nat.add_sub_cancel' v1, ha.line, cAt_here, List.append_nil]
    rw [Nat.add_sub_cancel' v1, ha.content, ha.line, cAt_here, List.append_nil] at hrow
    have hlc := ha.col
    split
    next h1 =>
      obtain ⟨_, h2, h3⟩ := h1
      congr 1
      simp only [List.getD]
      rw [List.getElem?_append_right (by omega)]
      congr 2; omega
    next h1 =>
      rw [hrow]
      congr 1
      by_cases h2 : e.viewCol + x < l.length
      · rw [getD_append_left h2]
      · rw [getD_ge (by omega), getD_ge (by rw [List.length_append]; by_contra h3; exact h1 ⟨rfl, by omega, by omega⟩)]
  · refine rows_other ha hc hv1 hv2 v1 hyy ?_
    intro x hx
    rw [g5, put_cell, if_neg (by rintro ⟨h1, _⟩; exact hyy (h1.trans hg.cursor.2.1))]
    exact hg.cells y hy x hx

theorem pre_current {W H : Nat} {b : Buffer} {e : State} {s : Console} (hg : Good W H b e s) {A : List Str} {l r : Str} {B : List Str}
    (ha : At e.content e.line e.col b.doc A l r B) {x : Str} {e' : State} (hc : e'.content = A ++ x :: B)
    (hl : e'.line = e.line) (hv1 : e'.viewLine = e.viewLine) (hv2 : e'.viewCol = e.viewCol) : Pre W H e' .currentLine s := by
  intro _ y hy hne
  rw [hl, hv1] at hne
  exact rows_other ha hc hv1 hv2 hg.view.1 hne (hg.cells y hy)

theorem pre_same {W H : Nat} {b : Buffer} {e : State} {s : Console} (hg : Good W H b e s) {e' : State} (hc : e'.content = e.content)
    (hv1 : e'.viewLine = e.viewLine) (hv2 : e'.viewCol = e.viewCol) : Pre W H e' .none s := by
  intro _ y hy x hx
  rw [hc, hv1, hv2]
  exact hg.cells y hy x hx

theorem pre_full {W H : Nat} {e : State} {s : Console} : Pre W H e .full s := fun _ => trivial

theorem white_blank {c : Char} (h : isWhite c = true) (ha : c.toNat < 128) (t : Tint) : glyph t c = glyph t ' ' := by
  have : shownChar c = ' ' := by
    unfold isWhite at h
    simp only [Bool.or_eq_true, Bool.and_eq_true, decide_eq_true_eq, beq_iff_eq] at h
    unfold shownChar
    by_cases h32 : c.toNat = 32
    · rw [if_neg (by omega)]
      exact Char.ext (UInt32.toNat_inj.1 h32)
    · rw [if_pos (by omega)]
  unfold glyph
  rw [this]
  rfl

/-- Deleting characters at the end of a row. -/
theorem previous_ok {W H : Nat} {P : Console → Prop} : ∀ (n : Nat) (s : Console), s.back.visible = false → n ≤ s.back.x →
    (∀ s' : Console, s'.back.visible = false ∧ s'.back.x ≤ s.back.x → s'.tint = s.tint → (∀ r c, (r ≠ s.back.y ∨ c < s.back.x - n ∨ s.back.x ≤ c) → s'.back.cell r c = s.back.cell r c) →
      (∀ c, s.back.x - n ≤ c → c < s.back.x → s'.back.cell s.back.y c = glyph s.tint ' ') → P s') →
    Console.After z W H P (List.replicate n (.clear .previousChar)) s
  | 0, s, hid, _, hP => hP s ⟨hid, Nat.le_refl _⟩ rfl (fun _ _ _ => rfl) (fun c h1 h2 => by omega)
  | n + 1, s, hid, hn, hP => by
    refine ⟨fun _ hv => absurd (hid.symm.trans hv) (by decide), fun s1 e1 => ?_⟩
    obtain ⟨g1, g2, g3, g4, g5, g6, g7⟩ := e1
    refine previous_ok n s1 (g3.trans hid) (by omega) fun s' k0 k1 k2 k3 => hP s' ⟨k0.1, by omega⟩ (k1.trans g1) (fun r c h => ?_) (fun c h1 h2 => ?_)
    · rw [k2 r c (by omega), g6 r c (by omega)]
    · by_cases hc : c = s.back.x - 1
      · rw [k2 _ c (by omega), hc, g7 (by omega)]
      · rw [← g4, k3 c (by omega) (by omega), g1]

/-- The same without a look at the picture. -/
theorem previous_any {W H : Nat} : ∀ (n : Nat) (s : Console), s.back.visible = false → s.back.x < W →
    Console.After z W H (fun s' => s'.back.visible = false ∧ s'.back.x < W) (List.replicate n (.clear .previousChar)) s
  | 0, _, hid, hx => ⟨hid, hx⟩
  | n + 1, s, hid, hx => by
    refine ⟨fun _ hv => absurd (hid.symm.trans hv) (by decide), fun s1 e1 => ?_⟩
    obtain ⟨g1, g2, g3, g4, g5, g6, g7⟩ := e1
    exact previous_any n s1 (g3.trans hid) (by omega)

/-- What a key leaves on the screen. -/
theorem press_ok {W H : Nat} (hW : 1 ≤ W) (hH : 2 ≤ H) {b : Buffer} {e : State} {s : Console} (h : Rel b e) (hg : Good W H b e s) {k : Key}
    (hk : k ≠ .escape ∧ k ≠ .interrupt) (hkc : ∀ c, k = .char c → Typable c)
    (hz : z = true → k = .tab → (b.press H .tab).doc.col < W) :
    ∃ st, e.press W H k = some st ∧ Rel (b.press H k) st.state ∧ Console.After z W H (Pre W H st.state st.refresh) st.ops s := by
  obtain ⟨v1, v2, v3, v4⟩ := hg.view
  obtain ⟨A, l, r, B, ha⟩ := h.at_
  have hmove : ∀ k st, e.press W H k = some st → Rel (b.press H k) st.state ∧ st.refresh = .none ∧ st.ops = [] ∧ st.state.content = e.content ∧
      st.state.viewLine = e.viewLine ∧ st.state.viewCol = e.viewCol → ∃ st, e.press W H k = some st ∧ Rel (b.press H k) st.state ∧
      Console.After z W H (Pre W H st.state st.refresh) st.ops s := by
    rintro k st h1 ⟨h2, h3, h4, h5, h6, h7⟩
    refine ⟨st, h1, h2, ?_⟩
    rw [h3, h4]
    exact pre_same hg h5 h6 h7
  have hvert : ∀ k, (k = .arrowUp ∨ k = .arrowDown ∨ k = .pageUp ∨ k = .pageDown) → ∃ st, e.press W H k = some st ∧ Rel (b.press H k) st.state ∧
      Console.After z W H (Pre W H st.state st.refresh) st.ops s := fun k hk => by
    obtain ⟨st, h1, h2⟩ := press_moves (W := W) h hH hk
    exact hmove k st h1 h2
  have hside : ∀ k, (k = .arrowLeft ∨ k = .arrowRight ∨ k = .home ∨ k = .end ∨ k = .unknown) → ∃ st, e.press W H k = some st ∧ Rel (b.press H k) st.state ∧
      Console.After z W H (Pre W H st.state st.refresh) st.ops s := fun k hk => by
    obtain ⟨st, h1, h2⟩ := press_sides (W := W) (H := H) h hk
    exact hmove k st h1 h2
  have hdel : ∀ k, (k = .delete ∨ k = .eofOrDelete) → ∃ st, e.press W H k = some st ∧ Rel (b.press H k) st.state ∧
      Console.After z W H (Pre W H st.state st.refresh) st.ops s := by
    intro k hk
    rcases delete_ok (W := W) (H := H) h ha hk with ⟨c, r', rfl, h1, h2⟩ | ⟨e', h1, h2⟩ | ⟨h1, h2⟩
    · refine ⟨_, h1, h2, ?_⟩
      by_cases hr : r' = []
      · subst hr
        show Console.After z W H (Pre W H _ .none) [.hideCursor, .clear .untilNewLine, .showCursor] s
        refine ⟨trivial, fun s1 e1 => ?_⟩
        cases e1
        have hxW : s.back.x < W := by rw [hg.cursor.1]; omega
        refine ⟨fun _ => hxW, fun s2 e2 => ?_⟩
        cases e2
        refine ⟨fun _ => ⟨rfl, hxW⟩, fun s3 e3 => ?_⟩
        cases e3
        intro _ y hy
        by_cases hyy : y = e.line - e.viewLine
        · subst hyy
          intro x hx
          have hrow := hg.cells _ hy x hx
          show (if _ ∧ _ then _ else _) = _
          simp only [hg.cursor.1, hg.cursor.2.1, hg.tint]
          rw [Nat.add_sub_cancel' v1]
          rw [Nat.add_sub_cancel' v1, ha.content, ha.line, cAt_here] at hrow
          conv => rhs; rw [ha.line, cAt_here, List.append_nil]
          have hlc := ha.col
          split
          next h3 => rw [getD_ge (by omega)]
          next h3 =>
            rw [ha.line, hrow, getD_append_left (by by_contra h4; exact h3 ⟨trivial, by omega⟩)]
        · refine rows_other (e' := { e with content := A ++ (l ++ []) :: B, dirty := true }) ha rfl rfl rfl v1 hyy ?_
          intro x hx
          show (if _ ∧ _ then _ else _) = _
          rw [if_neg (by rintro ⟨h3, _⟩; exact hyy (h3.trans hg.cursor.2.1))]
          exact hg.cells y hy x hx
      · simp only [if_neg hr]
        exact pre_full
    · exact ⟨_, h1, h2, pre_full⟩
    · exact ⟨_, h1, h2, pre_same hg rfl rfl rfl⟩
  have hnl : ∀ k, (k = .newLine ∨ k = .carriageReturn) → ∃ st, e.press W H k = some st ∧ Rel (b.press H k) st.state ∧
      Console.After z W H (Pre W H st.state st.refresh) st.ops s := by
    intro k hk
    have hsame : e.press W H k = e.press W H .newLine := by rcases hk with rfl | rfl <;> rfl
    have h1 := hsame.trans (step_newLine (W := W) (H := H) h ha rfl)
    refine ⟨_, h1, rel_newLine h ha rfl hk, ?_⟩
    show Console.After z W H _ [] s
    split
    next happ =>
      obtain ⟨hlast, hend⟩ := happ
      have hr : r = [] := by
        have := ha.col
        rw [List.length_append] at hend
        exact List.eq_nil_of_length_eq_zero (by omega)
      have hB : B = [] := by
        have := ha.length; have := ha.line
        exact List.eq_nil_of_length_eq_zero (by omega)
      intro _ y hy x hx
      rw [hg.cells y hy x hx]
      show _ = glyph _ (cAt ((A ++ [l]) ++ _ :: B) _ _)
      rw [ha.content, hr, hB]
      unfold cAt
      rcases Nat.lt_trichotomy (e.viewLine + y) (A ++ [l]).length with h2 | h2 | h2
      · rw [List.getElem?_append_left (l₁ := A ++ [l]) h2, List.append_nil]
      · rw [h2, List.getElem?_eq_none (by simp)]
        show glyph textColor ' ' = _
        rw [List.getElem?_append_right (Nat.le_refl _), Nat.sub_self]
        show _ = glyph textColor ((copyIndent (l ++ []) ++ []).getD _ ' ')
        rw [List.append_nil, List.append_nil]
        rcases Nat.lt_or_ge (e.viewCol + x) (copyIndent l).length with h3 | h3
        · have hm : (copyIndent l)[e.viewCol + x] ∈ copyIndent l := List.getElem_mem h3
          have hw := takeWhile_mem hm
          have hcl : Typable ((copyIndent l)[e.viewCol + x]) := h.clean (l ++ r) (by rw [ha.content]; simp) _ (List.mem_append_left _ hw.1)
          have hget : (copyIndent l).getD (e.viewCol + x) ' ' = (copyIndent l)[e.viewCol + x] := by simp [List.getD, List.getElem?_eq_getElem h3]
          rw [hget, white_blank hw.2 (hcl.2 hw.2)]
        · rw [getD_ge h3]
      · rw [List.getElem?_eq_none (by simp only [List.length_append, List.length_cons, List.length_nil] at h2 ⊢; omega),
          List.getElem?_eq_none (by simp only [List.length_append, List.length_cons, List.length_nil] at h2 ⊢; omega)]
    next => exact pre_full
  cases k with
  | arrowUp => exact hvert _ (by simp)
  | arrowDown => exact hvert _ (by simp)
  | pageUp => exact hvert _ (by simp)
  | pageDown => exact hvert _ (by simp)
  | arrowLeft => exact hside _ (by simp)
  | arrowRight => exact hside _ (by simp)
  | home => exact hside _ (by simp)
  | «end» => exact hside _ (by simp)
  | unknown => exact hside _ (by simp)
  | delete => exact hdel _ (by simp)
  | eofOrDelete => exact hdel _ (by simp)
  | newLine => exact hnl _ (by simp)
  | carriageReturn => exact hnl _ (by simp)
  | escape => exact absurd rfl hk.1
  | interrupt => exact absurd rfl hk.2
  | char c =>
    refine ⟨_, step_char ha v3 hW c, rel_char h ha (hkc c rfl), ?_⟩
    have hlc := ha.col
    by_cases hr : r = []
    · subst hr
      rw [if_neg (by rw [List.append_nil]; omega)]
      by_cases hx : e.col - e.viewCol < W - 1
      · rw [if_pos ⟨hx, rfl⟩]
        exact write_end hg ha rfl ha.line.symm rfl rfl (by show (l ++ [c]).length = _; rw [List.length_append, hlc])
          (fun _ => by show _ + 1 < W; omega)
      · rw [if_neg (fun h1 => hx h1.1)]
        intro hv
        obtain ⟨_, _, _, w4⟩ := hv
        have w5 : (l ++ [c]).length < e.viewCol + W := w4
        simp only [List.length_append, List.length_singleton] at w5
        omega
    · have hrl : 0 < r.length := List.length_pos_iff.2 hr
      rw [if_pos (by rw [List.length_append]; omega), if_neg (by rintro ⟨_, h1⟩; cases h1)]
      exact pre_current hg ha rfl ha.line.symm rfl rfl
  | tab =>
    have hrt := rel_tab (H := H) h ha rfl
    refine ⟨_, step_tab ha rfl, hrt, ?_⟩
    have hlc := ha.col
    by_cases hr : r = []
    · subst hr
      rw [if_neg (by rw [List.append_nil]; omega), if_neg (by rw [List.append_nil]; omega)]
      refine write_end hg ha rfl ha.line.symm rfl rfl (by show (l ++ _).length = _; rw [List.length_append, hlc]) (fun hzz => ?_)
      obtain ⟨A', l', r', B', ha'⟩ := hrt.at_
      have h1 := ha'.docCol hrt.clean
      have h2 := hz hzz rfl
      have h3 : (b.press H .tab).doc.col = (l ++ _).length := h1
      rw [List.length_append] at h3
      omega
    · have hrl : 0 < r.length := List.length_pos_iff.2 hr
      rw [if_pos (by rw [List.length_append]; omega), if_pos (by rw [List.length_append]; omega)]
      exact pre_current hg ha rfl ha.line.symm rfl rfl
  | backspace =>
    rcases backspace_ok (W := W) (H := H) h ha with ⟨n, hn0, hn, h1, h2⟩ | ⟨e', h1, h2⟩ | ⟨e', h1, h2, h3⟩
    · refine ⟨_, h1, h2, ?_⟩
      have hlc := ha.col
      have hln : (l.take (l.length - n)).length = l.length - n := by rw [List.length_take]; omega
      by_cases hr : r = []
      · by_cases hx : n ≤ e.col - e.viewCol
        · subst hr
          show Console.After z W H (Pre W H _ .none) ([.hideCursor] ++ List.replicate n (.clear .previousChar) ++ [.showCursor]) s
          refine ⟨trivial, fun s1 e1 => ?_⟩
          cases e1
          show Console.After z W H _ (List.replicate n (.clear .previousChar) ++ [.showCursor]) _
          rw [after_append]
          refine previous_ok n _ rfl (by show n ≤ s.back.x; rw [hg.cursor.1]; exact hx) fun s' k0 k1 k2 k3 => ?_
          refine ⟨fun _ => ⟨k0.1, Nat.lt_of_le_of_lt k0.2 (by show s.back.x < W; rw [hg.cursor.1]; omega)⟩, fun s2 e2 => ?_⟩
          cases e2
          have k2' : ∀ r c, (r ≠ e.line - e.viewLine ∨ c < e.col - e.viewCol - n ∨ e.col - e.viewCol ≤ c) → s'.back.cell r c = s.back.cell r c := by
            intro r c hrc
            refine k2 r c ?_
            show r ≠ s.back.y ∨ c < s.back.x - n ∨ s.back.x ≤ c
            rw [hg.cursor.1, hg.cursor.2.1]; exact hrc
          have k3' : ∀ c, e.col - e.viewCol - n ≤ c → c < e.col - e.viewCol → s'.back.cell (e.line - e.viewLine) c = glyph textColor ' ' := by
            intro c h3 h4
            have := k3 c (by show s.back.x - n ≤ c; rw [hg.cursor.1]; exact h3) (by show c < s.back.x; rw [hg.cursor.1]; exact h4)
            rw [← hg.tint, ← hg.cursor.2.1]; exact this
          intro _ y hy
          by_cases hyy : y = e.line - e.viewLine
          · subst hyy
            intro x hx
            have hrow := hg.cells _ hy x hx
            show s'.back.cell _ x = glyph textColor (cAt (A ++ _ :: B) (e.viewLine + _) (e.viewCol + x))
            rw [Nat.add_sub_cancel' v1]
            rw [Nat.add_sub_cancel' v1, ha.content] at hrow
            have q1 : cAt (A ++ (l ++ []) :: B) e.line (e.viewCol + x) = l.getD (e.viewCol + x) ' ' := by rw [ha.line, cAt_here, List.append_nil]
            have q2 : cAt (A ++ (l.take (l.length - n) ++ []) :: B) e.line (e.viewCol + x) = (l.take (l.length - n)).getD (e.viewCol + x) ' ' := by rw [ha.line, cAt_here, List.append_nil]
            rw [q1] at hrow
            rw [q2]
            by_cases c1 : x < e.col - e.viewCol - n
            · rw [k2' _ _ (.inr (.inl c1)), hrow]
              congr 1
              simp only [List.getD, List.getElem?_take]
              rw [if_pos (by omega)]
            · rw [getD_ge (by omega)]
              by_cases c2 : x < e.col - e.viewCol
              · exact k3' x (by omega) c2
              · rw [k2' _ _ (.inr (.inr (by omega))), hrow, getD_ge (by omega)]
          · refine rows_other (e' := { e with content := A ++ (l.take (l.length - n) ++ []) :: B, line := A.length, col := (l.take (l.length - n)).length, insertCol := (l.take (l.length - n)).length, dirty := true })
              ha rfl rfl rfl v1 hyy ?_
            intro x hx
            show s'.back.cell y x = _
            rw [k2' y x (.inl hyy)]
            exact hg.cells y hy x hx
        · simp only [if_pos hr]
          refine ⟨trivial, fun s1 e1 => ?_⟩
          cases e1
          show Console.After z W H _ (List.replicate n (.clear .previousChar) ++ [.showCursor]) _
          rw [after_append]
          refine after_mono (fun s' hx' => ⟨fun _ => hx', fun s2 _ => ?_⟩)
            (previous_any n _ rfl (by show s.back.x < W; rw [hg.cursor.1]; omega))
          rintro ⟨_, _, w3, _⟩
          have w5 : e.viewCol ≤ (l.take (l.length - n)).length := w3
          omega
      · simp only [if_neg hr]
        exact pre_current hg ha rfl ha.line.symm rfl rfl
    · exact ⟨_, h1, h2, pre_full⟩
    · refine ⟨_, h1, h2, pre_same hg ?_ ?_ ?_⟩ <;> rw [h3]

/-- The editor follows the specification, and shows it. -/
theorem loop_ok {W H : Nat} (hW : 1 ≤ W) (hW2 : W < 65536) (hH : 2 ≤ H) (hH2 : H < 65536) (ks : List Key) {b : Buffer} {e : State} {r : Refresh}
    (h : Rel b e) {s : Console} (hpre : Pre W H e r s) (hks : ∀ c, .char c ∈ ks → Typable c)
    (hz : z = true → ∀ p q, ks = p ++ .tab :: q → ((b.keys H p).press H .tab).doc.col < W) :
    ∃ e' ops ended, e.loop W H r ks = some (e', ops, ended) ∧ Rel (b.keys H ks) e' ∧ InView W H e' ∧ Console.After z W H (Good W H (b.keys H ks) e') ops s ∧
      (ended = true ↔ Key.escape ∈ ks ∨ Key.interrupt ∈ ks) ∧ ∃ o, ops = o ++ [.showCursor, .syncNow] := by
  induction ks generalizing b e r s with
  | nil =>
    obtain ⟨e', ops, h1, h2, h3, h4, h5⟩ := show_ok (z := z) h hW hW2 hH hH2 r hpre
    exact ⟨e', ops, false, by show (e.show W H r).map _ = _; rw [h1]; rfl, h2, h3, h4, by simp, h5⟩
  | cons k ks ih =>
    obtain ⟨e', ops, h1, h2, h3, h4, h5⟩ := show_ok (z := z) h hW hW2 hH hH2 r hpre
    by_cases hk : k = .escape ∨ k = .interrupt
    · refine ⟨e', ops, true, ?_, ?_, h3, ?_, ?_, h5⟩
      · show (e.show W H r).bind _ = _
        rw [h1]
        show (if k = .escape ∨ k = .interrupt then _ else _) = _
        rw [if_pos hk]
        rfl
      · rw [Buffer.keys, if_pos hk]; exact h2
      · rw [Buffer.keys, if_pos hk]; exact h4
      · rcases hk with rfl | rfl <;> simp
    · -- the step and the rest of the loop do not depend on the console
      have hk' : k ≠ .escape ∧ k ≠ .interrupt := ⟨fun hx => hk (.inl hx), fun hx => hk (.inr hx)⟩
      have hstep : ∀ s1, Good W H b e' s1 → ∃ st e'' ops'' ended, e'.press W H k = some st ∧ st.state.loop W H st.refresh ks = some (e'', ops'', ended) ∧
          Rel ((b.press H k).keys H ks) e'' ∧ InView W H e'' ∧ (ended = true ↔ Key.escape ∈ ks ∨ Key.interrupt ∈ ks) ∧ (∃ o, ops'' = o ++ [.showCursor, .syncNow]) ∧
          Console.After z W H (Good W H ((b.press H k).keys H ks) e'') (st.ops ++ ops'') s1 := by
        intro s1 hg
        obtain ⟨st, g1, g2, g3⟩ := press_ok hW hH h2 hg hk' (fun c hc => hks c (by rw [hc]; exact List.mem_cons_self))
          (z := z) (fun hzz hkt => hz hzz [] ks (by rw [hkt]; rfl))
        have hks' : ∀ c, .char c ∈ ks → Typable c := fun c hc => hks c (List.mem_cons_of_mem _ hc)
        have hall := fun (s2 : Console) (hp : Pre W H st.state st.refresh s2) => ih g2 hp hks' fun hzz p q hpq => by
          have := hz hzz (k :: p) q (by rw [hpq]; rfl)
          rwa [Buffer.keys, if_neg hk] at this
        -- any console at all gives the result of the loop
        obtain ⟨s0, hs0⟩ : ∃ s0, Pre W H st.state st.refresh s0 := by
          refine ⟨⟨⟨fun y x => glyph textColor (cAt st.state.content (st.state.viewLine + y) (st.state.viewCol + x)), 0, 0, true⟩, textColor, s.front⟩, fun _ => ?_⟩
          split
          · trivial
          · intro y _ _ x _; rfl
          · intro y _ x _; rfl
        obtain ⟨e'', ops'', ended, j1, j2, j3, _, j5, j6⟩ := hall s0 hs0
        refine ⟨st, e'', ops'', ended, g1, j1, j2, j3, j5, j6, ?_⟩
        rw [after_append]
        refine after_mono (fun s2 hp => ?_) g3
        obtain ⟨e3, o3, d3, i1, _, _, i4, _, _⟩ := hall s2 hp
        rw [j1] at i1
        cases i1
        exact i4
      obtain ⟨s1, hs1⟩ : ∃ s1, Good W H b e' s1 := by
        refine ⟨⟨⟨fun y x => if y = H - 1 then glyph statusColor ((b.status W).getD x ' ') else
          glyph textColor (cAt e'.content (e'.viewLine + y) (e'.viewCol + x)), e'.col - e'.viewCol, e'.line - e'.viewLine, true⟩, textColor,
          ⟨fun y x => if y = H - 1 then glyph statusColor ((b.status W).getD x ' ') else
          glyph textColor (cAt e'.content (e'.viewLine + y) (e'.viewCol + x)), e'.col - e'.viewCol, e'.line - e'.viewLine, true⟩⟩, h3, ?_, ⟨rfl, rfl, rfl⟩, rfl, rfl, ?_⟩
        · intro y hy x _
          exact if_neg (by omega)
        · intro x _
          exact if_pos rfl
      obtain ⟨st, e'', ops'', ended, g1, g2, g3, g4, g5, ⟨o6, g6⟩, _⟩ := hstep s1 hs1
      refine ⟨e'', ops ++ st.ops ++ ops'', ended, ?_, ?_, g4, ?_, ?_, ⟨ops ++ st.ops ++ o6, by rw [g6]; simp⟩⟩
      · show (e.show W H r).bind _ = _
        rw [h1]
        show (if k = .escape ∨ k = .interrupt then _ else _) = _
        rw [if_neg hk]
        show (e'.press W H k).bind _ = _
        rw [g1]
        show (st.state.loop W H st.refresh ks).bind _ = _
        rw [g2]
        rfl
      · rw [Buffer.keys, if_neg hk]; exact g3
      · rw [Buffer.keys, if_neg hk, List.append_assoc, after_append]
        refine after_mono (fun s2 hg => ?_) h4
        obtain ⟨st', e3, o3, d3, i1, i2, _, _, _, _, i6⟩ := hstep s2 hg
        rw [g1] at i1; cases i1
        rw [g2] at i2; cases i2
        exact i6
      · rw [g5]
        simp only [List.mem_cons]
        constructor
        · rintro (h1 | h1) <;> tauto
        · rintro ((h1 | h1) | (h1 | h1))
          · exact absurd h1.symm hk'.1
          · exact .inl h1
          · exact absurd h1.symm hk'.2
          · exact .inr h1

end EB.Edit
