import Verif.Lemmas.TextCon
/-!
# C72: the graphics console shows text as a terminal does
-/

namespace EB

open Spec Tele
open Edit (Clear)

/-- Each operation. -/
theorem textStep_ok {u : Setup} (hu : u.Good) {s : TextCon} {c : Canvas} {t : Terminal} (h : Core u s c t) {op : TextOp}
    (ho : t.Handles u.F op) (h1 : ∀ on, op ≠ .setSync on) (h2 : op ≠ .syncNow) :
    ∃ s' c', s.perform op = some s' ∧ Still c c' ∧ Core u s' c' (t.act u.F op) := by
  obtain ⟨ho, hx⟩ := ho
  have hvis : s.visible = t.back.cursor.isSome := by
    have := h.cursor
    unfold Cursor at this
    cases hcc : t.back.cursor with
    | none => rw [hcc] at this; exact this.1
    | some k => rw [hcc] at this; exact this.1
  have hmk : ∀ {t' : Terminal} {sh : Sheet}, ((t'.make u.F sh).back.cursor.isSome → (t'.make u.F sh).back.x < u.F.cols) →
      sh.cursor.isSome → sh.x < u.F.cols := by
    intro t' sh hh e
    refine hh ?_
    show (sh.cursor.map _).isSome = true
    rw [Option.isSome_map]; exact e
  cases op with
  | clear how =>
    obtain ⟨s1, c1, a1, f1, st1, b1⟩ := erase_ok hu h.base h.cursor (how := how) (by rintro rfl; exact ho) (by rintro rfl; exact ho)
    obtain ⟨l2, c2, back, a2, st2, b2, k2⟩ := drawCursor_ok hu b1.base b1.backup b1.tiles (by rw [f1.visible, erase_cursor]; exact hvis)
      (hmk (t' := t) hx)
    obtain ⟨l3, c3, a3, st3, b3, k3⟩ := present_ok b2 k2
    refine ⟨_, c3, ?_, (st1.trans st2).trans st3, ⟨b3, k3, ?_, f1.sync.trans h.sync⟩⟩
    · show s.clear how = _
      unfold TextCon.clear
      simp only [Option.bind_eq_bind]
      rw [a1, Option.bind_some, a2, Option.bind_some, a3]
    · show Kept u s1.alt t.saved
      rw [f1.alt]; exact h.kept
  | setColor fg bg =>
    obtain ⟨f, hf⟩ := color_some (fg.getD u.F.fg)
    obtain ⟨b, hb⟩ := color_some (bg.getD u.F.bg)
    refine ⟨{ s with ansiFg := fg, fg := f, ansiBg := bg, bg := b }, c, ?_, .refl c,
      ⟨{ h.base with af := rfl, ab := rfl, fgc := hf, bgc := hb }, h.cursor, h.kept, h.sync⟩⟩
    show s.setColor fg bg = _
    unfold TextCon.setColor
    rw [h.base.defFg, h.base.defBg, hf, hb]
    rfl
  | enterAlt =>
    obtain ⟨ho1, ho2⟩ := ho
    have hw0 : 0 < u.width := by
      have h1 := hu.wide
      have h2 := Nat.mul_le_mul_right u.font.width hu.c1
      have h3 := hu.gw
      omega
    have hh0 : 0 < u.height := by
      have h1 := hu.high
      have h2 := Nat.mul_le_mul_right u.font.height hu.r2
      have h3 := hu.gh
      omega
    have halt : s.alt = none := by
      have := h.kept
      rw [ho1] at this
      cases ha : s.alt with
      | none => rfl
      | some a => rw [ha] at this; exact this.elim
    have hcur := h.cursor
    unfold Cursor at hcur
    rw [ho2] at hcur
    obtain ⟨hv, hbk, ht⟩ := hcur
    obtain ⟨pixels, p1, p2, p3⟩ := readPixels_ok h.base.lcd (p := ⟨0, 0⟩) (w := s.lcd.width) (k := s.lcd.height)
      (by rw [h.base.w, h.base.h]; unfold Within; simp only; omega)
    rw [h.base.w, h.base.h, h.base.st] at p2 p3
    obtain ⟨s1, c1, a1, f1, st1, b1⟩ := eraseAll_ok hu (s := { s with alt := some ⟨pixels, s.x, s.y, s.ansiFg, s.ansiBg, s.fg, s.bg⟩ }) { h.base with } t.back
    obtain ⟨l2, c2, back, a2, st2, b2, k2⟩ := drawCursor_ok hu b1.base b1.backup b1.tiles (by rw [f1.visible, erase_cursor]; exact hvis)
      (hmk (t' := t) hx)
    obtain ⟨l3, c3, a3, st3, b3, k3⟩ := present_ok b2 k2
    refine ⟨_, c3, ?_, (st1.trans st2).trans st3, ⟨b3, k3, ?_, f1.sync.trans h.sync⟩⟩
    · show s.enterAlt = _
      unfold TextCon.enterAlt TextCon.clear
      simp only [Option.bind_eq_bind]
      rw [if_neg (by rw [halt]; decide), p1, Option.bind_some, a1, Option.bind_some, a2, Option.bind_some, a3]
    · show Kept u s1.alt (some (t.back, t.fg, t.bg))
      rw [f1.alt]
      refine ⟨h.base.px, h.base.py, h.base.xle, h.base.ylt, h.base.af, h.base.ab, h.base.fgc, h.base.bgc, p2, fun r hr q hq i hi j hj => ?_⟩
      show pixelAt u.stride u.width ⟨0, 0⟩ pixels _ = _
      have e1 := le_cell (x := u.F.cols) (c := q) hi
      have e2 := le_cell (x := u.F.rows) (c := r) hj
      have e3 := hu.wide
      have e4 := hu.high
      rw [p3 _ (by unfold InRect; simp only; omega)]
      exact ht r hr q hq i hi j hj
  | leaveAlt =>
    have ho : t.saved.isSome = true := ho
    obtain ⟨⟨sh, fg, bg⟩, hsv⟩ := Option.isSome_iff_exists.1 ho
    have hk := h.kept
    rw [hsv] at hk
    cases ha : s.alt with
    | none => rw [ha] at hk; exact hk.elim
    | some a =>
      rw [ha] at hk
      obtain ⟨k1, k2, k3, k4, k5, k6, k7, k8, k9, k10⟩ := hk
      have hact : t.act u.F .leaveAlt = ({ t with fg := fg, bg := bg, saved := none } : Terminal).make u.F { sh with cursor := t.back.cursor } := by
        unfold Terminal.act
        rw [hsv]
      rw [hact] at hx ⊢
      have hw0 : 0 < u.width := by
        have h1 := hu.wide
        have h2 := Nat.mul_le_mul_right u.font.width hu.c1
        have h3 := hu.gw
        omega
      have hh0 : 0 < u.height := by
        have h1 := hu.high
        have h2 := Nat.mul_le_mul_right u.font.height hu.r2
        have h3 := hu.gh
        omega
      obtain ⟨l1, c1, a1, st1, b1, t1⟩ := clearCursor_ok hu (s := { s with alt := none }) (sh := t.back) { h.base with } h.cursor
      obtain ⟨l2, a2, b2⟩ := step b1 (op := .put ⟨0, 0⟩ a.pixels u.width u.height)
        ⟨by unfold Within; simp only; omega, k9⟩ rfl
      have b2' : Base u { s with alt := none, lcd := l2, backup := none, x := a.x, y := a.y, ansiFg := a.ansiFg, ansiBg := a.ansiBg, fg := a.fg, bg := a.bg }
          (c1.perform u.stride (.put ⟨0, 0⟩ a.pixels u.width u.height)) sh.x sh.y fg bg :=
        { b2 with px := k1, py := k2, xle := k3, ylt := k4, af := k5, ab := k6, fgc := k7, bgc := k8 }
      have ht2 : Tiles u (c1.perform u.stride (.put ⟨0, 0⟩ a.pixels u.width u.height)).drawn sh.tile := by
        intro r hr q hq i hi j hj
        have e1 := le_cell (x := u.F.cols) (c := q) hi
        have e2 := le_cell (x := u.F.rows) (c := r) hj
        have e3 := hu.wide
        have e4 := hu.high
        show (if InRect _ _ _ _ then pixelAt u.stride u.width ⟨0, 0⟩ a.pixels _ else _) = _
        rw [if_pos (by unfold InRect; simp only; omega)]
        exact k10 r hr q hq i hi j hj
      obtain ⟨l3, c3, back, a3, st3, b3, k3⟩ := drawCursor_ok hu (sh := { sh with cursor := t.back.cursor }) b2' rfl ht2 hvis
        (hmk (t' := { t with fg := fg, bg := bg, saved := none }) hx)
      obtain ⟨l4, c4, a4, st4, b4, k4⟩ := present_ok b3 k3
      refine ⟨_, c4, ?_, ((st1.trans (still_draw _ _)).trans st3).trans st4, ⟨b4, k4, trivial, h.sync⟩⟩
      show s.leaveAlt = _
      unfold TextCon.leaveAlt
      simp only [Option.bind_eq_bind]
      rw [ha, Option.bind_some, a1, Option.bind_some]
      have hlw : l1.width = u.width := b1.w
      have hlh : l1.height = u.height := b1.h
      simp only [hlw, hlh]
      rw [a2, Option.bind_some, a3, Option.bind_some, a4]
  | hideCursor =>
    obtain ⟨l1, c1, a1, st1, b1, t1⟩ := clearCursor_ok hu h.base h.cursor
    obtain ⟨l3, c3, a3, st3, b3, k3⟩ := present_ok (s := { s with lcd := l1, backup := none, visible := false }) (sh := { t.back with cursor := none })
      { b1 with } ⟨rfl, rfl, t1⟩
    refine ⟨_, c3, ?_, st1.trans st3, ⟨b3, k3, h.kept, h.sync⟩⟩
    show s.hideCursor = _
    unfold TextCon.hideCursor
    simp only [Option.bind_eq_bind]
    rw [a1, Option.bind_some, a3]
  | showCursor =>
    have hact : t.act u.F .showCursor = if t.back.cursor.isSome then t else { t with back := { t.back with cursor := some (t.ink u.F) } } := rfl
    cases hc : t.back.cursor with
    | some k =>
      rw [hact, hc]
      obtain ⟨l3, c3, a3, st3, b3, k3⟩ := present_ok h.base h.cursor
      refine ⟨_, c3, ?_, st3, ⟨b3, k3, h.kept, h.sync⟩⟩
      show s.showCursor = _
      unfold TextCon.showCursor
      have hv : s.visible = true := by rw [hvis, hc]; rfl
      rw [if_neg (by rw [hv]; decide)]
      exact a3
    | none =>
      have hact' : t.act u.F .showCursor = { t with back := { t.back with cursor := some (t.ink u.F) } } := by rw [hact, hc]; rfl
      rw [hact'] at hx ⊢
      have hcur := h.cursor
      unfold Cursor at hcur
      rw [hc] at hcur
      obtain ⟨hv, hbk, ht⟩ := hcur
      obtain ⟨l2, c2, back, a2, st2, b2, k2⟩ := drawCursor_ok hu (s := { s with visible := true }) (sh := { t.back with cursor := some (t.ink u.F) })
        { h.base with } hbk ht rfl hx
      obtain ⟨l3, c3, a3, st3, b3, k3⟩ := present_ok b2 k2
      refine ⟨_, c3, ?_, st2.trans st3, ⟨b3, k3, h.kept, h.sync⟩⟩
      show s.showCursor = _
      unfold TextCon.showCursor
      simp only [Option.bind_eq_bind]
      rw [if_pos (by rw [hv]; rfl), a2, Option.bind_some, a3]
  | locate x y =>
    have ho : x < u.F.cols ∧ y < u.F.rows := ho
    obtain ⟨s', c', e1, e2, e3⟩ := quietly_ok hu h (sh := { t.back with x := x, y := y }) (f := fun s => some { s with x := x, y := y })
      (fun {s' c'} b => ⟨_, c', rfl, ⟨rfl, rfl, rfl⟩, .refl c', { b.base with px := rfl, py := rfl, xle := Nat.le_of_lt ho.1, ylt := ho.2 }, b.backup, b.tiles⟩)
      rfl (fun _ => ho.1)
    refine ⟨s', c', ?_, e2, e3⟩
    show s.locate x y = _
    unfold TextCon.locate
    rw [if_pos (by rw [h.base.cols, h.base.rows]; exact ho)]
    exact e1
  | move off =>
    have ho : 0 ≤ (t.back.x : Int) + off ∧ (t.back.x : Int) + off ≤ u.F.cols := ho
    have hcm : u.F.cols ≤ 32767 := by
      have h1 := hu.wide
      have h2 := hu.wmax
      have h3 : u.F.cols * 1 ≤ u.F.cols * u.font.width := Nat.mul_le_mul_left _ hu.gw
      omega
    obtain ⟨s', c', e1, e2, e3⟩ := quietly_ok hu h (sh := { t.back with x := ((t.back.x : Int) + off).toNat })
      (f := fun s => if (s.x : Int) + off < 0 ∨ 65535 < (s.x : Int) + off then none else some { s with x := ((s.x : Int) + off).toNat })
      (fun {s' c'} b => ⟨{ s' with x := ((s'.x : Int) + off).toNat }, c', (by
          show (if _ then _ else _) = _
          rw [if_neg (by rw [b.base.px]; omega)]), ⟨rfl, rfl, rfl⟩, .refl c',
        { b.base with px := (by show ((s'.x : Int) + off).toNat = _; rw [b.base.px]), xle := (by show ((t.back.x : Int) + off).toNat ≤ _; omega) }, b.backup, b.tiles⟩)
      rfl (hmk (t' := t) hx)
    exact ⟨s', c', e1, e2, e3⟩
  | print text =>
    obtain ⟨s', c', e1, e2, e3⟩ := quietly_ok hu h (sh := (text.foldl (Sheet.type u.F (inkNo u t.fg) (paperNo u t.bg)) t.back).newLine u.F (paperNo u t.bg))
      (f := fun s => (s.rawWrite (removeControlChars text)).bind fun s => s.openLine)
      (fun {s' c'} b => by
        obtain ⟨s1, c1, r1, r2, r3, r4⟩ := rawWrite_ok hu b text
        obtain ⟨s2, c2, o1, o2, o3, o4⟩ := openLine_ok hu r4
        exact ⟨s2, c2, by show (s'.rawWrite _).bind _ = _; rw [r1, Option.bind_some, o1], r2.trans o2, r3.trans o3, o4⟩)
      (by rw [newLine_cursor, types_cursor]) (hmk (t' := t) hx)
    exact ⟨s', c', e1, e2, e3⟩
  | write text =>
    obtain ⟨s', c', e1, e2, e3⟩ := quietly_ok hu h (sh := text.foldl (Sheet.type u.F (inkNo u t.fg) (paperNo u t.bg)) t.back)
      (f := fun s => s.rawWrite (removeControlChars text))
      (fun {s' c'} b => rawWrite_ok hu b text)
      (types_cursor text _) (hmk (t' := t) hx)
    exact ⟨s', c', e1, e2, e3⟩
  | setSync on => exact absurd rfl (h1 on)
  | syncNow => exact absurd rfl h2

/-- The console shows the terminal. -/
structure Mirror (u : Setup) (s : TextCon) (t : Terminal) : Prop where
  ex : ∃ c, Core u s c t ∧ Depicts u.F u.font u.encode c.shown t.front

/-- What is drawn is the picture. -/
theorem Tele.Core.depicts {u : Setup} {s : TextCon} {c : Canvas} {t : Terminal} (h : Core u s c t) : Depicts u.F u.font u.encode c.drawn t.back := by
  have := h.cursor
  unfold Cursor at this
  cases hc : t.back.cursor with
  | none =>
    rw [hc] at this
    intro r hr q hq i hi j hj
    unfold Sheet.pixel
    rw [hc]
    exact this.2.2 r hr q hq i hi j hj
  | some k =>
    rw [hc] at this
    have e : t.back = { t.back with cursor := some k } := by rw [← hc]
    rw [e]
    exact this.2.2.2

theorem onScreen_cell {u : Setup} (hu : u.Good) {s : Lcd} (hw : s.width = u.width) (hh : s.height = u.height) {r c i j : Nat}
    (hr : r < u.F.rows) (hc : c < u.F.cols) (hi : i < u.font.width) (hj : j < u.font.height) :
    OnScreen s ⟨c * u.font.width + i, r * u.font.height + j⟩ := by
  have e1 := le_cell (x := u.F.cols) (c := c) hi
  have e2 := le_cell (x := u.F.rows) (c := r) hj
  have e3 := hu.wide
  have e4 := hu.high
  unfold OnScreen
  rw [hw, hh]
  simp only
  omega

/-- With syncing what is shown is the picture. -/
theorem Tele.Core.synced {u : Setup} (hu : u.Good) {s : TextCon} {c : Canvas} {t : Terminal} (h : Core u s c t) (hs : t.sync = true) :
    Depicts u.F u.font u.encode c.shown t.back := by
  intro r hr q hq i hi j hj
  rw [← h.depicts r hr q hq i hi j hj]
  refine (h.base.lcd.shows ?_ (onScreen_cell hu h.base.w h.base.h hr hq hi hj)).symm
  rw [h.base.lcd.sync, ← h.base.sync, h.sync, hs]

theorem mirror_step {u : Setup} (hu : u.Good) {s : TextCon} {t : Terminal} (h : Mirror u s t) {op : TextOp} (ho : t.Handles u.F op) :
    ∃ s', s.perform op = some s' ∧ Mirror u s' (t.perform u.F op) := by
  obtain ⟨c, hc, hd⟩ := h.ex
  -- all but the operations that concern syncing
  have gen : (∀ on, op ≠ .setSync on) → op ≠ .syncNow → (t.act u.F op).sync = t.sync → (t.act u.F op).front = t.front →
      ∃ s', s.perform op = some s' ∧ Mirror u s' (t.perform u.F op) := by
    intro h1 h2 h3 h4
    obtain ⟨s', c', e1, e2, e3⟩ := textStep_ok hu hc ho h1 h2
    refine ⟨s', e1, ⟨c', ?_⟩⟩
    unfold Terminal.perform
    simp only
    by_cases hs : (t.act u.F op).sync = true
    · rw [if_pos hs]
      exact ⟨⟨e3.base, e3.cursor, e3.kept, e3.sync⟩, e3.synced hu hs⟩
    · rw [if_neg hs]
      refine ⟨e3, ?_⟩
      have hcs : c.sync = false := by
        rw [← hc.base.sync, hc.sync, ← h3]
        cases hh : (t.act u.F op).sync with
        | true => exact absurd hh hs
        | false => rfl
      rw [e2.2 hcs, h4]
      exact hd
  cases op with
  | setSync on =>
    obtain ⟨l, a1, b1⟩ := setSync_ok hc.base on
    refine ⟨_, a1, ⟨{ c with sync := on, shown := if on then c.drawn else c.shown }, ?_⟩⟩
    unfold Terminal.perform Terminal.act
    cases on with
    | true => exact ⟨⟨b1, hc.cursor, hc.kept, rfl⟩, hc.depicts⟩
    | false => exact ⟨⟨b1, hc.cursor, hc.kept, rfl⟩, hd⟩
  | syncNow =>
    have hperf : t.perform u.F .syncNow = { t with front := t.back } := by
      unfold Terminal.perform Terminal.act
      simp only
      split <;> rfl
    rw [hperf]
    cases hs : s.sync with
    | true =>
      refine ⟨s, ?_, ⟨c, ⟨hc.base, hc.cursor, hc.kept, hc.sync⟩, hc.synced hu (hc.sync.symm.trans hs)⟩⟩
      show s.syncNow = _
      unfold TextCon.syncNow
      rw [if_pos hs]
    | false =>
      obtain ⟨l, e1, e2⟩ := step hc.base (op := .present) trivial rfl
      refine ⟨_, ?_, ⟨{ c with shown := c.drawn }, ⟨e2, hc.cursor, hc.kept, hc.sync⟩, hc.depicts⟩⟩
      show s.syncNow = _
      unfold TextCon.syncNow
      rw [if_neg (by rw [hs]; decide)]
      exact e1
  | leaveAlt =>
    refine gen (by intro _ e; cases e) (by intro e; cases e) ?_ ?_ <;>
    · unfold Terminal.act
      simp only
      split <;> rfl
  | showCursor =>
    refine gen (by intro _ e; cases e) (by intro e; cases e) ?_ ?_ <;>
    · unfold Terminal.act
      simp only
      split <;> rfl
  | _ => exact gen (by intro _ e; cases e) (by intro e; cases e) rfl rfl

theorem mirror_history {u : Setup} (hu : u.Good) : ∀ {ops : List TextOp} {s : TextCon} {t : Terminal}, Mirror u s t → t.HandlesAll u.F ops →
    ∃ s', ops.foldlM TextCon.perform s = some s' ∧ Mirror u s' (ops.foldl (Terminal.perform u.F) t)
  | [], s, _, h, _ => ⟨s, rfl, h⟩
  | op :: ops, s, t, h, ho => by
    obtain ⟨s1, e1, m1⟩ := mirror_step hu h ho.1
    obtain ⟨s2, e2, m2⟩ := mirror_history hu m1 ho.2
    exact ⟨s2, by rw [List.foldlM_cons, e1]; exact e2, m2⟩

/-- A new console. -/
theorem mirror_new {width height stride : Nat} {font : Font} (hf : GoodFont font) (hw : 0 < font.width) (hh : 0 < font.height)
    (h1 : font.width ≤ width) (h2 : 2 * font.height ≤ height) (h3 : width ≤ 32767) (h4 : height ≤ 32767) {encode : RGB → List Byte}
    (he : ∀ k, (encode k).length = stride) (fg bg : BitVec 8) (white : List Byte) (screen : LXY → List Byte) :
    Setup.Good ⟨⟨width / font.width, height / font.height, fg, bg⟩, font, encode, width, height, stride⟩ ∧
    ∃ s0, TextCon.new (Lcd.new width height stride white screen) font encode fg bg = some s0 ∧
      Mirror ⟨⟨width / font.width, height / font.height, fg, bg⟩, font, encode, width, height, stride⟩ s0 (.blank ⟨width / font.width, height / font.height, fg, bg⟩) := by
  obtain ⟨u, hu⟩ : ∃ u : Setup, u = ⟨⟨width / font.width, height / font.height, fg, bg⟩, font, encode, width, height, stride⟩ := ⟨_, rfl⟩
  rw [← hu]
  have hg : u.Good := by
    subst hu
    refine ⟨hf, hw, hh, Nat.div_mul_le_self _ _, Nat.div_mul_le_self _ _, (Nat.le_div_iff_mul_le hw).2 (by omega), (Nat.le_div_iff_mul_le hh).2 h2, h3, h4, he⟩
  refine ⟨hg, ?_⟩
  obtain ⟨f, hfc⟩ := color_some fg
  obtain ⟨b, hbc⟩ := color_some bg
  obtain ⟨l0, a0, b0, b1, b2, b3⟩ := new_ok (w := width) (h := height) (n := stride) (by omega) (by omega) (he b) screen
  have hb : Bare u ⟨l0, font, encode, width / font.width, height / font.height, 0, 0, true, none, fg, bg, none, none, f, b, none, true⟩ (blank (encode b))
      ⟨fun _ _ => .empty bg, 0, 0, some fg⟩ none none := by
    subst hu
    refine ⟨⟨b0, b1, b2, b3, rfl, rfl, rfl, rfl, rfl, rfl, rfl, rfl, Nat.zero_le _, ?_, rfl, rfl, hfc, hbc, rfl⟩, rfl, fun r hr q hq i hi j hj => ?_⟩
    · have := hg.r2
      simp only at this ⊢
      omega
    · exact (inkOf_eq hbc).symm
  obtain ⟨l2, c2, back, a2, st2, b2, k2⟩ := drawCursor_ok hg hb.base hb.backup hb.tiles rfl (fun _ => hg.c1)
  obtain ⟨l3, c3, a3, st3, b3, k3⟩ := present_ok b2 k2
  have hcore : Core u ⟨l3, font, encode, width / font.width, height / font.height, 0, 0, true, back, fg, bg, none, none, f, b, none, true⟩ c3
      (.blank ⟨width / font.width, height / font.height, fg, bg⟩) := by
    refine ⟨b3, ?_, trivial, rfl⟩
    subst hu
    exact k3
  refine ⟨_, ?_, ⟨c3, hcore, hcore.synced hg rfl⟩⟩
  unfold TextCon.new TextCon.setColor
  simp only [Option.bind_eq_bind, Option.getD_none]
  rw [hfc, hbc]
  simp only [Option.bind_some]
  unfold TextCon.clear TextCon.erase
  simp only [Option.bind_eq_bind]
  have e1 : ∀ s : TextCon, s.lcd = Lcd.new width height stride white screen → s.encode = encode →
      (s.ink b).bind (fun s => (s.ras .clear).bind fun s => some ({ s with x := 0, y := 0, backup := none } : TextCon)) =
      some { s with lcd := l0, x := 0, y := 0, backup := none } := by
    intro s hs1 hs2
    unfold TextCon.ink TextCon.ras
    rw [hs1, hs2]
    have : ({ Lcd.new width height stride white screen with color := encode b } : Lcd).clear = some l0 := a0
    simp only [Lcd.perform, Option.map_some, Option.bind_some, this]
  rw [e1 _ rfl rfl, Option.bind_some]
  exact (congrArg (fun o : Option TextCon => o.bind TextCon.present) a2).trans a3

/-- C72 (the operations it is made for): a new graphics console shows the empty terminal, and after any number of operations that
it is made for it has not failed, the device shows all the cells, and the cursor, that the terminal shows, each with its
character and colors, and the console tells the colors that were set.  Texts may have any length and any characters; they are
wrapped and scrolled. -/
theorem C72_terminal_partial {width height stride : Nat} {font : Font} (hf : GoodFont font) (hw : 0 < font.width) (hh : 0 < font.height)
    (h1 : font.width ≤ width) (h2 : 2 * font.height ≤ height) (h3 : width ≤ 32767) (h4 : height ≤ 32767) {encode : RGB → List Byte}
    (he : ∀ k, (encode k).length = stride) (fg bg : BitVec 8) (white : List Byte) (screen : LXY → List Byte) {F : Format}
    (hF : F = ⟨width / font.width, height / font.height, fg, bg⟩) :
    ∃ s0, TextCon.new (Lcd.new width height stride white screen) font encode fg bg = some s0 ∧
      ∀ ops, (Terminal.blank F).HandlesAll F ops →
        ∃ s, ops.foldlM TextCon.perform s0 = some s ∧
          Depicts F font encode s.lcd.screen (ops.foldl (Terminal.perform F) (.blank F)).front ∧
          (s.ansiFg, s.ansiBg) = ((ops.foldl (Terminal.perform F) (.blank F)).fg, (ops.foldl (Terminal.perform F) (.blank F)).bg) := by
  subst hF
  obtain ⟨hg, s0, e0, m0⟩ := mirror_new hf hw hh h1 h2 h3 h4 he fg bg white screen
  refine ⟨s0, e0, fun ops ho => ?_⟩
  obtain ⟨s, e1, m1⟩ := mirror_history hg m0 ho
  obtain ⟨c, hc, hd⟩ := m1.ex
  refine ⟨s, e1, fun r hr q hq i hi j hj => ?_, by rw [hc.base.af, hc.base.ab]⟩
  rw [hc.base.lcd.shown _ (onScreen_cell hg hc.base.w hc.base.h hr hq hi hj)]
  exact hd r hr q hq i hi j hj

namespace Ex

/-- A font with one dot in each glyph, but none in the blank. -/
def dots : Font := ⟨2, 2, 1, 0 :: 0 :: (List.replicate 94 [0x80, 0]).flatten⟩

/-- One byte for each color. -/
def red : RGB → List Byte := fun k => [k.1]

/-- A console of 2 rows, with a margin, after some operations. -/
def console (width : Nat) (ops : List TextOp) : Option TextCon := do
  let s ← TextCon.new (Lcd.new width 5 1 [255] fun _ => [99]) dots red 15 0
  ops.foldlM TextCon.perform s

/-- What is shown by one of 3 columns: the rows of pixels. -/
def shows (ops : List TextOp) : Option (List (List (List Byte))) :=
  (console 7 ops).map fun s => (List.range 4).map fun y => (List.range 6).map fun x => s.lcd.screen ⟨x, y⟩

/-- Its format. -/
def format : Format := ⟨3, 2, 15, 0⟩

/-- Texts that are wrapped and scroll, in colors, on both screens. -/
def texts : List TextOp := [.print "abcd\tf".toList, .setColor (some 9) (some 1), .hideCursor, .enterAlt, .write "xyz".toList,
  .clear .previousChar, .showCursor, .setSync false, .locate 0 1, .clear .untilNewLine, .syncNow, .leaveAlt, .move 2, .setSync true]

end Ex

theorem dots_good : GoodFont Ex.dots := ⟨by decide +kernel, .inl ⟨rfl, by decide⟩⟩

instance (F : Format) (t : Terminal) (op : TextOp) : Decidable (t.Handles F op) := by
  unfold Terminal.Handles
  cases op <;> try (simp only; infer_instance)
  all_goals (rename_i how; cases how <;> (simp only; infer_instance))

instance handlesAllDec (F : Format) : ∀ (ops : List TextOp) (t : Terminal), Decidable (t.HandlesAll F ops)
  | [], _ => isTrue trivial
  | op :: ops, t => by
    unfold Terminal.HandlesAll
    have := handlesAllDec F ops (t.perform F op)
    infer_instance

set_option maxRecDepth 100000 in
/-- The hypotheses of C72 hold for texts that are wrapped and scroll, with colors and the alternate screen. -/
example : (Terminal.blank Ex.format).HandlesAll Ex.format Ex.texts ∧
    ∃ s0, TextCon.new (Lcd.new 7 5 1 [255] fun _ => [99]) Ex.dots Ex.red 15 0 = some s0 ∧
      ∃ s, Ex.texts.foldlM TextCon.perform s0 = some s ∧
        Depicts Ex.format Ex.dots Ex.red s.lcd.screen (Ex.texts.foldl (Terminal.perform Ex.format) (.blank Ex.format)).front := by
  have h : (Terminal.blank Ex.format).HandlesAll Ex.format Ex.texts := by decide +kernel
  obtain ⟨s0, e0, hs⟩ := C72_terminal_partial (width := 7) (height := 5) (stride := 1) (font := Ex.dots) dots_good (by decide +kernel) (by decide +kernel)
    (by decide +kernel) (by decide +kernel) (by decide) (by decide) (encode := Ex.red) (fun _ => rfl) 15 0 [255] (fun _ => [99]) (F := Ex.format) rfl
  obtain ⟨s, e1, e2, _⟩ := hs Ex.texts h
  exact ⟨h, s0, e0, s, e1, e2⟩

set_option maxRecDepth 100000 in
/-- After the letters the cursor is on the second of two rows. -/
example : Ex.shows [.print "ab".toList, .write "c".toList] = some [
    [[255], [0], [255], [0], [0], [0]],
    [[0], [0], [0], [0], [0], [0]],
    [[255], [0], [255], [255], [0], [0]],
    [[0], [0], [255], [255], [0], [0]]] := by decide +kernel

/-- C72 for all operations is wrong (F33): a text that fills the row and the cursor. -/
theorem C72_counterexample_full : Ex.console 6 [.write "abc".toList] = none ∧
    (Ex.console 6 [.hideCursor, .write "abc".toList]).isSome = true := by decide +kernel

/-- C72 for all operations is wrong (F55): what is under the cursor is lost on the way to the alternate screen and back.  The
block stays where the cursor was. -/
theorem C72_counterexample_ghost : Ex.shows [.enterAlt, .leaveAlt, .locate 2 1] = some [
    [[255], [255], [0], [0], [0], [0]],
    [[255], [255], [0], [0], [0], [0]],
    [[0], [0], [0], [0], [255], [255]],
    [[0], [0], [0], [0], [255], [255]]] := by decide +kernel

/-- C72 for all operations is wrong (F56): the character before the first one of a row is deleted while the cursor is shown. -/
theorem C72_counterexample_delete : Ex.console 7 [.clear .previousChar] = none ∧
    (Ex.console 7 [.hideCursor, .clear .previousChar, .showCursor]).isSome = true := by decide +kernel

end EB
