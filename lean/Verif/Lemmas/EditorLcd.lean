import Verif.Spec.EditorLcd
import Verif.Lemmas.TextCon
import Verif.Lemmas.EditorScreen
/-!
# The terminal of the graphics console as a console of the editor
-/

namespace EB.Tele

open Spec
open Edit (EdOp Tint Clear textColor)

/-- A color, or the default. -/
def colorOr (d : BitVec 8) (o : Option Nat) : BitVec 8 := (o.map (BitVec.ofNat 8)).getD d

/-- A cell of the terminal looks like a glyph. -/
def Like (F : Format) (g : Glyph) (t : Tile) : Prop :=
  t.bg = colorOr F.bg g.bg ∧ ((g.char = ' ' ∧ (t.char = none ∨ t.char = some ' ')) ∨ (t.char = some g.char ∧ t.fg = colorOr F.fg g.fg))

/-- A sheet looks like a picture. -/
structure Alike (F : Format) (p : Picture) (s : Sheet) : Prop where
  x : s.x = p.x
  y : s.y = p.y
  cells : ∀ r < F.rows, ∀ c < F.cols, Like F (p.cell r c) (s.tile r c)
  cursor : s.cursor.isSome = p.visible

/-- A terminal looks like a console. -/
structure Twin (F : Format) (s : Console) (t : Terminal) : Prop where
  sync : t.sync = false
  fg : t.fg = s.tint.1.map (BitVec.ofNat 8)
  bg : t.bg = s.tint.2.map (BitVec.ofNat 8)
  back : Alike F s.back t.back
  front : Alike F s.front t.front

theorem like_blank {F : Format} {t : Tint} {k : BitVec 8} (h : k = colorOr F.bg t.2) : Like F (glyph t ' ') (.empty k) :=
  ⟨h, .inl ⟨rfl, .inl rfl⟩⟩

theorem like_glyph {F : Format} {t : Tint} {f k : BitVec 8} (ch : Char) (hf : f = colorOr F.fg t.1) (h : k = colorOr F.bg t.2) :
    Like F (glyph t ch) ⟨some (shownChar ch), f, k⟩ := by
  refine ⟨h, ?_⟩
  by_cases hc : shownChar ch = ' '
  · exact .inl ⟨hc, .inr (by rw [hc])⟩
  · refine .inr ⟨rfl, ?_⟩
    show f = colorOr F.fg (if shownChar ch = ' ' then none else t.1)
    rw [if_neg hc]; exact hf

/-- A glyph that looks like a cell. -/
def glyphOf (t : Tile) : Glyph :=
  match t.char with
  | none => ⟨' ', none, some t.bg.toNat⟩
  | some ch => ⟨ch, some t.fg.toNat, some t.bg.toNat⟩

theorem like_of (F : Format) (t : Tile) : Like F (glyphOf t) t := by
  have e : ∀ d k : BitVec 8, k = colorOr d (some k.toNat) := fun d k => by
    show k = BitVec.ofNat 8 k.toNat
    simp
  unfold glyphOf Like
  cases h : t.char with
  | none => exact ⟨e _ _, .inl ⟨rfl, .inl rfl⟩⟩
  | some ch => exact ⟨e _ _, .inr ⟨rfl, e _ _⟩⟩

/-- A picture that looks like a sheet. -/
def pictureOf (s : Sheet) : Picture := ⟨fun r c => glyphOf (s.tile r c), s.x, s.y, s.cursor.isSome⟩

theorem alike_of (F : Format) (s : Sheet) : Alike F (pictureOf s) s := ⟨rfl, rfl, fun _ _ _ _ => like_of F _, rfl⟩

/-- A console that looks like a terminal. -/
def consoleOf (t : Terminal) : Console := ⟨pictureOf t.back, (t.fg.map BitVec.toNat, t.bg.map BitVec.toNat), pictureOf t.front⟩

theorem twin_of (F : Format) {t : Terminal} (h : t.sync = false) : Twin F (consoleOf t) t := by
  refine ⟨h, ?_, ?_, alike_of F _, alike_of F _⟩
  · show t.fg = (t.fg.map BitVec.toNat).map (BitVec.ofNat 8)
    cases t.fg with
    | none => rfl
    | some k => simp
  · show t.bg = (t.bg.map BitVec.toNat).map (BitVec.ofNat 8)
    cases t.bg with
    | none => rfl
    | some k => simp

theorem newLine_vis {F : Format} {k : BitVec 8} (s : Sheet) : (s.newLine F k).cursor = s.cursor := by
  unfold Sheet.newLine; split <;> rfl

variable {F : Format} {s : Console} {t : Terminal}

theorem Twin.ink (h : Twin F s t) : t.ink F = colorOr F.fg s.tint.1 := by
  unfold Terminal.ink colorOr; rw [h.fg]

theorem Twin.paper (h : Twin F s t) : t.paper F = colorOr F.bg s.tint.2 := by
  unfold Terminal.paper colorOr; rw [h.bg]

/-- A new picture. -/
theorem Twin.make (h : Twin F s t) {p : Picture} {sh : Sheet} (ha : Alike F p sh) : Twin F { s with back := p } (t.make F sh) := by
  refine ⟨h.sync, h.fg, h.bg, ⟨ha.x, ha.y, ha.cells, ?_⟩, h.front⟩
  show (sh.cursor.map _).isSome = _
  rw [Option.isSome_map]; exact ha.cursor

/-- A text that fits. -/
theorem Twin.put (h : Twin F s t) {text : Str} (hx : s.back.x + text.length ≤ F.cols) :
    Alike F ⟨s.back.put s.tint text, s.back.x + text.length, s.back.y, s.back.visible⟩ (text.foldl (Sheet.type F (t.ink F) (t.paper F)) t.back) := by
  rw [type_fit text (by rw [h.back.x]; exact hx)]
  refine ⟨by show t.back.x + _ = _; rw [h.back.x], h.back.y, fun r hr c hc => ?_, h.back.cursor⟩
  show Like F (s.back.put s.tint text r c) (if r = t.back.y ∧ t.back.x ≤ c ∧ c < t.back.x + text.length then _ else _)
  rw [h.back.x, h.back.y]
  unfold Picture.put
  split
  next hin =>
    have hl : c - s.back.x < text.length := by omega
    rw [List.getElem?_map, List.getElem?_eq_getElem hl]
    have : text.getD (c - s.back.x) ' ' = text[c - s.back.x] := by simp [List.getD, List.getElem?_eq_getElem hl]
    rw [this]
    exact like_glyph _ h.ink h.paper
  next hin => exact h.back.cells r hr c hc

/-- The terminal does what is expected of a console, and nothing is asked of it that it cannot do. -/
theorem twin_step (hF : 1 ≤ F.cols) (h : Twin F s t) (hin : t.back.cursor.isSome → t.back.x < F.cols) {o : EdOp} (ho : s.Allows true F.cols F.rows o) :
    t.Handles F (textOp o) ∧ ∃ s', s.Does F.cols F.rows o s' ∧ Twin F s' (t.perform F (textOp o)) := by
  have hperf : ∀ op, (∀ on, op ≠ .setSync on) → (t.act F op).sync = t.sync → t.perform F op = t.act F op := by
    intro op _ e
    unfold Terminal.perform
    simp only
    rw [if_neg (by rw [e, h.sync]; decide)]
  have hv := h.back.cursor
  have hmake : ∀ sh : Sheet, ((t.make F sh).back.cursor.isSome → (t.make F sh).back.x < F.cols) ↔ (sh.cursor.isSome → sh.x < F.cols) := by
    intro sh
    show ((sh.cursor.map _).isSome → _) ↔ _
    rw [Option.isSome_map]; rfl
  cases o with
  | hideCursor =>
    refine ⟨⟨trivial, fun e => by cases e⟩, _, rfl, ?_⟩
    rw [hperf _ (by intro _ e; cases e) rfl]
    exact ⟨h.sync, h.fg, h.bg, ⟨h.back.x, h.back.y, h.back.cells, rfl⟩, h.front⟩
  | showCursor =>
    obtain ⟨o1, o2⟩ := ho rfl
    have hact : t.act F .showCursor = { t with back := { t.back with cursor := some (t.ink F) } } := by
      show (if t.back.cursor.isSome then _ else _) = _
      rw [hv, o1]; rfl
    refine ⟨⟨trivial, fun _ => ?_⟩, _, rfl, ?_⟩
    · show (t.act F .showCursor).back.x < F.cols
      rw [hact]
      show t.back.x < _
      rw [h.back.x]; exact o2
    · rw [textOp, hperf _ (by intro _ e; cases e) (by rw [hact]), hact]
      exact ⟨h.sync, h.fg, h.bg, ⟨h.back.x, h.back.y, h.back.cells, rfl⟩, h.front⟩
  | setColor k =>
    rw [textOp, hperf _ (by intro _ e; cases e) rfl]
    exact ⟨⟨trivial, hin⟩, _, rfl, ⟨h.sync, rfl, rfl, h.back, h.front⟩⟩
  | clear how =>
    rw [textOp, hperf _ (by intro _ e; cases e) rfl]
    cases how with
    | all =>
      exact ⟨⟨trivial, (hmake _).2 fun _ => hF⟩, _, rfl, h.make ⟨rfl, rfl, fun _ _ _ _ => like_blank h.paper, hv⟩⟩
    | currentLine =>
      refine ⟨⟨trivial, (hmake _).2 fun _ => hF⟩, { s with back := ⟨fun r c => if r = s.back.y then glyph s.tint ' ' else s.back.cell r c, 0, s.back.y, s.back.visible⟩ },
        ⟨rfl, rfl, rfl, rfl, rfl, .inr rfl⟩, h.make ⟨rfl, h.back.y, fun r hr c hc => ?_, hv⟩⟩
      show Like F (if r = s.back.y then _ else _) (if r = t.back.y then _ else _)
      rw [h.back.y]
      split
      · exact like_blank h.paper
      · exact h.back.cells r hr c hc
    | untilNewLine =>
      have hx := ho rfl
      have hx' : t.back.x < F.cols := by rw [h.back.x]; exact hx
      refine ⟨⟨hx', (hmake _).2 fun _ => hx'⟩, _, rfl, h.make ⟨h.back.x, h.back.y, fun r hr c hc => ?_, hv⟩⟩
      show Like F (if r = s.back.y ∧ s.back.x ≤ c then _ else _) (if r = t.back.y ∧ t.back.x ≤ c then _ else _)
      rw [h.back.y, h.back.x]
      split
      · exact like_blank h.paper
      · exact h.back.cells r hr c hc
    | previousChar =>
      by_cases hx : 0 < s.back.x
      · have hx' : 0 < t.back.x := by rw [h.back.x]; exact hx
        have he : t.back.erase (t.paper F) .previousChar =
            { t.back with tile := fun r c => if r = t.back.y ∧ c = t.back.x - 1 then .empty (t.paper F) else t.back.tile r c, x := t.back.x - 1 } := if_pos hx'
        refine ⟨⟨fun _ => hx', ?_⟩, { s with back := ⟨fun r c => if r = s.back.y ∧ c = s.back.x - 1 then glyph s.tint ' ' else s.back.cell r c, s.back.x - 1, s.back.y, s.back.visible⟩ },
          ⟨rfl, rfl, rfl, rfl, rfl, fun r c hrc => if_neg (by omega), fun _ => if_pos ⟨rfl, rfl⟩⟩, ?_⟩
        · show (t.make F (t.back.erase (t.paper F) .previousChar)).back.cursor.isSome → (t.make F (t.back.erase (t.paper F) .previousChar)).back.x < F.cols
          rw [hmake, he]
          intro e
          have := hin e
          show t.back.x - 1 < F.cols
          omega
        · show Twin F _ (t.make F (t.back.erase (t.paper F) .previousChar))
          rw [he]
          refine h.make ⟨by show t.back.x - 1 = _; rw [h.back.x], h.back.y, fun r hr c hc => ?_, hv⟩
          show Like F (if r = s.back.y ∧ c = s.back.x - 1 then _ else _) (if r = t.back.y ∧ c = t.back.x - 1 then _ else _)
          rw [h.back.y, h.back.x]
          split
          · exact like_blank h.paper
          · exact h.back.cells r hr c hc
      · have he : t.back.erase (t.paper F) .previousChar = t.back := if_neg (by rw [h.back.x]; exact hx)
        refine ⟨⟨fun e => absurd (ho rfl (hv.symm.trans e)) hx, ?_⟩, s, ⟨rfl, rfl, rfl, rfl, by omega, fun _ _ _ => rfl, fun e => absurd e hx⟩, ?_⟩
        · show (t.make F (t.back.erase (t.paper F) .previousChar)).back.cursor.isSome → (t.make F (t.back.erase (t.paper F) .previousChar)).back.x < F.cols
          rw [hmake, he]
          exact hin
        · show Twin F _ (t.make F (t.back.erase (t.paper F) .previousChar))
          rw [he]
          exact h.make h.back
  | locate x y =>
    refine ⟨⟨ho, fun _ => ho.1⟩, _, rfl, ?_⟩
    rw [hperf _ (by intro _ e; cases e) rfl]
    exact h.make ⟨rfl, rfl, h.back.cells, hv⟩
  | write text =>
    rw [textOp, hperf _ (by intro _ e; cases e) rfl]
    refine ⟨⟨trivial, (hmake _).2 fun e => ?_⟩, ?_⟩
    · rw [types_cursor, hv] at e
      have := ho rfl e
      rw [type_fit text (by rw [h.back.x]; omega)]
      show t.back.x + _ < _
      rw [h.back.x]; exact this
    · by_cases hx : s.back.x + text.length ≤ F.cols
      · exact ⟨{ s with back := ⟨s.back.put s.tint text, s.back.x + text.length, s.back.y, s.back.visible⟩ }, ⟨rfl, rfl, rfl, fun _ => ⟨rfl, rfl, rfl⟩⟩, h.make (h.put hx)⟩
      · refine ⟨{ s with back := pictureOf (text.foldl (Sheet.type F (t.ink F) (t.paper F)) t.back) }, ⟨rfl, rfl, ?_, fun e => absurd e hx⟩, h.make (alike_of F _)⟩
        show (Sheet.cursor _).isSome = _
        rw [types_cursor]; exact hv
  | print text =>
    rw [textOp, hperf _ (by intro _ e; cases e) rfl]
    refine ⟨⟨trivial, (hmake _).2 fun e => ?_⟩, ?_⟩
    · show (Sheet.newLine F _ _).x < F.cols
      unfold Sheet.newLine
      split <;> exact hF
    · by_cases hx : s.back.x + text.length ≤ F.cols ∧ s.back.y + 1 < F.rows
      · refine ⟨{ s with back := ⟨s.back.put s.tint text, 0, s.back.y + 1, s.back.visible⟩ }, ⟨rfl, rfl, rfl, fun _ _ => ⟨rfl, rfl, rfl⟩⟩, h.make ?_⟩
        have hp := h.put hx.1
        unfold Sheet.newLine
        rw [if_pos (by rw [hp.y]; exact hx.2)]
        exact ⟨rfl, by show _ + 1 = _; rw [hp.y], hp.cells, hp.cursor⟩
      · refine ⟨{ s with back := pictureOf ((text.foldl (Sheet.type F (t.ink F) (t.paper F)) t.back).newLine F (t.paper F)) },
          ⟨rfl, rfl, ?_, fun e e' => absurd ⟨e, e'⟩ hx⟩, h.make (alike_of F _)⟩
        show (Sheet.cursor _).isSome = _
        rw [newLine_vis, types_cursor]; exact hv
  | syncNow =>
    rw [textOp, hperf _ (by intro _ e; cases e) rfl]
    exact ⟨⟨trivial, hin⟩, _, rfl, ⟨h.sync, h.fg, h.bg, h.back, h.back⟩⟩

theorem perform_back (t : Terminal) (op : TextOp) : (t.perform F op).back = (t.act F op).back := by
  unfold Terminal.perform
  simp only
  split <;> rfl

/-- The cursor is not shown behind the last column. -/
theorem handles_inside : ∀ {ops : List TextOp} {t : Terminal}, (t.back.cursor.isSome → t.back.x < F.cols) → t.HandlesAll F ops →
    (ops.foldl (Terminal.perform F) t).back.cursor.isSome → (ops.foldl (Terminal.perform F) t).back.x < F.cols
  | [], _, h, _ => h
  | op :: ops, t, _, ho => handles_inside (ops := ops) (t := t.perform F op) (by rw [perform_back]; exact ho.1.2) ho.2

theorem handles_append : ∀ {a b : List TextOp} {t : Terminal}, t.HandlesAll F a → (a.foldl (Terminal.perform F) t).HandlesAll F b → t.HandlesAll F (a ++ b)
  | [], _, _, _, h => h
  | _ :: _, _, _, h, h' => ⟨h.1, handles_append h.2 h'⟩

/-- All operations of the editor. -/
theorem twin_run (hF : 1 ≤ F.cols) {P : Console → Prop} : ∀ {ops : List EdOp} {s : Console} {t : Terminal}, Twin F s t →
    (t.back.cursor.isSome → t.back.x < F.cols) → Console.After true F.cols F.rows P ops s →
    t.HandlesAll F (ops.map textOp) ∧ ∃ s', P s' ∧ Twin F s' ((ops.map textOp).foldl (Terminal.perform F) t)
  | [], s, _, h, _, ha => ⟨trivial, s, ha, h⟩
  | o :: ops, s, t, h, hin, ha => by
    obtain ⟨h1, s1, h2, h3⟩ := twin_step hF h hin ha.1
    obtain ⟨h4, s2, h5, h6⟩ := twin_run hF h3 (by rw [perform_back]; exact h1.2) (ha.2 s1 h2)
    exact ⟨⟨h1, h4⟩, s2, h5, h6⟩

end EB.Tele
