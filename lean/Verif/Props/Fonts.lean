import Verif.Spec.Fonts
import Verif.Props.EditorLcd
import Mathlib.Data.List.GetD
/-!
# C76: text can be read from an LCD
-/

namespace EB

open Spec

theorem flatten_get {α : Type} (d : α) (n : Nat) (gs : List (List α)) (hn : ∀ g ∈ gs, g.length = n) (k r : Nat) (hr : r < n) :
    gs.flatten.getD (k * n + r) d = (gs.getD k []).getD r d := by
  induction gs generalizing k with
  | nil => simp
  | cons g gs ih =>
    have hg := hn g (by simp)
    cases k with
    | zero =>
      simp only [List.flatten_cons, Nat.zero_mul, Nat.zero_add, List.getD_cons_zero]
      rw [List.getD_append _ _ _ _ (by omega)]
    | succ k =>
      have e : (k + 1) * n + r = n + (k * n + r) := by rw [Nat.succ_mul]; omega
      rw [e, List.flatten_cons, List.getD_append_right _ _ _ _ (by omega), hg, Nat.add_sub_cancel_left, List.getD_cons_succ]
      exact ih (fun g' h => hn g' (by simp [h])) k

/-- A font of glyphs that are all different and have no bits out of their pixels. -/
structure Legible (font : Font) (gs : List (List Nat)) : Prop where
  data : font.data = gs.flatten.map (BitVec.ofNat 8)
  count : gs.length = 95
  size : ∀ g ∈ gs, g.length = font.height * font.stride ∧ ∀ x ∈ g, x < 256
  distinct : gs.Nodup
  shape : (font.stride = 1 ∧ font.width ≤ 8 ∧ ∀ g ∈ gs, ∀ x ∈ g, x % 2 ^ (8 - font.width) = 0) ∨ font.width = 8 * font.stride
  blank : ∀ x ∈ gs.getD 0 [], x = 0
  hollow : ∀ g ∈ gs, ∃ j < font.height, g.getD (j * font.stride) 0 < 128
  area : 0 < font.width ∧ 0 < font.stride

theorem Legible.byte {font : Font} {gs : List (List Nat)} (h : Legible font gs) (k r : Nat) (hr : r < font.height * font.stride) :
    font.data.getD (k * (font.height * font.stride) + r) 0 = BitVec.ofNat 8 ((gs.getD k []).getD r 0) := by
  rw [h.data, show (0 : Byte) = BitVec.ofNat 8 0 from rfl, List.getD_map, flatten_get 0 _ gs (fun g hg => (h.size g hg).1) k r hr]

theorem Legible.good {font : Font} {gs : List (List Nat)} (h : Legible font gs) : GoodFont font := by
  refine ⟨?_, ?_⟩
  · rw [h.data, List.length_map, List.length_flatten]
    have : gs.map List.length = List.replicate gs.length (font.height * font.stride) := by
      rw [List.eq_replicate_iff]
      refine ⟨by simp, fun n hn => ?_⟩
      obtain ⟨g, hg, rfl⟩ := List.mem_map.1 hn
      exact (h.size g hg).1
    rw [this, List.sum_replicate_nat, h.count]
  · rcases h.shape with h1 | h1
    · exact .inl ⟨h1.1, h1.2.1⟩
    · exact .inr h1

/-- Different glyphs have a different dot. -/
theorem Legible.dots {font : Font} {gs : List (List Nat)} (h : Legible font gs) {a b : Char} (ha : 32 ≤ a.toNat ∧ a.toNat ≤ 126)
    (hb : 32 ≤ b.toNat ∧ b.toNat ≤ 126) (hne : a ≠ b) : ∃ i < font.width, ∃ j < font.height, dot font a i j ≠ dot font b i j := by
  have hk : a.toNat - 32 ≠ b.toNat - 32 := by
    intro e
    exact hne (Char.toNat_inj.1 (by omega))
  obtain ⟨k, hkd⟩ : ∃ k, k = a.toNat - 32 := ⟨_, rfl⟩
  obtain ⟨l, hld⟩ : ∃ l, l = b.toNat - 32 := ⟨_, rfl⟩
  rw [← hkd, ← hld] at hk
  have hk1 : k < gs.length := by rw [h.count]; omega
  have hl1 : l < gs.length := by rw [h.count]; omega
  have hg : gs[k] ≠ gs[l] := fun e => hk ((List.Nodup.getElem_inj_iff h.distinct).1 e)
  have hsk := h.size _ (List.getElem_mem hk1)
  have hsl := h.size _ (List.getElem_mem hl1)
  obtain ⟨r, hr, hx⟩ : ∃ r, r < font.height * font.stride ∧ gs[k].getD r 0 ≠ gs[l].getD r 0 := by
    by_contra hcon
    push Not at hcon
    refine hg (List.ext_getElem (by rw [hsk.1, hsl.1]) fun n h1 h2 => ?_)
    have := hcon n (by rw [← hsk.1]; exact h1)
    rwa [List.getD_eq_getElem _ _ h1, List.getD_eq_getElem _ _ h2] at this
  have hrk : r < gs[k].length := by rw [hsk.1]; exact hr
  have hrl : r < gs[l].length := by rw [hsl.1]; exact hr
  rw [List.getD_eq_getElem _ _ hrk, List.getD_eq_getElem _ _ hrl] at hx
  have hxk := hsk.2 _ (List.getElem_mem hrk)
  have hxl := hsl.2 _ (List.getElem_mem hrl)
  obtain ⟨t, ht, hbit⟩ : ∃ t, t < 8 ∧ (BitVec.ofNat 8 gs[k][r]).getLsbD t ≠ (BitVec.ofNat 8 gs[l][r]).getLsbD t := by
    by_contra hcon
    push Not at hcon
    have := congrArg BitVec.toNat (BitVec.eq_of_getLsbD_eq hcon)
    rw [BitVec.toNat_ofNat, BitVec.toNat_ofNat, Nat.mod_eq_of_lt hxk, Nat.mod_eq_of_lt hxl] at this
    exact hx this
  have hst : 0 < font.stride := by
    rcases Nat.eq_zero_or_pos font.stride with h0 | h0
    · rw [h0, Nat.mul_zero] at hr; omega
    · exact h0
  have hmod := Nat.mod_lt r hst
  have hdiv := Nat.div_add_mod r font.stride
  have hiw : (r % font.stride) * 8 + (7 - t) < font.width := by
    rcases h.shape with ⟨h1, h2, h3⟩ | h1
    · rw [h1, Nat.mod_one, Nat.zero_mul, Nat.zero_add]
      by_contra hcon
      have hlow : ∀ x : Nat, x % 2 ^ (8 - font.width) = 0 → (BitVec.ofNat 8 x).getLsbD t = false := by
        intro x hx
        rw [BitVec.getLsbD_ofNat]
        have : x.testBit t = (x % 2 ^ (8 - font.width)).testBit t := by
          rw [Nat.testBit_mod_two_pow]
          simp [show t < 8 - font.width by omega]
        rw [this, hx]; simp
      rw [hlow _ (h3 _ (List.getElem_mem hk1) _ (List.getElem_mem hrk)), hlow _ (h3 _ (List.getElem_mem hl1) _ (List.getElem_mem hrl))] at hbit
      exact hbit rfl
    · rw [h1]; omega
  refine ⟨(r % font.stride) * 8 + (7 - t), hiw, r / font.stride, Nat.div_lt_of_lt_mul (by rw [Nat.mul_comm]; exact hr), ?_⟩
  have hj : r / font.stride < font.height := Nat.div_lt_of_lt_mul (by rw [Nat.mul_comm]; exact hr)
  have e1 : ((r % font.stride) * 8 + (7 - t)) / 8 = r % font.stride := by omega
  have e2 : 7 - ((r % font.stride) * 8 + (7 - t)) % 8 = t := by omega
  have e3 : ∀ m : Nat, (m * font.height + r / font.stride) * font.stride + r % font.stride = m * (font.height * font.stride) + r := by
    intro m
    rw [Nat.add_mul, Nat.mul_assoc, Nat.add_assoc, Nat.mul_comm (r / font.stride), hdiv]
  unfold dot
  simp only [if_pos ha, if_pos hb, ← hkd, ← hld, decide_eq_true hiw, decide_eq_true hj, Bool.true_and, e1, e2, e3]
  rw [h.byte k r hr, h.byte l r hr, List.getD_eq_getElem _ _ hk1, List.getD_eq_getElem _ _ hl1, List.getD_eq_getElem _ _ hrk,
    List.getD_eq_getElem _ _ hrl]
  exact hbit

theorem Legible.dot_blank {font : Font} {gs : List (List Nat)} (h : Legible font gs) (i j : Nat) : dot font ' ' i j = false := by
  unfold dot
  by_cases hi : i < font.width
  · by_cases hj : j < font.height
    · have hs : i / 8 < font.stride := by
        rcases h.shape with ⟨h1, h2, -⟩ | h1 <;> omega
      have hr : j * font.stride + i / 8 < font.height * font.stride := by
        have := Nat.mul_le_mul_right font.stride (show j + 1 ≤ font.height by omega)
        rw [Nat.succ_mul] at this
        omega
      have e : ((' ' : Char).toNat - 32) * font.height + j = j := by
        rw [show (' ' : Char).toNat - 32 = 0 from rfl]; omega
      have hb := h.byte 0 _ hr
      rw [Nat.zero_mul, Nat.zero_add] at hb
      have hz : (gs.getD 0 []).getD (j * font.stride + i / 8) 0 = 0 := by
        by_cases hl : j * font.stride + i / 8 < (gs.getD 0 []).length
        · rw [List.getD_eq_getElem _ _ hl]
          exact h.blank _ (List.getElem_mem hl)
        · rw [List.getD_eq_default _ _ (by omega)]
      rw [hz] at hb
      simp only [if_pos (show 32 ≤ (' ' : Char).toNat ∧ (' ' : Char).toNat ≤ 126 by decide), e, hb]
      simp
    · rw [decide_eq_false hj, Bool.and_false, Bool.false_and]
  · rw [decide_eq_false hi, Bool.false_and, Bool.false_and]

/-- No character is a block. -/
theorem Legible.dot_off {font : Font} {gs : List (List Nat)} (h : Legible font gs) {a : Char} (ha : 32 ≤ a.toNat ∧ a.toNat ≤ 126) :
    ∃ j < font.height, dot font a 0 j = false := by
  have hk : a.toNat - 32 < gs.length := by rw [h.count]; omega
  obtain ⟨j, hj, hx⟩ := h.hollow _ (List.getElem_mem hk)
  refine ⟨j, hj, ?_⟩
  have hr : j * font.stride < font.height * font.stride := Nat.mul_lt_mul_of_pos_right hj h.area.2
  have hb := h.byte (a.toNat - 32) _ hr
  unfold dot
  have e : ((a.toNat - 32) * font.height + j) * font.stride + 0 / 8 = (a.toNat - 32) * (font.height * font.stride) + j * font.stride := by
    rw [Nat.add_mul, Nat.mul_assoc]; omega
  simp only [if_pos ha, e, hb, List.getD_eq_getElem _ _ hk]
  rw [BitVec.getLsbD_ofNat, Nat.testBit_lt_two_pow (by simpa using hx)]
  simp

theorem font5x8_legible : Legible font5x8 font5x8Glyphs :=
  ⟨rfl, by decide +kernel, by decide +kernel, by decide +kernel, .inl ⟨rfl, by decide +kernel, by decide +kernel⟩, by decide +kernel,
    by decide +kernel, by decide +kernel⟩

theorem font16x16_legible : Legible font16x16 font16x16Glyphs :=
  ⟨rfl, by decide +kernel, by decide +kernel, by decide +kernel, .inr rfl, by decide +kernel, by decide +kernel, by decide +kernel⟩

theorem fontVga8x16_legible : Legible fontVga8x16 fontVga8x16Glyphs :=
  ⟨rfl, by decide +kernel, by decide +kernel, by decide +kernel, .inr rfl, by decide +kernel, by decide +kernel, by decide +kernel⟩

theorem all_legible {f : Str × Font} (hf : f ∈ allFonts) : ∃ gs, Legible f.2 gs := by
  rcases List.mem_cons.1 hf with rfl | hf
  · exact ⟨_, font5x8_legible⟩
  · rcases List.mem_cons.1 hf with rfl | hf
    · exact ⟨_, font16x16_legible⟩
    · rw [List.mem_singleton] at hf
      subst hf
      exact ⟨_, fontVga8x16_legible⟩

/-- A character has the dots of what it looks like. -/
theorem dot_look (font : Font) (ch : Char) (i j : Nat) : dot font (shownChar ch) i j = dot font (look ch) i j := by
  unfold look
  generalize shownChar ch = c
  simp only
  split
  · rfl
  · rename_i hc
    unfold dot
    simp only [if_neg hc]
    rfl

theorem look_printable (ch : Char) : 32 ≤ (look ch).toNat ∧ (look ch).toNat ≤ 126 := by
  unfold look
  simp only
  split
  · assumption
  · decide

/-- **C76.** All fonts are what C37, C72 and C73 ask for. -/
theorem C76_fonts {f : Str × Font} (hf : f ∈ allFonts) :
    GoodFont f.2 ∧ 0 < f.2.width ∧ 0 < f.2.height ∧ ∀ i j, dot f.2 ' ' i j = false := by
  obtain ⟨gs, h⟩ := all_legible hf
  obtain ⟨j, hj, -⟩ := h.dot_off (a := ' ') (by decide)
  exact ⟨h.good, h.area.1, by omega, h.dot_blank⟩

/-- **C76.** Characters that look different have different pixels, in each of the fonts and in any two colors that are different
on the LCD. -/
theorem C76_characters {f : Str × Font} (hf : f ∈ allFonts) {encode : RGB → List Byte} {fg bg : BitVec 8}
    (hc : inkOf encode fg ≠ inkOf encode bg) (a b : Char)
    (h : ∀ i < f.2.width, ∀ j < f.2.height, charPixel f.2 encode a fg bg i j = charPixel f.2 encode b fg bg i j) : look a = look b := by
  obtain ⟨gs, hl⟩ := all_legible hf
  by_contra hne
  obtain ⟨i, hi, j, hj, hd⟩ := hl.dots (look_printable a) (look_printable b) hne
  have := h i hi j hj
  unfold charPixel at this
  rw [dot_look, dot_look] at this
  cases h1 : dot f.2 (look a) i j <;> cases h2 : dot f.2 (look b) i j <;> rw [h1, h2] at this hd <;> simp at this hd
  · exact hc this.symm
  · exact hc this

/-- **C76.** What can be seen of a program in the editor, and where the cursor is, can be read from the pixels of an LCD. -/
theorem C76_editor {f : Str × Font} (hf : f ∈ allFonts) {encode : RGB → List Byte} {F : Format}
    (hc : inkOf encode 7 ≠ inkOf encode F.bg) {pixel : LXY → List Byte} {b b' : Buffer} {top left top' left' : Nat}
    (h : b.OnLcd F f.2 encode top left pixel) (h' : b'.OnLcd F f.2 encode top' left' pixel) :
    b.doc.row - top = b'.doc.row - top' ∧ b.doc.col - left = b'.doc.col - left' ∧
    ∀ y < F.rows - 1, ∀ x < F.cols, (y ≠ b.doc.row - top ∨ x ≠ b.doc.col - left) →
      look (charAt b.doc.text (top + y) (left + x)) = look (charAt b'.doc.text (top' + y) (left' + x)) := by
  obtain ⟨gs, hl⟩ := all_legible hf
  have hr := h.rows
  have hco := h.cols
  have hr' := h'.rows
  have hco' := h'.cols
  have hpos : b.doc.row - top = b'.doc.row - top' ∧ b.doc.col - left = b'.doc.col - left' := by
    by_contra hn
    obtain ⟨j, hj, hd⟩ := hl.dot_off (look_printable (charAt b.doc.text (top + (b'.doc.row - top')) (left + (b'.doc.col - left'))))
    have h1 := h'.cursor 0 hl.area.1 j hj
    have h2 := h.text (b'.doc.row - top') (by omega) (b'.doc.col - left') (by omega) (by omega) 0 hl.area.1 j hj
    rw [h1] at h2
    unfold charPixel at h2
    rw [dot_look, hd] at h2
    exact hc (by simpa using h2)
  refine ⟨hpos.1, hpos.2, fun y hy x hx hne => ?_⟩
  refine C76_characters hf hc _ _ fun i hi j hj => ?_
  rw [← h.text y hy x hx (by omega) i hi j hj, ← h'.text y hy x hx (by omega) i hi j hj]

/-- **C76.** The names of the fonts. -/
theorem C76_names (name : Str) :
    (∀ font, fontByName name = .ok font ↔ (name, font) ∈ allFonts) ∧
    ((∀ f ∈ allFonts, f.1 ≠ name) → ∃ e, fontByName name = .error e) := by
  have hn : ∀ (s : Str) (font : Font), fontByName name = .ok font ↔ (name, font) ∈ allFonts := by
    intro _ font
    unfold fontByName allFonts
    by_cases h1 : "5x8".toList = name
    · subst h1
      simp
      exact eq_comm
    · by_cases h2 : "16x16".toList = name
      · subst h2
        simp
        exact eq_comm
      · by_cases h3 : "vga8x16".toList = name
        · subst h3
          simp
          exact eq_comm
        · simp_all [eq_comm]
  refine ⟨hn [], fun h => ?_⟩
  unfold fontByName
  rw [List.find?_eq_none.2 (by intro f hf; simpa using h f hf)]
  exact ⟨_, rfl⟩

/-- The colors of the editor are different on an LCD with the red part of them. -/
example : inkOf Ex.red 7 ≠ inkOf Ex.red 0 := by decide +kernel

/-- Two letters that are almost the same. -/
example : look 'O' ≠ look '0' ∧ look 'é' = '?' ∧ look '\t' = ' ' ∧
    (List.range 8).map (fun j => (List.range 5).map fun i => dot font5x8 'O' i j) ≠
      (List.range 8).map (fun j => (List.range 5).map fun i => dot font5x8 '0' i j) := by decide +kernel

set_option maxRecDepth 100000 in
/-- A program in the editor, on an LCD of 128 by 128 pixels with the smallest font. -/
example : ∃ top left pixel, (Buffer.calls [.load none "ab\nc".toList, .edit 25 16 [.char 'x']]).OnLcd ⟨25, 16, 15, 0⟩ font5x8 Ex.red top left pixel := by
  have hf : ("5x8".toList, font5x8) ∈ allFonts := by simp [allFonts]
  obtain ⟨h1, h2, h3, h4⟩ := C76_fonts hf
  obtain ⟨s0, e, e', ops, ended, g1, g2, g3, g4⟩ := C73_editor_lcd_partial (width := 128) (height := 128) (stride := 1) (font := font5x8) h1 h2 h3
    (by decide +kernel) (by decide +kernel) (by decide) (by decide) (encode := Ex.red) (fun _ => rfl) h4 15 0 [255] (fun _ => [99])
    (F := ⟨25, 16, 15, 0⟩) rfl [.load none "ab\nc".toList]
    (fun c hc => by
      rw [List.mem_singleton] at hc
      subst hc
      show ∀ c ∈ _, _
      decide +kernel) [.char 'x']
    (fun c hc => by
      have : c = 'x' := by simpa using hc
      subst this
      show _ ∧ _
      decide +kernel)
    (fun p q hpq => by
      rcases p with _ | ⟨a, p⟩ <;> simp at hpq)
  obtain ⟨s, top, left, -, r⟩ := g4 Ex.alternate (by decide +kernel) (by decide +kernel)
  exact ⟨top, left, _, r⟩

end EB
