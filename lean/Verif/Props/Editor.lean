import Verif.Lemmas.EditorScreen
/-!
# Properties of the full-screen editor (C39, C40)

`Spec.Buffer` says what the keys mean; `Spec.Console` says what a console may do with the operations that it is asked
to do.  Missing from the full statements: characters that are white space but not ASCII, and consoles with less than
two rows; the counterexamples show what happens with them.
-/

namespace EB.Edit
open Spec

/-- A new editor (repl/src/editor.rs 95-110). -/
def State.new : State := ⟨none, [], false, 0, 0, 0, 0, 0⟩

/-- A call of the editor; there is no result if it panics. -/
def State.call (e : State) : Buffer.Call → Option State
  | .load name text => some (e.load name text)
  | .setName name => some (e.setName name)
  | .edit W H ks => (e.edit W H ks).map (·.1)

/-- Calls one after the other. -/
def State.calls (e : State) : List Buffer.Call → Option State
  | [] => some e
  | c :: cs => (e.call c).bind (·.calls cs)

/-! ## Loading -/

theorem normalize_line : ∀ {l : Str}, NoNl l → l ≠ [] → Buffer.normalize l = l ++ ['\n']
  | [], _, h => absurd rfl h
  | [c], h, _ => by
    have hc : c ≠ '\n' := h c (by simp)
    unfold Buffer.normalize
    split
    · next h1 => cases h1
    · next h1 => cases h1
    · next h1 => cases h1; rw [if_neg hc]; rfl
    · next h1 h2 h3 => cases h3; exact absurd rfl h2
  | c :: d :: l, h, _ => by
    have hd : d ≠ '\n' := h d (by simp)
    have ih := normalize_line (l := d :: l) (fun x hx => h x (List.mem_cons_of_mem _ hx)) (by simp)
    rw [Buffer.normalize, ih]
    · rfl
    · intro s _ h2; cases h2; exact hd rfl
    · intro h1; cases h1

theorem normalize_skip {s : Str} : ∀ {l : Str}, NoNl l →
    Buffer.normalize (l ++ '\n' :: s) = (if l.getLast? = some '\r' then l.dropLast else l) ++ '\n' :: Buffer.normalize s
  | [], _ => by
    cases s with
    | nil => rfl
    | cons d s =>
      show Buffer.normalize ('\n' :: d :: s) = '\n' :: _
      rw [Buffer.normalize]
      · intro s' h1; exact absurd h1 (by decide)
      · intro h1; cases h1
  | [c], h => by
    have hc : c ≠ '\n' := h c (by simp)
    by_cases hr : c = '\r'
    · subst hr
      show Buffer.normalize ('\r' :: '\n' :: s) = _
      rw [Buffer.normalize]; rfl
    · have ih := normalize_skip (s := s) (l := []) (by intro x hx; cases hx)
      show Buffer.normalize (c :: '\n' :: s) = _
      rw [Buffer.normalize]
      · rw [show '\n' :: s = [] ++ '\n' :: s from rfl, ih, if_neg (show ¬ [c].getLast? = some '\r' by simpa using hr)]; rfl
      · intro s' h1 _; exact hr h1
      · intro h1; cases h1
  | c :: d :: l, h => by
    have hd : d ≠ '\n' := h d (by simp)
    have ih := normalize_skip (s := s) (l := d :: l) (fun x hx => h x (List.mem_cons_of_mem _ hx))
    show Buffer.normalize (c :: d :: (l ++ '\n' :: s)) = _
    rw [Buffer.normalize]
    · rw [show d :: (l ++ '\n' :: s) = (d :: l) ++ '\n' :: s from rfl, ih]
      have : (c :: d :: l).getLast? = (d :: l).getLast? := by simp [List.getLast?_cons_cons]
      rw [this]
      split <;> rfl
    · intro s' _ h2; cases h2; exact hd rfl
    · intro h1; cases h1

theorem stripEol_line {l : Str} : stripEol (l ++ ['\n']) = if l.getLast? = some '\r' then l.dropLast else l := by
  unfold stripEol
  rw [if_pos (by simp), List.dropLast_concat]

theorem lines_flat : ∀ (s cur : Str), NoNl cur → flat ((splitInclusive cur s).map stripEol) = Buffer.normalize (cur.reverse ++ s)
  | [], cur, h => by
    unfold splitInclusive
    by_cases hc : cur = []
    · rw [if_pos hc, hc]; rfl
    · rw [if_neg hc, List.append_nil, normalize_line (fun c hx => h c (by simpa using hx)) (by simpa using hc)]
      have : stripEol cur.reverse = cur.reverse := by
        unfold stripEol
        rw [if_neg]
        intro h1
        exact h '\n' (by simpa using List.mem_of_getLast? h1) rfl
      simp [flat, this]
  | c :: s, cur, h => by
    unfold splitInclusive
    by_cases hc : c = '\n'
    · subst hc
      rw [if_pos rfl, List.map_cons, flat, List.reverse_cons, stripEol_line, lines_flat s [] (by intro x hx; cases hx),
        normalize_skip fun x hx => h x (by simpa using hx)]
      rfl
    · rw [if_neg hc, lines_flat s (c :: cur) (by intro x hx; rcases List.mem_cons.1 hx with rfl | hx; exact hc; exact h x hx)]
      simp

theorem mem_dropLast {l : Str} {c : Char} (h : c ∈ l.dropLast) : c ∈ l := List.dropLast_subset l h

theorem stripEol_mem {l : Str} {c : Char} (h : c ∈ stripEol l) : c ∈ l := by
  unfold stripEol at h
  split at h
  · split at h
    · exact mem_dropLast (mem_dropLast h)
    · exact mem_dropLast h
  · exact h

theorem lines_mem : ∀ (s cur : Str), NoNl cur → ∀ l ∈ (splitInclusive cur s).map stripEol, ∀ c ∈ l, c ≠ '\n' ∧ (c ∈ cur ∨ c ∈ s)
  | [], cur, h, l, hl, c, hc => by
    unfold splitInclusive at hl
    split at hl
    · cases hl
    · simp only [List.map_cons, List.map_nil, List.mem_singleton] at hl
      subst hl
      have := stripEol_mem hc
      rw [List.mem_reverse] at this
      exact ⟨h c this, .inl this⟩
  | d :: s, cur, h, l, hl, c, hc => by
    unfold splitInclusive at hl
    by_cases hd : d = '\n'
    · subst hd
      rw [if_pos rfl, List.map_cons] at hl
      rcases List.mem_cons.1 hl with rfl | hl
      · rw [List.reverse_cons, stripEol_line] at hc
        have : c ∈ cur := by
          split at hc
          · simpa using mem_dropLast hc
          · simpa using hc
        exact ⟨h c this, .inl this⟩
      · obtain ⟨h1, h2⟩ := lines_mem s [] (by intro x hx; cases hx) l hl c hc
        rcases h2 with h2 | h2
        · cases h2
        · exact ⟨h1, .inr (List.mem_cons_of_mem _ h2)⟩
    · rw [if_neg hd] at hl
      obtain ⟨h1, h2⟩ := lines_mem s (d :: cur) (by intro x hx; rcases List.mem_cons.1 hx with rfl | hx; exact hd; exact h x hx) l hl c hc
      refine ⟨h1, ?_⟩
      rcases h2 with h2 | h2
      · rcases List.mem_cons.1 h2 with rfl | h2
        · exact .inr List.mem_cons_self
        · exact .inl h2
      · exact .inr (List.mem_cons_of_mem _ h2)

/-- An editor that is not running. -/
def Closed (b : Buffer) (e : State) : Prop :=
  Rel b e ∨ (e.name = b.name ∧ e.dirty = b.dirty ∧ e.insertCol = b.doc.goal ∧ e.content = [] ∧ e.line = 0 ∧ e.col = 0 ∧ b.doc.before = [] ∧ b.doc.after = [])

theorem closed_opened {b : Buffer} {e : State} (h : Closed b e) : Rel b.opened { e with content := if e.content = [] then [[]] else e.content } := by
  rcases h with h | ⟨h1, h2, h3, h4, h5, h6, h7, h8⟩
  · obtain ⟨A, l, r, B, ha⟩ := h.at_
    have hb : b.opened = b := by
      unfold Buffer.opened
      rw [if_neg (by unfold Doc.text; rw [ha.after]; simp)]
    rw [hb, if_neg (by rw [ha.content]; simp)]
    exact h
  · rw [if_pos h4]
    have hb : b.opened = ⟨b.name, ⟨[], ['\n'], b.doc.goal⟩, b.dirty⟩ := by
      unfold Buffer.opened
      rw [if_pos (by unfold Doc.text; rw [h7, h8]; rfl)]
    rw [hb]
    exact ⟨h1, h2, h3, fun l hl c hc => by simp at hl; rw [hl] at hc; exact absurd hc List.not_mem_nil, [], [], [], [], rfl, h5, h6, rfl, rfl⟩

theorem closed_call {b : Buffer} {e : State} (h : Closed b e) {c : Buffer.Call} (hc : c.Fine) : ∃ e', e.call c = some e' ∧ Closed (b.call c) e' := by
  cases c with
  | load name text =>
    refine ⟨_, rfl, ?_⟩
    have hflat := lines_flat text [] (by intro x hx; cases hx)
    have hmem := lines_mem text [] (by intro x hx; cases hx)
    rw [List.reverse_nil, List.nil_append] at hflat
    cases hl : textLines text with
    | nil =>
      refine .inr ⟨rfl, rfl, rfl, hl, rfl, rfl, rfl, ?_⟩
      show Buffer.normalize text = []
      rw [← hflat, show (splitInclusive [] text).map stripEol = textLines text from rfl, hl]; rfl
    | cons x xs =>
      refine .inl ⟨rfl, rfl, rfl, ?_, [], [], x, xs, hl, rfl, rfl, rfl, ?_⟩
      · intro l hl c hcl
        obtain ⟨h1, h2⟩ := hmem l hl c hcl
        rcases h2 with h2 | h2
        · cases h2
        · rcases hc c h2 with h3 | h3
          · exact absurd h3 h1
          · exact h3
      · show Buffer.normalize text = _
        rw [← hflat, show (splitInclusive [] text).map stripEol = textLines text from rfl, hl]; rfl
  | setName name =>
    refine ⟨_, rfl, ?_⟩
    rcases h with h | ⟨h1, h2, h3, h4, h5, h6, h7, h8⟩
    · exact .inl ⟨rfl, rfl, h.goal, h.clean, h.at_⟩
    · exact .inr ⟨rfl, rfl, h3, h4, h5, h6, h7, h8⟩
  | edit W H ks =>
    obtain ⟨c1, c2, c3, c4, c5⟩ := hc
    obtain ⟨e', ops, ended, h1, h2, _⟩ := loop_ok (z := false) c1 c2 c3 c4 ks (closed_opened h) (r := .full)
      (s := ⟨⟨fun _ _ => glyph textColor ' ', 0, 0, true⟩, textColor, ⟨fun _ _ => glyph textColor ' ', 0, 0, true⟩⟩) pre_full c5 (fun hz => by cases hz)
    refine ⟨e', ?_, .inl h2⟩
    show (State.loop _ W H .full ks).map _ = _
    rw [h1]; rfl

theorem closed_calls {cs : List Buffer.Call} (hf : ∀ c ∈ cs, c.Fine) {b : Buffer} {e : State} (h : Closed b e) :
    ∃ e', e.calls cs = some e' ∧ Closed (cs.foldl Buffer.call b) e' := by
  induction cs generalizing b e with
  | nil => exact ⟨e, rfl, h⟩
  | cons c cs ih =>
    obtain ⟨e1, h1, h2⟩ := closed_call h (hf c List.mem_cons_self)
    obtain ⟨e2, h3, h4⟩ := ih (fun x hx => hf x (List.mem_cons_of_mem _ hx)) h2
    exact ⟨e2, by show (e.call c).bind _ = _; rw [h1]; exact h3, h4⟩

theorem closed_new : Closed ⟨none, ⟨[], [], 0⟩, false⟩ State.new := .inr ⟨rfl, rfl, rfl, rfl, rfl, rfl, rfl, rfl⟩

/-! ## The text -/

/-- C39 (partial: no white space out of ASCII, consoles of at least two rows): whatever is done with the editor, it
does not panic, and its text, its name, whether there are changes, and the place of the cursor are those that the keys
mean; the cursor is in a line of the text, not beyond its end. -/
theorem C39_history_partial (cs : List Buffer.Call) (hf : ∀ c ∈ cs, c.Fine) :
    ∃ e, State.new.calls cs = some e ∧ e.text = (Buffer.calls cs).doc.text ∧ e.name = (Buffer.calls cs).name ∧
      e.dirty = (Buffer.calls cs).dirty ∧ e.line = (Buffer.calls cs).doc.row ∧ e.col = (Buffer.calls cs).doc.col ∧
      (e.content = [] ∨ ∃ l, e.content[e.line]? = some l ∧ e.col ≤ l.length) := by
  obtain ⟨e, h1, h2⟩ := closed_calls hf closed_new
  refine ⟨e, h1, ?_⟩
  change Closed (Buffer.calls cs) e at h2
  rw [text_flat]
  rcases h2 with h2 | ⟨h3, h4, h5, h6, h7, h8, h9, h10⟩
  · obtain ⟨A, l, r, B, ha⟩ := h2.at_
    refine ⟨?_, h2.name, h2.dirty, (ha.row h2.clean).symm, (ha.docCol h2.clean).symm, .inr ⟨_, ha.cur, ?_⟩⟩
    · unfold Doc.text
      rw [ha.before, ha.after, ha.content, flat_append]
      simp [flat]
    · rw [ha.col, List.length_append]; omega
  · refine ⟨?_, h3, h4, ?_, ?_, .inl h6⟩
    · unfold Doc.text; rw [h6, h9, h10]; rfl
    · unfold Doc.row; rw [h9, h7]; rfl
    · unfold Doc.col Doc.left; rw [h9, h8]; rfl

/-- C39: typing a text into a new editor makes this text, and marks it as changed. -/
theorem C39_typing (t : Str) (ht : ∀ c ∈ t, Typable c) (hne : t ≠ []) (W H : Nat) (hW : 1 ≤ W ∧ W < 65536) (hH : 2 ≤ H ∧ H < 65536) :
    ∃ e, State.new.calls [.edit W H (t.map Key.char)] = some e ∧ e.text = t ++ ['\n'] ∧ e.dirty = true ∧ e.line = 0 ∧ e.col = t.length := by
  have hkeys : ∀ (t : Str) (b : Buffer), (∀ c ∈ t, Typable c) → (b.keys H (t.map Key.char)).doc.before = b.doc.before ++ t ∧
      (b.keys H (t.map Key.char)).doc.after = b.doc.after ∧ ((b.keys H (t.map Key.char)).dirty = true ↔ b.dirty = true ∨ t ≠ []) := by
    intro t
    induction t with
    | nil => intro b _; exact ⟨(List.append_nil _).symm, rfl, by simp [Buffer.keys]⟩
    | cons c t ih =>
      intro b h
      rw [List.map_cons, Buffer.keys, if_neg (by rintro (h1 | h1) <;> cases h1)]
      obtain ⟨h1, h2, h3⟩ := ih (b.press H (.char c)) fun x hx => h x (List.mem_cons_of_mem _ hx)
      refine ⟨?_, h2, ?_⟩
      · rw [h1]
        show (b.doc.before ++ [c]) ++ t = _
        simp
      · have hd : (b.press H (.char c)).dirty = true := by
          show (b.dirty || ((b.doc.before ++ [c]) ++ b.doc.after) != (b.doc.before ++ b.doc.after)) = true
          rw [Bool.or_eq_true, bne_iff_ne]
          refine .inr fun h4 => ?_
          have := congrArg List.length h4
          simp at this
        rw [h3, hd]; simp
  obtain ⟨e, h1, h2, _, h4, h5, h6, _⟩ := C39_history_partial [.edit W H (t.map Key.char)] (by
    intro c hc
    simp only [List.mem_singleton] at hc
    subst hc
    refine ⟨hW.1, hW.2, hH.1, hH.2, fun c hc => ?_⟩
    rw [List.mem_map] at hc
    obtain ⟨d, hd, hd2⟩ := hc
    injection hd2 with hd2
    rw [← hd2]
    exact ht _ hd)
  have hcalls : Buffer.calls [.edit W H (t.map Key.char)] = (⟨none, ⟨[], ['\n'], 0⟩, false⟩ : Buffer).keys H (t.map Key.char) := rfl
  obtain ⟨k1, k2, k3⟩ := hkeys t ⟨none, ⟨[], ['\n'], 0⟩, false⟩ ht
  rw [hcalls] at h2 h4 h5 h6
  have hnl : NoNl t := fun c hc => (ht c hc).1
  have k1' : (Buffer.keys ⟨none, ⟨[], ['\n'], 0⟩, false⟩ H (t.map Key.char)).doc.before = t := k1
  refine ⟨e, h1, ?_, ?_, ?_, ?_⟩
  · rw [h2]; unfold Doc.text; rw [k1', k2]
  · rw [h4, k3]; exact .inr hne
  · rw [h5]; unfold Doc.row; rw [k1', count_none hnl]
  · rw [h6]; unfold Doc.col Doc.left
    rw [k1']
    have := left_ok (A := []) (l := t) (a := []) (g := 0) hnl
    unfold Doc.left at this
    rw [show flat [] ++ t = t from rfl] at this
    rw [this]

/-- The keys that move the cursor, and those that do nothing. -/
def moves : List Key :=
  [.arrowUp, .arrowDown, .arrowLeft, .arrowRight, .home, .end, .pageUp, .pageDown, .unknown, .escape, .interrupt]

theorem place_text (r c : Nat) (s : Str) : (Doc.place r c s).1 ++ (Doc.place r c s).2 = s := by
  induction s generalizing r c with
  | nil => rfl
  | cons x xs ih =>
    rcases r with _ | r
    · rcases c with _ | c
      · rfl
      · simp only [Doc.place]
        split
        · rfl
        · simp only [List.cons_append, ih]
    · simp only [Doc.place, List.cons_append, ih]

theorem move_text (d : Doc) (H : Nat) {k : Key} (hk : k ∈ moves) : (d.press H k).text = d.text := by
  have hmv : ∀ r c, (d.moveTo r c).text = d.text := fun r c => place_text r c _
  simp only [moves, List.mem_cons, List.not_mem_nil, or_false] at hk
  rcases hk with rfl | rfl | rfl | rfl | rfl | rfl | rfl | rfl | rfl | rfl | rfl
  · exact hmv _ _
  · exact hmv _ _
  · show (if d.left = [] then d else _).text = _
    split
    · rfl
    · next h =>
      have hb : d.before ≠ [] := by intro h1; apply h; unfold Doc.left; rw [h1]; rfl
      show d.before.dropLast ++ (d.before.getLast?.toList ++ d.after) = d.before ++ d.after
      rw [List.getLast?_eq_getLast_of_ne_nil hb, ← List.append_assoc]
      exact congrArg (· ++ d.after) (List.dropLast_append_getLast hb)
  · show (if d.right = [] then d else _).text = _
    split
    · rfl
    · next h =>
      have ha : d.after ≠ [] := by intro h1; apply h; unfold Doc.right; rw [h1]; rfl
      show (d.before ++ d.after.head?.toList) ++ d.after.tail = d.before ++ d.after
      obtain ⟨x, xs, hx⟩ := List.exists_cons_of_ne_nil ha
      rw [hx]; simp
  · exact hmv _ _
  · show (d.before ++ d.after.takeWhile _) ++ d.after.dropWhile _ = d.before ++ d.after
    rw [List.append_assoc, List.takeWhile_append_dropWhile]
  · exact hmv _ _
  · exact hmv _ _
  · rfl
  · rfl
  · rfl

/-- C39 (partial, as above): moving the cursor does not change the text, nor whether it has changes. -/
theorem C39_moves_partial (cs : List Buffer.Call) (hf : ∀ c ∈ cs, c.Fine) (e : State) (he : State.new.calls cs = some e) (hne : e.text ≠ [])
    (W H : Nat) (hW : 1 ≤ W ∧ W < 65536) (hH : 2 ≤ H ∧ H < 65536) (ks : List Key) (hk : ∀ k ∈ ks, k ∈ moves) :
    ∃ e', e.call (.edit W H ks) = some e' ∧ e'.text = e.text ∧ e'.dirty = e.dirty := by
  obtain ⟨e0, h1, h2, _, h4, _⟩ := C39_history_partial cs hf
  rw [he] at h1; cases h1
  have hkeys : ∀ (ks : List Key) (b : Buffer), (∀ k ∈ ks, k ∈ moves) → (b.keys H ks).doc.text = b.doc.text ∧ (b.keys H ks).dirty = b.dirty := by
    intro ks
    induction ks with
    | nil => intro b _; exact ⟨rfl, rfl⟩
    | cons k ks ih =>
      intro b h
      rw [Buffer.keys]
      split
      · exact ⟨rfl, rfl⟩
      · obtain ⟨h1, h2⟩ := ih (b.press H k) fun x hx => h x (List.mem_cons_of_mem _ hx)
        have hm := move_text b.doc H (h k List.mem_cons_self)
        refine ⟨h1.trans hm, h2.trans ?_⟩
        show (b.dirty || (b.doc.press H k).text != b.doc.text) = b.dirty
        rw [hm]; simp
  obtain ⟨e1, g1, g2, _, g4, _⟩ := C39_history_partial (cs ++ [.edit W H ks]) (by
    intro c hc
    rcases List.mem_append.1 hc with hc | hc
    · exact hf c hc
    · simp only [List.mem_singleton] at hc
      subst hc
      refine ⟨hW.1, hW.2, hH.1, hH.2, fun c hc => ?_⟩
      have := hk _ hc
      simp [moves] at this)
  have happ : ∀ (cs : List Buffer.Call) (c : Buffer.Call) (s e : State), s.calls cs = some e → s.calls (cs ++ [c]) = e.call c := by
    intro cs c
    induction cs with
    | nil => intro s e h; cases h; show (s.call c).bind some = _; simp
    | cons d cs ih =>
      intro s e h
      change (s.call d).bind (·.calls cs) = some e at h
      show (s.call d).bind (·.calls (cs ++ [c])) = _
      cases hd : s.call d with
      | none => rw [hd] at h; cases h
      | some s1 => rw [hd] at h; exact ih s1 e h
  have hb : Buffer.calls (cs ++ [.edit W H ks]) = (Buffer.calls cs).opened.keys H ks := by
    unfold Buffer.calls; rw [List.foldl_append]; rfl
  have ho : (Buffer.calls cs).opened = Buffer.calls cs := by
    unfold Buffer.opened; rw [if_neg (by rw [← h2]; exact hne)]
  rw [hb, ho] at g2 g4
  obtain ⟨k1, k2⟩ := hkeys ks (Buffer.calls cs) hk
  exact ⟨e1, by rw [← happ cs _ _ _ he]; exact g1, by rw [g2, k1, h2], by rw [g4, k2, h4]⟩

/-- C39 (partial: only for texts without carriage returns): loading the text of an editor in any state reproduces it. -/
theorem C39_reload_partial (cs : List Buffer.Call) (hf : ∀ c ∈ cs, c.Fine) (e e2 : State) (he : State.new.calls cs = some e) (name : Option Str)
    (hr : '\r' ∉ e.text) : (e2.load name e.text).text = e.text ∧ (e2.load name e.text).dirty = false := by
  refine ⟨?_, rfl⟩
  rw [text_flat]
  show flat (textLines e.text) = _
  have hn := lines_flat e.text [] (by intro x hx; cases hx)
  rw [show textLines e.text = (splitInclusive [] e.text).map stripEol from rfl, hn, List.reverse_nil, List.nil_append]
  obtain ⟨e0, h1, h2⟩ := closed_calls hf closed_new
  rw [he] at h1; cases h1
  have hclean : ∀ l ∈ e.content, NoNl l := by
    rcases h2 with h2 | ⟨_, _, _, h6, _⟩
    · exact fun l hl => h2.clean.noNl hl
    · intro l hl; rw [h6] at hl; cases hl
  have : ∀ c : List Str, (∀ l ∈ c, NoNl l) → '\r' ∉ flat c → Buffer.normalize (flat c) = flat c := by
    intro c
    induction c with
    | nil => intro _ _; rfl
    | cons l c ih =>
      intro h1 h2
      rw [flat, normalize_skip (h1 l List.mem_cons_self)]
      have hl : ¬ l.getLast? = some '\r' := fun h3 => h2 (by rw [flat]; exact List.mem_append_left _ (List.mem_of_getLast? h3))
      rw [if_neg hl, ih (fun x hx => h1 x (List.mem_cons_of_mem _ hx)) (fun h3 => h2 (by rw [flat]; simp [h3]))]
  rw [text_flat] at hr ⊢
  exact this _ hclean hr

theorem typable_iff (c : Char) : Typable c ↔ (c ≠ '\n' && (!isWhite c || decide (c.toNat < 128))) = true := by
  unfold Typable
  simp only [Bool.and_eq_true, Bool.or_eq_true, decide_eq_true_eq, Bool.not_eq_true', bne_iff_ne, ne_eq]
  cases isWhite c <;> simp

instance (c : Char) : Decidable (Typable c) := decidable_of_iff _ (typable_iff c).symm

theorem fine_edit {W H : Nat} {ks : List Key} (h : (1 ≤ W ∧ W < 65536 ∧ 2 ≤ H ∧ H < 65536) ∧ ∀ k ∈ ks, match k with | .char c => Typable c | _ => True) :
    (Buffer.Call.edit W H ks).Fine := ⟨h.1.1, h.1.2.1, h.1.2.2.1, h.1.2.2.2, fun c hc => h.2 (.char c) hc⟩

/-- A program as it is typed: an indented line and a second one that keeps the indentation, then a deletion to the
previous multiple of four, and a save. -/
def Ex.session : List Buffer.Call :=
  [.load (some "a.bas".toList) "IF x\r\nEND IF".toList,
   .edit 20 5 [.end, .newLine, .tab, .char 'A', .char 'é', .newLine, .backspace, .char 'B', .arrowUp, .arrowUp, .delete, .escape, .char 'z'],
   .setName "b.bas".toList,
   .edit 5 2 [.pageDown, .home, .char '1', .arrowRight, .backspace]]

example : (∀ c ∈ Ex.session, c.Fine) ∧ (State.new.calls Ex.session).map (fun e => (e.text, e.name, e.dirty, e.line, e.col)) =
    some ("1 x\n    Aé\nB\nEND IF\n".toList, some "b.bas".toList, true, 0, 1) ∧
    (Buffer.calls Ex.session).doc = ⟨"1".toList, " x\n    Aé\nB\nEND IF\n".toList, 1⟩ := by
  refine ⟨?_, by decide +kernel, by decide +kernel⟩
  intro c hc
  simp only [Ex.session, List.mem_cons, List.not_mem_nil, or_false] at hc
  rcases hc with rfl | rfl | rfl | rfl
  · show ∀ c ∈ _, _
    decide +kernel
  · exact fine_edit ⟨by decide, by simp; decide +kernel⟩
  · trivial
  · exact fine_edit ⟨by decide, by simp; decide +kernel⟩

/-- C39 fails for white space that takes more than a byte: after the enter key on a line that begins with an ideographic
space the cursor is beyond the end of the line; the next character is not put where the cursor is shown. -/
theorem C39_counterexample : ∃ e, State.new.calls [.load none [Char.ofNat 0x3000, 'a'], .edit 80 25 [.end, .newLine, .char 'x']] = some e ∧
    e.content[e.line]? = some [Char.ofNat 0x3000, 'x'] ∧ e.col = 4 := by
  refine ⟨_, rfl, ?_⟩
  decide +kernel

/-- C39: loading a saved text does not give it back if it has several carriage returns before a newline. -/
theorem C39_counterexample_reload : ∃ e, State.new.calls [.load none "a\r\r\n".toList] = some e ∧ (e.load none e.text).text ≠ e.text := by
  refine ⟨_, rfl, ?_⟩
  decide +kernel

/-! ## The screen -/

/-- What the editor leaves on a console, which may be delicate if no tab key takes the cursor to a column that it does not have. -/
theorem edit_shown {z : Bool} (cs : List Buffer.Call) (hf : ∀ c ∈ cs, c.Fine) (W H : Nat) (ks : List Key) (hc : (Buffer.Call.edit W H ks).Fine)
    (hz : z = true → ∀ p q, ks = p ++ .tab :: q → (((Buffer.calls cs).opened.keys H p).press H .tab).doc.col < W) :
    ∃ e e' ops ended, State.new.calls cs = some e ∧ e.edit W H ks = some (e', ops, ended) ∧
      (ended = true ↔ Key.escape ∈ ks ∨ Key.interrupt ∈ ks) ∧ (∃ o, ops = o ++ [.showCursor, .syncNow]) ∧
      ∀ s : Console, Console.After z W H (fun s' => s'.tint = textColor ∧
        ∃ top left, (Buffer.calls (cs ++ [.edit W H ks])).Shown W H top left s'.front) ops s := by
  obtain ⟨e, h1, h2⟩ := closed_calls hf closed_new
  obtain ⟨c1, c2, c3, c4, c5⟩ := hc
  have hb : Buffer.calls (cs ++ [.edit W H ks]) = (Buffer.calls cs).opened.keys H ks := by
    unfold Buffer.calls; rw [List.foldl_append]; rfl
  have hall := fun s : Console => loop_ok c1 c2 c3 c4 ks (closed_opened h2) (z := z) (r := .full) (s := s) pre_full c5 hz
  obtain ⟨e', ops, ended, g1, g2, g3, _, g5, g6⟩ := hall ⟨⟨fun _ _ => glyph textColor ' ', 0, 0, true⟩, textColor, ⟨fun _ _ => glyph textColor ' ', 0, 0, true⟩⟩
  refine ⟨e, e', ops, ended, h1, g1, g5, g6, fun s => ?_⟩
  obtain ⟨e2, o2, d2, k1, k2, _, k4, _, _⟩ := hall s
  rw [g1] at k1; cases k1
  rw [hb]
  refine after_mono (fun s' hg => ⟨hg.tint, e'.viewLine, e'.viewCol, ?_⟩) k4
  obtain ⟨A, l, r, B, ha⟩ := k2.at_
  have hrow := ha.row k2.clean
  have hcol := ha.docCol k2.clean
  have htext : (Buffer.keys (Buffer.calls cs).opened H ks).doc.text = flat e'.content := by
    have h1 : (Buffer.keys (Buffer.calls cs).opened H ks).doc.before = _ := ha.before
    have h2 : (Buffer.keys (Buffer.calls cs).opened H ks).doc.after = _ := ha.after
    unfold Doc.text
    rw [h1, h2, ha.content, flat_append]
    simp [flat]
  change (Buffer.keys (Buffer.calls cs).opened H ks).doc.row = _ at hrow
  change (Buffer.keys (Buffer.calls cs).opened H ks).doc.col = _ at hcol
  obtain ⟨v1, v2, v3, v4⟩ := hg.view
  refine ⟨by rw [hrow]; exact ⟨v1, v2⟩, by rw [hcol]; exact ⟨v3, v4⟩, ?_, ?_, ?_⟩
  · intro y hy x hx
    rw [hg.front, hg.cells y hy x hx, htext, charAt_flat k2.clean]
    rfl
  · rw [hg.front, hrow, hcol]; exact hg.cursor
  · intro x hx
    rw [hg.front]; exact hg.status x hx

/-- C40 (partial: no white space out of ASCII, consoles of at least two rows): whatever was done with the editor, after
any keys the console shows the buffer, whatever it showed before. -/
theorem C40_screen_partial (cs : List Buffer.Call) (hf : ∀ c ∈ cs, c.Fine) (W H : Nat) (ks : List Key) (hc : (Buffer.Call.edit W H ks).Fine) :
    ∃ e e' ops ended, State.new.calls cs = some e ∧ e.edit W H ks = some (e', ops, ended) ∧
      (ended = true ↔ Key.escape ∈ ks ∨ Key.interrupt ∈ ks) ∧
      ∀ s : Console, Console.After false W H (fun s' => ∃ top left, (Buffer.calls (cs ++ [.edit W H ks])).Shown W H top left s'.front) ops s := by
  obtain ⟨e, e', ops, ended, h1, h2, h3, _, h4⟩ := edit_shown (z := false) cs hf W H ks hc (fun hz => by cases hz)
  exact ⟨e, e', ops, ended, h1, h2, h3, fun s => after_mono (fun _ h => h.2) (h4 s)⟩

/-- The hypotheses hold of an example, in which the viewport moves, and a character is written at the end of a row. -/
example : (Buffer.Call.load none "abc\ndef".toList).Fine ∧ (Buffer.Call.edit 4 2 [.pageDown, .end, .char 'x', .tab, .newLine]).Fine ∧
    ((State.new.load none "abc\ndef".toList).edit 4 2 [.pageDown, .end, .char 'x', .tab, .newLine]).map
      (fun p => (p.1.viewLine, p.1.viewCol, p.1.text)) = some (1, 0, "abcx    \n\ndef\n".toList) := by
  refine ⟨?_, fine_edit ⟨by decide, by simp; decide +kernel⟩, by decide +kernel⟩
  show ∀ c ∈ _, _
  decide +kernel

/-- C40 fails on a console with only one row: the editor panics. -/
theorem C40_counterexample : State.new.edit 80 1 [] = none := by
  decide +kernel

end EB.Edit
