import Verif.Lemmas.Readline
import Verif.Props.Library
import Mathlib.Tactic.Tauto
/-!
# C36–C38: the line editor
-/

namespace EB
open Spec

namespace Rl

/-- The result of a session is that of the specification. -/
def Result.Is (hist : Bool) : Result → Editing → Prop
  | .waiting r, .waiting e => r.line = e.text ∧ r.pos = e.before.length
  | .line h t, .line e => t = e.text ∧ h = if hist then some e.entered else none
  | .eof h, .eof e => h = if hist then some (e.above.reverse ++ e.entry :: e.below) else none
  | .interrupted h, .interrupted e => h = if hist then some (e.above.reverse ++ e.entry :: e.below) else none
  | _, _ => False

theorem stored_ok {kept : Bool} {e : Editor} {r : Rl} (rel : Rel kept e r) :
    r.history = if kept then some (e.above.reverse ++ e.entry :: e.below) else none := by
  cases h : r.history with
  | none => rw [← rel.hist, h]; rfl
  | some l => rw [← rel.hist, h, (rel.some l h).1]; rfl

theorem finish_ok {kept : Bool} {e : Editor} {r : Rl} (rel : Rel kept e r) :
    r.finish = some (if kept then some e.entered else none, e.text) := by
  unfold finish
  rw [← rel.hist]
  cases h : r.history with
  | none => simp [rel.line]
  | some l =>
    have hl := (rel.some l h).1
    simp only [rel.line, Option.isSome_some, if_true]
    split
    next ht => rw [Editor.entered, if_pos ht, List.append_nil, hl]
    next ht =>
      rw [if_neg (by rw [hl]; simp), Editor.entered, if_neg ht]
      obtain ⟨a, b, hb⟩ : ∃ a b, l = a ++ [b] :=
        ⟨l.dropLast, l.getLast (by rw [hl]; simp), (List.dropLast_append_getLast _).symm⟩
      rw [← hl, hb]
      simp

theorem run_step {e : Editor} {k : Key} {ks : List Key} (hk : k.edits = true) (heof : k = .eofOrDelete → e.text ≠ []) :
    e.run (k :: ks) = (e.press k).run ks := by
  cases k <;> first | rfl | (cases hk; done) | skip
  show (if _ then _ else _) = _
  rw [if_neg (heof rfl)]

/-- The session, key by key. -/
theorem run_ok {W p : Nat} {row0 : Nat → Char} (ks : List Key) {r : Rl} {s : Row} (hW : p + r.width < W) (ok : Ok r)
    (hs : Shows p row0 r s) {kept : Bool} {e : Editor} (rel : Rel kept e r) (hshort : e.Short ks) :
    ∃ res ops, r.run ks = some (res, ops) ∧ res.Is kept (e.run ks) ∧
      ∀ r', res = .waiting r' → ∃ s' e', e.run ks = .waiting e' ∧ s.execAll W ops = some s' ∧ Ok r' ∧ Shows p row0 r' s' ∧
        Rel kept e' r' ∧ r'.echo = r.echo ∧ r'.width = r.width := by
  induction ks generalizing r s e with
  | nil => exact ⟨_, _, rfl, ⟨rel.line, rel.pos⟩, fun r' h => by cases h; exact ⟨s, e, rfl, rfl, ok, hs, rel, rfl, rfl⟩⟩
  | cons k ks ih =>
    have h0 : e.text.length ≤ 32767 := hshort [] e List.nil_prefix rfl
    by_cases hk : k.edits = true
    · by_cases heof : k = .eofOrDelete ∧ e.text = []
      · obtain ⟨rfl, ht⟩ := heof
        refine ⟨.eof r.history, [], ?_, ?_, fun r' h => by cases h⟩
        · show (match (if r.line = [] then some Act.eof else _ : Option Act) with | none => _ | some (.go r' ops) => _ | some (.submit ops) => _ | some .eof => _ | some .interrupted => _) = _
          rw [if_pos (by rw [rel.line]; exact ht)]
        · show Result.Is _ _ (if _ then _ else _)
          rw [if_pos ht]
          exact stored_ok rel
      · have heof' : k = .eofOrDelete → e.text ≠ [] := fun h1 h2 => heof ⟨h1, h2⟩
        obtain ⟨r1, o1, s1, p1, p2, p3, p4, p5, p6, p7⟩ := press_ok hW ok hs rel h0 hk heof'
        have hsh : (e.press k).Short ks := by
          intro ks' e' hp he
          refine hshort (k :: ks') e' (List.cons_prefix_cons.2 ⟨rfl, hp⟩) ?_
          rw [run_step hk heof']; exact he
        obtain ⟨res, o2, q1, q2, q3⟩ := ih (by rw [p6]; exact hW) p2 p4 p7 hsh
        refine ⟨res, o1 ++ o2, ?_, ?_, ?_⟩
        · show (match r.press k with | none => _ | some (.go r' ops) => _ | some (.submit ops) => _ | some .eof => _ | some .interrupted => _) = _
          rw [p1]
          show (r1.run ks).map _ = _
          rw [q1]; rfl
        · rw [run_step hk heof']; exact q2
        · intro r' hr
          obtain ⟨s', e', z1, z2, z3, z4, z5, z6, z7⟩ := q3 r' hr
          exact ⟨s', e', by rw [run_step hk heof']; exact z1, execAll_trans p3 z2, z3, z4, z5, z6.trans p5, z7.trans p6⟩
    · have hend : ∀ o, r.press k = some (.submit o) → e.run (k :: ks) = .line e → ∃ res ops, r.run (k :: ks) = some (res, ops) ∧ res.Is kept (e.run (k :: ks)) ∧
          ∀ r', res = .waiting r' → ∃ s' e', e.run (k :: ks) = .waiting e' ∧ s.execAll W ops = some s' ∧ Ok r' ∧ Shows p row0 r' s' ∧
            Rel kept e' r' ∧ r'.echo = r.echo ∧ r'.width = r.width := by
        intro o h1 h2
        refine ⟨.line (if kept then some e.entered else none) e.text, o, ?_, ?_, fun r' h => by cases h⟩
        · show (match r.press k with | none => _ | some (.go r' ops) => _ | some (.submit ops) => _ | some .eof => _ | some .interrupted => _) = _
          rw [h1]
          show r.finish.map _ = _
          rw [finish_ok rel]; rfl
        · rw [h2]; exact ⟨rfl, rfl⟩
      cases k with
      | carriageReturn => exact hend _ rfl rfl
      | newLine => exact hend _ rfl rfl
      | interrupt => exact ⟨.interrupted r.history, [], rfl, stored_ok rel, fun r' h => by cases h⟩
      | _ => exact absurd rfl hk


theorem takeBytes_append (t u : Str) : takeBytes (t ++ u) (byteLen t) = some t := by
  have := takeBytes_boundary (t ++ u) t.length
  rwa [List.take_left] at this

theorem fitPrompt_ok {W : Nat} {prompt sp : Str} (h : Prompt W prompt sp) : fitPrompt W prompt = some sp ∧ byteLen sp + 1 < W := by
  unfold fitPrompt
  cases h with
  | whole h => exact ⟨if_neg (by omega), h⟩
  | @cut t u h1 h2 h3 h4 =>
    rw [if_pos h2, if_pos h1, h3, ← h4, takeBytes_append]
    refine ⟨rfl, ?_⟩
    rw [byteLen_append, h4]
    show _ + 3 + 1 < W
    omega
  | none h1 h2 h3 => exact ⟨by rw [if_pos h3, if_neg (by omega)], by show 0 + 1 < W; omega⟩

theorem new_ok {W : Nat} {prompt sp : Str} (hp : Prompt W prompt sp) (hW : W ≤ 32768) (previous : Str) (history : Option (List Str))
    (echo : Bool) {row0 : Nat → Char} (hblank : ∀ c, sp.length ≤ c → c < sp.length + (W - byteLen sp - 1) → row0 c = ' ') :
    ∃ r ops s, Rl.new W prompt previous history echo = some (r, ops) ∧ Ok r ∧ (⟨row0, 0, true⟩ : Row).execAll W ops = some s ∧
      Shows sp.length (fun c => if c < sp.length then sp.getD c ' ' else row0 c) r s ∧
      Rel history.isSome (Editor.start previous history) r ∧ r.echo = echo ∧ r.width = W - byteLen sp - 1 := by
  obtain ⟨h1, h2⟩ := fitPrompt_ok hp
  have hb := length_le_byteLen sp
  generalize hwd : W - byteLen sp - 1 = width at hblank ⊢
  have hw0 : width ≠ 0 := by omega
  obtain ⟨r0, hr0⟩ : ∃ r0 : Rl, r0 = { history := history.map (· ++ [previous]), echo, width, line := previous, pos := previous.length, viewStart := previous.length - width, rendered := [], historyPos := (history.map List.length).getD 0 } := ⟨_, rfl⟩
  have hv : r0.adjustView r0.pos r0.viewStart = r0.viewStart := by
    rw [hr0]; unfold adjustView; simp only [if_neg hw0]
    rw [if_neg (by omega), if_neg (by omega)]
  have hwin : ({ r0 with rendered := r0.window } : Rl).window = r0.window := rfl
  have hwl := window_length r0
  obtain ⟨t, ht⟩ : ∃ t, r0.window = t := ⟨_, rfl⟩
  rw [ht] at hwl hwin
  have hwl' : t.length ≤ width := by rw [hwl, hr0]; exact Nat.min_le_left _ _
  have hpos : r0.pos - r0.viewStart = t.length := by rw [hwl, hr0]; show _ = min _ _; simp only; omega
  have hok : Ok ({ r0 with rendered := t } : Rl) := by
    refine ⟨?_, ?_, ?_, ?_, ?_, hwin.symm⟩ <;> rw [hr0] <;> simp only <;> omega
  have hnew : Rl.new W prompt previous history echo = some ({ r0 with rendered := t },
      if sp ≠ [] ∨ t ≠ [] then [.write (sp ++ t), .syncNow] else []) := by
    have e1 : Rl.new W prompt previous history echo = (do
        let r ← ({ r0 with viewStart := r0.adjustView r0.pos r0.viewStart } : Rl).syncRendered
        pure (r, if sp ≠ [] ∨ r.rendered ≠ [] then [.write (sp ++ r.rendered), .syncNow] else [])) := by
      unfold Rl.new
      simp only [h1, Option.bind_eq_bind, Option.bind_some, subUsize, if_pos (show byteLen sp ≤ W by omega), hwd, if_neg hw0, hr0]
    rw [e1, hv, show ({ r0 with viewStart := r0.viewStart } : Rl) = r0 from rfl, sync_ok (by rw [hr0]; simp only; omega), ht]
    rfl
  have hrel : Rel history.isSome (Editor.start previous history) ({ r0 with rendered := t } : Rl) := by
    rw [hr0]
    refine ⟨?_, ?_, rfl, ?_, ?_⟩
    · cases history <;> rfl
    · simp [Editor.start, Editor.text]
    · cases history with
      | none => intro _; exact ⟨rfl, rfl⟩
      | some h => intro h; cases h
    · cases history with
      | none => intro _ h; cases h
      | some h => intro h' hx; cases hx; simp [Editor.start]
  have hmap : (⟨row0, 0, true⟩ : Row).execAll W (if sp ≠ [] ∨ t ≠ [] then [.write (sp ++ t), .syncNow] else []) =
      some ⟨fun c => if 0 ≤ c ∧ c < 0 + (sp ++ t).length then ((sp ++ t)[c - 0]?).getD ' ' else row0 c, 0 + (sp ++ t).length, true⟩ := by
    split
    next h =>
      show ((Row.exec W _ (.write (sp ++ t))).bind _) = _
      rw [exec_write (by simp only [List.length_append]; omega)]
      rfl
    next h =>
      have : sp = [] ∧ t = [] := by
        constructor
        · exact Classical.byContradiction fun hx => h (.inl hx)
        · exact Classical.byContradiction fun hx => h (.inr hx)
      obtain ⟨rfl, rfl⟩ := this
      show some _ = _
      simp
  refine ⟨_, _, _, hnew, hok, hmap, ⟨?_, ?_, rfl⟩, hrel, by rw [hr0], by rw [hr0]⟩
  · intro c
    have hww : ({ r0 with rendered := t } : Rl).width = width := by rw [hr0]
    rw [hww]
    simp only [Nat.zero_le, true_and, Nat.zero_add, Nat.sub_zero, List.length_append]
    by_cases hc : c < sp.length
    · rw [if_pos (by omega), if_neg (by omega), if_pos hc, List.getElem?_append_left hc]; simp [List.getD]
    · by_cases hc2 : c < sp.length + width
      · rw [if_pos (by omega : sp.length ≤ c ∧ c < sp.length + width)]
        split
        next h3 => rw [List.getElem?_append_right (by omega)]
        next h3 => rw [getD_none (by omega), hblank c (by omega) hc2]
      · rw [if_neg (by omega), if_neg (by omega), if_neg hc]
  · show 0 + (sp ++ t).length = sp.length + (r0.pos - r0.viewStart)
    rw [hpos]; simp

end Rl

open Rl

/-- A whole session: what it returns and what it shows. -/
theorem session_ok {W : Nat} {prompt sp : Str} (hp : Prompt W prompt sp) (hW : W ≤ 32768) (previous : Str)
    (history : Option (List Str)) (echo : Bool) (ks : List Key) (hshort : (Editor.start previous history).Short ks)
    {row0 : Nat → Char} (hblank : ∀ c, sp.length ≤ c → c < sp.length + (W - byteLen sp - 1) → row0 c = ' ') :
    ∃ r ops res ops', Rl.new W prompt previous history echo = some (r, ops) ∧ r.run ks = some (res, ops') ∧
      res.Is history.isSome ((Editor.start previous history).run ks) ∧
      ∀ e, (Editor.start previous history).run ks = .waiting e → ∃ s, (⟨row0, 0, true⟩ : Row).execAll W (ops ++ ops') = some s ∧
        Displays sp echo (W - byteLen sp - 1) e row0 s := by
  obtain ⟨r, ops, s, h1, h2, h3, h4, h5, h6, h7⟩ := new_ok hp hW previous history echo hblank
  have hb := length_le_byteLen sp
  have h8 := (fitPrompt_ok hp).2
  obtain ⟨res, ops', g1, g2, g3⟩ := run_ok (W := W) ks (by rw [h7]; omega) h2 h4 h5 hshort
  refine ⟨r, ops, res, ops', h1, g1, g2, fun e he => ?_⟩
  have : ∃ r', res = .waiting r' := by
    rw [he] at g2
    cases res <;> first | exact ⟨_, rfl⟩ | exact g2.elim
  obtain ⟨r', hr'⟩ := this
  obtain ⟨s', e', k1, k2, k3, k4, k5, k6, k7⟩ := g3 r' hr'
  rw [he] at k1
  cases k1
  refine ⟨s', execAll_trans h3 k2, r'.viewStart, ?_, ?_, ?_, ?_, k4.visible⟩
  · rw [← k5.pos]; exact k3.left
  · rw [← k5.pos, ← h7, ← k7]; exact k3.right
  · intro c
    have hwin : r'.rendered = ((masked echo e.text).drop r'.viewStart).take r'.width := by
      rw [k3.shown, window, vis, k6, h6, k5.line]; rfl
    have ht := k4.text c
    rw [hwin, k7, h7] at ht
    rw [ht]
    by_cases hc : c < sp.length
    · rw [if_neg (by omega), if_pos hc, if_pos hc]
    · by_cases hc2 : c < sp.length + (W - byteLen sp - 1)
      · rw [if_pos (by omega), if_neg hc, if_pos hc2]; simp [List.getD]
      · rw [if_neg (by omega), if_neg hc, if_neg hc, if_neg hc2]
  · rw [k4.col, k5.pos]

/-- **C36**, for prompts that leave room for the line.  Whatever the keys, the reader does not panic, and ends as the
specification does (`Rl.Result.Is`): it returns the text that the editing keys make, and until then the cursor is at
the place in the line where the specification has it.  What is missing: prompts that take all columns but one
(`C36_counterexample`), and lines of more than 32767 characters. -/
theorem C36_line_partial {W : Nat} {prompt sp : Str} (hp : Prompt W prompt sp) (hW : W ≤ 32768) (previous : Str)
    (history : Option (List Str)) (echo : Bool) (ks : List Key) (hshort : (Editor.start previous history).Short ks) :
    ∃ r ops res ops', Rl.new W prompt previous history echo = some (r, ops) ∧ r.run ks = some (res, ops') ∧
      res.Is history.isSome ((Editor.start previous history).run ks) := by
  obtain ⟨r, ops, res, ops', h1, h2, h3, _⟩ := session_ok hp hW previous history echo ks hshort (row0 := fun _ => ' ') (fun _ _ _ => rfl)
  exact ⟨r, ops, res, ops', h1, h2, h3⟩

/-- The prompts that `C36_line_partial` leaves out, among those in ASCII: the ones that take all columns but one. -/
theorem C36_prompts {W : Nat} {prompt : Str} (hW : 2 ≤ W) (hascii : ∀ c ∈ prompt, c.utf8Size = 1)
    (h : prompt.length + 1 ≠ W) : ∃ sp, Prompt W prompt sp := by
  have hb : ∀ t : Str, (∀ c ∈ t, c.utf8Size = 1) → byteLen t = t.length := by
    intro t ht
    induction t with
    | nil => rfl
    | cons c t ih =>
      show c.utf8Size + byteLen t = _
      rw [ih fun x hx => ht x (List.mem_cons_of_mem _ hx), ht c List.mem_cons_self, List.length_cons]; omega
  have hp := hb prompt hascii
  by_cases h1 : byteLen prompt + 1 < W
  · exact ⟨_, .whole h1⟩
  · by_cases h2 : 5 ≤ W
    · refine ⟨_, .cut (t := prompt.take (W - 5)) (u := prompt.drop (W - 5)) h2 (by omega) (List.take_append_drop _ _).symm ?_⟩
      rw [hb _ fun c hc => hascii c (List.mem_of_mem_take hc), List.length_take]
      omega
    · exact ⟨_, .none hW (by omega) (by omega)⟩

/-- **C36 fails** when the prompt takes all columns but one: going back in the history panics. -/
theorem C36_counterexample : (Rl.new 5 "1234".toList "x".toList (some ["y".toList]) true).bind
    (fun p => p.1.run [.arrowUp]) = none := by decide

theorem raw_go (ks : List Key) : ∀ (line : Str), (∀ k ∈ ks, Ending k = false) → ∀ rest,
    readLineRaw line (ks ++ rest) = readLineRaw (typed.go line.reverse ks) rest := by
  induction ks with
  | nil => intro line _ rest; simp [typed.go]
  | cons k ks ih =>
    intro line hks rest
    have hk := hks k List.mem_cons_self
    have ih' := fun line => ih line (fun k' hk' => hks k' (List.mem_cons_of_mem _ hk')) rest
    cases k <;> first | exact absurd hk (by decide) | exact ih' line | skip
    · show readLineRaw (if line ≠ [] then line.dropLast else line) (ks ++ rest) = _
      rw [show (if line ≠ [] then line.dropLast else line) = line.dropLast by
        split
        · rfl
        · next h => rw [Classical.not_not.1 h]; rfl, ih', ← List.tail_reverse]
      rfl
    · next c =>
      show readLineRaw (line ++ [c]) (ks ++ rest) = _
      rw [ih', List.reverse_append]; rfl
    · show readLineRaw (line ++ ['?']) (ks ++ rest) = _
      rw [ih', List.reverse_append]; rfl

theorem typed_eq (ks : List Key) : typed ks = typed.go [] ks := by cases ks <;> rfl

/-- **C36**, on consoles that are not interactive.  The keys before the first one that ends the line make the text, and
that key says whether the line, the end of the input or an interrupt is reported. -/
theorem C36_raw {ks : List Key} (hks : ∀ k ∈ ks, Ending k = false) (rest : List Key) :
    readLineRaw [] ks = .waiting (typed ks) ∧
    readLineRaw [] (ks ++ .newLine :: rest) = .line (typed ks) ∧
    readLineRaw [] (ks ++ .carriageReturn :: rest) = .line (typed ks) ∧
    readLineRaw [] (ks ++ .eofOrDelete :: rest) = .eof ∧
    readLineRaw [] (ks ++ .interrupt :: rest) = .interrupted := by
  have h := fun rest => raw_go ks [] hks rest
  simp only [List.reverse_nil, ← typed_eq] at h
  refine ⟨?_, h _, h _, h _, h _⟩
  have := h []
  rwa [List.append_nil] at this

example : readLineRaw [] [.backspace, .char 'a', .char 'b', .arrowLeft, .backspace, .unknown, .newLine, .char 'z'] =
    .line ['a', '?'] := by decide

/-- **C37**, for the same prompts and lines as in `C36_line_partial`.  While the reader waits for keys, and whichever
keys came before, what it sent to the console makes the row show the prompt, the part of the line around the cursor
(or asterisks), and the cursor where the next character goes; nothing else of the row has changed, and the cursor
never left the row.  The columns for the line have to be blank when it starts. -/
theorem C37_screen_partial {W : Nat} {prompt sp : Str} (hp : Prompt W prompt sp) (hW : W ≤ 32768) (previous : Str)
    (history : Option (List Str)) (echo : Bool) (ks : List Key) (hshort : (Editor.start previous history).Short ks)
    {row0 : Nat → Char} (hblank : ∀ c, sp.length ≤ c → c < sp.length + (W - byteLen sp - 1) → row0 c = ' ') {e : Editor}
    (he : (Editor.start previous history).run ks = .waiting e) :
    ∃ r ops r' ops' s, Rl.new W prompt previous history echo = some (r, ops) ∧ r.run ks = some (.waiting r', ops') ∧
      (⟨row0, 0, true⟩ : Row).execAll W (ops ++ ops') = some s ∧ Displays sp echo (W - byteLen sp - 1) e row0 s := by
  obtain ⟨r, ops, res, ops', h1, h2, h3, h4⟩ := session_ok hp hW previous history echo ks hshort hblank
  obtain ⟨s, h5, h6⟩ := h4 e he
  rw [he] at h3
  cases res with
  | waiting r' => exact ⟨r, ops, r', ops', s, h1, h2, h5, h6⟩
  | _ => exact h3.elim

/-- **C37 fails** when the prompt takes all columns but one: the cursor moves into the prompt. -/
theorem C37_counterexample : ((Rl.new 5 "1234".toList "x".toList none true).bind fun p => (p.1.run [.backspace]).bind fun q =>
    ((⟨fun _ => ' ', 0, true⟩ : Row).execAll 5 (p.2 ++ q.2)).map (·.col)) = some 3 := by decide

namespace Spec

theorem Editor.run_append (e : Editor) (a b : List Key) :
    (∀ e', e.run a = .waiting e' → e.run (a ++ b) = e'.run b) ∧ ((∀ e', e.run a ≠ .waiting e') → e.run (a ++ b) = e.run a) := by
  induction a generalizing e with
  | nil => exact ⟨fun e' h => (by cases h; rfl), fun h => absurd rfl (h e)⟩
  | cons k ks ih =>
    by_cases hk : k.edits = true
    · by_cases heof : k = .eofOrDelete ∧ e.text = []
      · obtain ⟨rfl, ht⟩ := heof
        have : ∀ ks, e.run (.eofOrDelete :: ks) = .eof e := fun ks => if_pos ht
        rw [List.cons_append, this, this]
        exact ⟨fun e' h => (by cases h), fun _ => rfl⟩
      · have h : k = .eofOrDelete → e.text ≠ [] := fun h1 h2 => heof ⟨h1, h2⟩
        rw [List.cons_append, run_step hk h, run_step hk h]
        exact ih _
    · cases k with
      | carriageReturn => exact ⟨fun e' h => (by cases h), fun _ => rfl⟩
      | newLine => exact ⟨fun e' h => (by cases h), fun _ => rfl⟩
      | interrupt => exact ⟨fun e' h => (by cases h), fun _ => rfl⟩
      | _ => exact absurd rfl hk

/-- The history while the line is edited. -/
def Editor.stored (e : Editor) : List Str := e.above.reverse ++ e.entry :: e.below

theorem Editor.stored_press (e : Editor) (k : Key) : (e.press k).stored = e.stored ∨
    (e.press k).stored = e.stored.set e.above.length e.text := by
  cases k with
  | arrowUp =>
    show e.up.stored = _ ∨ e.up.stored = _
    unfold Editor.up
    cases h : e.above with
    | nil => exact .inl rfl
    | cons l ls => right; simp [Editor.stored, h]
  | arrowDown =>
    show e.down.stored = _ ∨ e.down.stored = _
    unfold Editor.down
    cases h : e.below with
    | nil => exact .inl rfl
    | cons l ls => right; simp [Editor.stored, h]
  | _ => exact .inl rfl

/-- The last line of a session. -/
def Editing.last : Editing → Editor
  | .waiting e | .line e | .eof e | .interrupted e => e

theorem Editor.run_stored (ks : List Key) (e : Editor) : ((e.run ks).last.stored.length = e.stored.length) ∧
    ∀ i x, e.stored[i]? = some x → (∀ ks' e', ks' <+: ks → e.run ks' = .waiting e' → e'.above.length = i → e'.text = x) →
      (e.run ks).last.stored[i]? = some x := by
  induction ks generalizing e with
  | nil => exact ⟨rfl, fun i x h _ => h⟩
  | cons k ks ih =>
    by_cases hk : k.edits = true
    · by_cases heof : k = .eofOrDelete ∧ e.text = []
      · obtain ⟨rfl, ht⟩ := heof
        rw [show e.run (.eofOrDelete :: ks) = .eof e from if_pos ht]
        exact ⟨rfl, fun i x h _ => h⟩
      · have h : k = .eofOrDelete → e.text ≠ [] := fun h1 h2 => heof ⟨h1, h2⟩
        rw [run_step hk h]
        obtain ⟨i1, i2⟩ := ih (e.press k)
        refine ⟨?_, fun i x hx hall => i2 i x ?_ fun ks' e' hp he => hall (k :: ks') e' (List.cons_prefix_cons.2 ⟨rfl, hp⟩) (by rw [run_step hk h]; exact he)⟩
        · rw [i1]
          rcases e.stored_press k with hs | hs <;> rw [hs]
          rw [List.length_set]
        · rcases e.stored_press k with hs | hs <;> rw [hs]
          · exact hx
          · rw [List.getElem?_set]
            split
            next heq =>
              have hlt : e.above.length < e.stored.length := by simp [Editor.stored]
              rw [if_pos hlt, hall [] e List.nil_prefix rfl heq]
            next => exact hx
    · cases k with
      | carriageReturn => exact ⟨rfl, fun i x h _ => h⟩
      | newLine => exact ⟨rfl, fun i x h _ => h⟩
      | interrupt => exact ⟨rfl, fun i x h _ => h⟩
      | _ => exact absurd rfl hk

theorem Editor.ups (e : Editor) (m : Nat) : ∃ e', e.run (List.replicate m .arrowUp) = .waiting e' ∧ e'.lines = e.lines ∧
    e'.above.length = e.above.length - m := by
  induction m generalizing e with
  | zero => exact ⟨e, rfl, rfl, rfl⟩
  | succ m ih =>
    obtain ⟨e', h1, h2, h3⟩ := ih e.up
    refine ⟨e', h1, ?_, ?_⟩
    · rw [h2]; unfold Editor.up
      cases h : e.above with
      | nil => rfl
      | cons l ls => simp [Editor.lines, h, Editor.text]
    · rw [h3]; unfold Editor.up
      cases h : e.above with
      | nil => simp [h]
      | cons l ls => simp

theorem Editor.downs (e : Editor) (m : Nat) : ∃ e', e.run (List.replicate m .arrowDown) = .waiting e' ∧ e'.lines = e.lines ∧
    e'.below.length = e.below.length - m := by
  induction m generalizing e with
  | zero => exact ⟨e, rfl, rfl, rfl⟩
  | succ m ih =>
    obtain ⟨e', h1, h2, h3⟩ := ih e.down
    refine ⟨e', h1, ?_, ?_⟩
    · rw [h2]; unfold Editor.down
      cases h : e.below with
      | nil => rfl
      | cons l ls => simp [Editor.lines, h, Editor.text]
    · rw [h3]; unfold Editor.down
      cases h : e.below with
      | nil => simp [h]
      | cons l ls => simp

end Spec

/-- **C38**: entering a line.  The history then has an entry for each one it had, and the line as the last one unless
it is empty.  An old entry `i` is as it was unless, at some time, the user had gone to it and had another text there. -/
theorem C38_entered {W : Nat} {prompt sp : Str} (hp : Prompt W prompt sp) (hW : W ≤ 32768) (previous : Str)
    (history : List Str) (echo : Bool) (ks : List Key) (hshort : (Editor.start previous (some history)).Short ks) {e : Editor}
    (he : (Editor.start previous (some history)).run ks = .line e) :
    ∃ r ops ops' older, Rl.new W prompt previous (some history) echo = some (r, ops) ∧
      r.run ks = some (.line (some (older ++ if e.text = [] then [] else [e.text])) e.text, ops') ∧
      older.length = history.length ∧
      ∀ i x, history[i]? = some x →
        (∀ ks' e', ks' <+: ks → (Editor.start previous (some history)).run ks' = .waiting e' → e'.above.length = i → e'.text = x) →
        older[i]? = some x := by
  obtain ⟨r, ops, res, ops', h1, h2, h3⟩ := C36_line_partial hp hW previous (some history) echo ks hshort
  obtain ⟨g1, g2⟩ := Editor.run_stored ks (Editor.start previous (some history))
  rw [he] at h3 g1 g2
  have hst : (Editor.start previous (some history)).stored = history ++ [previous] := by simp [Editor.stored, Editor.start]
  rw [hst] at g1 g2
  cases res with
  | line h t =>
    obtain ⟨rfl, rfl⟩ := h3
    refine ⟨r, ops, ops', e.stored.dropLast, h1, h2, ?_, fun i x hx hall => ?_⟩
    · rw [List.length_dropLast]; rw [show (Editing.line e).last = e from rfl] at g1; rw [g1]; simp
    · have hlt : i < history.length := by
        rcases Nat.lt_or_ge i history.length with h | h
        · exact h
        · rw [List.getElem?_eq_none h] at hx; cases hx
      have := g2 i x (by rw [List.getElem?_append_left hlt]; exact hx) hall
      rw [List.getElem?_dropLast, if_pos]
      · exact this
      · rw [show (Editing.line e).last = e from rfl] at g1; rw [g1]; simpa using hlt
  | _ => exact h3.elim

/-- **C38**: browsing.  Whatever came before, from the last line going up and then down by as many lines, even more
than there are, leads back to the line as it was. -/
theorem C38_browsing {W : Nat} {prompt sp : Str} (hp : Prompt W prompt sp) (hW : W ≤ 32768) (previous : Str)
    (history : Option (List Str)) (echo : Bool) (ks : List Key) {e : Editor} (he : (Editor.start previous history).run ks = .waiting e)
    (hlast : e.below = []) (m : Nat)
    (hshort : (Editor.start previous history).Short (ks ++ (List.replicate m .arrowUp ++ List.replicate m .arrowDown))) :
    ∃ r ops r' ops', Rl.new W prompt previous history echo = some (r, ops) ∧
      r.run (ks ++ (List.replicate m .arrowUp ++ List.replicate m .arrowDown)) = some (.waiting r', ops') ∧ r'.line = e.text := by
  obtain ⟨r, ops, res, ops', h1, h2, h3⟩ := C36_line_partial hp hW previous history echo _ hshort
  obtain ⟨e1, u1, u2, u3⟩ := e.ups m
  obtain ⟨e2, d1, d2, d3⟩ := e1.downs m
  rw [((Editor.start previous history).run_append _ _).1 e he, (e.run_append _ _).1 e1 u1, d1] at h3
  cases res with
  | waiting r' =>
    refine ⟨r, ops, r', ops', h1, h2, h3.1.trans ?_⟩
    have hl := congrArg List.length u2
    simp only [Editor.lines, List.length_append, List.length_reverse, List.length_cons, hlast, List.length_nil] at hl
    have hb : e2.below = [] := List.length_eq_zero_iff.1 (by omega)
    have := d2.trans u2
    rw [Editor.lines, Editor.lines, hb, hlast] at this
    exact (List.append_inj' this rfl).2 |> fun h => by injection h
  | _ => exact h3.elim

/-- **C38 fails** when the reader is interrupted: the empty line that was there when it started stays in the history. -/
theorem C38_counterexample : ((Rl.new 80 [] [] (some ["a".toList]) true).bind fun p => (p.1.run [.interrupt]).map fun q =>
    match q.1 with | .interrupted h => h | _ => none) = some (some ["a".toList, []]) := by decide

/-! ## The hypotheses are met -/

example : Prompt 10 "> ".toList "> ".toList := .whole (by decide)
example : Prompt 10 "a long prompt".toList "a lon...".toList :=
  .cut (t := "a lon".toList) (u := "g prompt".toList) (by decide) (by decide) rfl (by decide)

/-- The keys of an example: a line is typed, the one before is looked at, and the new one is changed. -/
def Ex.keysR : List Key := [.char 'a', .char 'b', .arrowUp, .arrowDown, .arrowLeft, .backspace, .char 'x']

theorem Ex.shortR : (Editor.start [] (some ["old".toList])).Short Ex.keysR := by
  intro ks' e' hp he
  have h8 : ks' ∈ (List.range 8).map fun n => Ex.keysR.take n := by
    rw [List.prefix_iff_eq_take.1 hp]
    refine List.mem_map.2 ⟨ks'.length, List.mem_range.2 ?_, rfl⟩
    have := hp.length_le
    exact Nat.lt_succ_of_le this
  have : ∀ l ∈ (List.range 8).map fun n => Ex.keysR.take n, ((Editor.start [] (some ["old".toList])).run l).last.text.length ≤ 32767 := by
    decide +kernel
  have h := this ks' h8
  rw [he] at h
  exact h

example : ∃ r ops r' ops' s, Rl.new 10 "> ".toList [] (some ["old".toList]) true = some (r, ops) ∧
    r.run Ex.keysR = some (.waiting r', ops') ∧ (⟨fun _ => ' ', 0, true⟩ : Row).execAll 10 (ops ++ ops') = some s ∧
    Displays "> ".toList true 7 ⟨"x".toList, "b".toList, ["old".toList], [], "ab".toList⟩ (fun _ => ' ') s :=
  C37_screen_partial (sp := "> ".toList) (.whole (by decide)) (by decide) [] (some ["old".toList]) true Ex.keysR Ex.shortR (fun _ _ _ => rfl) rfl

end EB
