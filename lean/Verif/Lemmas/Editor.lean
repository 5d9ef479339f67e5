import Verif.Spec.Editor
import Mathlib.Tactic.Tauto
/-!
# The full-screen editor follows its specification
-/

namespace EB.Edit
open Spec

/-- Lines with their terminators. -/
def flat : List Str → Str
  | [] => []
  | l :: ls => l ++ '\n' :: flat ls

theorem flat_append (A B : List Str) : flat (A ++ B) = flat A ++ flat B := by
  induction A with
  | nil => rfl
  | cons l A ih => simp [flat, ih]

theorem text_flat (e : State) : e.text = flat e.content := by
  have : ∀ (c : List Str) (acc : Str), c.foldl (fun contents line => contents ++ line ++ ['\n']) acc = acc ++ flat c := by
    intro c
    induction c with
    | nil => intro acc; simp [flat]
    | cons l c ih => intro acc; rw [List.foldl_cons, ih]; simp [flat]
  exact this _ []

theorem flat_last (A : List Str) : (flat A).reverse = [] ∨ ∃ t, (flat A).reverse = '\n' :: t := by
  rcases List.eq_nil_or_concat A with rfl | ⟨A', x, rfl⟩
  · exact .inl rfl
  · refine .inr ⟨(flat A' ++ x).reverse, ?_⟩
    rw [List.concat_eq_append, flat_append]
    simp [flat]

theorem takeWhile_all {p : Char → Bool} : ∀ {l : Str} (t : Str), (∀ c ∈ l, p c = true) → (l ++ t).takeWhile p = l ++ t.takeWhile p
  | [], t, _ => rfl
  | c :: l, t, h => by
    rw [List.cons_append, List.takeWhile_cons, if_pos (h c List.mem_cons_self), takeWhile_all t fun x hx => h x (List.mem_cons_of_mem _ hx)]
    rfl

theorem dropWhile_all {p : Char → Bool} : ∀ {l : Str} (t : Str), (∀ c ∈ l, p c = true) → (l ++ t).dropWhile p = t.dropWhile p
  | [], t, _ => rfl
  | c :: l, t, h => by
    rw [List.cons_append, List.dropWhile_cons, if_pos (h c List.mem_cons_self), dropWhile_all t fun x hx => h x (List.mem_cons_of_mem _ hx)]

/-- No newline in a line. -/
def NoNl (l : Str) : Prop := ∀ c ∈ l, c ≠ '\n'

theorem left_ok {A : List Str} {l a : Str} {g : Nat} (h : NoNl l) : (⟨flat A ++ l, a, g⟩ : Doc).left = l := by
  show ((flat A ++ l).reverse.takeWhile _).reverse = l
  rw [List.reverse_append, takeWhile_all _ (by intro c hc; simpa using h c (List.mem_reverse.1 hc))]
  rcases flat_last A with h1 | ⟨t, h1⟩ <;> rw [h1] <;> simp

theorem right_ok {b r B : Str} {g : Nat} (h : NoNl r) : (⟨b, r ++ '\n' :: B, g⟩ : Doc).right = r := by
  show (r ++ '\n' :: B).takeWhile _ = r
  rw [takeWhile_all _ (by intro c hc; simpa using h c hc)]
  simp

theorem count_none {l : Str} (h : NoNl l) : l.count '\n' = 0 := List.count_eq_zero.2 fun hm => h _ hm rfl

theorem count_flat {A : List Str} (h : ∀ l ∈ A, NoNl l) : (flat A).count '\n' = A.length := by
  induction A with
  | nil => rfl
  | cons l A ih =>
    rw [flat, List.count_append, count_none (h l List.mem_cons_self), List.count_cons_self, ih fun x hx => h x (List.mem_cons_of_mem _ hx)]
    simp

theorem place_row {x : Str} (hx : NoNl x) (g : Nat) (B : Str) : Doc.place 0 g (x ++ '\n' :: B) = (x.take g, x.drop g ++ '\n' :: B) := by
  induction x generalizing g with
  | nil => cases g <;> simp [Doc.place]
  | cons c x ih =>
    cases g with
    | zero => simp [Doc.place]
    | succ g =>
      have hc : c ≠ '\n' := hx c List.mem_cons_self
      simp only [List.cons_append, Doc.place, if_neg hc, ih (fun y hy => hx y (List.mem_cons_of_mem _ hy)), List.take_succ_cons, List.drop_succ_cons]

theorem place_skip {x : Str} (hx : NoNl x) (n g : Nat) (B : Str) :
    Doc.place (n + 1) g (x ++ '\n' :: B) = (x ++ '\n' :: (Doc.place n g B).1, (Doc.place n g B).2) := by
  induction x with
  | nil => simp [Doc.place]
  | cons c x ih =>
    have hc : c ≠ '\n' := hx c List.mem_cons_self
    simp only [List.cons_append, Doc.place, if_neg hc, ih (fun y hy => hx y (List.mem_cons_of_mem _ hy))]

theorem place_ok {A : List Str} {x : Str} {B : List Str} (g : Nat) (hA : ∀ l ∈ A, NoNl l) (hx : NoNl x) :
    Doc.place A.length g (flat (A ++ x :: B)) = (flat A ++ x.take g, x.drop g ++ '\n' :: flat B) := by
  induction A with
  | nil => exact place_row hx g _
  | cons a A ih =>
    show Doc.place (A.length + 1) g (a ++ '\n' :: flat (A ++ x :: B)) = _
    rw [place_skip (hA a List.mem_cons_self), ih fun l hl => hA l (List.mem_cons_of_mem _ hl)]
    simp [flat]

theorem place_none {A : List Str} (hA : ∀ l ∈ A, NoNl l) (n g : Nat) (h : A.length ≤ n) : (Doc.place n g (flat A)).2 = [] := by
  induction A generalizing n with
  | nil => rfl
  | cons a A ih =>
    obtain ⟨m, rfl⟩ : ∃ m, n = m + 1 := ⟨n - 1, by simp only [List.length_cons] at h; omega⟩
    show (Doc.place (m + 1) g (a ++ '\n' :: flat A)).2 = _
    rw [place_skip (hA a List.mem_cons_self)]
    exact ih (fun l hl => hA l (List.mem_cons_of_mem _ hl)) m (by simpa using h)

/-- The cursor of a document at a place of the lines. -/
structure At (content : List Str) (line col : Nat) (d : Doc) (A : List Str) (l r : Str) (B : List Str) : Prop where
  content : content = A ++ (l ++ r) :: B
  line : line = A.length
  col : col = l.length
  before : d.before = flat A ++ l
  after : d.after = r ++ '\n' :: flat B

/-- The lines only have typable characters. -/
def Clean (content : List Str) : Prop := ∀ l ∈ content, ∀ c ∈ l, Typable c

/-- The state of the editor is that of the specification. -/
structure Rel (b : Buffer) (e : State) : Prop where
  name : e.name = b.name
  dirty : e.dirty = b.dirty
  goal : e.insertCol = b.doc.goal
  clean : Clean e.content
  at_ : ∃ A l r B, At e.content e.line e.col b.doc A l r B

section
variable {content : List Str} {line col : Nat} {d : Doc} {A : List Str} {l r : Str} {B : List Str}

theorem Clean.noNl (hc : Clean content) {x : Str} (h : x ∈ content) : NoNl x := fun c h2 => (hc x h c h2).1

theorem At.cur (h : At content line col d A l r B) : content[line]? = some (l ++ r) := by
  rw [h.content, h.line]; simp

theorem At.set (h : At content line col d A l r B) (x : Str) : content.set line x = A ++ x :: B := by
  rw [h.content, h.line]; simp

theorem At.noA (h : At content line col d A l r B) (hc : Clean content) : ∀ x ∈ A, NoNl x :=
  fun x hx => hc.noNl (by rw [h.content]; exact List.mem_append_left _ hx)

theorem At.noB (h : At content line col d A l r B) (hc : Clean content) : ∀ x ∈ B, NoNl x :=
  fun x hx => hc.noNl (by rw [h.content]; simp [hx])

theorem At.noCur (h : At content line col d A l r B) (hc : Clean content) : NoNl (l ++ r) :=
  hc.noNl (by rw [h.content]; simp)

theorem At.noL (h : At content line col d A l r B) (hc : Clean content) : NoNl l :=
  fun c hx => h.noCur hc c (List.mem_append_left _ hx)

theorem At.noR (h : At content line col d A l r B) (hc : Clean content) : NoNl r :=
  fun c hx => h.noCur hc c (List.mem_append_right _ hx)

theorem At.left (h : At content line col d A l r B) (hc : Clean content) : d.left = l := by
  have : d = ⟨flat A ++ l, d.after, d.goal⟩ := by rw [← h.before]
  rw [this]; exact left_ok (h.noL hc)

theorem At.right (h : At content line col d A l r B) (hc : Clean content) : d.right = r := by
  have : d = ⟨d.before, r ++ '\n' :: flat B, d.goal⟩ := by rw [← h.after]
  rw [this]; exact right_ok (h.noR hc)

theorem At.docCol (h : At content line col d A l r B) (hc : Clean content) : d.col = col := by
  rw [Doc.col, h.left hc, h.col]

theorem At.row (h : At content line col d A l r B) (hc : Clean content) : d.row = line := by
  rw [Doc.row, h.before, List.count_append, count_none (h.noL hc), count_flat (h.noA hc), h.line]
  rfl

theorem At.docLine (h : At content line col d A l r B) (hc : Clean content) : d.line = l ++ r := by
  rw [Doc.line, h.left hc, h.right hc]

theorem At.text (h : At content line col d A l r B) : d.text = flat content := by
  rw [Doc.text, h.before, h.after, h.content, flat_append]; simp [flat]

theorem At.length (h : At content line col d A l r B) : content.length = A.length + B.length + 1 := by
  rw [h.content]; simp; omega

/-- Another place of the same lines. -/
theorem At.move (h : At content line col d A l r B) (hc : Clean content) {i : Nat} {x : Str} (hi : content[i]? = some x) (g : Nat) :
    ∃ A' l' r' B', At content i (min g x.length) (d.moveTo i g) A' l' r' B' ∧ (d.moveTo i g).text = d.text := by
  have hlt : i < content.length := by
    rcases Nat.lt_or_ge i content.length with h1 | h1
    · exact h1
    · rw [List.getElem?_eq_none h1] at hi; cases hi
  have hx : content[i] = x := by rw [List.getElem?_eq_getElem hlt] at hi; exact Option.some.inj hi
  have hs : content = content.take i ++ x :: content.drop (i + 1) := by
    rw [← hx, ← List.drop_eq_getElem_cons hlt, List.take_append_drop]
  have hlen : (content.take i).length = i := by rw [List.length_take]; omega
  have hp : Doc.place i g d.text = (flat (content.take i) ++ x.take g, x.drop g ++ '\n' :: flat (content.drop (i + 1))) := by
    have := place_ok (A := content.take i) (x := x) (B := content.drop (i + 1)) g
      (fun l hl => hc.noNl (List.mem_of_mem_take hl)) (hc.noNl (List.mem_of_getElem? hi))
    rw [hlen, ← hs] at this
    rw [h.text, this]
  refine ⟨content.take i, x.take g, x.drop g, content.drop (i + 1), ⟨?_, hlen.symm, ?_, ?_, ?_⟩, ?_⟩
  · rw [List.take_append_drop]; exact hs
  · rw [List.length_take]
  · show (Doc.place i g d.text).1 = _; rw [hp]
  · show (Doc.place i g d.text).2 = _; rw [hp]
  · show (Doc.place i g d.text).1 ++ (Doc.place i g d.text).2 = _
    have hf := congrArg flat hs
    rw [flat_append] at hf
    rw [hp, h.text, hf]
    show _ = flat (content.take i) ++ (x ++ '\n' :: flat (content.drop (i + 1)))
    show flat (content.take i) ++ x.take g ++ (x.drop g ++ _) = _
    rw [List.append_assoc, ← List.append_assoc (x.take g), List.take_append_drop]
end

theorem replicate_of_all {l : Str} (h : ∀ c ∈ l, c = ' ') : l = List.replicate l.length ' ' := List.eq_replicate_iff.2 ⟨rfl, h⟩

/-- The buffer after a key that does not change the text. -/
theorem press_same {b : Buffer} {H : Nat} {k : Key} (h : (b.doc.press H k).text = b.doc.text) :
    b.press H k = { b with doc := b.doc.press H k } := by
  unfold Buffer.press; rw [h]; simp

/-- The buffer after a key that changes the length of the text. -/
theorem press_changed {b : Buffer} {H : Nat} {k : Key} (h : (b.doc.press H k).text.length ≠ b.doc.text.length) :
    b.press H k = { b with doc := b.doc.press H k, dirty := true } := by
  unfold Buffer.press
  have : ((b.doc.press H k).text != b.doc.text) = true := bne_iff_ne.2 fun hx => h (by rw [hx])
  rw [this]; simp

section
variable {b : Buffer} {e : State} {W H : Nat}

/-- A move to another place of the lines. -/
theorem rel_move (h : Rel b e) {i g : Nat} {x : Str} (hi : e.content[i]? = some x) {k : Key} (hk : b.doc.press H k = b.doc.moveTo i g) :
    Rel (b.press H k) { e with line := i, col := min g x.length } := by
  obtain ⟨A, l, r, B, ha⟩ := h.at_
  obtain ⟨A', l', r', B', h1, h2⟩ := ha.move h.clean hi g
  rw [press_same (by rw [hk, h2]), hk]
  exact ⟨h.name, h.dirty, h.goal, h.clean, A', l', r', B', h1⟩

/-- A move within the row. -/
theorem rel_row (h : Rel b e) {A : List Str} {l r : Str} {B : List Str} (ha : At e.content e.line e.col b.doc A l r B)
    {l' r' : Str} (hlr : l' ++ r' = l ++ r) {k : Key} (hk : b.doc.press H k = Doc.aimed ⟨flat A ++ l', r' ++ '\n' :: flat B, b.doc.goal⟩) :
    Rel (b.press H k) { e with col := l'.length, insertCol := l'.length } := by
  have hn : NoNl l' := fun c hc => ha.noCur h.clean c (by rw [← hlr]; exact List.mem_append_left _ hc)
  have ha' : At e.content e.line l'.length (b.doc.press H k) A l' r' B :=
    ⟨by rw [hlr]; exact ha.content, ha.line, rfl, by rw [hk]; rfl, by rw [hk]; rfl⟩
  rw [press_same (by rw [ha'.text, ha.text])]
  refine ⟨h.name, h.dirty, ?_, h.clean, A, l', r', B, ha'⟩
  show l'.length = (b.doc.press H k).goal
  rw [hk]
  exact (congrArg List.length (left_ok hn)).symm

/-- An edit of the text before the cursor. -/
theorem rel_edit (h : Rel b e) {A' : List Str} {l' r' : Str} {B' : List Str} {k : Key}
    (hk : b.doc.press H k = Doc.aimed ⟨flat A' ++ l', r' ++ '\n' :: flat B', b.doc.goal⟩) (hc : Clean (A' ++ (l' ++ r') :: B'))
    (hne : (flat (A' ++ (l' ++ r') :: B')).length ≠ (flat e.content).length) :
    Rel (b.press H k) { e with content := A' ++ (l' ++ r') :: B', line := A'.length, col := l'.length, insertCol := l'.length, dirty := true } := by
  obtain ⟨A, l, r, B, ha⟩ := h.at_
  have hn : NoNl l' := fun c hx => (hc _ (List.mem_append_right _ List.mem_cons_self) c (List.mem_append_left _ hx)).1
  have ha' : At (A' ++ (l' ++ r') :: B') A'.length l'.length (b.doc.press H k) A' l' r' B' :=
    ⟨rfl, rfl, rfl, by rw [hk]; rfl, by rw [hk]; rfl⟩
  rw [press_changed (by rw [ha'.text, ha.text]; exact hne)]
  refine ⟨h.name, rfl, ?_, hc, A', l', r', B', ha'⟩
  show l'.length = (b.doc.press H k).goal
  rw [hk]
  exact (congrArg List.length (left_ok hn)).symm

theorem clean_cur {A : List Str} {l r x : Str} {B : List Str} (hc : Clean (A ++ (l ++ r) :: B)) (hx : ∀ c ∈ x, Typable c) :
    Clean (A ++ x :: B) := by
  intro y hy
  rcases List.mem_append.1 hy with h1 | h1
  · exact hc y (List.mem_append_left _ h1)
  · rcases List.mem_cons.1 h1 with rfl | h2
    · exact hx
    · exact hc y (List.mem_append_right _ (List.mem_cons_of_mem _ h2))

theorem flat_length_append (A B : List Str) : (flat (A ++ B)).length = (flat A).length + (flat B).length := by
  rw [flat_append, List.length_append]

theorem flat_length_cons (x : Str) (B : List Str) : (flat (x :: B)).length = x.length + 1 + (flat B).length := by
  show (x ++ '\n' :: flat B).length = _
  simp; omega

theorem step_char {A : List Str} {l r : Str} {B : List Str} (ha : At e.content e.line e.col b.doc A l r B) (hv : e.viewCol ≤ e.col)
    (hW : 1 ≤ W) (c : Char) : e.press W H (.char c) = some
      ⟨{ e with content := A ++ ((l ++ [c]) ++ r) :: B, line := A.length, col := (l ++ [c]).length, insertCol := (l ++ [c]).length, dirty := true },
        if e.col < (l ++ r).length then .currentLine else .none,
        if e.col - e.viewCol < W - 1 ∧ (if e.col < (l ++ r).length then Refresh.currentLine else .none) = .none then [.write [c]] else []⟩ := by
  have hins : lineInsert (l ++ r) e.col c = (l ++ [c]) ++ r := by rw [ha.col]; simp [lineInsert]
  have hl : (l ++ [c]).length = e.col + 1 := by rw [ha.col]; simp
  rw [← ha.set, ← hins, hl, ← ha.line]
  show e.char W c = _
  unfold State.char
  rw [ha.cur]
  simp only [Option.bind_eq_bind, Option.bind_some, subUsize, if_pos hv, if_pos hW]
  rfl

theorem rel_char (h : Rel b e) {A : List Str} {l r : Str} {B : List Str} (ha : At e.content e.line e.col b.doc A l r B) {c : Char} (hc : Typable c) :
    Rel (b.press H (.char c)) { e with content := A ++ ((l ++ [c]) ++ r) :: B, line := A.length, col := (l ++ [c]).length, insertCol := (l ++ [c]).length, dirty := true } := by
  have hcl : Clean (A ++ ((l ++ [c]) ++ r) :: B) := by
    refine clean_cur (by rw [← ha.content]; exact h.clean) fun x hx => ?_
    have hx' : x = c ∨ x ∈ l ++ r := by simp at hx ⊢; tauto
    rcases hx' with rfl | hx'
    · exact hc
    · exact h.clean _ (by rw [ha.content]; simp) x hx'
  refine rel_edit h (k := .char c) ?_ hcl ?_
  · show Doc.aimed ⟨b.doc.before ++ [c], b.doc.after, b.doc.goal⟩ = _
    rw [ha.before, ha.after]; simp
  · rw [ha.content]; simp only [flat_length_append, flat_length_cons, List.length_append, List.length_singleton]; omega

theorem press_moves (h : Rel b e) (hH : 2 ≤ H) {k : Key}
    (hk : k = .arrowUp ∨ k = .arrowDown ∨ k = .pageUp ∨ k = .pageDown) :
    ∃ st, e.press W H k = some st ∧ Rel (b.press H k) st.state ∧ st.refresh = .none ∧ st.ops = [] ∧ st.state.content = e.content ∧ st.state.viewLine = e.viewLine ∧ st.state.viewCol = e.viewCol := by
  obtain ⟨A, l, r, B, ha⟩ := h.at_
  have hlt : e.line < e.content.length := by rw [ha.length, ha.line]; omega
  have up : ∀ n k, b.doc.press H k = b.doc.up n → ∃ e', e.moveUp n = some e' ∧ Rel (b.press H k) e' ∧ e'.content = e.content ∧ e'.viewLine = e.viewLine ∧ e'.viewCol = e.viewCol := by
    intro n k hk
    obtain ⟨x, hx⟩ : ∃ x, e.content[e.line - n]? = some x := ⟨_, List.getElem?_eq_getElem (by omega)⟩
    have hl : (if e.line > n then e.line - n else 0) = e.line - n := by split <;> omega
    refine ⟨{ e with line := e.line - n, col := min e.insertCol x.length }, ?_, ?_, rfl, rfl, rfl⟩
    · unfold State.moveUp
      simp only [hl, hx, Option.bind_eq_bind, Option.bind_some]
      rfl
    · rw [show min e.insertCol x.length = min b.doc.goal x.length by rw [h.goal]]
      refine rel_move h hx ?_
      rw [hk, Doc.up, ha.row h.clean]
  have down : ∀ n k, b.doc.press H k = b.doc.down n → ∃ e', e.moveDown n = some e' ∧ Rel (b.press H k) e' ∧ e'.content = e.content ∧ e'.viewLine = e.viewLine ∧ e'.viewCol = e.viewCol := by
    intro n k hk
    have hcount : b.doc.text.count '\n' = e.content.length := by
      rw [ha.text, count_flat fun x hx => h.clean.noNl hx]
    obtain ⟨i, hi⟩ : ∃ i, i = min (e.line + n) (e.content.length - 1) := ⟨_, rfl⟩
    obtain ⟨x, hx⟩ : ∃ x, e.content[i]? = some x := ⟨_, List.getElem?_eq_getElem (by omega)⟩
    have hl : (if e.line + n < e.content.length then some (e.line + n) else subUsize e.content.length 1) = some i := by
      split
      · rw [hi]; congr 1; omega
      · unfold subUsize; rw [if_pos (by omega), hi]; congr 1; omega
    refine ⟨{ e with line := i, col := min e.insertCol x.length }, ?_, ?_, rfl, rfl, rfl⟩
    · show ((if e.line + n < e.content.length then some (e.line + n) else subUsize e.content.length 1) : Option Nat).bind _ = _
      rw [hl]
      show (e.content[i]?).bind _ = _
      rw [hx]
      rfl
    · rw [show min e.insertCol x.length = min b.doc.goal x.length by rw [h.goal]]
      refine rel_move h hx ?_
      rw [hk, Doc.down, ha.row h.clean, hcount, hi]
  rcases hk with rfl | rfl | rfl | rfl
  · obtain ⟨e', h1, h2⟩ := up 1 .arrowUp rfl
    exact ⟨⟨e', .none, []⟩, by show (e.moveUp 1).map _ = _; rw [h1]; rfl, h2.1, rfl, rfl, h2.2⟩
  · obtain ⟨e', h1, h2⟩ := down 1 .arrowDown rfl
    exact ⟨⟨e', .none, []⟩, by show (e.moveDown 1).map _ = _; rw [h1]; rfl, h2.1, rfl, rfl, h2.2⟩
  · obtain ⟨e', h1, h2⟩ := up (H - 2) .pageUp rfl
    refine ⟨⟨e', .none, []⟩, ?_, h2.1, rfl, rfl, h2.2⟩
    show (subUsize H 2).bind _ = _
    rw [subUsize, if_pos hH]
    show (e.moveUp (H - 2)).map _ = _
    rw [h1]; rfl
  · obtain ⟨e', h1, h2⟩ := down (H - 2) .pageDown rfl
    refine ⟨⟨e', .none, []⟩, ?_, h2.1, rfl, rfl, h2.2⟩
    show (subUsize H 2).bind _ = _
    rw [subUsize, if_pos hH]
    show (e.moveDown (H - 2)).map _ = _
    rw [h1]; rfl

/-- The moves within a row. -/
theorem press_sides (h : Rel b e) {k : Key} (hk : k = .arrowLeft ∨ k = .arrowRight ∨ k = .home ∨ k = .end ∨ k = .unknown) :
    ∃ st, e.press W H k = some st ∧ Rel (b.press H k) st.state ∧ st.refresh = .none ∧ st.ops = [] ∧ st.state.content = e.content ∧ st.state.viewLine = e.viewLine ∧ st.state.viewCol = e.viewCol := by
  obtain ⟨A, l, r, B, ha⟩ := h.at_
  have stay : ∀ k, b.doc.press H k = b.doc → Rel (b.press H k) e := by
    intro k hk
    rw [press_same (by rw [hk]), hk]
    exact ⟨h.name, h.dirty, h.goal, h.clean, A, l, r, B, ha⟩
  rcases hk with rfl | rfl | rfl | rfl | rfl
  · rcases List.eq_nil_or_concat l with rfl | ⟨l', c, rfl⟩
    · refine ⟨⟨e, .none, []⟩, ?_, stay _ ?_, rfl, rfl, rfl, rfl, rfl⟩
      · show some (⟨if e.col > 0 then _ else _, _, _⟩ : Step) = _
        rw [if_neg (by rw [ha.col]; simp)]
      · show (if b.doc.left = [] then _ else _) = _
        rw [if_pos (ha.left h.clean)]
    · rw [List.concat_eq_append] at ha
      refine ⟨⟨{ e with col := e.col - 1, insertCol := e.col - 1 }, .none, []⟩, ?_, ?_, rfl, rfl, rfl, rfl, rfl⟩
      · show some (⟨if e.col > 0 then _ else _, _, _⟩ : Step) = _
        rw [if_pos (by rw [ha.col]; simp)]
      · have hl : e.col - 1 = l'.length := by rw [ha.col]; simp
        rw [hl]
        refine rel_row h ha (l' := l') (r' := c :: r) (by simp) ?_
        show (if b.doc.left = [] then _ else _) = _
        rw [if_neg (by rw [ha.left h.clean]; simp), ha.before, ha.after, ← List.append_assoc]
        simp
  · cases r with
    | nil =>
      refine ⟨⟨e, .none, []⟩, ?_, stay _ ?_, rfl, rfl, rfl, rfl, rfl⟩
      · show Option.map _ ((e.content[e.line]?).map _) = _
        rw [ha.cur]
        show some (⟨if e.col < _ then _ else _, _, _⟩ : Step) = _
        rw [if_neg (by rw [ha.col]; simp)]
      · show (if b.doc.right = [] then _ else _) = _
        rw [if_pos (ha.right h.clean)]
    | cons c r =>
      refine ⟨⟨{ e with col := e.col + 1, insertCol := e.col + 1 }, .none, []⟩, ?_, ?_, rfl, rfl, rfl, rfl, rfl⟩
      · show Option.map _ ((e.content[e.line]?).map _) = _
        rw [ha.cur]
        show some (⟨if e.col < _ then _ else _, _, _⟩ : Step) = _
        rw [if_pos (by rw [ha.col]; simp)]
      · have hl : e.col + 1 = (l ++ [c]).length := by rw [ha.col]; simp
        rw [hl]
        refine rel_row h ha (l' := l ++ [c]) (r' := r) (by simp) ?_
        show (if b.doc.right = [] then _ else _) = _
        rw [if_neg (by rw [ha.right h.clean]; simp), ha.before, ha.after]
        simp
  · obtain ⟨col, hcol⟩ : ∃ col, col = if e.col = findIndentEnd (l ++ r) then 0 else findIndentEnd (l ++ r) := ⟨_, rfl⟩
    have hle : findIndentEnd (l ++ r) ≤ (l ++ r).length := (List.takeWhile_prefix _).length_le
    have hfun : ((l ++ r).takeWhile (fun c => decide (c = ' '))).length = findIndentEnd (l ++ r) := rfl
    have hk : b.doc.press H .home = Doc.aimed (b.doc.moveTo e.line col) := by
      show Doc.aimed (b.doc.moveTo _ (if _ = (List.takeWhile _ b.doc.line).length then _ else (List.takeWhile _ b.doc.line).length)) = _
      rw [ha.docLine h.clean, hfun, ha.docCol h.clean, ha.row h.clean, hcol]
    obtain ⟨A', l', r', B', h1, h2⟩ := ha.move h.clean ha.cur col
    have hmin : min col (l ++ r).length = col := by rw [hcol]; split <;> omega
    rw [hmin] at h1
    refine ⟨⟨{ e with col, insertCol := col }, .none, []⟩, ?_, ?_, rfl, rfl, rfl, rfl, rfl⟩
    · show e.home = _
      unfold State.home
      rw [ha.cur, hcol]
      rfl
    · rw [press_same (by rw [hk]; exact h2), hk]
      refine ⟨h.name, h.dirty, ?_, h.clean, A', l', r', B', h1.content, h1.line, h1.col, h1.before, h1.after⟩
      exact (h1.docCol h.clean).symm
  · refine ⟨⟨{ e with col := (l ++ r).length, insertCol := (l ++ r).length }, .none, []⟩, ?_, ?_, rfl, rfl, rfl, rfl, rfl⟩
    · show Option.map _ ((e.content[e.line]?).map _) = _
      rw [ha.cur]; rfl
    · refine rel_row h ha (l' := l ++ r) (r' := []) (by simp) ?_
      show Doc.aimed ⟨b.doc.before ++ b.doc.right, b.doc.after.dropWhile _, _⟩ = _
      rw [ha.right h.clean, ha.before, ha.after, dropWhile_all _ (by intro c hc; simpa using ha.noR h.clean c hc)]
      simp
  · exact ⟨⟨e, .none, []⟩, rfl, stay _ rfl, rfl, rfl, rfl, rfl, rfl⟩

theorem step_tab {A : List Str} {l r : Str} {B : List Str} (ha : At e.content e.line e.col b.doc A l r B) {sp : Str}
    (hsp : sp = List.replicate (4 - e.col % 4) ' ') : e.press W H .tab = some
      ⟨{ e with content := A ++ ((l ++ sp) ++ r) :: B, line := A.length, col := (l ++ sp).length, insertCol := (l ++ sp).length, dirty := true },
        if e.col < (l ++ r).length then .currentLine else .none, if e.col < (l ++ r).length then [] else [.write sp]⟩ := by
  have hn : (e.col + indentWidth) / indentWidth * indentWidth - e.col = 4 - e.col % 4 := by
    show (e.col + 4) / 4 * 4 - e.col = _; omega
  have hl : (l ++ sp).length = (e.col + indentWidth) / indentWidth * indentWidth := by
    rw [List.length_append, hsp, List.length_replicate, ← ha.col]
    show _ = (e.col + 4) / 4 * 4; omega
  have hc : (l ++ sp) ++ r = (l ++ r).take e.col ++ List.replicate ((e.col + indentWidth) / indentWidth * indentWidth - e.col) ' ' ++ (l ++ r).drop e.col := by
    rw [hn, ← hsp, ha.col]; simp
  rw [hc, ← ha.set, hl, ← ha.line]
  show e.tab = _
  unfold State.tab
  rw [ha.cur]
  simp only [Option.bind_eq_bind, Option.bind_some]
  rw [hn, ← hsp]
  rfl

theorem rel_tab (h : Rel b e) {A : List Str} {l r : Str} {B : List Str} (ha : At e.content e.line e.col b.doc A l r B) {sp : Str}
    (hsp : sp = List.replicate (4 - e.col % 4) ' ') :
    Rel (b.press H .tab) { e with content := A ++ ((l ++ sp) ++ r) :: B, line := A.length, col := (l ++ sp).length, insertCol := (l ++ sp).length, dirty := true } := by
  have hcl : Clean (A ++ ((l ++ sp) ++ r) :: B) := by
    refine clean_cur (by rw [← ha.content]; exact h.clean) fun x hx => ?_
    have hx' : x ∈ sp ∨ x ∈ l ++ r := by simp at hx ⊢; tauto
    rcases hx' with hx' | hx'
    · rw [hsp] at hx'; rw [List.eq_of_mem_replicate hx']; exact ⟨by decide, fun _ => by decide⟩
    · exact h.clean _ (by rw [ha.content]; simp) x hx'
  refine rel_edit h (k := .tab) ?_ hcl ?_
  · show Doc.aimed ⟨b.doc.before ++ List.replicate (4 - b.doc.col % 4) ' ', b.doc.after, b.doc.goal⟩ = _
    rw [ha.docCol h.clean, ← hsp, ha.before, ha.after]; simp
  · rw [ha.content, hsp]
    simp only [flat_length_append, flat_length_cons, List.length_append, List.length_replicate]
    have := Nat.mod_lt e.col (show 0 < 4 by decide)
    omega

theorem utf8Size_ascii {c : Char} (h : c.toNat < 128) : c.utf8Size = 1 := by
  unfold Char.utf8Size
  rw [if_pos]
  have : c.val.toNat < 128 := h
  exact UInt32.le_iff_toNat_le.2 (by show c.val.toNat ≤ 127; omega)

theorem byteLen_ascii {s : Str} (h : ∀ c ∈ s, c.toNat < 128) : byteLen s = s.length := by
  induction s with
  | nil => rfl
  | cons c s ih =>
    show c.utf8Size + byteLen s = _
    rw [ih fun x hx => h x (List.mem_cons_of_mem _ hx), utf8Size_ascii (h c List.mem_cons_self), List.length_cons]; omega

theorem takeWhile_mem {p : Char → Bool} : ∀ {s : Str} {c : Char}, c ∈ s.takeWhile p → c ∈ s ∧ p c = true
  | [], _, h => by cases h
  | x :: s, c, h => by
    rw [List.takeWhile_cons] at h
    split at h
    next hp =>
      rcases List.mem_cons.1 h with rfl | h1
      · exact ⟨List.mem_cons_self, hp⟩
      · exact ⟨List.mem_cons_of_mem _ (takeWhile_mem h1).1, (takeWhile_mem h1).2⟩
    next => cases h

theorem byteLen_indent {s : Str} (h : ∀ c ∈ s, Typable c) : byteLen (copyIndent s) = (copyIndent s).length :=
  byteLen_ascii fun _ hc => (h _ (takeWhile_mem hc).1).2 (takeWhile_mem hc).2

theorem step_newLine (h : Rel b e) {A : List Str} {l r : Str} {B : List Str} (ha : At e.content e.line e.col b.doc A l r B) {ind : Str}
    (hi : ind = copyIndent (l ++ r)) : e.press W H .newLine = some
      ⟨{ e with content := (A ++ [l]) ++ (ind ++ r) :: B, line := (A ++ [l]).length, col := ind.length, insertCol := ind.length, dirty := true },
        if e.line + 1 = e.content.length ∧ e.col = (l ++ r).length then .none else .full, []⟩ := by
  have hb : byteLen (copyIndent (l ++ r)) = ind.length := by
    rw [hi]; exact byteLen_indent (h.clean _ (by rw [ha.content]; simp))
  show e.newLine = _
  unfold State.newLine
  rw [ha.cur]
  simp only [Option.bind_eq_bind, Option.bind_some, hb]
  have ht : (l ++ r).take e.col = l := by rw [ha.col]; simp
  have hd : (l ++ r).drop e.col = r := by rw [ha.col]; simp
  have hins : insertLine (e.content.set e.line ((l ++ r).take e.col)) (e.line + 1) (copyIndent (l ++ r) ++ (l ++ r).drop e.col) =
      some ((A ++ [l]) ++ (ind ++ r) :: B) := by
    rw [ha.set, ht, hd, insertLine, if_pos (by rw [ha.line]; simp), hi, ha.line]
    congr 1
    rw [List.take_append, List.drop_append]
    simp [List.take_of_length_le, List.drop_of_length_le]
  rw [hins]
  have hl : (A ++ [l]).length = e.line + 1 := by rw [ha.line]; simp
  rw [hl]
  rfl

theorem rel_newLine (h : Rel b e) {A : List Str} {l r : Str} {B : List Str} (ha : At e.content e.line e.col b.doc A l r B) {ind : Str}
    (hi : ind = copyIndent (l ++ r)) {k : Key} (hk : k = .newLine ∨ k = .carriageReturn) :
    Rel (b.press H k) { e with content := (A ++ [l]) ++ (ind ++ r) :: B, line := (A ++ [l]).length, col := ind.length, insertCol := ind.length, dirty := true } := by
  have hcur : ∀ c ∈ l ++ r, Typable c := h.clean _ (by rw [ha.content]; simp)
  have hcl : Clean ((A ++ [l]) ++ (ind ++ r) :: B) := by
    refine clean_cur (l := l) (r := r) ?_ fun x hx => ?_
    · intro y hy
      have hy' : y ∈ e.content ∨ y = l := by rw [ha.content]; simp at hy ⊢; tauto
      rcases hy' with hy' | rfl
      · exact h.clean y hy'
      · exact fun c hc => hcur c (List.mem_append_left _ hc)
    · rcases List.mem_append.1 hx with h1 | h1
      · rw [hi] at h1; exact hcur x (takeWhile_mem h1).1
      · exact hcur x (List.mem_append_right _ h1)
  refine rel_edit h (k := k) ?_ hcl ?_
  · have hd : b.doc.press H k = Doc.aimed ⟨b.doc.before ++ '\n' :: b.doc.line.takeWhile isWhite, b.doc.after, b.doc.goal⟩ := by
      rcases hk with rfl | rfl <;> rfl
    rw [hd, ha.docLine h.clean, show (l ++ r).takeWhile isWhite = ind from hi.symm, ha.before, ha.after, flat_append]
    simp [flat]
  · rw [ha.content]
    simp only [flat_length_append, flat_length_cons, List.length_append, List.append_assoc, List.singleton_append]
    omega

theorem join_ok {A : List Str} {x y : Str} {B : List Str} (hc : e.content = A ++ x :: y :: B) :
    e.joinNextLineInto A.length = some { e with content := A ++ (x ++ y) :: B, dirty := true } := by
  unfold State.joinNextLineInto removeLine
  have h1 : e.content[A.length + 1]? = some y := by rw [hc]; simp
  have h2 : e.content.take (A.length + 1) ++ e.content.drop (A.length + 1 + 1) = A ++ x :: B := by
    have e1 : e.content = (A ++ [x]) ++ y :: B := by rw [hc]; simp
    have e2 : e.content = (A ++ [x, y]) ++ B := by rw [hc]; simp
    have t1 : e.content.take (A.length + 1) = A ++ [x] := by
      rw [e1, show A.length + 1 = (A ++ [x]).length by simp, List.take_left]
    have t2 : e.content.drop (A.length + 1 + 1) = B := by
      rw [e2, show A.length + 1 + 1 = (A ++ [x, y]).length by simp, List.drop_left]
    rw [t1, t2]; simp
  rw [h1]
  simp only [Option.bind_eq_bind, Option.bind_some, h2]
  have h3 : (A ++ x :: B)[A.length]? = some x := by simp
  rw [h3]
  simp

/-- An edit of the text after the cursor. -/
theorem rel_after (h : Rel b e) {A : List Str} {l r : Str} {B : List Str} (ha : At e.content e.line e.col b.doc A l r B) {r' : Str} {B' : List Str} {k : Key}
    (hk : b.doc.press H k = ⟨flat A ++ l, r' ++ '\n' :: flat B', b.doc.goal⟩) (hc : Clean (A ++ (l ++ r') :: B'))
    (hne : (flat (A ++ (l ++ r') :: B')).length ≠ (flat e.content).length) :
    Rel (b.press H k) { e with content := A ++ (l ++ r') :: B', dirty := true } := by
  have ha' : At (A ++ (l ++ r') :: B') e.line e.col (b.doc.press H k) A l r' B' :=
    ⟨rfl, ha.line, ha.col, by rw [hk], by rw [hk]⟩
  rw [press_changed (by rw [ha'.text, ha.text]; exact hne)]
  refine ⟨h.name, rfl, ?_, hc, A, l, r', B', ha'⟩
  show e.insertCol = (b.doc.press H k).goal
  rw [hk]
  exact h.goal

/-- What the delete key does. -/
theorem delete_ok (h : Rel b e) {A : List Str} {l r : Str} {B : List Str} (ha : At e.content e.line e.col b.doc A l r B)
    {k : Key} (hk : k = .delete ∨ k = .eofOrDelete) :
    (∃ c r', r = c :: r' ∧ e.press W H k = some ⟨{ e with content := A ++ (l ++ r') :: B, dirty := true },
        if r' = [] then .none else .full, if r' = [] then [.hideCursor, .clear .untilNewLine, .showCursor] else []⟩ ∧
      Rel (b.press H k) { e with content := A ++ (l ++ r') :: B, dirty := true }) ∨
    (∃ e', e.press W H k = some ⟨e', .full, []⟩ ∧ Rel (b.press H k) e') ∨
    (e.press W H k = some ⟨e, .none, []⟩ ∧ Rel (b.press H k) e) := by
  have hp : e.press W H k = e.delete := by rcases hk with rfl | rfl <;> rfl
  have hd : b.doc.press H k = if b.doc.after.length ≤ 1 then b.doc else ⟨b.doc.before, b.doc.after.tail, b.doc.goal⟩ := by
    rcases hk with rfl | rfl <;> rfl
  have hclean : Clean (A ++ (l ++ r) :: B) := by rw [← ha.content]; exact h.clean
  rw [hp]
  unfold State.delete
  rw [ha.cur]
  simp only [Option.bind_eq_bind, Option.bind_some]
  cases r with
  | cons c r' =>
    left
    refine ⟨c, r', rfl, ?_, ?_⟩
    · rw [if_pos (by rw [ha.col]; simp)]
      have hrm : lineRemove (l ++ c :: r') e.col = l ++ r' := by rw [ha.col]; simp [lineRemove, List.drop_append]
      rw [hrm, ha.set]
      cases r' with
      | nil => rw [if_neg (by rw [ha.col]; simp)]; rfl
      | cons d r'' => rw [if_pos (by rw [ha.col]; simp)]; rfl
    · refine rel_after h ha ?_ (clean_cur hclean fun x hx => ?_) ?_
      · rw [hd, if_neg (by rw [ha.after]; simp), ha.before, ha.after]; rfl
      · exact hclean (l ++ c :: r') (by simp) x (by simp at hx ⊢; tauto)
      · rw [ha.content]; simp only [flat_length_append, flat_length_cons, List.length_append, List.length_cons]; omega
  | nil =>
    right
    rw [if_neg (by rw [ha.col]; simp)]
    cases B with
    | nil =>
      right
      rw [if_neg (by rw [ha.length, ha.line]; simp)]
      refine ⟨rfl, ?_⟩
      have hs : b.doc.press H k = b.doc := by rw [hd, if_pos (by rw [ha.after]; simp [flat])]
      rw [press_same (by rw [hs]), hs]
      exact ⟨h.name, h.dirty, h.goal, h.clean, A, l, [], [], ha⟩
    | cons y B' =>
      left
      rw [if_pos (by rw [ha.length, ha.line]; simp)]
      have hj : e.joinNextLineInto e.line = some { e with content := A ++ ((l ++ []) ++ y) :: B', dirty := true } := by
        have := join_ok ha.content
        rwa [← ha.line] at this
      rw [hj, List.append_nil]
      refine ⟨_, rfl, ?_⟩
      refine rel_after h ha (r' := y) (B' := B') ?_ ?_ ?_
      · rw [hd, if_neg (by rw [ha.after]; simp [flat]), ha.before, ha.after]; rfl
      · intro z hz
        have hz' : z ∈ A ++ (l ++ []) :: y :: B' ∨ z = l ++ y := by simp at hz ⊢; tauto
        rcases hz' with hz' | rfl
        · exact hclean z hz'
        · intro c hc
          rcases List.mem_append.1 hc with h1 | h1
          · exact hclean (l ++ []) (by simp) c (by simpa using h1)
          · exact hclean y (by simp) c h1
      · rw [ha.content]; simp only [flat_length_append, flat_length_cons, List.length_append, List.length_nil]; omega

theorem repeat_remove (r : Str) : ∀ (n : Nat) (l : Str), n ≤ l.length →
    Nat.repeat (fun p : Str × Nat => (lineRemove p.1 (p.2 - 1), p.2 - 1)) n (l ++ r, l.length) = (l.take (l.length - n) ++ r, l.length - n)
  | 0, l, _ => by simp [Nat.repeat]
  | n + 1, l, h => by
    rw [Nat.repeat, repeat_remove r n l (by omega)]
    show (lineRemove _ (l.length - n - 1), l.length - n - 1) = _
    have h1 : l.length - n - 1 = l.length - (n + 1) := by omega
    have h2 : l.take (l.length - n) = l.take (l.length - (n + 1)) ++ (l.drop (l.length - (n + 1))).take 1 := by
      have : l.length - n = (l.length - (n + 1)) + 1 := by omega
      rw [this, List.take_add]
    have h3 : ((l.drop (l.length - (n + 1))).take 1).length = 1 := by
      rw [List.length_take, List.length_drop]; omega
    rw [h1]
    congr 1
    unfold lineRemove
    rw [h2]
    generalize hx : (l.drop (l.length - (n + 1))).take 1 = x at h3
    generalize hy : l.take (l.length - (n + 1)) = y
    have hyl : y.length = l.length - (n + 1) := by rw [← hy, List.length_take]; omega
    rw [← hyl]
    match x, h3 with
    | [c], _ => simp [List.drop_append, List.take_append]

theorem indent_iff {l r : Str} : findIndentEnd (l ++ r) ≥ l.length ↔ ∀ c ∈ l, c = ' ' := by
  induction l with
  | nil => simp
  | cons c l ih =>
    show l.length + 1 ≤ ((c :: (l ++ r)).takeWhile (· == ' ')).length ↔ _
    rw [List.takeWhile_cons]
    by_cases hc : c = ' '
    · rw [if_pos (by simpa using hc), List.length_cons, Nat.add_le_add_iff_right]
      refine Iff.trans ih ?_
      simp [hc]
    · rw [if_neg (by simpa using hc)]
      simp [hc]

/-- What the backspace key does. -/
theorem backspace_ok (h : Rel b e) {A : List Str} {l r : Str} {B : List Str} (ha : At e.content e.line e.col b.doc A l r B) :
    (∃ n, 0 < n ∧ n ≤ l.length ∧ e.press W H .backspace = some
        ⟨{ e with content := A ++ (l.take (l.length - n) ++ r) :: B, line := A.length, col := (l.take (l.length - n)).length, insertCol := (l.take (l.length - n)).length, dirty := true },
          if r = [] then .none else .currentLine,
          if r = [] then [.hideCursor] ++ List.replicate n (.clear .previousChar) ++ [.showCursor] else []⟩ ∧
      Rel (b.press H .backspace) { e with content := A ++ (l.take (l.length - n) ++ r) :: B, line := A.length, col := (l.take (l.length - n)).length, insertCol := (l.take (l.length - n)).length, dirty := true }) ∨
    (∃ e', e.press W H .backspace = some ⟨e', .full, []⟩ ∧ Rel (b.press H .backspace) e') ∨
    (∃ e', e.press W H .backspace = some ⟨e', .none, []⟩ ∧ Rel (b.press H .backspace) e' ∧ e' = { e with insertCol := e'.insertCol }) := by
  have hclean : Clean (A ++ (l ++ r) :: B) := by rw [← ha.content]; exact h.clean
  by_cases hl : l = []
  · right
    have hd : b.doc.press H .backspace = Doc.aimed ⟨b.doc.before.dropLast, b.doc.after, b.doc.goal⟩ := by
      show (if b.doc.left ≠ [] ∧ _ then _ else _) = _
      rw [if_neg (by rw [ha.left h.clean]; exact fun hx => hx.1 hl)]
    have hp : e.press W H .backspace = if e.line > 0 then _ else some ⟨{ e with insertCol := e.col }, .none, []⟩ :=
      if_neg (by rw [ha.col, hl]; simp)
    rcases List.eq_nil_or_concat A with rfl | ⟨A', x, rfl⟩
    · right
      refine ⟨_, by rw [hp, if_neg (by rw [ha.line]; simp)], ?_, rfl⟩
      have hs : b.doc.press H .backspace = ⟨b.doc.before, b.doc.after, 0⟩ := by
        rw [hd, ha.before, hl]; rfl
      rw [press_same (by rw [hs]; rfl), hs]
      refine ⟨h.name, h.dirty, ?_, h.clean, [], l, r, B, ha.content, ha.line, ha.col, ha.before, ha.after⟩
      show e.col = 0
      rw [ha.col, hl]; rfl
    · left
      rw [List.concat_eq_append] at ha hclean
      have hline : e.line - 1 = A'.length := by rw [ha.line]; simp
      have hprev : e.content[e.line - 1]? = some x := by rw [ha.content, hline]; simp
      have hcont : e.content = A' ++ x :: (l ++ r) :: B := by rw [ha.content]; simp
      have hj : ({ e with col := x.length } : State).joinNextLineInto (e.line - 1) =
          some { e with col := x.length, content := A' ++ (x ++ (l ++ r)) :: B, dirty := true } := by
        rw [hline]; exact join_ok (e := { e with col := x.length }) hcont
      refine ⟨{ e with content := A' ++ (x ++ r) :: B, line := A'.length, col := x.length, insertCol := x.length, dirty := true }, ?_, ?_⟩
      · rw [hp, if_pos (by rw [ha.line]; simp), hprev]
        simp only [Option.bind_eq_bind, Option.bind_some, hj]
        rw [hl, List.nil_append]
        show some (⟨{ e with content := _, line := e.line - 1, col := _, insertCol := _, dirty := _ }, _, _⟩ : Step) = _
        rw [hline]
      · refine rel_edit h (l' := x) (r' := r) ?_ ?_ ?_
        · rw [hd, ha.before, ha.after, hl, flat_append]
          simp [flat, List.dropLast_append_of_ne_nil]
        · intro z hz
          have hz' : z ∈ A' ++ [x] ++ (l ++ r) :: B ∨ z = x ++ r := by simp at hz ⊢; tauto
          rcases hz' with hz' | rfl
          · exact hclean z hz'
          · intro c hc
            rcases List.mem_append.1 hc with h1 | h1
            · exact hclean x (by simp) c h1
            · exact hclean (l ++ r) (by simp) c (List.mem_append_right _ h1)
        · rw [hcont, hl]; simp only [flat_length_append, flat_length_cons, List.length_append, List.length_nil]; omega
  · left
    have hpos : 0 < l.length := List.length_pos_iff.2 hl
    obtain ⟨n, hn⟩ : ∃ n, n = if findIndentEnd (l ++ r) ≥ e.col then e.col - (e.col - 1) / 4 * 4 else 1 := ⟨_, rfl⟩
    have hn0 : 0 < n ∧ n ≤ l.length := by
      rw [hn, ha.col]; split <;> omega
    refine ⟨n, hn0.1, hn0.2, ?_, ?_⟩
    · have hp : e.press W H .backspace = e.backspace := rfl
      rw [hp]
      unfold State.backspace
      rw [if_pos (by rw [ha.col]; exact hpos), ha.cur]
      simp only [Option.bind_eq_bind, Option.bind_some]
      have hnp : (if e.col ≥ indentWidth then (e.col - 1) / indentWidth * indentWidth else 0) = (e.col - 1) / 4 * 4 := by
        show (if e.col ≥ 4 then (e.col - 1) / 4 * 4 else 0) = _
        split <;> omega
      rw [hnp, ← hn]
      have hrep := repeat_remove r n l hn0.2
      rw [← ha.col] at hrep
      rw [hrep]
      have hlen : (l.take (l.length - n)).length = e.col - n := by rw [List.length_take, ha.col]; omega
      have htk : l.take (l.length - n) = l.take (e.col - n) := by rw [ha.col]
      rw [hlen, htk, ← ha.set, ← ha.line]
      by_cases hr : r = []
      · subst hr
        have hc : e.col = (l ++ []).length := by rw [ha.col]; simp
        simp only [if_pos hn0.1, gt_iff_lt, if_pos hc, if_true]
        rfl
      · have hrl : 0 < r.length := List.length_pos_iff.2 hr
        have hc : ¬ e.col = (l ++ r).length := by rw [ha.col, List.length_append]; omega
        simp only [if_pos hn0.1, gt_iff_lt, if_neg hc, if_neg hr]
        rfl
    · refine rel_edit h ?_ (clean_cur hclean fun x hx => ?_) ?_
      · have hsplit : ∀ m, m ≤ l.length → (flat A ++ l).take ((flat A ++ l).length - m) = flat A ++ l.take (l.length - m) := by
          intro m hm
          rw [List.take_append, List.length_append, List.take_of_length_le (by omega)]
          congr 2; omega
        have hcase : (∀ c ∈ l, c = ' ') ↔ findIndentEnd (l ++ r) ≥ e.col := by rw [ha.col]; exact indent_iff.symm
        show (if b.doc.left ≠ [] ∧ ∀ c ∈ b.doc.left, c = ' ' then _ else _) = _
        rw [ha.left h.clean, ha.docCol h.clean]
        split
        next hx =>
          rw [if_pos (hcase.1 hx.2)] at hn
          rw [← hn, ha.before, hsplit n hn0.2, ha.after]
        next hx =>
          have hx' : ¬ findIndentEnd (l ++ r) ≥ e.col := fun hy => hx ⟨hl, hcase.2 hy⟩
          rw [if_neg hx'] at hn
          rw [hn, ha.before, List.dropLast_eq_take, hsplit 1 (by omega), ha.after]
      · rcases List.mem_append.1 hx with h1 | h1
        · exact hclean (l ++ r) (by simp) x (List.mem_append_left _ (List.mem_of_mem_take h1))
        · exact hclean (l ++ r) (by simp) x (List.mem_append_right _ h1)
      · rw [ha.content]; simp only [flat_length_append, flat_length_cons, List.length_append, List.length_take]; omega

end

end EB.Edit
