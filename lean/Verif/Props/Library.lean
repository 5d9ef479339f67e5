import Verif.Model.Library
import Verif.Spec.Library
import Verif.Spec.Mem
import Verif.Props.Strings
import Verif.Props.Vm
import Mathlib.Data.List.Forall2
/-!
# C29, C30, C47, C48: small library commands
-/

namespace EB
open Spec

/-! ## C30 -/

theorem inBounds_set {dims : List Nat} {subs : List Int} (h : InBounds dims subs) {k : Nat} {d : Nat}
    (hd : dims[k]? = some d) (x : Int) : InBounds dims (subs.set k x) ↔ 0 ≤ x ∧ x < d := by
  induction dims generalizing subs k with
  | nil => simp at hd
  | cons d' ds ih =>
    match subs with
    | [] => exact absurd h id
    | s :: ss =>
      obtain ⟨h1, h2, h3⟩ := h
      cases k with
      | zero =>
        simp only [List.getElem?_cons_zero, Option.some.injEq] at hd
        subst hd
        simp only [List.set_cons_zero, InBounds, h3, and_true]
      | succ k =>
        simp only [List.getElem?_cons_succ] at hd
        simp only [List.set_cons_succ, InBounds, h1, h2, true_and]
        exact ih h3 hd

/-- **C30** For a 1-based dimension `k` of an array (or without a dimension for vectors), LBOUND and
UBOUND are the smallest and largest subscripts accepted in that position, whatever the other
subscripts. Arrays have positive dimensions below `2^31` (DIM takes 32-bit integers). -/
theorem C30_bounds_partial (dims : List Nat) (dim : Option Int) (k : Nat)
    (hdims : ∀ d ∈ dims, 0 < d ∧ d ≤ 2 ^ 31)
    (hk : dim = some ((k : Int) + 1) ∧ k < dims.length ∨ dim = none ∧ k = 0 ∧ dims.length = 1) :
    ∃ lb ub : Int, lboundFn dims dim = .ok lb ∧ uboundFn dims dim = .ok ub ∧
      ∀ subs x, InBounds dims subs → (InBounds dims (subs.set k x) ↔ lb ≤ x ∧ x ≤ ub) := by
  have hlt : k < dims.length := by omega
  have hb : boundDim dims dim = .ok (k + 1) := by
    rcases hk with ⟨rfl, h⟩ | ⟨rfl, rfl, h⟩
    · simp only [boundDim]
      rw [if_neg (by omega), if_neg (by omega)]
      congr 1
    · simp [boundDim, h]
  obtain ⟨d, hd⟩ : ∃ d, dims[k]? = some d := ⟨dims[k], List.getElem?_eq_getElem hlt⟩
  obtain ⟨h1, h2⟩ := hdims d (List.mem_of_getElem? hd)
  obtain ⟨e, rfl⟩ : ∃ e, d = e + 1 := ⟨d - 1, by omega⟩
  refine ⟨0, e, by simp [lboundFn, hb], ?_, ?_⟩
  · simp only [uboundFn, hb, hd]
    rw [asI32_small (by omega)]
  · intro subs x h
    rw [inBounds_set h hd]
    omega

/-- **C30** Dimension numbers below 0 or above the number of dimensions, and missing ones for
matrices, are errors. -/
theorem C30_errors (dims : List Nat) (dim : Option Int)
    (h : (∃ i, dim = some i ∧ (i < 0 ∨ (dims.length : Int) < i)) ∨ dim = none ∧ 1 < dims.length) :
    (∃ e, lboundFn dims dim = .error e) ∧ (∃ e, uboundFn dims dim = .error e) := by
  have : ∃ e, boundDim dims dim = .error e := by
    rcases h with ⟨i, rfl, h⟩ | ⟨rfl, h⟩
    · simp only [boundDim]
      split
      · exact ⟨_, rfl⟩
      · rw [if_pos (by omega)]; exact ⟨_, rfl⟩
    · simp only [boundDim]
      rw [if_pos h]; exact ⟨_, rfl⟩
  obtain ⟨e, he⟩ := this
  simp [lboundFn, uboundFn, he]

/-- **C30** Dimension 0 is not reported as an error: LBOUND accepts it and UBOUND crashes
(finding F12). -/
theorem C30_dimension_zero (dims : List Nat) :
    lboundFn dims (some 0) = .ok 0 ∧ uboundFn dims (some 0) = .panic := by
  simp [lboundFn, uboundFn, boundDim]

example : lboundFn [3, 5] (some 2) = .ok 0 ∧ uboundFn [3, 5] (some 2) = .ok 4 ∧
    InBounds [3, 5] [2, 4] ∧ ¬ InBounds [3, 5] [2, 5] := by
  refine ⟨by decide, by decide, by decide, by decide⟩

/-! ## C29 -/

/-- Conversion of a DATA item, with the default for empty items. -/
def convItem (F : FloatOps) (ty : ExprType) (d : Option ConstantDatum) : Except String ConstantDatum :=
  assignDatum F ty (d.getD (defaultDatum ty))

theorem readLoop_readFrom (F : FloatOps) (data : List (Option ConstantDatum)) (tys : List ExprType)
    (index : Nat) (hi : index ≤ data.length) :
    let r := readLoop F data index tys
    let s := readFrom (convItem F) "Out of data" (data.drop index) tys
    s = (data.drop r.1, r.2.1, r.2.2) ∧ r.1 ≤ data.length := by
  induction tys generalizing index with
  | nil => exact ⟨by simp [readFrom, readLoop], hi⟩
  | cons ty tys ih =>
    simp only [readLoop]
    by_cases hlt : index < data.length
    · rw [List.getElem?_eq_getElem hlt, List.drop_eq_getElem_cons hlt]
      simp only [readFrom, convItem]
      cases assignDatum F ty (data[index].getD (defaultDatum ty)) with
      | error e => exact ⟨rfl, hlt⟩
      | ok v =>
        have := ih (index + 1) hlt
        simp only at this ⊢
        obtain ⟨h1, h2⟩ := this
        rw [h1]
        exact ⟨rfl, h2⟩
    · have hd : data.drop index = [] := List.drop_of_length_le (by omega)
      rw [List.getElem?_eq_none (by omega), hd]
      exact ⟨by simp [readFrom], hi⟩

/-- Runs a sequence of commands, collecting the results of each. -/
def dataRun (F : FloatOps) (data : List (Option ConstantDatum)) :
    Nat → List DataOp → List (List ConstantDatum × Option String)
  | _, [] => []
  | i, o :: os => let r := dataOp F data i o; r.2 :: dataRun F data r.1 os

/-- What a sequence of commands must deliver: READ takes items from the front of the remaining
ones, RESTORE and CLEAR start over with all of them. -/
def dataSpec (F : FloatOps) (data : List (Option ConstantDatum)) :
    List (Option ConstantDatum) → List DataOp → List (List ConstantDatum × Option String)
  | _, [] => []
  | rest, .read tys :: os =>
    let r := readFrom (convItem F) "Out of data" rest tys
    r.2 :: dataSpec F data r.1 os
  | _, .restore :: os => ([], none) :: dataSpec F data data os
  | _, .clear :: os => ([], none) :: dataSpec F data data os

/-- **C29** Any sequence of READ, RESTORE and CLEAR delivers the DATA items in order. -/
theorem C29_data_cursor (F : FloatOps) (data : List (Option ConstantDatum)) (ops : List DataOp) :
    dataRun F data 0 ops = dataSpec F data data ops := by
  suffices h : ∀ i, i ≤ data.length → dataRun F data i ops = dataSpec F data (data.drop i) ops by
    simpa using h 0 (Nat.zero_le _)
  induction ops with
  | nil => intros; rfl
  | cons o os ih =>
    intro i hi
    cases o with
    | read tys =>
      obtain ⟨h1, h2⟩ := readLoop_readFrom F data tys i hi
      simp only [dataRun, dataOp, dataSpec]
      rw [h1, ih _ h2]
    | restore =>
      simp only [dataRun, dataOp, dataSpec]
      rw [ih 0 (Nat.zero_le _)]; rfl
    | clear =>
      simp only [dataRun, dataOp, dataSpec]
      rw [ih 0 (Nat.zero_le _)]; rfl

/-- **C29** The value read has the type of the variable. -/
theorem C29_types (F : FloatOps) (ty : ExprType) (d : Option ConstantDatum) (v : ConstantDatum)
    (h : convItem F ty d = .ok v) : v.etype = ty := by
  unfold convItem assignDatum at h
  split at h <;> first | (simp only [Except.ok.injEq] at h; subst h; rfl) | (split at h <;> simp at h; try (subst h; rfl)) | (simp at h)

/-- **C29** Values of the right type are delivered unchanged, and empty items as the default. -/
theorem C29_values (F : FloatOps) (ty : ExprType) :
    (∀ d : ConstantDatum, d.etype = ty → convItem F ty (some d) = .ok d) ∧
    convItem F ty none = .ok (match ty with
      | .boolean => .boolean false | .double => .double 0 | .integer => .integer 0 | .text => .text []) := by
  constructor
  · intro d hd
    cases d <;> simp only [ConstantDatum.etype] at hd <;> subst hd <;> rfl
  · cases ty <;> rfl

example : dataRun noFloat [some (.integer 3), none, some (.text ['a'])] 0
    [.read [.integer, .boolean], .restore, .read [.integer], .read [.text, .text]] =
    [([.integer 3, .boolean false], none), ([], none), ([.integer 3], none), ([.text [], .text ['a']], none)] := by
  decide

/-! ## C47 -/

theorem splitWords_spec (cur s : Str) (hc : ∀ c ∈ cur, isWhite c = false) :
    WordsOf isWhite (cur.reverse ++ s) (splitWords cur s) := by
  induction s generalizing cur with
  | nil =>
    unfold splitWords
    split
    next h => simp at h; subst h; exact .nil
    next h =>
      exact .word _ _ _ (by simpa using h) (by simpa using hc) (by simp) .nil
  | cons c s ih =>
    unfold splitWords
    split
    next hw =>
      split
      next h => simp at h; subst h; exact .sep _ _ _ hw (ih [] (by simp))
      next h =>
        refine .word _ _ _ (by simpa using h) (by simpa using hc) ?_ (.sep _ _ _ hw (ih [] (by simp)))
        intro d hd; simp at hd; subst hd; exact hw
    next hw =>
      have := ih (c :: cur) (by simpa using ⟨by simpa using hw, hc⟩)
      simpa using this

theorem words_nil {ws : List Str} (h : WordsOf isWhite [] ws) : ws = [] := by
  generalize hs : ([] : Str) = s at h
  induction h with
  | nil => rfl
  | sep c s ws hc h ih => simp at hs
  | word a s ws ha => simp at hs; exact absurd hs.1 ha

theorem splitWords_unique {s : Str} {ws : List Str} (h : WordsOf isWhite s ws) (cur : Str) :
    splitWords cur s = (match cur, s, ws with
      | [], _, ws => ws
      | cur, [], _ => [cur.reverse]
      | cur, c :: _, ws => if isWhite c then cur.reverse :: ws
          else match ws with
            | [] => []
            | w :: ws => (cur.reverse ++ w) :: ws) := by
  induction h generalizing cur with
  | nil => cases cur <;> simp [splitWords]
  | sep c s ws hc h ih =>
    unfold splitWords
    rw [if_pos hc]
    have := ih []
    simp only at this
    rw [this]
    cases cur with
    | nil => simp
    | cons a cur => simp [hc]
  | word a s ws ha hall hs h ih =>
    have aux : ∀ (a cur : Str), (∀ c ∈ a, isWhite c = false) → (a ≠ [] ∨ cur ≠ []) →
        splitWords cur (a ++ s) = (cur.reverse ++ a) :: ws := by
      intro a
      induction a with
      | nil =>
        intro cur _ hcur
        simp only [ne_eq, not_true_eq_false, false_or] at hcur
        simp only [List.nil_append, List.append_nil]
        rw [ih cur]
        match cur, hcur with
        | x :: xs, _ =>
          match s, hs, h with
          | [], _, h => have e := words_nil h; subst e; rfl
          | y :: ys, hs, _ => simp [hs y rfl]
      | cons b a ihA =>
        intro cur hb _
        simp only [List.cons_append]
        unfold splitWords
        rw [if_neg (by simp [hb b])]
        rw [ihA (b :: cur) (fun c hc => hb c (by simp [hc])) (by simp)]
        simp
    match a, ha with
    | b :: a, _ =>
      rw [aux (b :: a) cur hall (by simp)]
      cases cur with
      | nil => simp
      | cons x cur => simp [hall b]

theorem wordsOf_append_word {s : Str} {ws : List Str} (h : WordsOf isWhite s ws) (n : Nat) (hn : 0 < n) (w : Str)
    (hw : w ≠ []) (hw' : ∀ c ∈ w, isWhite c = false) :
    WordsOf isWhite (s ++ List.replicate n ' ' ++ w) (ws ++ [w]) := by
  have tail : ∀ n, WordsOf isWhite (List.replicate n ' ' ++ w) [w] := by
    intro n
    induction n with
    | zero => simpa using WordsOf.word w [] [] hw hw' (by simp) .nil
    | succ n ih => exact .sep _ _ _ (by decide) ih
  induction h with
  | nil => simpa using tail n
  | sep c s ws hc h ih => simp only [List.cons_append]; exact .sep _ _ _ hc ih
  | word a s ws ha hall hs h ih =>
    rw [List.append_assoc, List.append_assoc]
    refine .word _ _ _ ha hall ?_ (by simpa using ih)
    intro c hc
    match s, hs with
    | [], _ =>
      obtain ⟨m, rfl⟩ : ∃ m, n = m + 1 := ⟨n - 1, by omega⟩
      simp [List.replicate_succ] at hc; subst hc; decide
    | d :: s, hs => simp at hc; exact hs c (by simp [hc])

theorem byteLen_replicate (n : Nat) : byteLen (List.replicate n ' ') = n := by
  induction n with
  | zero => rfl
  | succ n ih => simp [List.replicate_succ, byteLen, ih]; rw [show Char.utf8Size ' ' = 1 from rfl]; omega

theorem spacesBetween_pos (l w : Str) : 1 ≤ spacesBetween l w ∧ spacesBetween l w ≤ 2 := by
  unfold spacesBetween
  split
  · split
    · omega
    · split <;> omega
  · omega

/-- A line made of at least two words is shorter than the width. -/
def LineOk (width : Nat) (line : Str) : Prop :=
  ∀ ws, WordsOf isWhite line ws → 2 ≤ ws.length → byteLen line < width

theorem wordsOf_unique {s : Str} {ws ws' : List Str} (h : WordsOf isWhite s ws) (h' : WordsOf isWhite s ws') :
    ws = ws' := by
  have e1 := splitWords_unique h []
  have e2 := splitWords_unique h' []
  simp only at e1 e2
  rw [← e1, e2]

theorem refillLoop_spec (width : Nat) (words : List Str)
    (hw : ∀ w ∈ words, w ≠ [] ∧ ∀ c ∈ w, isWhite c = false) (line : Str) (lws : List Str)
    (hl : WordsOf isWhite line lws) (hlne : line = [] ↔ lws = []) (hok : LineOk width line) :
    ∃ wss : List (List Str), List.Forall₂ (WordsOf isWhite) (refillLoop width line words) wss ∧
      wss.flatten = lws ++ words ∧ (∀ l ∈ refillLoop width line words, LineOk width l ∧ l ≠ []) := by
  induction words generalizing line lws with
  | nil =>
    unfold refillLoop
    split
    next h =>
      simp at h; subst h
      have := hlne.mp rfl
      exact ⟨[], .nil, by simp [this], by simp⟩
    next h =>
      refine ⟨[lws], .cons hl .nil, by simp, ?_⟩
      intro l hl'; simp at hl'; subst hl'
      exact ⟨hok, by simpa using h⟩
  | cons w words ih =>
    have hw1 := hw w (by simp)
    have hwW : WordsOf isWhite w [w] := by
      simpa using WordsOf.word w [] [] hw1.1 hw1.2 (by simp) .nil
    have hwok : LineOk width w := by
      intro ws h1 h2
      rw [← wordsOf_unique hwW h1] at h2; simp at h2
    have hw2 : ∀ x ∈ words, x ≠ [] ∧ ∀ c ∈ x, isWhite c = false := fun x hx => hw x (by simp [hx])
    unfold refillLoop
    split
    next h =>
      simp at h; subst h
      have h0 := hlne.mp rfl
      subst h0
      simpa using ih hw2 w [w] hwW (by simp [hw1.1]) hwok
    next h =>
      simp only
      split
      next hge =>
        obtain ⟨wss, h1, h2, h3⟩ := ih hw2 w [w] hwW (by simp [hw1.1]) hwok
        refine ⟨lws :: wss, .cons hl h1, by simp [h2], ?_⟩
        intro l hl'
        simp only [List.mem_cons] at hl'
        rcases hl' with rfl | hl'
        · exact ⟨hok, by simpa using h⟩
        · exact h3 l hl'
      next hlt =>
        have hsp := spacesBetween_pos line w
        have hW := wordsOf_append_word hl (spacesBetween line w) (by omega) w hw1.1 hw1.2
        obtain ⟨wss, h1, h2, h3⟩ := ih hw2 (line ++ List.replicate (spacesBetween line w) ' ' ++ w) (lws ++ [w]) hW
          (by simp [hw1.1]) (by
            intro ws _ _
            simp only [byteLen_append, byteLen_replicate]
            omega)
        exact ⟨wss, h1, by simp [h2], h3⟩

theorem splitWords_words (cur s : Str) (hc : ∀ c ∈ cur, isWhite c = false) :
    ∀ w ∈ splitWords cur s, w ≠ [] ∧ ∀ c ∈ w, isWhite c = false := by
  induction s generalizing cur with
  | nil =>
    intro w hw
    unfold splitWords at hw
    split at hw
    · simp at hw
    next h => simp at hw; subst hw; exact ⟨by simpa using h, by simpa using hc⟩
  | cons c s ih =>
    intro w hw
    unfold splitWords at hw
    split at hw
    · split at hw
      · exact ih [] (by simp) w hw
      next h =>
        simp only [List.mem_cons] at hw
        rcases hw with rfl | hw
        · exact ⟨by simpa using h, by simpa using hc⟩
        · exact ih [] (by simp) w hw
    next hcw => exact ih (c :: cur) (by simpa using ⟨by simpa using hcw, hc⟩) w hw

/-- **C47** Refilling keeps the words of the paragraph, in order and unsplit, and only lines that
consist of a single word can reach the width. -/
theorem C47_refill (paragraph : Str) (width : Nat) (ws : List Str) (h : WordsOf isWhite paragraph ws) :
    ∃ wss : List (List Str), List.Forall₂ (WordsOf isWhite) (refill paragraph width) wss ∧ wss.flatten = ws ∧
      ∀ line ∈ refill paragraph width, ∀ lws, WordsOf isWhite line lws → 2 ≤ lws.length → byteLen line < width := by
  unfold refill
  split
  next he =>
    simp at he; subst he
    have := words_nil h
    subst this
    refine ⟨[[]], .cons .nil .nil, rfl, ?_⟩
    intro line hl lws h1 h2
    simp at hl; subst hl
    rw [words_nil h1] at h2; simp at h2
  · have hws : splitWords [] paragraph = ws := by simpa using splitWords_unique h []
    obtain ⟨wss, h1, h2, h3⟩ := refillLoop_spec width (splitWords [] paragraph)
      (splitWords_words [] paragraph (by simp)) [] [] .nil (by simp) (by
        intro ws' h' hlen; rw [words_nil h'] at hlen; simp at hlen)
    exact ⟨wss, h1, by rw [h2, hws]; rfl, fun l hl => (h3 l hl).1⟩

/-- **C47** Every text has words, so the theorem above always applies. -/
theorem C47_words_exist (s : Str) : ∃ ws, WordsOf isWhite s ws := ⟨_, splitWords_spec [] s (by simp)⟩

/-- **C47** Consoles narrower than the margins crash the help text formatter: the claim holds only
from a minimum width. -/
theorem C47_narrow_counterexample : refillOne "    ".toList 7 "hello".toList = none := by decide

theorem C47_indented (indent paragraph : Str) (width : Nat)
    (h : 4 + byteLen indent + paragraph.length ≤ width) : (refillOne indent width paragraph).isSome := by
  have e : byteLen ((paragraph.takeWhile isWhite).map fun _ => ' ') ≤ paragraph.length := by
    have : ((paragraph.takeWhile isWhite).map fun _ => ' ') = List.replicate (paragraph.takeWhile isWhite).length ' ' := by
      simp
    rw [this, byteLen_replicate]
    exact (List.takeWhile_prefix _).length_le
  simp only [refillOne]
  rw [if_neg (by omega)]
  rfl

example : refill "One two. Three four five".toList 12 =
    ["One two.".toList, "Three four".toList, "five".toList] := by decide +kernel

/-! ## C48 -/

/-- The largest number of rows of a console of width `x` printed since the last prompt (or the
start), given the column and the rows printed so far. -/
def maxRows (x : Nat) : Nat → Nat → List PagerOut → Nat
  | _, r, [] => r
  | c, r, .write t :: os => maxRows x (c + t.length) r os
  | c, r, .print t :: os => max r (maxRows x 0 (r + rows x (c + t.length)) os)
  | _, r, .more :: os => max r (maxRows x 0 0 os)

/-- Every line that is printed takes at most `R` rows. -/
def LinesFit (x R : Nat) : Nat → List PagerOp → Prop
  | _, [] => True
  | c, .write t :: os => LinesFit x R (c + t.length) os
  | c, .print t :: os => rows x (c + t.length) ≤ R ∧ LinesFit x R 0 os

theorem length_le_byteLen (s : Str) : s.length ≤ byteLen s := by
  induction s with
  | nil => simp [byteLen]
  | cons c s ih => have := utf8Size_pos' c; simp [byteLen]; omega

theorem rows_le {x n m : Nat} (hx : 0 < x) (h : n ≤ m) : rows x n ≤ m / x + 1 := by
  unfold rows
  have h1 : (n + x - 1) / x ≤ (m + x) / x := Nat.div_le_div_right (by omega)
  rw [Nat.add_div_right _ hx] at h1
  have := Nat.zero_le (m / x)
  exact Nat.max_le.mpr ⟨by omega, h1⟩

theorem pager_maxRows (keys : Nat → PagerKey) (R : Nat) (hR : 1 ≤ R) (ops : List PagerOp) (p : Pager) (n c r : Nat)
    (hx : 0 < p.x) (hc : c ≤ p.curColumns) (hr : r ≤ p.curLines) (hr' : r ≤ p.y - 2)
    (hfit : LinesFit p.x R c ops) :
    maxRows p.x c r (p.run keys n ops).1 ≤ (p.y - 2) + R := by
  induction ops generalizing p n c r with
  | nil => simp only [Pager.run, maxRows]; omega
  | cons o os ih =>
    cases o with
    | write t =>
      have := ih { p with curColumns := p.curColumns + byteLen t } (n + 1) (c + t.length) r hx
        (by have := length_le_byteLen t; simp only; omega) hr hr' hfit
      simpa [Pager.run, Pager.op, maxRows] using this
    | print t =>
      obtain ⟨h1, h2⟩ := hfit
      have hrows := rows_le (n := c + t.length) (m := p.curColumns + byteLen t) hx
        (by have := length_le_byteLen t; omega)
      simp only [Pager.run, Pager.op]
      split
      next hge =>
        cases keys n with
        | stop =>
          simp only [if_true, maxRows]
          omega
        | go =>
          have := ih { p with curColumns := 0, curLines := 0 } (n + 1) 0 0 hx (by simp) (by simp) (by simp) h2
          simp only [Bool.false_eq_true, if_false, List.cons_append, List.nil_append, maxRows]
          simp only at this
          omega
      next hlt =>
        have := ih { p with curColumns := 0, curLines := p.curLines + (p.curColumns + byteLen t) / p.x + 1 } (n + 1) 0
          (r + rows p.x (c + t.length)) hx (by simp) (by simp only; omega) (by simp only; omega) h2
        simp only [Bool.false_eq_true, if_false, List.cons_append, List.nil_append, maxRows]
        simp only at this
        omega

/-- **C48** When no printed line is wider than the console, at most one screen minus one row is
printed between prompts, so nothing scrolls away unseen (`y` is at least 2 on real consoles). -/
theorem C48_pages_partial (x y : Nat) (hx : 0 < x) (hy : 2 ≤ y) (keys : Nat → PagerKey) (ops : List PagerOp)
    (hfit : LinesFit x 1 0 ops) :
    maxRows x 0 0 ((Pager.mk x y 0 0).run keys 0 ops).1 ≤ y - 1 := by
  have := pager_maxRows keys 1 (by omega) ops (Pager.mk x y 0 0) 0 0 0 hx (by simp) (by simp) (by simp) hfit
  simp only at this
  omega

/-- **C48** In general the excess is bounded by the longest line. -/
theorem C48_pages_wrapped (x y R : Nat) (hx : 0 < x) (hR : 1 ≤ R) (keys : Nat → PagerKey) (ops : List PagerOp)
    (hfit : LinesFit x R 0 ops) :
    maxRows x 0 0 ((Pager.mk x y 0 0).run keys 0 ops).1 ≤ (y - 2) + R :=
  pager_maxRows keys R hR ops (Pager.mk x y 0 0) 0 0 0 hx (by simp) (by simp) (by simp) hfit

/-- **C48** Without that assumption the claim is false: a line that wraps, printed when the screen
is nearly full, scrolls text away that was never followed by a prompt. -/
theorem C48_counterexample :
    ¬ ∀ (x y : Nat) (keys : Nat → PagerKey) (ops : List PagerOp), 0 < x → 2 ≤ y →
      maxRows x 0 0 ((Pager.mk x y 0 0).run keys 0 ops).1 ≤ y := by
  intro h
  have := h 2 4 (fun _ => .go) [.print ['a'], .print ['a'], .print (List.replicate 7 'b')] (by omega) (by omega)
  revert this
  decide

/-- The texts that reached the console. -/
def shown : List PagerOut → List PagerOp
  | [] => []
  | .print t :: os => .print t :: shown os
  | .write t :: os => .write t :: shown os
  | .more :: os => shown os

theorem shown_append (a b : List PagerOut) : shown (a ++ b) = shown a ++ shown b := by
  induction a with
  | nil => rfl
  | cons o a ih => cases o <;> simp [shown, ih]

/-- **C48** Everything requested is shown, in order, unless the user answers a prompt with ESC or
Ctrl+C, in which case that prompt is the last output. -/
theorem C48_stop (p : Pager) (keys : Nat → PagerKey) (n : Nat) (ops : List PagerOp) :
    ((p.run keys n ops).2 = false → shown (p.run keys n ops).1 = ops) ∧
    ((p.run keys n ops).2 = true → ∃ k, k < ops.length ∧ shown (p.run keys n ops).1 = ops.take (k + 1) ∧
      keys (n + k) = .stop ∧ (p.run keys n ops).1.getLast? = some .more) := by
  induction ops generalizing p n with
  | nil => simp [Pager.run, shown]
  | cons o os ih =>
    simp only [Pager.run]
    cases o with
    | write t =>
      simp only [Pager.op, Bool.false_eq_true, if_false]
      obtain ⟨h1, h2⟩ := ih { p with curColumns := p.curColumns + byteLen t } (n + 1)
      refine ⟨fun h => by simp [shown, h1 h], fun h => ?_⟩
      obtain ⟨k, a1, a2, a3, a4⟩ := h2 h
      refine ⟨k + 1, by simp; omega, by simp [shown, a2], by rw [← a3]; congr 1; omega, ?_⟩
      simp [List.getLast?_cons, a4]
    | print t =>
      simp only [Pager.op]
      split
      · cases hk : keys n with
        | stop =>
          simp only [if_true]
          exact ⟨by simp, fun _ => ⟨0, by simp, by simp [shown], by simpa using hk, by simp⟩⟩
        | go =>
          simp only [Bool.false_eq_true, if_false]
          obtain ⟨h1, h2⟩ := ih { p with curColumns := 0, curLines := 0 } (n + 1)
          refine ⟨fun h => by simp [shown, h1 h], fun h => ?_⟩
          obtain ⟨k, a1, a2, a3, a4⟩ := h2 h
          refine ⟨k + 1, by simp; omega, by simp [shown, a2], by rw [← a3]; congr 1; omega, ?_⟩
          simp [List.getLast?_cons, a4]
      · simp only [Bool.false_eq_true, if_false]
        obtain ⟨h1, h2⟩ := ih { p with curColumns := 0, curLines := p.curLines + (p.curColumns + byteLen t) / p.x + 1 } (n + 1)
        refine ⟨fun h => by simp [shown, h1 h], fun h => ?_⟩
        obtain ⟨k, a1, a2, a3, a4⟩ := h2 h
        refine ⟨k + 1, by simp; omega, by simp [shown, a2], by rw [← a3]; congr 1; omega, ?_⟩
        simp [List.getLast?_cons, a4]

example : LinesFit 3 1 0 [.print ['a'], .print ['b'], .print ['c']] ∧
    (Pager.run (Pager.mk 3 3 0 0) (fun _ => .go) 0 [.print ['a'], .print ['b'], .print ['c']]).1 =
      [.print ['a'], .print ['b'], .more, .print ['c']] := by
  constructor
  · simp [LinesFit, rows]
  · decide

end EB
