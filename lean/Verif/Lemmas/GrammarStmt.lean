import Verif.Lemmas.Grammar
/-!
# The parser takes the programs of the grammar
-/

namespace EB
open Spec

variable {α : Type}

theorem orReset_run {x : PM α} {r : PM Unit} {s s' : TokStream} {a : α} (h : x s = (.ok a, s')) : orReset x r s = (.ok a, s') := by
  unfold orReset
  rw [h]

/-- The tokens that begin a statement or a label, except `END`. -/
def Tok.startsLine : Tok → Bool
  | .data | .declare | .dim | .do | .exit | .if | .for | .function | .gosub | .goto | .on | .return | .select | .sub | .symbol _ | .while
  | .label _ | .integer _ => true
  | _ => false

/-- The statement defines a function or a subroutine. -/
def Stmt.isCallable : Stmt → Bool
  | .callable .. => true
  | _ => false

/-! ## What the parts of programs do -/

/-- The tokens of a statement are parsed. -/
def StmtRuns (T : TextOps) (F : FloatOps) (ts : List TokSpan) (s : Stmt) (after : LineCol) : Prop :=
  ∃ t ts', ts = t :: ts' ∧ (t.tok.startsLine = true ∨ t.tok = .end) ∧ t.tok.labelName = none ∧
    (t.tok = .function ∨ t.tok = .sub → s.isCallable = true) ∧
    ∀ (rest : List TokSpan) (E : LineCol), LineEnd rest E → (seen rest E).pos = after →
      (∀ n, 8 * ts.length ≤ n → parseBody T F n t ⟨ts' ++ rest, E, false⟩ = (.ok s, ⟨rest, E, false⟩)) ∧
      (t.tok = .end → maybeParseEnd T t.pos ⟨ts' ++ rest, E, false⟩ = (.ok (.inl s), ⟨rest, E, false⟩))

/-- The tokens of a label, or of a statement and the end of its line. -/
def Item (T : TextOps) (F : FloatOps) (ti : List TokSpan) (s : Stmt) : Prop :=
  ∃ t ts', ti = t :: ts' ∧ (t.tok.startsLine = true ∨ t.tok = .end) ∧
    (t.tok = .function ∨ t.tok = .sub → s.isCallable = true) ∧
    ∀ (rest : List TokSpan) (E : LineCol),
      (∀ n, 8 * ti.length ≤ n + 5 → parseOneSafe T F n ⟨ti ++ rest, E, false⟩ = (.ok (some s), ⟨rest, E, false⟩)) ∧
      (t.tok = .end → ∃ p, maybeParseEnd T t.pos ⟨ts' ++ rest, E, false⟩ = (.ok (.inl s), ⟨⟨.eol, p⟩ :: rest, E, false⟩))

/-- A loop that collects statements. -/
structure LoopOk (T : TextOps) (F : FloatOps) {γ : Type} (L : Nat → PM (Stmts × γ)) (ok : Stmt → Prop) : Prop where
  eol : ∀ n p ts E, L (n + 1) ⟨⟨.eol, p⟩ :: ts, E, false⟩ = L n ⟨ts, E, false⟩
  item : ∀ ti s, Item T F ti s → ok s → ∀ (rest : List TokSpan) (E : LineCol) (M : Nat) (b : Stmts) (g : γ) (s' : TokStream),
    (∀ m, M ≤ m → L m ⟨rest, E, false⟩ = (.ok (b, g), s')) →
    ∀ n, M + 8 * ti.length ≤ n → L n ⟨ti ++ rest, E, false⟩ = (.ok (.cons s b, g), s')

/-- All statements satisfy the condition. -/
def Stmts.AllOk (ok : Stmt → Prop) : Stmts → Prop
  | .nil => True
  | .cons s ss => ok s ∧ ss.AllOk ok

theorem Stmts.allOk_true : (ss : Stmts) → ss.AllOk (fun _ => True)
  | .nil => trivial
  | .cons _ ss => ⟨trivial, ss.allOk_true⟩

theorem Stmts.allOk_callables : (ss : Stmts) → noCallables ss → ss.AllOk (fun s => s.isCallable = false)
  | .nil, _ => trivial
  | .cons s ss, h => by
    cases s <;> first | (exact h.elim) | exact ⟨rfl, ss.allOk_callables h⟩

/-- Lines of labels and statements. -/
inductive LinesOf (T : TextOps) (F : FloatOps) : List TokSpan → Stmts → Prop
  | nil : LinesOf T F [] .nil
  | blank {p ts ss} : LinesOf T F ts ss → LinesOf T F (⟨.eol, p⟩ :: ts) ss
  | item {ti s ts ss} : Item T F ti s → LinesOf T F ts ss → LinesOf T F (ti ++ ts) (.cons s ss)

/-- The tokens of a part of a program are parsed. -/
def PartRuns (T : TextOps) (F : FloatOps) (ts : List TokSpan) : Part → Prop
  | .stmt s after => StmtRuns T F ts s after
  | .lines ss => LinesOf T F ts ss
  | .branches bs => ∀ (pos : LineCol) (rest : List TokSpan) (E : LineCol) (n : Nat), 8 * ts.length ≤ n →
      ifLoop T F n pos false ⟨ts ++ rest, E, false⟩ = (.ok (.nil, bs), ⟨rest, E, false⟩)
  | .cases cs e => ∀ (pos : LineCol) (isFirst : Bool) (rest : List TokSpan) (E : LineCol) (n : Nat), 8 * ts.length ≤ n →
      selectLoop T F n pos isFirst false ⟨ts ++ rest, E, false⟩ = (.ok (.nil, cs, e), ⟨rest, E, false⟩)

/-! ## Statements and labels -/

theorem endOfStmt_eol (T : TextOps) (p : LineCol) (rest : List TokSpan) (E : LineCol) :
    endOfStmt T ⟨⟨.eol, p⟩ :: rest, E, false⟩ = (.ok (), ⟨rest, E, false⟩) := rfl

theorem endOfStmt_eof (T : TextOps) (E : LineCol) : endOfStmt T ⟨[], E, false⟩ = (.ok (), ⟨[], E, false⟩) := rfl

/-- A statement and its end. -/
theorem one_run {T : TextOps} {F : FloatOps} {t : TokSpan} {ts' : List TokSpan} {s : Stmt} (ht : t.tok.startsLine = true ∨ t.tok = .end)
    (hl : t.tok.labelName = none) {n : Nat} {toks mid rest : List TokSpan} {E : LineCol}
    (hb : parseBody T F n t ⟨ts', E, false⟩ = (.ok s, ⟨mid, E, false⟩)) (he : endOfStmt T ⟨mid, E, false⟩ = (.ok (), ⟨rest, E, false⟩))
    (htoks : toks = t :: ts') :
    parseOneSafe T F (n + 2) ⟨toks, E, false⟩ = (.ok (some s), ⟨rest, E, false⟩) := by
  subst htoks
  unfold parseOneSafe
  apply orReset_run
  unfold parseOne
  rw [bind_run (peek_cons ..)]
  obtain ⟨tok, p⟩ := t
  have key : (do
      consumeT
      match tok.labelName with
      | some l => pure (some (.label l p))
      | none => do
        let s ← parseBody T F n ⟨tok, p⟩
        endOfStmt T
        pure (some s) : PM (Option Stmt)) ⟨⟨tok, p⟩ :: ts', E, false⟩ = (.ok (some s), ⟨rest, E, false⟩) := by
    rw [bind_run (consume_cons ..)]
    simp only at hl
    simp only [hl]
    rw [bind_run hb, bind_run he]
    rfl
  cases tok <;> first
    | exact key
    | (rcases ht with ht | ht <;> cases ht)

theorem label_item (T : TextOps) (F : FloatOps) {t : Tok} {l : Str} (h : IsLabel t l) (p : LineCol) : Item T F [⟨t, p⟩] (.label l p) := by
  refine ⟨_, [], rfl, Or.inl (by cases h <;> rfl), by cases h <;> simp, ?_⟩
  intro rest E
  refine ⟨?_, by cases h <;> simp⟩
  intro n hn
  obtain ⟨m, rfl⟩ : ∃ m, n = m + 2 := ⟨n - 2, by simp at hn; omega⟩
  cases h <;> rfl

theorem stmt_item {T : TextOps} {F : FloatOps} {ts : List TokSpan} {s : Stmt} {p : LineCol} (h : StmtRuns T F ts s p) :
    Item T F (ts ++ [⟨.eol, p⟩]) s := by
  obtain ⟨t, ts', rfl, ht, hl, hc, hrun⟩ := h
  refine ⟨t, ts' ++ [⟨.eol, p⟩], by simp, ht, hc, ?_⟩
  intro rest E
  obtain ⟨h1, h2⟩ := hrun (⟨.eol, p⟩ :: rest) E rfl rfl
  constructor
  · intro n hn
    obtain ⟨m, rfl⟩ : ∃ m, n = m + 2 := ⟨n - 2, by simp at hn; omega⟩
    exact one_run ht hl (h1 m (by simp at hn ⊢; omega)) (endOfStmt_eol T p rest E) (by simp)
  · intro he
    refine ⟨p, ?_⟩
    have := h2 he
    simpa using this

/-! ## Loops -/

theorem until_ok (T : TextOps) (F : FloatOps) {delim : Tok} (hd : delim = .loop ∨ delim = .next ∨ delim = .wend) :
    LoopOk T F (fun n => parseUntil T F n delim >>= fun ss => pure (ss, ())) (fun _ => True) where
  eol n p ts E := by
    show PM.bind _ _ _ = PM.bind _ _ _
    have : parseUntil T F (n + 1) delim ⟨⟨.eol, p⟩ :: ts, E, false⟩ = parseUntil T F n delim ⟨ts, E, false⟩ := by
      conv => lhs; unfold parseUntil
      rw [bind_run (peek_cons ..), if_neg (by rcases hd with rfl | rfl | rfl <;> simp), if_pos rfl]
      rfl
    simp only [PM.bind, this]
  item ti s hi _ rest E M b g s' hM n hn := by
    obtain ⟨t, ts', rfl, ht, -, hrun⟩ := hi
    obtain ⟨m, rfl⟩ : ∃ m, n = m + 1 := ⟨n - 1, by simp at hn; omega⟩
    have h1 := (hrun rest E).1 m (by simp at hn ⊢; omega)
    have h2 := hM m (by simp at hn; omega)
    have hne : t.tok ≠ delim := by
      intro h
      rcases hd with rfl | rfl | rfl <;> rw [h] at ht <;> rcases ht with ht | ht <;> cases ht
    have hne' : t.tok ≠ .eol := by
      intro h
      rw [h] at ht
      rcases ht with ht | ht <;> cases ht
    have h3 : ∃ b', parseUntil T F m delim ⟨rest, E, false⟩ = (.ok b', s') ∧ b' = b := by
      revert h2
      show PM.bind _ _ _ = _ → _
      simp only [PM.bind]
      cases parseUntil T F m delim ⟨rest, E, false⟩ with
      | mk r s1 =>
        cases r with
        | error e => simp
        | ok b' =>
          intro h2
          have h2 : (Except.ok (b', ()), s1) = (Except.ok (b, g), s') := h2
          simp only [Prod.mk.injEq, Except.ok.injEq] at h2
          exact ⟨b', by rw [h2.2], h2.1.1⟩
    obtain ⟨b', h3, rfl⟩ := h3
    have h4 : parseUntil T F (m + 1) delim ⟨t :: ts' ++ rest, E, false⟩ = (.ok (.cons s b'), s') := by
      unfold parseUntil
      rw [List.cons_append, bind_run (peek_cons ..), if_neg hne, if_neg hne', ← List.cons_append, bind_run h1]
      simp only
      rw [bind_run h3]
      rfl
    show (parseUntil T F (m + 1) delim >>= _) _ = _
    rw [bind_run h4]
    rfl

theorem ifLoop_ok (T : TextOps) (F : FloatOps) (pos : LineCol) (last : Bool) :
    LoopOk T F (fun n => ifLoop T F n pos last) (fun _ => True) where
  eol n p ts E := by
    show ifLoop T F (n + 1) pos last _ = _
    conv => lhs; unfold ifLoop
    rw [bind_run (peek_cons ..)]
    rfl
  item ti s hi _ rest E M b g s' hM n hn := by
    obtain ⟨t, ts', rfl, ht, -, hrun⟩ := hi
    obtain ⟨m, rfl⟩ : ∃ m, n = m + 2 := ⟨n - 2, by simp at hn; omega⟩
    obtain ⟨h1, h1'⟩ := hrun rest E
    have h1 := h1 (m + 1) (by simp at hn ⊢; omega)
    have h2 := hM (m + 1) (by simp at hn; omega)
    show ifLoop T F (m + 2) pos last _ = _
    obtain ⟨tok, p⟩ := t
    rcases ht with ht | ht
    · have key : (do
          match ← parseOneSafe T F (m + 1) with
          | some s => do
            let (body, rest) ← ifLoop T F (m + 1) pos last
            pure (.cons s body, rest)
          | none => do
            expectAt .if pos "IF without END IF".toList
            pure (.nil, .nil) : PM (Stmts × Branches)) ⟨⟨tok, p⟩ :: ts' ++ rest, E, false⟩ = (.ok (.cons s b, g), s') := by
        rw [bind_run h1]
        simp only
        rw [bind_run h2]
        rfl
      unfold ifLoop
      rw [List.cons_append, bind_run (peek_cons ..)]
      cases tok <;> first
        | exact key
        | cases ht
    · have ht : tok = .end := ht
      subst ht
      obtain ⟨q, h3⟩ := h1' rfl
      have h4 : ifLoop T F (m + 1) pos last ⟨⟨.eol, q⟩ :: rest, E, false⟩ = (.ok (b, g), s') := by
        have := hM m (by simp at hn; omega)
        conv at this => lhs; simp only
        rw [← this]
        conv => lhs; unfold ifLoop
        rw [bind_run (peek_cons ..)]
        rfl
      unfold ifLoop
      rw [List.cons_append, bind_run (peek_cons ..)]
      simp only
      rw [bind_run (consume_cons ..), bind_run h3]
      simp only
      rw [bind_run h4]
      rfl

theorem bodyLoop_ok (T : TextOps) (F : FloatOps) (pos : LineCol) (kw : Tok) :
    LoopOk T F (fun n => bodyLoop T F n pos kw) (fun s => s.isCallable = false) where
  eol n p ts E := by
    show bodyLoop T F (n + 1) pos kw _ = _
    conv => lhs; unfold bodyLoop
    rw [bind_run (peek_cons ..)]
    rfl
  item ti s hi hok rest E M b g s' hM n hn := by
    obtain ⟨t, ts', rfl, ht, hc, hrun⟩ := hi
    obtain ⟨m, rfl⟩ : ∃ m, n = m + 2 := ⟨n - 2, by simp at hn; omega⟩
    obtain ⟨h1, h1'⟩ := hrun rest E
    have h1 := h1 (m + 1) (by simp at hn ⊢; omega)
    have h2 := hM (m + 1) (by simp at hn; omega)
    show bodyLoop T F (m + 2) pos kw _ = _
    obtain ⟨tok, p⟩ := t
    have hc : ¬ (tok = .function ∨ tok = .sub) := by
      intro h
      have := hc h
      rw [hok] at this
      cases this
    rcases ht with ht | ht
    · have key : (do
          match ← parseOneSafe T F (m + 1) with
          | some s => do
            let (body, e) ← bodyLoop T F (m + 1) pos kw
            pure (.cons s body, e)
          | none => PM.bad pos (kw.show T ++ " without END ".toList ++ kw.show T) : PM (Stmts × LineCol))
            ⟨⟨tok, p⟩ :: ts' ++ rest, E, false⟩ = (.ok (.cons s b, g), s') := by
        rw [bind_run h1]
        simp only
        rw [bind_run h2]
        rfl
      unfold bodyLoop
      rw [List.cons_append, bind_run (peek_cons ..)]
      cases tok <;> first
        | exact (hc (Or.inl rfl)).elim
        | exact (hc (Or.inr rfl)).elim
        | exact key
        | cases ht
    · have ht : tok = .end := ht
      subst ht
      obtain ⟨q, h3⟩ := h1' rfl
      have h4 : bodyLoop T F (m + 1) pos kw ⟨⟨.eol, q⟩ :: rest, E, false⟩ = (.ok (b, g), s') := by
        have := hM m (by simp at hn; omega)
        conv at this => lhs; simp only
        rw [← this]
        conv => lhs; unfold bodyLoop
        rw [bind_run (peek_cons ..)]
        rfl
      unfold bodyLoop
      rw [List.cons_append, bind_run (peek_cons ..)]
      simp only
      rw [bind_run (consume_cons ..), bind_run h3]
      simp only
      rw [bind_run h4]
      rfl

theorem selectLoop_ok (T : TextOps) (F : FloatOps) (pos : LineCol) (last : Bool) :
    LoopOk T F (fun n => selectLoop T F n pos false last) (fun _ => True) where
  eol n p ts E := by
    show selectLoop T F (n + 1) pos false last _ = _
    conv => lhs; unfold selectLoop
    rw [bind_run (peek_cons ..)]
    rfl
  item ti s hi _ rest E M b g s' hM n hn := by
    obtain ⟨t, ts', rfl, ht, -, hrun⟩ := hi
    obtain ⟨m, rfl⟩ : ∃ m, n = m + 2 := ⟨n - 2, by simp at hn; omega⟩
    obtain ⟨h1, h1'⟩ := hrun rest E
    have h1 := h1 (m + 1) (by simp at hn ⊢; omega)
    have h2 := hM (m + 1) (by simp at hn; omega)
    show selectLoop T F (m + 2) pos false last _ = _
    obtain ⟨tok, p⟩ := t
    rcases ht with ht | ht
    · have key : (do
          match ← parseOneSafe T F (m + 1) with
          | some s => do
            let (body, rest, e) ← selectLoop T F (m + 1) pos false last
            pure (.cons s body, rest, e)
          | none => selectLoop T F (m + 1) pos false last : PM (Stmts × Cases × LineCol))
            ⟨⟨tok, p⟩ :: ts' ++ rest, E, false⟩ = (.ok (.cons s b, g), s') := by
        rw [bind_run h1]
        simp only
        rw [bind_run h2]
        rfl
      unfold selectLoop
      rw [List.cons_append, bind_run (peek_cons ..)]
      cases tok <;> first
        | exact key
        | cases ht
    · have ht : tok = .end := ht
      subst ht
      obtain ⟨q, h3⟩ := h1' rfl
      have h4 : selectLoop T F (m + 1) pos false last ⟨⟨.eol, q⟩ :: rest, E, false⟩ = (.ok (b, g), s') := by
        have := hM m (by simp at hn; omega)
        conv at this => lhs; simp only
        rw [← this]
        conv => lhs; unfold selectLoop
        rw [bind_run (peek_cons ..)]
        rfl
      unfold selectLoop
      rw [List.cons_append, bind_run (peek_cons ..)]
      simp only
      rw [bind_run (consume_cons ..), bind_run h3]
      simp only [Bool.false_eq_true, if_false]
      rw [bind_run h4]
      rfl

/-- A loop collects the statements of lines. -/
theorem lines_loop {T : TextOps} {F : FloatOps} {γ : Type} {L : Nat → PM (Stmts × γ)} {ok : Stmt → Prop} (hL : LoopOk T F L ok)
    {ts : List TokSpan} {ss : Stmts} (h : LinesOf T F ts ss) :
    ss.AllOk ok → ∀ {rest : List TokSpan} {E : LineCol} {M : Nat} {g : γ} {s' : TokStream},
      (∀ m, M ≤ m → L m ⟨rest, E, false⟩ = (.ok (.nil, g), s')) →
        ∀ n, M + 8 * ts.length ≤ n → L n ⟨ts ++ rest, E, false⟩ = (.ok (ss, g), s') := by
  induction h with
  | nil => intro _ rest E M g s' hM n hn; exact hM n (by simpa using hn)
  | blank _ ih =>
    intro hok rest E M g s' hM n hn
    obtain ⟨m, rfl⟩ : ∃ m, n = m + 1 := ⟨n - 1, by simp at hn; omega⟩
    rw [List.cons_append, hL.eol]
    exact ih hok hM m (by simp at hn; omega)
  | @item ti s ts ss hi _ ih =>
    intro hok rest E M g s' hM n hn
    rw [List.append_assoc]
    exact hL.item ti s hi hok.1 (ts ++ rest) E (M + 8 * ts.length) ss g s' (ih hok.2 hM) n (by simp at hn; omega)

/-- `parse_until` collects lines up to the keyword. -/
theorem until_run {T : TextOps} {F : FloatOps} {delim : Tok} (hd : delim = .loop ∨ delim = .next ∨ delim = .wend) {ts : List TokSpan}
    {ss : Stmts} (h : LinesOf T F ts ss) (p : LineCol) (rest : List TokSpan) (E : LineCol) {n : Nat} (hn : 8 * ts.length + 1 ≤ n) :
    parseUntil T F n delim ⟨ts ++ ⟨delim, p⟩ :: rest, E, false⟩ = (.ok ss, ⟨⟨delim, p⟩ :: rest, E, false⟩) := by
  have key := lines_loop (until_ok T F hd) h ss.allOk_true (rest := ⟨delim, p⟩ :: rest) (E := E) (M := 1) (g := ())
    (s' := ⟨⟨delim, p⟩ :: rest, E, false⟩) (by
      intro m hm
      obtain ⟨k, rfl⟩ : ∃ k, m = k + 1 := ⟨m - 1, by omega⟩
      have : parseUntil T F (k + 1) delim ⟨⟨delim, p⟩ :: rest, E, false⟩ = (.ok .nil, ⟨⟨delim, p⟩ :: rest, E, false⟩) := by
        unfold parseUntil
        rw [bind_run (peek_cons ..), if_pos rfl]
        rfl
      show (parseUntil T F (k + 1) delim >>= _) _ = _
      rw [bind_run this]
      rfl) n (by omega)
  revert key
  show PM.bind _ _ _ = _ → _
  simp only [PM.bind]
  cases parseUntil T F n delim ⟨ts ++ ⟨delim, p⟩ :: rest, E, false⟩ with
  | mk r s1 =>
    cases r with
    | error e => simp
    | ok b' =>
      intro h2
      have h2 : (Except.ok (b', ()), s1) = (Except.ok (ss, ()), _) := h2
      simp only [Prod.mk.injEq, Except.ok.injEq, and_true] at h2
      rw [h2.1, h2.2]

/-! ## Compound statements -/

theorem eol_line (p : LineCol) (ts : List TokSpan) (E : LineCol) : LineEnd (⟨.eol, p⟩ :: ts) E := rfl

theorem do_run {T : TextOps} {F : FloatOps} {p r : LineCol} {ts tp : List TokSpan} {tb : List TokSpan} {ss : Stmts} {q : LineCol}
    {pre post : Option (Expr × Bool)} {g : DoGuard} {rest : List TokSpan} {E : LineCol} (hb : LinesOf T F tb ss)
    (h1 : parseDoGuard T "DO" ⟨ts, E, false⟩ = (.ok pre, ⟨⟨.eol, q⟩ :: (tb ++ ⟨.loop, r⟩ :: tp), E, false⟩))
    (h2 : parseDoGuard T "LOOP" ⟨tp, E, false⟩ = (.ok post, ⟨rest, E, false⟩))
    (hg : ∀ s, doGuard p pre post s = (.ok g, s)) {n : Nat} (hn : 8 * tb.length + 1 ≤ n) :
    parseBody T F (n + 2) ⟨.do, p⟩ ⟨ts, E, false⟩ = (.ok (.doLoop g ss), ⟨rest, E, false⟩) := by
  show orReset (parseDo T F (n + 1) p) resetDo _ = _
  apply orReset_run
  unfold parseDo
  rw [bind_run h1, bind_run (expect_cons ..), bind_run (until_run (Or.inl rfl) hb r tp E hn), bind_run (expectAt_cons ..), bind_run h2,
    bind_run (hg _)]
  rfl

/-- The lines of a branch, up to the next one. -/
theorem ifLines_run {T : TextOps} {F : FloatOps} {tb : List TokSpan} {ss : Stmts} (hb : LinesOf T F tb ss) {pos : LineCol} {last : Bool}
    {ts : List TokSpan} {E : LineCol} {M : Nat} {bs : Branches} {s' : TokStream}
    (h : ∀ m, M ≤ m → ifLoop T F m pos last ⟨ts, E, false⟩ = (.ok (.nil, bs), s')) {n : Nat} (hn : M + 8 * tb.length ≤ n) :
    ifLoop T F n pos last ⟨tb ++ ts, E, false⟩ = (.ok (ss, bs), s') :=
  lines_loop (ifLoop_ok T F pos last) hb ss.allOk_true h n hn

theorem ifEnd_run (T : TextOps) (F : FloatOps) (pos : LineCol) (last : Bool) (p q : LineCol) (rest : List TokSpan) (E : LineCol) {n : Nat}
    (hn : 1 ≤ n) : ifLoop T F n pos last ⟨⟨.end, p⟩ :: ⟨.if, q⟩ :: rest, E, false⟩ = (.ok (.nil, .nil), ⟨rest, E, false⟩) := by
  obtain ⟨m, rfl⟩ : ∃ m, n = m + 1 := ⟨n - 1, by omega⟩
  rfl

theorem selectEnd_run (T : TextOps) (F : FloatOps) (pos : LineCol) (isFirst last : Bool) (p q : LineCol) (rest : List TokSpan) (E : LineCol) {n : Nat}
    (hn : 1 ≤ n) :
    selectLoop T F n pos isFirst last ⟨⟨.end, p⟩ :: ⟨.select, q⟩ :: rest, E, false⟩ = (.ok (.nil, .nil, p), ⟨rest, E, false⟩) := by
  obtain ⟨m, rfl⟩ : ∃ m, n = m + 1 := ⟨n - 1, by omega⟩
  rfl

/-- The lines of a case, up to the next one. -/
theorem caseLines_run {T : TextOps} {F : FloatOps} {tb : List TokSpan} {ss : Stmts} (hb : LinesOf T F tb ss) {pos : LineCol} {last : Bool}
    {ts : List TokSpan} {E : LineCol} {M : Nat} {cs : Cases} {e : LineCol} {s' : TokStream}
    (h : ∀ m, M ≤ m → selectLoop T F m pos false last ⟨ts, E, false⟩ = (.ok (.nil, cs, e), s')) {n : Nat} (hn : M + 8 * tb.length ≤ n) :
    selectLoop T F n pos false last ⟨tb ++ ts, E, false⟩ = (.ok (ss, cs, e), s') :=
  lines_loop (selectLoop_ok T F pos last) hb ss.allOk_true h n hn

theorem selectBlank_run (T : TextOps) (F : FloatOps) (pos : LineCol) (isFirst last : Bool) (n : Nat) (ts : List TokSpan) (E : LineCol) :
    (blank : List LineCol) → selectLoop T F (n + blank.length) pos isFirst last ⟨blank.map (⟨.eol, ·⟩) ++ ts, E, false⟩ =
      selectLoop T F n pos isFirst last ⟨ts, E, false⟩
  | [] => rfl
  | p :: blank => by
    rw [← selectBlank_run T F pos isFirst last n ts E blank]
    show selectLoop T F (n + blank.length + 1) pos isFirst last _ = _
    conv => lhs; unfold selectLoop
    rw [List.map_cons, List.cons_append, bind_run (peek_cons ..)]
    rfl

/-- The lines of a function or subroutine, up to its end. -/
theorem body_run {T : TextOps} {F : FloatOps} {kw : Tok} (hk : kw = .function ∨ kw = .sub) {tb : List TokSpan} {ss : Stmts}
    (hb : LinesOf T F tb ss) (hc : noCallables ss) (pos e f : LineCol) (rest : List TokSpan) (E : LineCol) {n : Nat}
    (hn : 1 + 8 * tb.length ≤ n) :
    bodyLoop T F n pos kw ⟨tb ++ ⟨.end, e⟩ :: ⟨kw, f⟩ :: rest, E, false⟩ = (.ok (ss, e), ⟨rest, E, false⟩) := by
  refine lines_loop (bodyLoop_ok T F pos kw) hb (ss.allOk_callables hc) ?_ n hn
  intro m hm
  obtain ⟨k, rfl⟩ : ∃ k, m = k + 1 := ⟨m - 1, by omega⟩
  rcases hk with rfl | rfl <;> rfl

theorem simple_ne_eol (T : TextOps) (F : FloatOps) {after : LineCol} {ts : List TokSpan} {s : Stmt} (h : IsSimple F after ts s) (rest : List TokSpan)
    (E : LineCol) : (seen (ts ++ rest) E).tok.endsLine = false ∧ (seen (ts ++ rest) E).tok ≠ .else := by
  cases h <;> exact ⟨rfl, by simp [seen]⟩

theorem uniline_run (T : TextOps) (F : FloatOps) {after : LineCol} {ts : List TokSpan} {s : Stmt} (h : IsSimple F after ts s)
    {rest : List TokSpan} {E : LineCol} (hr : StmtEnd rest E) (hp : (seen rest E).pos = after) :
    parseUniline T F ⟨ts ++ rest, E, false⟩ = (.ok (some s), ⟨rest, E, false⟩) := by
  obtain ⟨_, _, _, h1, _⟩ := simple_run T F h hr hp
  exact h1

theorem if_run {T : TextOps} {F : FloatOps} {p q : LineCol} {te : List TokSpan} {e : Expr} (he : IsExpr te e) {ts rest : List TokSpan}
    {E : LineCol} {n : Nat} {ss : Stmts} {bs : Branches}
    (h : (if (seen ts E).tok.endsLine then ifLoop T F n p false else parseIfUniline T F) ⟨ts, E, false⟩ = (.ok (ss, bs), ⟨rest, E, false⟩)) :
    parseBody T F (n + 2) ⟨.if, p⟩ ⟨te ++ ⟨.then, q⟩ :: ts, E, false⟩ = (.ok (.ifs (.cons e ss bs)), ⟨rest, E, false⟩) := by
  show orReset (parseIf T F (n + 1) p) _ _ = _
  apply orReset_run
  unfold parseIf
  rw [bind_run (required_run T _ he (ends_cons (by simp [endTokens])) E), bind_run (expect_cons ..), bind_run (peek_run ..), bind_run h]
  rfl

/-- Everything of the grammar is parsed. -/
theorem part_run (T : TextOps) (F : FloatOps) {ts : List TokSpan} {part : Part} (h : Writes F ts part) : PartRuns T F ts part := by
  induction h with
  | @simple after ts s hs =>
    obtain ⟨t, ts', hts, -⟩ := simple_run T F hs (eol_line after [] after).stmt rfl
    subst hts
    refine ⟨t, ts', rfl, ?_, ?_, ?_, ?_⟩
    · cases hs <;> first | exact Or.inl rfl | exact Or.inr rfl
    · cases hs <;> rfl
    · intro ht
      cases hs <;> rcases ht with ht | ht <;> cases ht
    · intro rest E hr hp
      obtain ⟨u, us, hu, -, h2, h3⟩ := simple_run T F hs (LineEnd.stmt hr) hp
      injection hu with h4 h5
      subst h4 h5
      refine ⟨?_, h3⟩
      intro n hn
      obtain ⟨m, rfl⟩ : ∃ m, n = m + 1 := ⟨n - 1, by simp at hn; omega⟩
      exact h2 m
  | dim hs ht =>
    refine ⟨_, _, rfl, Or.inl rfl, rfl, by simp, fun rest E hr _ => ⟨fun n hn => ?_, by simp⟩⟩
    obtain ⟨m, rfl⟩ : ∃ m, n = m + 1 := ⟨n - 1, by simp at hn; omega⟩
    rw [List.append_assoc]
    exact dim_run T hs _ _ ht hr
  | dimArray a hs ha ht =>
    refine ⟨_, _, rfl, Or.inl rfl, rfl, by simp, fun rest E hr _ => ⟨fun n hn => ?_, by simp⟩⟩
    obtain ⟨m, rfl⟩ : ∃ m, n = m + 1 := ⟨n - 1, by simp at hn; omega⟩
    simp only [List.append_assoc, List.cons_append]
    exact dimArray_run T hs _ _ _ a ha ht hr
  | declare hc hp =>
    refine ⟨_, _, rfl, Or.inl rfl, rfl, by simp, fun rest E hr _ => ⟨fun n hn => ?_, by simp⟩⟩
    obtain ⟨m, rfl⟩ : ∃ m, n = m + 1 := ⟨n - 1, by simp at hn; omega⟩
    exact declare_run T hc _ _ hp hr
  | doForever _ ih =>
    refine ⟨_, _, rfl, Or.inl rfl, rfl, by simp, fun rest E hr _ => ⟨fun n hn => ?_, by simp⟩⟩
    obtain ⟨m, rfl⟩ : ∃ m, n = m + 2 := ⟨n - 2, by simp at hn; omega⟩
    simp only [List.append_assoc, List.cons_append, List.nil_append]
    exact do_run ih (guard_none T _ (eol_line ..)) (guard_none T _ hr) (fun s => rfl) (by simp at hn; omega)
  | doUntil he _ ih =>
    refine ⟨_, _, rfl, Or.inl rfl, rfl, by simp, fun rest E hr _ => ⟨fun n hn => ?_, by simp⟩⟩
    obtain ⟨m, rfl⟩ : ∃ m, n = m + 2 := ⟨n - 2, by simp at hn; omega⟩
    simp only [List.append_assoc, List.cons_append, List.nil_append]
    exact do_run ih (guard_until T _ _ he (eol_line ..)) (guard_none T _ hr) (fun s => rfl) (by simp at hn; omega)
  | doWhile he _ ih =>
    refine ⟨_, _, rfl, Or.inl rfl, rfl, by simp, fun rest E hr _ => ⟨fun n hn => ?_, by simp⟩⟩
    obtain ⟨m, rfl⟩ : ∃ m, n = m + 2 := ⟨n - 2, by simp at hn; omega⟩
    simp only [List.append_assoc, List.cons_append, List.nil_append]
    exact do_run ih (guard_while T _ _ he (eol_line ..)) (guard_none T _ hr) (fun s => rfl) (by simp at hn; omega)
  | loopUntil _ he ih =>
    refine ⟨_, _, rfl, Or.inl rfl, rfl, by simp, fun rest E hr _ => ⟨fun n hn => ?_, by simp⟩⟩
    obtain ⟨m, rfl⟩ : ∃ m, n = m + 2 := ⟨n - 2, by simp at hn; omega⟩
    simp only [List.append_assoc, List.cons_append, List.nil_append]
    exact do_run ih (guard_none T _ (eol_line ..)) (guard_until T _ _ he hr) (fun s => rfl) (by simp at hn; omega)
  | loopWhile _ he ih =>
    refine ⟨_, _, rfl, Or.inl rfl, rfl, by simp, fun rest E hr _ => ⟨fun n hn => ?_, by simp⟩⟩
    obtain ⟨m, rfl⟩ : ∃ m, n = m + 2 := ⟨n - 2, by simp at hn; omega⟩
    simp only [List.append_assoc, List.cons_append, List.nil_append]
    exact do_run ih (guard_none T _ (eol_line ..)) (guard_while T _ _ he hr) (fun s => rfl) (by simp at hn; omega)
  | ifLine he hs =>
    refine ⟨_, _, rfl, Or.inl rfl, rfl, by simp, fun rest E hr hp => ⟨fun n hn => ?_, by simp⟩⟩
    obtain ⟨m, rfl⟩ : ∃ m, n = m + 2 := ⟨n - 2, by simp at hn; omega⟩
    simp only [List.append_assoc, List.cons_append]
    apply if_run he
    obtain ⟨h1, h2⟩ := simple_ne_eol T F hs rest E
    rw [h1, if_neg (by simp)]
    unfold parseIfUniline
    rw [bind_run (peek_run ..), if_neg h2]
    refine (bind_run (by rw [bind_run (uniline_run T F hs (LineEnd.stmt hr) hp)]; rfl)).trans ?_
    rw [bind_run (peek_run ..), if_neg]
    · rfl
    · intro h
      unfold LineEnd at hr
      rw [h] at hr
      cases hr
  | @ifLineElse p te e q ta a r tb b after he hs hs' =>
    refine ⟨_, _, rfl, Or.inl rfl, rfl, by simp, fun rest E hr hp => ⟨fun n hn => ?_, by simp⟩⟩
    obtain ⟨m, rfl⟩ : ∃ m, n = m + 2 := ⟨n - 2, by simp at hn; omega⟩
    simp only [List.append_assoc, List.cons_append]
    apply if_run he
    obtain ⟨h1, h2⟩ := simple_ne_eol T F hs (⟨.else, r⟩ :: (tb ++ rest)) E
    rw [h1, if_neg (by simp)]
    unfold parseIfUniline
    rw [bind_run (peek_run ..), if_neg h2]
    refine (bind_run (by rw [bind_run (uniline_run T F hs (rest := ⟨.else, r⟩ :: (tb ++ rest)) (E := E) rfl rfl)]; rfl)).trans ?_
    rw [bind_run (peek_cons ..), if_pos rfl, bind_run (consume_cons ..), bind_run (uniline_run T F hs' (LineEnd.stmt hr) hp)]
    rfl
  | @ifLineOnlyElse p te e q r tb b after he hs =>
    refine ⟨_, _, rfl, Or.inl rfl, rfl, by simp, fun rest E hr hp => ⟨fun n hn => ?_, by simp⟩⟩
    obtain ⟨m, rfl⟩ : ∃ m, n = m + 2 := ⟨n - 2, by simp at hn; omega⟩
    simp only [List.append_assoc, List.cons_append]
    apply if_run he
    show parseIfUniline T F _ = _
    unfold parseIfUniline
    rw [bind_run (peek_cons ..), if_pos rfl, bind_run (x := pure Stmts.nil) (s := ⟨⟨.else, r⟩ :: (tb ++ rest), E, false⟩)
      (s' := ⟨⟨.else, r⟩ :: (tb ++ rest), E, false⟩) rfl, bind_run (peek_cons ..), if_pos rfl,
      bind_run (consume_cons ..), bind_run (uniline_run T F hs (LineEnd.stmt hr) hp)]
    rfl
  | @ifBlock p te e q r tb ss tr bs after he _ _ ih ih' =>
    refine ⟨_, _, rfl, Or.inl rfl, rfl, by simp, fun rest E hr hp => ⟨fun n hn => ?_, by simp⟩⟩
    obtain ⟨m, rfl⟩ : ∃ m, n = m + 3 := ⟨n - 3, by simp at hn; omega⟩
    simp only [List.append_assoc, List.cons_append]
    apply if_run (n := m + 1) he
    show ifLoop T F (m + 1) p false _ = _
    refine ((ifLoop_ok T F p false).eol m r (tb ++ (tr ++ rest)) E).trans ?_
    exact ifLines_run ih (fun k hk => ih' p rest E k hk) (by simp at hn; omega)
  | @forLoop p v ip q ts start to te stop tst step up dbl r tb ss nx after hv hs he hst _ ih =>
    refine ⟨_, _, rfl, Or.inl rfl, rfl, by simp, fun rest E hr hp => ⟨fun n hn => ?_, by simp⟩⟩
    obtain ⟨m, rfl⟩ : ∃ m, n = m + 2 := ⟨n - 2, by simp at hn; omega⟩
    simp only [List.append_assoc, List.cons_append, List.nil_append]
    show orReset (parseFor T F (m + 1) p) _ _ = _
    apply orReset_run
    unfold parseFor
    rw [bind_run (forHead_run T F p hv hs he hst _ E), bind_run (until_run (Or.inr (Or.inl rfl)) ih nx rest E (by simp at hn; omega)),
      bind_run (expectAt_cons ..)]
    rfl
  | @callable p kw v name q tp vs r tb ss e f after hk hp _ hc ih =>
    have hkw := callable_facts hk
    refine ⟨_, _, rfl, Or.inl (by rcases hkw with rfl | rfl <;> rfl), by rcases hkw with rfl | rfl <;> rfl, fun _ => rfl,
      fun rest E hr _ => ⟨fun n hn => ?_, by rcases hkw with rfl | rfl <;> simp⟩⟩
    obtain ⟨m, rfl⟩ : ∃ m, n = m + 3 := ⟨n - 3, by simp at hn; omega⟩
    simp only [List.append_assoc, List.cons_append, List.nil_append]
    have key : parseCallable T F (m + 2) p (decide (kw = .function)) ⟨⟨.symbol v, q⟩ :: (tp ++ ⟨.eol, r⟩ :: (tb ++ ⟨.end, e⟩ :: ⟨kw, f⟩ :: rest)), E, false⟩ =
        (.ok (.callable name q vs ss e), ⟨rest, E, false⟩) := by
      unfold parseCallable
      rw [bind_run (signature_run T false hk q hp (Or.inl rfl))]
      have hif : (if decide (kw = Tok.function) = true then Tok.function else Tok.sub) = kw := by rcases hkw with rfl | rfl <;> simp
      simp only [hif]
      have h1 : bodyLoop T F (m + 1) p kw ⟨⟨.eol, r⟩ :: (tb ++ ⟨.end, e⟩ :: ⟨kw, f⟩ :: rest), E, false⟩ = (.ok (ss, e), ⟨rest, E, false⟩) := by
        refine ((bodyLoop_ok T F p kw).eol m r (tb ++ ⟨.end, e⟩ :: ⟨kw, f⟩ :: rest) E).trans ?_
        exact body_run hkw ih hc p e f rest E (by simp at hn; omega)
      rw [bind_run h1]
      rfl
    rcases hkw with rfl | rfl
    · show orReset (parseCallable T F (m + 2) p true) _ _ = _
      exact orReset_run (by simpa using key)
    · show orReset (parseCallable T F (m + 2) p false) _ _ = _
      exact orReset_run (by simpa using key)
  | @select p q te e r blank tc cs endPos after he _ ih =>
    refine ⟨_, _, rfl, Or.inl rfl, rfl, by simp, fun rest E hr hp => ⟨fun n hn => ?_, by simp⟩⟩
    obtain ⟨m, rfl⟩ : ∃ m, n = m + blank.length + 2 := ⟨n - 2 - blank.length, by simp at hn; omega⟩
    simp only [List.append_assoc, List.cons_append]
    show orReset (parseSelect T F (m + blank.length + 1) p) _ _ = _
    apply orReset_run
    unfold parseSelect
    have h1 : selectLoop T F (m + blank.length) p true false ⟨blank.map (⟨.eol, ·⟩) ++ (tc ++ rest), E, false⟩ =
        (.ok (.nil, cs, endPos), ⟨rest, E, false⟩) := by
      rw [selectBlank_run]
      exact ih p true rest E m (by simp at hn; omega)
    rw [bind_run (expect_cons ..), bind_run (required_run T _ he (ends_cons (by simp [endTokens])) E), bind_run (expect_cons ..), bind_run h1]
    rfl
  | @whileLoop p te e q tb ss r after he _ ih =>
    refine ⟨_, _, rfl, Or.inl rfl, rfl, by simp, fun rest E hr hp => ⟨fun n hn => ?_, by simp⟩⟩
    obtain ⟨m, rfl⟩ : ∃ m, n = m + 2 := ⟨n - 2, by simp at hn; omega⟩
    simp only [List.append_assoc, List.cons_append, List.nil_append]
    show orReset (parseWhile T F (m + 1) p) _ _ = _
    apply orReset_run
    unfold parseWhile
    rw [bind_run (required_run T _ he (ends_cons (by simp [endTokens])) E), bind_run (expect_cons ..),
      bind_run (until_run (Or.inr (Or.inr rfl)) ih r rest E (by simp at hn; omega)), bind_run (expectAt_cons ..)]
    rfl
  | noLines => exact .nil
  | blank _ ih => exact .blank ih
  | @label t l p ts ss hl _ ih => exact .item (label_item T F hl p) ih
  | @line tst s p ts ss _ _ ih ih' =>
    have := LinesOf.item (stmt_item ih) ih'
    rwa [List.append_assoc] at this
  | endIf => exact fun pos rest E n hn => ifEnd_run T F pos false _ _ rest E (by simp at hn; omega)
  | @«else» p q tb ss r u _ ih =>
    intro pos rest E n hn
    obtain ⟨m, rfl⟩ : ∃ m, n = m + 1 := ⟨n - 1, by simp at hn; omega⟩
    simp only [List.append_assoc, List.cons_append, List.nil_append]
    have h1 : ifLoop T F m pos true ⟨tb ++ ⟨.end, r⟩ :: ⟨.if, u⟩ :: rest, E, false⟩ = (.ok (ss, .nil), ⟨rest, E, false⟩) :=
      ifLines_run ih (M := 1) (fun k hk => ifEnd_run T F pos true r u rest E hk) (by simp at hn; omega)
    unfold ifLoop
    rw [bind_run (peek_cons ..)]
    simp only [Bool.false_eq_true, if_false]
    rw [bind_run (consume_cons ..), bind_run (expect_cons ..), bind_run h1]
    rfl
  | @elseIf p te e q r tb ss tr bs he _ _ ih ih' =>
    intro pos rest E n hn
    obtain ⟨m, rfl⟩ : ∃ m, n = m + 1 := ⟨n - 1, by simp at hn; omega⟩
    simp only [List.append_assoc, List.cons_append, List.nil_append]
    have h1 : ifLoop T F m pos false ⟨tb ++ (tr ++ rest), E, false⟩ = (.ok (ss, bs), ⟨rest, E, false⟩) :=
      ifLines_run ih (fun k hk => ih' pos rest E k hk) (by simp at hn; omega)
    unfold ifLoop
    rw [bind_run (peek_cons ..)]
    simp only [Bool.false_eq_true, if_false]
    rw [bind_run (consume_cons ..), bind_run (required_run T _ he (ends_cons (by simp [endTokens])) E), bind_run (expect_cons ..),
      bind_run (expect_cons ..), bind_run h1]
    rfl
  | endSelect => exact fun pos isFirst rest E n hn => selectEnd_run T F pos isFirst false _ _ rest E (by simp at hn; omega)
  | @caseElse p q r tb ss e u _ ih =>
    intro pos isFirst rest E n hn
    obtain ⟨m, rfl⟩ : ∃ m, n = m + 1 := ⟨n - 1, by simp at hn; omega⟩
    simp only [List.append_assoc, List.cons_append, List.nil_append]
    have h1 : selectLoop T F m pos false true ⟨tb ++ ⟨.end, e⟩ :: ⟨.select, u⟩ :: rest, E, false⟩ = (.ok (ss, .nil, e), ⟨rest, E, false⟩) :=
      caseLines_run ih (M := 1) (fun k hk => selectEnd_run T F pos false true e u rest E hk) (by simp at hn; omega)
    have h2 : parseCaseGuards T ⟨⟨.else, q⟩ :: ⟨.eol, r⟩ :: (tb ++ ⟨.end, e⟩ :: ⟨.select, u⟩ :: rest), E, false⟩ =
        (.ok [], ⟨⟨.eol, r⟩ :: (tb ++ ⟨.end, e⟩ :: ⟨.select, u⟩ :: rest), E, false⟩) := rfl
    unfold selectLoop
    rw [bind_run (peek_cons ..)]
    simp only
    rw [bind_run (consume_cons ..), bind_run h2, bind_run (expect_cons ..)]
    simp only [Bool.false_eq_true, if_false, List.isEmpty_nil]
    rw [bind_run h1]
    rfl
  | @case p tg gs q tb ss tr cs e hg _ _ ih ih' =>
    intro pos isFirst rest E n hn
    obtain ⟨m, rfl⟩ : ∃ m, n = m + 1 := ⟨n - 1, by simp at hn; omega⟩
    simp only [List.append_assoc, List.cons_append, List.nil_append]
    have h1 : selectLoop T F m pos false false ⟨tb ++ (tr ++ rest), E, false⟩ = (.ok (ss, cs, e), ⟨rest, E, false⟩) :=
      caseLines_run ih (fun k hk => ih' pos false rest E k hk) (by simp at hn; omega)
    have h2 : parseCaseGuards T ⟨tg ++ ⟨.eol, q⟩ :: (tb ++ (tr ++ rest)), E, false⟩ = (.ok gs, ⟨⟨.eol, q⟩ :: (tb ++ (tr ++ rest)), E, false⟩) :=
      caseGuards_run T hg _ true q _ E (by simp)
    unfold selectLoop
    rw [bind_run (peek_cons ..)]
    simp only
    rw [bind_run (consume_cons ..), bind_run h2, bind_run (expect_cons ..), guards_ne hg]
    simp only [Bool.false_eq_true, if_false]
    rw [bind_run h1]
    rfl

/-! ## Programs -/

theorem one_blank (T : TextOps) (F : FloatOps) (n : Nat) (ts : List TokSpan) (E : LineCol) :
    (blank : List LineCol) → parseOne T F (n + blank.length) ⟨blank.map (⟨.eol, ·⟩) ++ ts, E, false⟩ = parseOne T F n ⟨ts, E, false⟩
  | [] => rfl
  | p :: blank => by
    rw [← one_blank T F n ts E blank]
    show parseOne T F (n + blank.length + 1) _ = _
    conv => lhs; unfold parseOne
    rw [List.map_cons, List.cons_append, bind_run (peek_cons ..)]
    rfl

/-- Blank lines before a statement are skipped. -/
theorem safe_blank (T : TextOps) (F : FloatOps) (n : Nat) (ts : List TokSpan) (E : LineCol) (blank : List LineCol) :
    parseOneSafe T F (n + blank.length + 1) ⟨blank.map (⟨.eol, ·⟩) ++ ts, E, false⟩ = parseOneSafe T F (n + 1) ⟨ts, E, false⟩ := by
  unfold parseOneSafe
  unfold orReset
  rw [one_blank]

/-- Reading the statements of lines, one after the other. -/
theorem lines_all {T : TextOps} {F : FloatOps} {ts : List TokSpan} {ss : List Stmt} (h : LinesOf T F ts (Stmts.ofList ss)) :
    ∀ {rest : List TokSpan} {E : LineCol} {M : Nat} {ss' : List Stmt} {r : Option PErr},
      (∀ (blank : List LineCol) m, M ≤ m → parseAll T F m ⟨blank.map (⟨.eol, ·⟩) ++ rest, E, false⟩ = (ss', r)) →
      ∀ (blank : List LineCol) n, M + ts.length ≤ n →
        parseAll T F n ⟨blank.map (⟨.eol, ·⟩) ++ (ts ++ rest), E, false⟩ = (ss ++ ss', r) := by
  generalize hg : Stmts.ofList ss = sss at h
  induction h generalizing ss with
  | nil =>
    intro rest E M ss' r hM blank n hn
    cases ss with
    | nil => exact hM blank n (by simpa using hn)
    | cons s ss => simp [Stmts.ofList] at hg
  | @blank p ts sss _ ih =>
    intro rest E M ss' r hM blank n hn
    have := ih hg hM (blank ++ [p]) n (by simp at hn; omega)
    simpa using this
  | @item ti s ts sss hi _ ih =>
    intro rest E M ss' r hM blank n hn
    cases ss with
    | nil => simp [Stmts.ofList] at hg
    | cons s0 ss =>
      simp only [Stmts.ofList, Stmts.cons.injEq] at hg
      obtain ⟨rfl, hg⟩ := hg
      obtain ⟨t, ts', rfl, -, -, hrun⟩ := hi
      obtain ⟨m, rfl⟩ : ∃ m, n = m + 1 := ⟨n - 1, by simp at hn; omega⟩
      have h1 := ih hg hM [] m (by simp at hn; omega)
      have h2 : parseOneSafe T F (TokStream.stmtFuel ⟨blank.map (⟨.eol, ·⟩) ++ (t :: ts' ++ ts ++ rest), E, false⟩)
          ⟨blank.map (⟨.eol, ·⟩) ++ (t :: ts' ++ ts ++ rest), E, false⟩ = (.ok (some s0), ⟨ts ++ rest, E, false⟩) := by
        have hf : TokStream.stmtFuel ⟨blank.map (⟨.eol, ·⟩) ++ (t :: ts' ++ ts ++ rest), E, false⟩ =
            (8 * (t :: ts' ++ ts ++ rest).length + 7 * blank.length + 7) + blank.length + 1 := by
          simp [TokStream.stmtFuel]; omega
        rw [hf, safe_blank, List.append_assoc (t :: ts')]
        exact (hrun (ts ++ rest) E).1 _ (by simp; omega)
      unfold parseAll
      rw [h2]
      simp only [List.map_nil, List.nil_append] at h1
      simp only [h1, List.cons_append]

/-- The end of the text. -/
theorem end_all (T : TextOps) (F : FloatOps) (E : LineCol) (blank : List LineCol) {n : Nat} (hn : 1 ≤ n) :
    parseAll T F n ⟨blank.map (⟨.eol, ·⟩) ++ [], E, false⟩ = ([], none) := by
  obtain ⟨m, rfl⟩ : ∃ m, n = m + 1 := ⟨n - 1, by omega⟩
  have h2 : parseOneSafe T F (TokStream.stmtFuel ⟨blank.map (⟨.eol, ·⟩) ++ [], E, false⟩) ⟨blank.map (⟨.eol, ·⟩) ++ [], E, false⟩ =
      (.ok none, ⟨[], E, false⟩) := by
    have hf : TokStream.stmtFuel ⟨blank.map (⟨.eol, ·⟩) ++ [], E, false⟩ = (7 * blank.length + 7) + blank.length + 1 := by
      simp [TokStream.stmtFuel]; omega
    rw [hf, safe_blank]
    rfl
  unfold parseAll
  rw [h2]

/-- Programs of the grammar are parsed. -/
theorem program_parse (T : TextOps) (F : FloatOps) {E : LineCol} {ts : List TokSpan} {ss : List Stmt} (h : IsProgram F E ts ss) :
    parseStream T F ⟨ts, E, false⟩ = ⟨Stmts.ofList ss, none⟩ := by
  have key : parseAll T F (ts.length + 1) ⟨ts, E, false⟩ = (ss, none) := by
    cases h with
    | lines hw =>
      have := lines_all (part_run T F hw) (rest := []) (E := E) (M := 1) (fun b m hm => end_all T F E b hm) [] (ts.length + 1) (by omega)
      simpa using this
    | @last ts ss tst s hw hs =>
      obtain ⟨t, ts', rfl, ht, hl, -, hrun⟩ := part_run T F hs
      have hlast : ∀ (blank : List LineCol) m, 2 ≤ m → parseAll T F m ⟨blank.map (⟨.eol, ·⟩) ++ (t :: ts'), E, false⟩ = ([s], none) := by
        intro blank m hm
        obtain ⟨k, rfl⟩ : ∃ k, m = k + 2 := ⟨m - 2, by omega⟩
        have h2 : parseOneSafe T F (TokStream.stmtFuel ⟨blank.map (⟨.eol, ·⟩) ++ (t :: ts'), E, false⟩)
            ⟨blank.map (⟨.eol, ·⟩) ++ (t :: ts'), E, false⟩ = (.ok (some s), ⟨[], E, false⟩) := by
          have hf : TokStream.stmtFuel ⟨blank.map (⟨.eol, ·⟩) ++ (t :: ts'), E, false⟩ =
              (8 * (t :: ts').length + 7 * blank.length + 7) + blank.length + 1 := by
            simp [TokStream.stmtFuel]; omega
          rw [hf, safe_blank]
          have hb := (hrun [] E rfl rfl).1 (8 * (t :: ts').length + 7 * blank.length + 6) (by omega)
          rw [List.append_nil] at hb
          exact one_run ht hl hb (endOfStmt_eof T E) rfl
        unfold parseAll
        rw [h2]
        have := end_all T F E [] (n := k + 1) (by omega)
        simp only [List.map_nil, List.nil_append] at this
        simp only [this]
      have := lines_all (part_run T F hw) hlast [] ((ts ++ t :: ts').length + 1) (by simp; omega)
      simpa using this
  unfold parseStream
  rw [key]
  rfl

end EB
