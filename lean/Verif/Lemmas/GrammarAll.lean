import Verif.Lemmas.GrammarAccepted
/-!
# Only programs of the grammar, and those listed beside it, are accepted: compound statements
-/

namespace EB
open Spec

variable {α β : Type} {E : LineCol} {pre toks : List TokSpan} {R : List TokSpan → β → List TokSpan → Prop} {T : TextOps} {F : FloatOps}

/-! ## How pieces begin -/

theorem simple_first {after : LineCol} {ts : List TokSpan} {s : Stmt} (h : LikeSimple F after ts s) :
    ∃ k p ts', ts = ⟨k, p⟩ :: ts' ∧ k ∉ endTokens ∧ s.isCallable = false := by
  cases h <;> exact ⟨_, _, _, rfl, by simp [endTokens], rfl⟩

theorem stmt_first {ts : List TokSpan} {s : Stmt} {next : TokSpan} (h : Accepts F ts (.stmt s next)) :
    ∃ k p ts', ts = ⟨k, p⟩ :: ts' ∧ k ∉ endTokens ∧ (s.isCallable = true → k = .function ∨ k = .sub) := by
  cases h
  case simple h =>
    obtain ⟨k, p, ts', h1, h2, h3⟩ := simple_first h
    exact ⟨k, p, ts', h1, h2, fun h => by rw [h3] at h; cases h⟩
  case callable hc _ _ _ =>
    refine ⟨_, _, _, rfl, ?_, fun _ => ?_⟩
    · cases hc <;> simp [endTokens]
    · cases hc <;> simp
  all_goals exact ⟨_, _, _, rfl, by simp [endTokens], fun h => by cases h⟩

theorem lines_first {ts : List TokSpan} {ss : Stmts} {n : Tok} (h : Accepts F ts (.lines ss n)) :
    (ts = [] ∧ ss = .nil) ∨ (∃ p x, ts = ⟨.eol, p⟩ :: x ∧ Accepts F x (.lines ss n)) ∨ ∃ k p x, ts = ⟨k, p⟩ :: x ∧ k ∉ endTokens := by
  cases h
  case noLines => exact Or.inl ⟨rfl, rfl⟩
  case blank h => exact Or.inr (Or.inl ⟨_, _, rfl, h⟩)
  case label h _ => exact Or.inr (Or.inr ⟨_, _, _, rfl, by cases h <;> simp [endTokens]⟩)
  case line h _ =>
    obtain ⟨k, p, ts', rfl, h2, -⟩ := stmt_first h
    exact Or.inr (Or.inr ⟨k, p, _, rfl, h2⟩)
  case endElse => exact Or.inr (Or.inr ⟨_, _, _, rfl, by simp [endTokens]⟩)

theorem lines_eol {p : LineCol} {x : List TokSpan} {ss : Stmts} {n : Tok} (h : Accepts F (⟨.eol, p⟩ :: x) (.lines ss n)) :
    Accepts F x (.lines ss n) := by
  rcases lines_first h with ⟨h, _⟩ | ⟨p', x', h, hx⟩ | ⟨k, p', x', h, hk⟩
  · cases h
  · cases h; exact hx
  · cases h; simp [endTokens] at hk

theorem blanks_lines {ss : Stmts} {n : Tok} {ts : List TokSpan} (h : Accepts F ts (.lines ss n)) :
    ∀ blank : List LineCol, Accepts F (blank.map (⟨.eol, ·⟩) ++ ts) (.lines ss n)
  | [] => h
  | p :: ps => .blank (blanks_lines h ps)

/-- `END` among lines. -/
theorem end_then {te tb tr rest : List TokSpan} {r : Option Expr} {p : LineCol} {ss : Stmts} {n : Tok} (hm : MaybeExpr te r)
    (he : Ends (tb ++ tr ++ rest)) (hb : Accepts F tb (.lines ss n)) (hs : StartsWith n tr)
    (hn : n = .end ∨ n = .else ∨ n = .elseif ∨ n = .case) : Accepts F (⟨.end, p⟩ :: (te ++ tb)) (.lines (.cons (.end r p) ss) n) := by
  rcases lines_first hb with ⟨rfl, rfl⟩ | ⟨q, x, rfl, hx⟩ | ⟨k, q, x, rfl, hk⟩
  · obtain ⟨q, tr', rfl⟩ := hs
    have := he ⟨n, q⟩ rfl
    rcases hn with rfl | rfl | rfl | rfl <;> simp [endTokens] at this
    simpa using Accepts.endElse (p := p) hm
  · exact Accepts.line (tst := ⟨.end, p⟩ :: te) (.simple (.end hm)) hx
  · exact absurd (he ⟨k, q⟩ rfl) hk

/-! ## Items -/

/-- One statement with the end of its line. -/
def ItemTaken (F : FloatOps) (E : LineCol) (ti : List TokSpan) (s : Stmt) (rest : List TokSpan) : Prop :=
  (∃ t l p, IsLabel t l ∧ ti = [⟨t, p⟩] ∧ s = .label l p) ∨
  (∃ tst p, ti = tst ++ [⟨.eol, p⟩] ∧ Accepts F tst (.stmt s ⟨.eol, p⟩)) ∨
  (Accepts F ti (.stmt s ⟨.eof, E⟩) ∧ rest = [])

/-- One statement after empty lines, or none. -/
def OneTaken (F : FloatOps) (E : LineCol) (used : List TokSpan) (r : Option Stmt) (rest : List TokSpan) : Prop :=
  ∃ blank : List LineCol, match r with
    | none => used = blank.map (⟨.eol, ·⟩) ∧ rest = []
    | some s => ∃ ti, used = blank.map (⟨.eol, ·⟩) ++ ti ∧ ItemTaken F E ti s rest

/-- What is before the end of the statement. -/
def BodyTaken (F : FloatOps) (E : LineCol) (t : TokSpan) (used : List TokSpan) (s : Stmt) (rest : List TokSpan) : Prop :=
  (seen rest E).tok.endsLine = true → Accepts F (t :: used) (.stmt s (seen rest E))

def UntilTaken (F : FloatOps) (delim : Tok) (used : List TokSpan) (ss : Stmts) (rest : List TokSpan) : Prop :=
  rest = [] ∨ (Accepts F used (.lines ss delim) ∧ StartsWith delim rest)

def IfTaken (F : FloatOps) (last : Bool) (used : List TokSpan) (r : Stmts × Branches) (_ : List TokSpan) : Prop :=
  ∃ tb n tr, used = tb ++ tr ∧ Accepts F tb (.lines r.1 n) ∧ Accepts F tr (.branches r.2) ∧ StartsWith n tr ∧
    (n = .end ∨ n = .else ∨ n = .elseif) ∧ (last = true → n = .end ∧ r.2 = .nil ∧ ∃ p q, tr = [⟨.end, p⟩, ⟨.if, q⟩])

def LoopTaken (F : FloatOps) (kw : Tok) (used : List TokSpan) (r : Stmts × LineCol) (_ : List TokSpan) : Prop :=
  ∃ tb f, used = tb ++ [⟨.end, r.2⟩, ⟨kw, f⟩] ∧ Accepts F tb (.lines r.1 .end) ∧ noCallables r.1

def SelectTaken (F : FloatOps) (isFirst last : Bool) (used : List TokSpan) (r : Stmts × Cases × LineCol) (_ : List TokSpan) : Prop :=
  ∃ tb n tc, used = tb ++ tc ∧ Accepts F tb (.lines r.1 n) ∧ Accepts F tc (.cases r.2.1 r.2.2) ∧ StartsWith n tc ∧ (n = .end ∨ n = .case) ∧
    (last = true → n = .end ∧ r.2.1 = .nil ∧ ∃ q, tc = [⟨.end, r.2.2⟩, ⟨.select, q⟩]) ∧
    (isFirst = true → ∃ blank : List LineCol, tb = blank.map (⟨.eol, ·⟩))

theorem item_lines {ti ts : List TokSpan} {s : Stmt} {rest : List TokSpan} {ss : Stmts} {n : Tok} (h : ItemTaken F E ti s rest) (hr : rest ≠ [])
    (hl : Accepts F ts (.lines ss n)) : Accepts F (ti ++ ts) (.lines (.cons s ss) n) := by
  rcases h with ⟨t, l, p, h1, rfl, rfl⟩ | ⟨tst, p, rfl, h⟩ | ⟨_, h⟩
  · exact .label h1 hl
  · simpa using Accepts.line h hl
  · exact absurd h hr

theorem starts_ne {n : Tok} {tr : List TokSpan} (h : StartsWith n tr) : tr ≠ [] := by
  obtain ⟨p, ts, rfl⟩ := h
  simp

/-! ## The statements with bodies -/

variable (T F) in
def UntilOk (n : Nat) : Prop := ∀ (E : LineCol) (delim : Tok) (toks : List TokSpan), Takes E [] (parseUntil T F n delim) toks (UntilTaken F delim)
variable (T F) in
def IfOk (n : Nat) : Prop := ∀ (E pos : LineCol) (last : Bool) (toks : List TokSpan), Takes E [] (ifLoop T F n pos last) toks (IfTaken F last)
variable (T F) in
def LoopsOk (n : Nat) : Prop := ∀ (E pos : LineCol) (isFunction : Bool) (toks : List TokSpan),
  Takes E [] (bodyLoop T F n pos (callableTok isFunction)) toks (LoopTaken F (callableTok isFunction))
variable (T F) in
def SelectOk (n : Nat) : Prop := ∀ (E pos : LineCol) (isFirst last : Bool) (toks : List TokSpan), (isFirst = true → last = false) →
  Takes E [] (selectLoop T F n pos isFirst last) toks (SelectTaken F isFirst last)
variable (T F) in
def BodyOk (n : Nat) : Prop := ∀ (E : LineCol) (t : TokSpan) (toks : List TokSpan), Takes E [] (parseBody T F n t) toks (BodyTaken F E t)
variable (T F) in
def OneOk (n : Nat) : Prop := ∀ (E : LineCol) (toks : List TokSpan), Takes E [] (parseOne T F n) toks (OneTaken F E)
variable (T F) in
def SafeOk (n : Nat) : Prop := ∀ (E : LineCol) (toks : List TokSpan), Takes E [] (parseOneSafe T F n) toks (OneTaken F E)

theorem safe_step {n : Nat} (h : OneOk T F n) : SafeOk T F (n + 1) := by
  intro E toks
  unfold parseOneSafe
  exact takes_reset (h E toks)

/-- One statement at the beginning of a line. -/
def OneItem (F : FloatOps) (E : LineCol) (used : List TokSpan) (r : Option Stmt) (rest : List TokSpan) : Prop :=
  match r with
  | none => used = [] ∧ rest = []
  | some s => ItemTaken F E used s rest

theorem one_item {used rest : List TokSpan} {r : Option Stmt} (h : OneTaken F E used r rest)
    (hne : (seen (used ++ rest) E).tok ≠ .eol) : OneItem F E used r rest := by
  obtain ⟨blank, h⟩ := h
  cases blank with
  | nil =>
    cases r with
    | none => exact ⟨h.1, h.2⟩
    | some s =>
      obtain ⟨ti, h', h⟩ := h
      have : used = ti := h'
      subst this
      exact h
  | cons p ps =>
    exfalso
    apply hne
    cases r with
    | none => rw [h.1]; rfl
    | some s =>
      obtain ⟨ti, h', h⟩ := h
      rw [h']
      rfl

theorem until_step {n : Nat} (h : UntilOk T F n) (hs : SafeOk T F n) : UntilOk T F (n + 1) := by
  intro E delim toks
  unfold parseUntil
  refine takes_peek ?_
  split
  · rename_i hd
    refine takes_noEof fun hn => takes_pure ?_
    cases toks with
    | nil => exact Or.inl rfl
    | cons t ts => exact Or.inr ⟨.noLines, t.pos, ts, by rw [← hd]; rfl⟩
  · split
    · rename_i he
      refine takes_consume he (by simp) ?_
      rintro p ts rfl
      refine takes_last (h E delim ts) ?_
      rintro used ss rest rfl (h | ⟨h1, h2⟩)
      · exact Or.inl h
      · exact Or.inr ⟨.blank h1, h2⟩
    · rename_i he
      refine takes_bind (hs E toks) ?_
      rintro used r rest rfl hr
      have hr := one_item hr he
      cases r with
      | none => exact takes_pure (Or.inl hr.2)
      | some s =>
        simp only at hr ⊢
        refine takes_bind (h E delim rest) ?_
        rintro used' ss rest' rfl (h | ⟨h1, h2⟩)
        · exact takes_pure (Or.inl h)
        · refine takes_pure (Or.inr ⟨?_, h2⟩)
          refine item_lines hr ?_ h1
          intro hh
          exact starts_ne h2 (List.append_eq_nil_iff.1 hh).2

theorem if_step {n : Nat} (h : IfOk T F n) (hs : SafeOk T F n) : IfOk T F (n + 1) := by
  intro E pos last toks
  unfold ifLoop
  refine takes_peek ?_
  split
  · rename_i he
    refine takes_consume he (by simp) ?_
    rintro p ts rfl
    refine takes_last (h E pos last ts) ?_
    rintro used ⟨ss, bs⟩ rest rfl ⟨tb, n, tr, rfl, h1, h2⟩
    exact ⟨⟨.eol, p⟩ :: tb, n, tr, rfl, .blank h1, h2⟩
  · rename_i he
    cases last with
    | true => exact takes_bad _ _
    | false =>
      refine takes_consume he (by simp) ?_
      rintro p ts rfl
      refine takes_bind (takes_required T _) ?_
      rintro te e rest rfl ⟨hx, -⟩
      refine takes_expect .then _ (by simp) ?_
      rintro q ts rfl
      refine takes_expect .eol _ (by simp) ?_
      rintro r ts rfl
      refine takes_bind (h E pos false ts) ?_
      rintro used ⟨ss, bs⟩ rest rfl ⟨tb, n, tr, rfl, h1, h2, h3, -⟩
      refine takes_pure ⟨[], .elseif, _, rfl, .noLines, ?_, ⟨p, _, rfl⟩, Or.inr (Or.inr rfl), fun h => by cases h⟩
      simpa using Accepts.elseIf (p := p) (q := q) (r := r) hx h1 h2 h3
  · rename_i he
    cases last with
    | true => exact takes_bad _ _
    | false =>
      refine takes_consume he (by simp) ?_
      rintro p ts rfl
      refine takes_expect .eol _ (by simp) ?_
      rintro r ts rfl
      refine takes_bind (h E pos true ts) ?_
      rintro used ⟨ss, bs⟩ rest rfl ⟨tb, n, tr, rfl, h1, h2, h3, -, h4⟩
      obtain ⟨rfl, rfl, e, f, rfl⟩ := h4 rfl
      refine takes_pure ⟨[], .else, _, rfl, .noLines, ?_, ⟨p, _, rfl⟩, Or.inr (Or.inl rfl), fun h => by cases h⟩
      simpa [seen] using Accepts.else (p := p) (q := r) (r := e) (u := f) h1
  · rename_i he
    refine takes_consume he (by simp) ?_
    rintro p ts rfl
    refine takes_bind (takes_maybeEnd T _) ?_
    rintro used r rest rfl (⟨te, rfl, hm, hend⟩ | ⟨k, rfl, rfl, hk, hkk⟩)
    · refine takes_bind (h E pos last rest) ?_
      rintro used' ⟨ss, bs⟩ rest' rfl ⟨tb, n, tr, rfl, h1, h2, h3, h4, h5⟩
      refine takes_pure ⟨⟨.end, p⟩ :: (used ++ tb), n, tr, by simp, ?_, h2, h3, h4, h5⟩
      exact end_then hm hend h1 h3 (by rcases h4 with h | h | h <;> simp [h])
    · rcases hkk with rfl | rfl | rfl | rfl
      · exact takes_bad _ _
      · refine takes_expectAt .if _ _ (by simp) ?_
        rintro q ts rfl
        refine takes_pure ⟨[], .end, _, rfl, .noLines, .endIf (p := p) (q := q), ⟨p, _, rfl⟩, Or.inl rfl, fun _ => ⟨rfl, rfl, p, q, rfl⟩⟩
      · exact takes_bad _ _
      · exact takes_bad _ _
  · rename_i h1 h2 h3 h4
    refine takes_bind (hs E toks) ?_
    rintro used r rest rfl hr
    have hr := one_item hr h1
    cases r with
    | none =>
      obtain ⟨rfl, rfl⟩ := hr
      exact takes_expectAt .if _ _ (by simp) (fun _ _ h => by cases h)
    | some s =>
      simp only at hr ⊢
      refine takes_bind (h E pos last rest) ?_
      rintro used' ⟨ss, bs⟩ rest' rfl ⟨tb, n, tr, rfl, h1, h2, h3, h4⟩
      refine takes_pure ⟨used ++ tb, n, tr, by simp, item_lines hr ?_ h1, h2, h3, h4⟩
      intro hh
      exact starts_ne h3 (List.append_eq_nil_iff.1 (List.append_eq_nil_iff.1 hh).1).2

theorem callableTok_ne (isFunction : Bool) : callableTok isFunction ≠ .eof := by cases isFunction <;> simp [callableTok]

theorem loop_step {n : Nat} (h : LoopsOk T F n) (hs : SafeOk T F n) : LoopsOk T F (n + 1) := by
  intro E pos isFunction toks
  unfold bodyLoop
  refine takes_peek ?_
  split
  · rename_i he
    refine takes_noEof fun hn => ?_
    have := hn.seen he
    subst this
    exact takes_expectAt _ _ _ (callableTok_ne _) (fun _ _ h => by cases h)
  · rename_i he
    refine takes_consume he (by simp) ?_
    rintro p ts rfl
    refine takes_last (h E pos isFunction ts) ?_
    rintro used ⟨ss, e⟩ rest rfl ⟨tb, f, rfl, h1, h2⟩
    exact ⟨⟨.eol, p⟩ :: tb, f, rfl, .blank h1, h2⟩
  · exact takes_bad _ _
  · exact takes_bad _ _
  · rename_i he
    refine takes_consume he (by simp) ?_
    rintro p ts rfl
    refine takes_bind (takes_maybeEnd T _) ?_
    rintro used r rest rfl (⟨te, rfl, hm, hend⟩ | ⟨k, rfl, rfl, hk, hkk⟩)
    · refine takes_bind (h E pos isFunction rest) ?_
      rintro used' ⟨ss, e⟩ rest' rfl ⟨tb, f, rfl, h1, h2⟩
      refine takes_pure ⟨⟨.end, p⟩ :: (used ++ tb), f, by simp, ?_, h2⟩
      exact end_then hm hend h1 ⟨e, _, rfl⟩ (Or.inl rfl)
    · simp only
      split
      · refine takes_expectAt _ _ _ (callableTok_ne _) ?_
        rintro q ts rfl
        exact takes_pure ⟨[], q, rfl, .noLines, trivial⟩
      · exact takes_bad _ _
  · rename_i h1 h2 h3 h4 h5
    refine takes_bind (hs E toks) ?_
    rintro used r rest rfl hr
    have hr := one_item hr h2
    cases r with
    | none => exact takes_bad _ _
    | some s =>
      simp only at hr ⊢
      refine takes_bind (h E pos isFunction rest) ?_
      rintro used' ⟨ss, e⟩ rest' rfl ⟨tb, f, rfl, g1, g2⟩
      refine takes_pure ⟨used ++ tb, f, by simp, item_lines hr (by simp) g1, ?_⟩
      have hc : s.isCallable = false := by
        have key : ∀ ts next, Accepts F ts (.stmt s next) → (seen (ts ++ []) E).tok = (seen used E).tok → s.isCallable = false := by
          intro ts next ha hh
          obtain ⟨k, p, ts', rfl, -, hk⟩ := stmt_first ha
          cases hc : s.isCallable with
          | false => rfl
          | true =>
            exfalso
            have hu : (seen (used ++ (tb ++ [⟨.end, e⟩, ⟨callableTok isFunction, f⟩] ++ rest')) E).tok = k := by
              have : used ≠ [] := by
                rintro rfl
                rcases hr with ⟨t, l, p, _, h, _⟩ | ⟨tst, p, h, _⟩ | ⟨h, _⟩
                · cases h
                · simp at h
                · obtain ⟨_, _, _, h, _⟩ := stmt_first h; cases h
              cases used with
              | nil => exact absurd rfl this
              | cons a b => simpa [seen] using hh.symm
            rcases hk hc with rfl | rfl
            · exact h3 hu
            · exact h4 hu
        rcases hr with ⟨t, l, p, _, _, rfl⟩ | ⟨tst, p, rfl, ha⟩ | ⟨ha, _⟩
        · rfl
        · refine key _ _ ha ?_
          obtain ⟨k, p, ts', rfl, -⟩ := stmt_first ha
          rfl
        · exact key _ _ ha (by simp)
      cases s <;> first | exact g2 | cases hc

theorem select_step {n : Nat} (h : SelectOk T F n) (hs : SafeOk T F n) : SelectOk T F (n + 1) := by
  intro E pos isFirst last toks hfl
  unfold selectLoop
  refine takes_peek ?_
  split
  · rename_i he
    refine takes_noEof fun hn => ?_
    have := hn.seen he
    subst this
    exact takes_expectAt _ _ _ (by simp) (fun _ _ h => by cases h)
  · rename_i he
    refine takes_consume he (by simp) ?_
    rintro p ts rfl
    refine takes_last (h E pos isFirst last ts hfl) ?_
    rintro used ⟨ss, cs, e⟩ rest rfl ⟨tb, n, tc, rfl, h1, h2, h3, h4, h5, h6⟩
    refine ⟨⟨.eol, p⟩ :: tb, n, tc, rfl, .blank h1, h2, h3, h4, h5, fun hf => ?_⟩
    obtain ⟨blank, rfl⟩ := h6 hf
    exact ⟨p :: blank, rfl⟩
  · rename_i he
    refine takes_consume he (by simp) ?_
    rintro p ts rfl
    refine takes_bind takes_caseGuards ?_
    rintro tg gs rest rfl hg
    refine takes_expect .eol _ (by simp) ?_
    rintro q ts rfl
    cases last with
    | true =>
      simp only [if_true]
      split <;> exact takes_bad _ _
    | false =>
      simp only [Bool.false_eq_true, if_false]
      refine takes_bind (h E pos false gs.isEmpty ts (fun h => by cases h)) ?_
      rintro used ⟨ss, cs, e⟩ rest rfl ⟨tb, n, tc, rfl, h1, h2, h3, h4, h5, -⟩
      refine takes_pure ⟨[], .case, _, rfl, .noLines, ?_, ⟨p, _, rfl⟩, Or.inr rfl, fun h => (by cases h), fun _ => ⟨[], rfl⟩⟩
      rcases hg with ⟨rfl, r, rfl⟩ | ⟨hne, hg⟩
      · obtain ⟨rfl, h7, f, h8⟩ := h5 rfl
        simp only at h7 h8
        subst h7; subst h8
        simpa using Accepts.caseElse (p := p) (q := r) (r := q) (e := e) (u := f) h1
      · simpa using Accepts.case (p := p) (q := q) hg h1 h2 h3
  · rename_i he
    refine takes_consume he (by simp) ?_
    rintro p ts rfl
    refine takes_bind (takes_maybeEnd T _) ?_
    rintro used r rest rfl (⟨te, rfl, hm, hend⟩ | ⟨k, rfl, rfl, hk, hkk⟩)
    · cases isFirst with
      | true => exact takes_bad _ _
      | false =>
        refine takes_bind (h E pos false last rest hfl) ?_
        rintro used' ⟨ss, cs, e⟩ rest' rfl ⟨tb, n, tc, rfl, h1, h2, h3, h4, h5, -⟩
        refine takes_pure ⟨⟨.end, p⟩ :: (used ++ tb), n, tc, by simp, ?_, h2, h3, h4, h5, fun h => by cases h⟩
        exact end_then hm hend h1 h3 (by rcases h4 with h | h <;> simp [h])
    · have hbad : ∀ t, Takes E ([] ++ [⟨.end, p⟩] ++ []) (if isFirst = true then
          PM.bad p "Expected CASE after SELECT CASE before any statement".toList else endWithout T p t) rest (SelectTaken F isFirst last) := by
        intro t
        split <;> exact takes_bad _ _
      rcases hkk with rfl | rfl | rfl | rfl
      · exact hbad _
      · exact hbad _
      · refine takes_expectAt .select _ _ (by simp) ?_
        rintro q ts rfl
        exact takes_pure ⟨[], .end, _, rfl, .noLines, .endSelect (p := p) (q := q), ⟨p, _, rfl⟩, Or.inl rfl,
          fun _ => ⟨rfl, rfl, q, rfl⟩, fun _ => ⟨[], rfl⟩⟩
      · exact hbad _
  · rename_i h1 h2 h3 h4
    cases isFirst with
    | true => exact takes_bad _ _
    | false =>
      refine takes_bind (hs E toks) ?_
      rintro used r rest rfl hr
      have hr := one_item hr h2
      cases r with
      | none =>
        obtain ⟨rfl, rfl⟩ := hr
        exact absurd rfl h1
      | some s =>
        simp only at hr ⊢
        refine takes_bind (h E pos false last rest hfl) ?_
        rintro used' ⟨ss, cs, e⟩ rest' rfl ⟨tb, n, tc, rfl, h1, h2, h3, h4, h5, -⟩
        refine takes_pure ⟨used ++ tb, n, tc, by simp, item_lines hr ?_ h1, h2, h3, h4, h5, fun h => by cases h⟩
        intro hh
        exact starts_ne h3 (List.append_eq_nil_iff.1 (List.append_eq_nil_iff.1 hh).1).2

theorem takes_do {n : Nat} (h : UntilOk T F n) (p : LineCol) (next : List TokSpan → TokSpan) :
    Takes E [] (parseDo T F (n + 1) p) toks (fun used s rest => Accepts F (⟨.do, p⟩ :: used) (.stmt s (next rest))) := by
  unfold parseDo
  refine takes_bind (takes_doGuard _) ?_
  rintro tpre g rest rfl hpre
  refine takes_expect .eol _ (by simp) ?_
  rintro q ts rfl
  refine takes_bind (h E .loop ts) ?_
  rintro tb ss rest rfl hb
  refine takes_expectAt .loop _ _ (by simp) ?_
  rintro r ts rfl
  rcases hb with hb | ⟨hb, -⟩
  · cases hb
  refine takes_bind (takes_doGuard _) ?_
  rintro tpost g' rest rfl hpost
  rcases g with _ | ⟨e, b⟩
  · rcases g' with _ | ⟨e', b'⟩
    · simp only at hpre hpost
      subst hpre; subst hpost
      refine takes_bind (Q := fun used g rest => used = [] ∧ g = .infinite) (takes_pure ⟨rfl, rfl⟩) ?_
      rintro used g rest rfl ⟨rfl, rfl⟩
      refine takes_pure ?_
      simpa using Accepts.doForever (p := p) (q := q) (r := r) (next := next rest) hb
    · cases b' <;> simp only at hpre hpost <;> subst hpre <;> obtain ⟨u, te, rfl, he⟩ := hpost
      · refine takes_bind (Q := fun used g rest => used = [] ∧ g = .postWhile e') (takes_pure ⟨rfl, rfl⟩) ?_
        rintro used g rest rfl ⟨rfl, rfl⟩
        refine takes_pure ?_
        simpa using Accepts.loopWhile (p := p) (q := q) (r := r) (u := u) (next := next rest) hb he
      · refine takes_bind (Q := fun used g rest => used = [] ∧ g = .postUntil e') (takes_pure ⟨rfl, rfl⟩) ?_
        rintro used g rest rfl ⟨rfl, rfl⟩
        refine takes_pure ?_
        simpa using Accepts.loopUntil (p := p) (q := q) (r := r) (u := u) (next := next rest) hb he
  · rcases g' with _ | ⟨e', b'⟩
    · cases b <;> simp only at hpre hpost <;> subst hpost <;> obtain ⟨u, te, rfl, he⟩ := hpre
      · refine takes_bind (Q := fun used g rest => used = [] ∧ g = .preWhile e) (takes_pure ⟨rfl, rfl⟩) ?_
        rintro used g rest rfl ⟨rfl, rfl⟩
        refine takes_pure ?_
        simpa using Accepts.doWhile (p := p) (q := q) (r := r) (u := u) (next := next rest) he hb
      · refine takes_bind (Q := fun used g rest => used = [] ∧ g = .preUntil e) (takes_pure ⟨rfl, rfl⟩) ?_
        rintro used g rest rfl ⟨rfl, rfl⟩
        refine takes_pure ?_
        simpa using Accepts.doUntil (p := p) (q := q) (r := r) (u := u) (next := next rest) he hb
    · refine takes_bind (Q := fun _ _ _ => False) (by intro _ a s' h; cases b <;> cases b' <;> cases h) ?_
      intro _ _ _ _ h
      exact absurd h id

theorem takes_while {n : Nat} (h : UntilOk T F n) (p : LineCol) (next : List TokSpan → TokSpan) :
    Takes E [] (parseWhile T F (n + 1) p) toks (fun used s rest => Accepts F (⟨.while, p⟩ :: used) (.stmt s (next rest))) := by
  unfold parseWhile
  refine takes_bind (takes_required T _) ?_
  rintro te e rest rfl ⟨he, -⟩
  refine takes_expect .eol _ (by simp) ?_
  rintro q ts rfl
  refine takes_bind (h E .wend ts) ?_
  rintro tb ss rest rfl hb
  refine takes_expectAt .wend _ _ (by simp) ?_
  rintro r ts rfl
  rcases hb with hb | ⟨hb, -⟩
  · cases hb
  refine takes_pure ?_
  simpa using Accepts.whileLoop (p := p) (q := q) (r := r) (next := next ts) he hb

theorem takes_for {n : Nat} (h : UntilOk T F n) (p : LineCol) (next : List TokSpan → TokSpan) :
    Takes E [] (parseFor T F (n + 1) p) toks (fun used s rest => Accepts F (⟨.for, p⟩ :: used) (.stmt s (next rest))) := by
  unfold parseFor
  refine takes_bind (takes_forHead p) ?_
  rintro used mk rest rfl ⟨v, ip, q, ts, start, to, te, stop, tst, step, up, dbl, r, rfl, hv, hs, he, hst, rfl⟩
  refine takes_bind (h E .next rest) ?_
  rintro tb ss rest rfl hb
  refine takes_expectAt .next _ _ (by simp) ?_
  rintro n ts' rfl
  rcases hb with hb | ⟨hb, -⟩
  · cases hb
  refine takes_pure ?_
  simpa using Accepts.forLoop (p := p) (ip := ip) (q := q) (to := to) (r := r) (n := n) (next := next ts') hv hs he hst hb

theorem takes_callable {n : Nat} (h : LoopsOk T F n) (p : LineCol) (isFunction : Bool) (next : List TokSpan → TokSpan) :
    Takes E [] (parseCallable T F (n + 1) p isFunction) toks
      (fun used s rest => Accepts F (⟨callableTok isFunction, p⟩ :: used) (.stmt s (next rest))) := by
  unfold parseCallable
  refine takes_bind (takes_signature false isFunction) ?_
  rintro used ⟨name, np, vs⟩ rest rfl ⟨v, tp, rfl, hc, hp, heol⟩
  refine takes_bind (h E p isFunction rest) ?_
  rintro used ⟨ss, e⟩ rest' rfl ⟨tb, f, rfl, h1, h2⟩
  refine takes_pure ?_
  rcases heol with heol | heol
  · rcases lines_first h1 with ⟨rfl, _⟩ | ⟨r, x, rfl, hx⟩ | ⟨k, r, x, rfl, hk⟩
    · simp [seen] at heol
    · simpa using Accepts.callable (p := p) (q := np) (r := r) (e := e) (f := f) (next := next rest') hc hp hx h2
    · simp [seen] at heol
      subst heol
      simp [endTokens] at hk
  · cases heol

theorem takes_select {n : Nat} (h : SelectOk T F n) (p : LineCol) (next : List TokSpan → TokSpan) :
    Takes E [] (parseSelect T F (n + 1) p) toks (fun used s rest => Accepts F (⟨.select, p⟩ :: used) (.stmt s (next rest))) := by
  unfold parseSelect
  refine takes_expect .case _ (by simp) ?_
  rintro q ts rfl
  refine takes_bind (takes_required T _) ?_
  rintro te e rest rfl ⟨he, -⟩
  refine takes_expect .eol _ (by simp) ?_
  rintro r ts rfl
  refine takes_bind (h E p true false ts (fun _ => rfl)) ?_
  rintro used ⟨ss, cs, ep⟩ rest rfl ⟨tb, n, tc, rfl, h1, h2, h3, h4, -, h6⟩
  obtain ⟨blank, rfl⟩ := h6 rfl
  refine takes_pure ?_
  simpa using Accepts.select (p := p) (q := q) (r := r) (blank := blank) (next := next rest) he h2

/-- What is behind the `THEN` of an `IF` of one line. -/
def LineTaken (F : FloatOps) (E : LineCol) (used : List TokSpan) (r : Stmts × Branches) (rest : List TokSpan) : Prop :=
  (∃ a, LikeSimple F (seen rest E).pos used a ∧ r = (.cons a .nil, .nil)) ∨
  (∃ ta a q tb b, used = ta ++ ⟨.else, q⟩ :: tb ∧ LikeSimple F q ta a ∧ LikeSimple F (seen rest E).pos tb b ∧
    r = (.cons a .nil, .cons (.bool true q) (.cons b .nil) .nil)) ∨
  (∃ q tb b, used = ⟨.else, q⟩ :: tb ∧ LikeSimple F (seen rest E).pos tb b ∧ r = (.nil, .cons (.bool true q) (.cons b .nil) .nil)) ∨
  (∃ ta body q tl, used = ta ++ ⟨.else, q⟩ :: tl ∧ ((ta = [] ∧ body = .nil) ∨ (∃ a, LikeSimple F q ta a ∧ body = .cons a .nil)) ∧
    ((∃ l, tl = [⟨.eol, l⟩]) ∨ (tl = [] ∧ rest = [])) ∧ r = (body, .cons (.bool true q) .nil .nil))

theorem takes_ifLine : Takes E [] (parseIfUniline T F) toks (LineTaken F E) := by
  unfold parseIfUniline
  refine takes_peek (takes_bind (Q := fun used body rest =>
    (used = [] ∧ body = .nil ∧ (seen rest E).tok = .else) ∨ (∃ a, LikeSimple F (seen rest E).pos used a ∧ body = .cons a .nil)) ?_ ?_)
  · split
    · rename_i h
      exact takes_pure (Or.inl ⟨rfl, rfl, h⟩)
    · refine takes_bind (takes_uniline T F) ?_
      rintro used r rest rfl h
      cases r with
      | none => exact takes_throw _
      | some s => exact takes_pure (Or.inr ⟨s, h, rfl⟩)
  · rintro ta body rest rfl hb
    refine takes_peek ?_
    split
    · rename_i he
      refine takes_consume he (by simp) ?_
      rintro q ts rfl
      refine takes_bind (takes_uniline T F) ?_
      rintro tb r rest rfl h
      refine takes_pure ?_
      cases r with
      | none =>
        refine Or.inr (Or.inr (Or.inr ⟨ta, body, q, tb, by simp, ?_, h, rfl⟩))
        rcases hb with ⟨h1, h2, _⟩ | ⟨a, h1, h2⟩
        · exact Or.inl ⟨h1, h2⟩
        · exact Or.inr ⟨a, h1, h2⟩
      | some b =>
        rcases hb with ⟨rfl, rfl, _⟩ | ⟨a, h1, rfl⟩
        · exact Or.inr (Or.inr (Or.inl ⟨q, tb, b, rfl, h, rfl⟩))
        · exact Or.inr (Or.inl ⟨ta, a, q, tb, b, by simp, h1, h, rfl⟩)
    · rename_i he
      rcases hb with ⟨_, _, h⟩ | ⟨a, h1, rfl⟩
      · exact absurd h he
      · exact takes_pure (Or.inl ⟨a, by simpa using h1, rfl⟩)

theorem takes_if {n : Nat} (h : IfOk T F n) (p : LineCol) : Takes E [] (parseIf T F (n + 1) p) toks (BodyTaken F E ⟨.if, p⟩) := by
  unfold parseIf
  refine takes_bind (takes_required T _) ?_
  rintro te e rest rfl ⟨he, -⟩
  refine takes_expect .then _ (by simp) ?_
  rintro q ts rfl
  refine takes_peek ?_
  split
  · rename_i hl
    refine takes_bind (h E p false ts) ?_
    rintro used ⟨ss, bs⟩ rest rfl ⟨tb, n, tr, rfl, h1, h2, h3, h4, -⟩
    refine takes_pure fun _ => ?_
    rcases lines_first h1 with ⟨rfl, _⟩ | ⟨r, x, rfl, hx⟩ | ⟨k, r, x, rfl, hk⟩
    · exfalso
      obtain ⟨r, tr', rfl⟩ := h3
      rcases h4 with rfl | rfl | rfl <;> cases hl
    · simpa using Accepts.ifBlock (p := p) (q := q) (r := r) (next := seen rest E) he hx h2 h3
    · exfalso
      revert hl
      change k.endsLine = true → False
      intro hl
      cases k <;> first | (cases hl; done) | simp [endTokens] at hk
  · rename_i hl
    refine takes_bind takes_ifLine ?_
    rintro used r rest rfl hr
    refine takes_noEof fun hn => ?_
    refine takes_pure fun hend => ?_
    rcases hr with ⟨a, h1, rfl⟩ | ⟨ta, a, r, tb, b, rfl, h1, h2, rfl⟩ | ⟨r, tb, b, rfl, h2, rfl⟩ | ⟨ta, body, r, tl, rfl, h1, h2, rfl⟩
    · simpa using Accepts.ifLine (p := p) (q := q) he h1
    · simpa using Accepts.ifLineElse (p := p) (q := q) (r := r) he h1 h2
    · simpa using Accepts.ifLineOnlyElse (p := p) (q := q) (r := r) he h2
    · have := Accepts.ifLineEmptyElse (p := p) (q := q) (r := r) (tl := tl) (next := seen rest E) he h1 (by
        rcases h2 with h2 | ⟨h2, rfl⟩
        · exact Or.inl h2
        · exact Or.inr ⟨h2, rfl⟩)
      simpa using this

theorem body_step {n : Nat} (hu : UntilOk T F n) (hi : IfOk T F n) (hl : LoopsOk T F n) (hs : SelectOk T F n) : BodyOk T F (n + 2) := by
  intro E t toks
  obtain ⟨tok, p⟩ := t
  unfold parseBody
  have weak : ∀ {x : PM Stmt} {k : Tok}, Takes E [] x toks (fun used s rest => Accepts F (⟨k, p⟩ :: used) (.stmt s (seen rest E))) →
      Takes E [] x toks (BodyTaken F E ⟨k, p⟩) := fun h => takes_mono h fun _ _ _ _ h _ => h
  have simple : ∀ {x : PM Stmt} {k : Tok}, Takes E [] x toks (fun used s rest => LikeSimple F (seen rest E).pos (⟨k, p⟩ :: used) s) →
      Takes E [] x toks (BodyTaken F E ⟨k, p⟩) := fun h => takes_mono h fun _ _ _ _ h _ => .simple h
  cases tok <;> first | exact takes_bad _ _ | skip
  case data => exact simple (takes_dataStmt T F p)
  case declare => exact weak (takes_declare p (fun rest => seen rest E))
  case dim => exact weak (takes_dim p (fun rest => seen rest E))
  case «do» => exact takes_reset (weak (takes_do hu p (fun rest => seen rest E)))
  case «end» => exact simple (takes_end T F p)
  case exit => exact simple (takes_exit F p)
  case «if» => exact takes_reset (takes_if hi p)
  case «for» => exact takes_reset (weak (takes_for hu p (fun rest => seen rest E)))
  case function => exact takes_reset (weak (takes_callable hl p true (fun rest => seen rest E)))
  case gosub => exact simple (takes_gosub F p)
  case goto => exact simple (takes_goto F p)
  case on => exact simple (takes_on F p)
  case «return» => exact takes_pure fun _ => .simple .return
  case select => exact takes_reset (weak (takes_select hs p (fun rest => seen rest E)))
  case sub => exact takes_reset (weak (takes_callable hl p false (fun rest => seen rest E)))
  case symbol v => exact simple (takes_symbol T F v p)
  case «while» => exact takes_reset (weak (takes_while hu p (fun rest => seen rest E)))

theorem one_step {n : Nat} (ho : OneOk T F n) (hb : BodyOk T F n) : OneOk T F (n + 1) := by
  intro E toks
  unfold parseOne
  refine takes_peek ?_
  split
  · rename_i he
    refine takes_consume he (by simp) ?_
    rintro p ts rfl
    refine takes_last (ho E ts) ?_
    rintro used r rest rfl ⟨blank, h⟩
    refine ⟨p :: blank, ?_⟩
    cases r with
    | none => exact ⟨by rw [h.1]; rfl, h.2⟩
    | some s =>
      obtain ⟨ti, rfl, h⟩ := h
      exact ⟨ti, rfl, h⟩
  · rename_i he
    refine takes_noEof fun hn => takes_pure ⟨[], rfl, hn.seen he⟩
  · rename_i h1 h2
    refine takes_consume rfl h2 ?_
    rintro p ts ht
    split
    · rename_i l hl
      refine takes_pure ⟨[], _, rfl, Or.inl ⟨_, l, p, label_is hl, rfl, ?_⟩⟩
      rw [ht]; rfl
    · have hp : seen toks E = ⟨(seen toks E).tok, p⟩ := by rw [ht]; rfl
      refine takes_bind (hb E (seen toks E) ts) ?_
      rintro used s rest rfl hs
      refine takes_noEof fun hn => ?_
      unfold endOfStmt
      change Takes E _ (PM.bind (PM.bind peekT _) _) rest _
      intro _ a s' hx
      simp only [PM.bind] at hx
      rw [peek_run rest E] at hx
      simp only at hx
      have hs' : (seen rest E).tok.endsLine = true → Accepts F (⟨(seen toks E).tok, p⟩ :: used) (.stmt s (seen rest E)) := by
        rw [← hp]; exact hs
      cases hk : (seen rest E).tok <;> rw [hk] at hx <;> first | (cases hx; done) | skip
      case eof =>
        cases hx
        have hnil := hn.seen hk
        subst hnil
        exact ⟨[], [], rfl, rfl, [], _, rfl, Or.inr (Or.inr ⟨by simpa [seen] using hs' rfl, rfl⟩)⟩
      case eol =>
        cases rest with
        | nil => cases hk
        | cons u us =>
          cases hx
          obtain ⟨k, q⟩ := u
          change k = .eol at hk
          subst hk
          exact ⟨[⟨.eol, q⟩], us, rfl, rfl, [], _, rfl, Or.inr (Or.inl ⟨_, q, by simp, hs' rfl⟩)⟩

theorem all_sound (T : TextOps) (F : FloatOps) : ∀ n : Nat,
    (UntilOk T F n ∧ IfOk T F n ∧ LoopsOk T F n ∧ SelectOk T F n ∧ OneOk T F n ∧ SafeOk T F n ∧ BodyOk T F n) ∧ BodyOk T F (n + 1)
  | 0 => by
    refine ⟨⟨?_, ?_, ?_, ?_, ?_, ?_, ?_⟩, ?_⟩
    · intro E d toks; exact takes_throw _
    · intro E p l toks; exact takes_throw _
    · intro E p l toks; exact takes_throw _
    · intro E p l m toks _; exact takes_throw _
    · intro E toks; exact takes_throw _
    · intro E toks; exact takes_throw _
    · intro E t toks; exact takes_throw _
    · intro E t toks
      obtain ⟨tok, p⟩ := t
      unfold parseBody
      have simple : ∀ {x : PM Stmt} {k : Tok}, Takes E [] x toks (fun used s rest => LikeSimple F (seen rest E).pos (⟨k, p⟩ :: used) s) →
          Takes E [] x toks (BodyTaken F E ⟨k, p⟩) := fun h => takes_mono h fun _ _ _ _ h _ => .simple h
      have weak : ∀ {x : PM Stmt} {k : Tok}, Takes E [] x toks (fun used s rest => Accepts F (⟨k, p⟩ :: used) (.stmt s (seen rest E))) →
          Takes E [] x toks (BodyTaken F E ⟨k, p⟩) := fun h => takes_mono h fun _ _ _ _ h _ => h
      cases tok <;> first | exact takes_bad _ _ | exact takes_reset (takes_throw _) | skip
      case data => exact simple (takes_dataStmt T F p)
      case declare => exact weak (takes_declare p (fun rest => seen rest E))
      case dim => exact weak (takes_dim p (fun rest => seen rest E))
      case «end» => exact simple (takes_end T F p)
      case exit => exact simple (takes_exit F p)
      case gosub => exact simple (takes_gosub F p)
      case goto => exact simple (takes_goto F p)
      case on => exact simple (takes_on F p)
      case «return» => exact takes_pure fun _ => .simple .return
      case symbol v => exact simple (takes_symbol T F v p)
  | n + 1 => by
    obtain ⟨⟨h1, h2, h3, h4, h5, h6, h7⟩, h8⟩ := all_sound T F n
    exact ⟨⟨until_step h1 h6, if_step h2 h6, loop_step h3 h6, select_step h4 h6, one_step h5 h7, safe_step h5, h8⟩, body_step h1 h2 h3 h4⟩

/-! ## Programs -/

theorem program_item {ti rest : List TokSpan} {s : Stmt} {ss : List Stmt} (blank : List LineCol) (h : ItemTaken F E ti s rest)
    (hp : MayBeProgram F E rest ss) : MayBeProgram F E (blank.map (⟨.eol, ·⟩) ++ ti ++ rest) (s :: ss) := by
  have key : ∀ {ts : List TokSpan} {ss' : Stmts}, rest ≠ [] → Accepts F ts (.lines ss' .eof) →
      Accepts F (blank.map (⟨.eol, ·⟩) ++ ti ++ ts) (.lines (.cons s ss') .eof) := by
    intro ts ss' hr hl
    rw [List.append_assoc]
    exact blanks_lines (item_lines h hr hl) blank
  by_cases hr : rest = []
  · subst hr
    have hss : ss = [] := by
      generalize hts : ([] : List TokSpan) = ts at hp
      cases hp with
      | lines h =>
        subst hts
        rcases lines_first h with ⟨_, h⟩ | ⟨_, _, h, _⟩ | ⟨_, _, _, h, _⟩
        · cases ss with
          | nil => rfl
          | cons => cases h
        · cases h
        · cases h
      | last h1 h2 =>
        obtain ⟨_, _, _, rfl, _⟩ := stmt_first h2
        simp at hts
    subst hss
    have nl : Accepts F [] (.lines .nil .eof) := .noLines
    rcases h with ⟨t, l, p, h1, rfl, rfl⟩ | ⟨tst, p, rfl, h⟩ | ⟨h, _⟩
    · refine .lines ?_
      simpa [Stmts.ofList] using blanks_lines (Accepts.label h1 nl) blank
    · refine .lines ?_
      have := blanks_lines (Accepts.line h nl) blank
      simpa [Stmts.ofList] using this
    · have := MayBeProgram.last (E := E) (ss := []) (by simpa [Stmts.ofList] using blanks_lines nl blank) h
      simpa using this
  · cases hp with
    | lines h => exact .lines (key hr h)
    | last h1 h2 =>
      have := MayBeProgram.last (E := E) (ss := s :: _) (key hr h1) h2
      simpa using this

theorem all_accepted (T : TextOps) (F : FloatOps) (E : LineCol) : ∀ (n : Nat) (toks : List TokSpan) (ss : List Stmt), NoEof toks →
    parseAll T F n ⟨toks, E, false⟩ = (ss, none) → MayBeProgram F E toks ss
  | 0, _, _, _, h => by simp [parseAll] at h
  | n + 1, toks, ss, hn, h => by
    unfold parseAll at h
    cases h1 : parseOneSafe T F (TokStream.stmtFuel ⟨toks, E, false⟩) ⟨toks, E, false⟩ with
    | mk r s' =>
      rw [h1] at h
      cases r with
      | error e => simp at h
      | ok r =>
        obtain ⟨used, rest, rfl, rfl, blank, hb⟩ := (all_sound T F _).1.2.2.2.2.2.1 E toks hn r s' h1
        cases r with
        | none =>
          simp only [Prod.mk.injEq, and_true] at h
          subst h
          obtain ⟨h, rfl⟩ := hb
          simp only [List.nil_append] at h
          subst h
          exact .lines (blanks_lines .noLines blank)
        | some s =>
          simp only at h hb
          obtain ⟨ti, h2, hi⟩ := hb
          simp only [List.nil_append] at h2
          subst h2
          cases h3 : parseAll T F n ⟨rest, E, false⟩ with
          | mk ss' e =>
            rw [h3] at h
            simp only [Prod.mk.injEq] at h
            obtain ⟨rfl, rfl⟩ := h
            exact program_item blank hi (all_accepted T F E n rest ss' hn.right h3)

end EB
