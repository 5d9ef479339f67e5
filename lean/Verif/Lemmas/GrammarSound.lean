import Verif.Spec.Accepted
import Verif.Lemmas.ParserGroup
import Verif.Lemmas.Grammar
/-!
# Only statements of the grammar are accepted

Simple statements and the parts of compound ones.
-/

namespace EB
open Spec

variable {α β : Type}

/-! ## What parsers take -/

/-- The end of the text is not a token. -/
def NoEof (toks : List TokSpan) : Prop := ∀ t ∈ toks, t.tok ≠ .eof

theorem NoEof.right {u v : List TokSpan} (h : NoEof (u ++ v)) : NoEof v := fun t ht => h t (List.mem_append_right u ht)
theorem NoEof.tail {t : TokSpan} {v : List TokSpan} (h : NoEof (t :: v)) : NoEof v := fun t ht => h t (List.mem_cons_of_mem _ ht)
theorem NoEof.seen {toks : List TokSpan} {E : LineCol} (h : NoEof toks) (hs : (seen toks E).tok = .eof) : toks = [] := by
  cases toks with
  | nil => rfl
  | cons t ts => exact absurd hs (h t List.mem_cons_self)

/-- If the parser succeeds on the tokens, then it has taken the first of them, and these, behind `pre`, its result and the remaining
tokens satisfy `Q`. -/
def Takes (E : LineCol) (pre : List TokSpan) (x : PM α) (toks : List TokSpan) (Q : List TokSpan → α → List TokSpan → Prop) : Prop :=
  NoEof toks → ∀ a s', x ⟨toks, E, false⟩ = (.ok a, s') → ∃ used rest, toks = used ++ rest ∧ s' = ⟨rest, E, false⟩ ∧ Q (pre ++ used) a rest

variable {E : LineCol} {pre toks : List TokSpan} {R : List TokSpan → β → List TokSpan → Prop}

/-- The end of the text is not among the tokens. -/
theorem takes_noEof {x : PM β} (h : NoEof toks → Takes E pre x toks R) : Takes E pre x toks R := fun hn => h hn hn

theorem takes_bind {x : PM α} {f : α → PM β} {Q : List TokSpan → α → List TokSpan → Prop} (hx : Takes E [] x toks Q)
    (hf : ∀ used a rest, toks = used ++ rest → Q used a rest → Takes E (pre ++ used) (f a) rest R) : Takes E pre (x >>= f) toks R := by
  intro hn b s' h
  change PM.bind x f _ = _ at h
  simp only [PM.bind] at h
  cases h1 : x ⟨toks, E, false⟩ with
  | mk r s1 =>
    rw [h1] at h
    cases r with
    | error e => cases h
    | ok a =>
      simp only at h
      obtain ⟨used, rest, ht, rfl, hq⟩ := hx hn a s1 h1
      obtain ⟨used', rest', ht', rfl, hr⟩ := hf used a rest ht (by simpa using hq) (ht ▸ hn).right b s' h
      exact ⟨used ++ used', rest', by rw [ht, ht', List.append_assoc], rfl, by rw [← List.append_assoc]; exact hr⟩

theorem takes_pure {b : β} (h : R pre b toks) : Takes E pre (pure b) toks R := by
  intro hn a s' h'
  change (Except.ok b, _) = _ at h'
  cases h'
  exact ⟨[], toks, rfl, rfl, by simpa using h⟩

theorem takes_bad (pos : LineCol) (msg : Str) : Takes E pre (PM.bad pos msg) toks R := by intro _ a s' h; cases h

theorem takes_throw (e : PErr) : Takes E pre (PM.throw e) toks R := by intro _ a s' h; cases h

theorem takes_peek {f : TokSpan → PM β} (h : Takes E pre (f (seen toks E)) toks R) : Takes E pre (peekT >>= f) toks R := by
  intro hn a s' h'
  rw [bind_run (peek_run toks E)] at h'
  exact h hn a s' h'

theorem takes_consume {f : Unit → PM β} {k : Tok} (hk : (seen toks E).tok = k) (hne : k ≠ .eof)
    (h : ∀ p ts, toks = ⟨k, p⟩ :: ts → Takes E (pre ++ [⟨k, p⟩]) (f ()) ts R) : Takes E pre (consumeT >>= f) toks R := by
  cases toks with
  | nil => exact absurd hk.symm hne
  | cons t ts =>
    obtain ⟨tok, pos⟩ := t
    cases hk
    intro hn a s' h'
    rw [bind_run (consume_cons ..)] at h'
    obtain ⟨used, rest, rfl, rfl, hr⟩ := h pos ts rfl hn.tail a s' h'
    exact ⟨⟨tok, pos⟩ :: used, rest, rfl, rfl, by simpa [seen] using hr⟩

theorem takes_read {f : TokSpan → PM β} (h0 : toks = [] → Takes E pre (f ⟨.eof, E⟩) [] R)
    (h : ∀ tok p ts, toks = ⟨tok, p⟩ :: ts → Takes E (pre ++ [⟨tok, p⟩]) (f ⟨tok, p⟩) ts R) : Takes E pre (readT >>= f) toks R := by
  cases toks with
  | nil => exact fun hn a s' h' => h0 rfl hn a s' h'
  | cons t ts =>
    intro hn a s' h'
    rw [bind_run (read_cons ..)] at h'
    obtain ⟨used, rest, rfl, rfl, hr⟩ := h t.tok t.pos ts rfl hn.tail a s' h'
    exact ⟨t :: used, rest, rfl, rfl, by simpa using hr⟩

theorem takes_mono {x : PM β} {Q : List TokSpan → β → List TokSpan → Prop} (h : Takes E pre x toks Q)
    (hm : ∀ used b rest, toks = used ++ rest → Q (pre ++ used) b rest → R (pre ++ used) b rest) : Takes E pre x toks R := by
  intro hn a s' h'
  obtain ⟨used, rest, h1, h2, h3⟩ := h hn a s' h'
  exact ⟨used, rest, h1, h2, hm used a rest h1 h3⟩

/-- Parsers at the end of another one. -/
theorem takes_last {x : PM β} {Q : List TokSpan → β → List TokSpan → Prop} (h : Takes E [] x toks Q)
    (hm : ∀ used b rest, toks = used ++ rest → Q used b rest → R (pre ++ used) b rest) : Takes E pre x toks R := by
  intro hn a s' h'
  obtain ⟨used, rest, h1, h2, h3⟩ := h hn a s' h'
  exact ⟨used, rest, h1, h2, hm used a rest h1 (by simpa using h3)⟩

theorem takes_reset {x : PM β} {reset : PM Unit} (h : Takes E pre x toks R) : Takes E pre (orReset x reset) toks R := by
  intro hn a s' h'
  refine h hn a s' ?_
  unfold orReset at h'
  cases hx : x ⟨toks, E, false⟩ with
  | mk r s1 =>
    rw [hx] at h'
    cases r with
    | ok b => simpa using h'
    | error e =>
      exfalso
      cases e <;> simp only at h'
      case panic => simp at h'
      case fuel => simp at h'
      all_goals
        cases hr : reset s1 with
        | mk r s2 =>
          rw [hr] at h'
          cases r <;> simp at h'

theorem takes_expect {f : TokSpan → PM β} (k : Tok) (msg : String) (hne : k ≠ .eof)
    (h : ∀ p ts, toks = ⟨k, p⟩ :: ts → Takes E (pre ++ [⟨k, p⟩]) (f ⟨k, p⟩) ts R) : Takes E pre (expectT k msg >>= f) toks R := by
  cases toks with
  | nil =>
    intro hn a s' h'
    exfalso
    change PM.bind (expectT k msg) f _ = _ at h'
    unfold expectT at h'
    simp only [PM.bind] at h'
    rw [bind_run (peek_run [] E), if_pos (by simpa [seen] using hne.symm)] at h'
    cases h'
  | cons t ts =>
    obtain ⟨tok, pos⟩ := t
    by_cases hk : tok = k
    · subst hk
      intro hn a s' h'
      rw [bind_run (expect_cons ..)] at h'
      obtain ⟨used, rest, rfl, rfl, hr⟩ := h pos ts rfl hn.tail a s' h'
      exact ⟨⟨tok, pos⟩ :: used, rest, rfl, rfl, by simpa using hr⟩
    · intro hn a s' h'
      exfalso
      change PM.bind (expectT k msg) f _ = _ at h'
      unfold expectT at h'
      simp only [PM.bind] at h'
      rw [bind_run (peek_cons ..), if_pos (by simpa using hk)] at h'
      cases h'

theorem takes_expectAt {f : Unit → PM β} (k : Tok) (pos : LineCol) (msg : Str) (hne : k ≠ .eof)
    (h : ∀ p ts, toks = ⟨k, p⟩ :: ts → Takes E (pre ++ [⟨k, p⟩]) (f ()) ts R) : Takes E pre (expectAt k pos msg >>= f) toks R := by
  cases toks with
  | nil =>
    intro hn a s' h'
    exfalso
    change PM.bind (expectAt k pos msg) f _ = _ at h'
    unfold expectAt at h'
    simp only [PM.bind] at h'
    rw [bind_run (peek_run [] E), if_pos (by simpa [seen] using hne.symm)] at h'
    cases h'
  | cons t ts =>
    obtain ⟨tok, q⟩ := t
    by_cases hk : tok = k
    · subst hk
      intro hn a s' h'
      rw [bind_run (expectAt_cons ..)] at h'
      obtain ⟨used, rest, rfl, rfl, hr⟩ := h q ts rfl hn.tail a s' h'
      exact ⟨⟨tok, q⟩ :: used, rest, rfl, rfl, by simpa using hr⟩
    · intro hn a s' h'
      exfalso
      change PM.bind (expectAt k pos msg) f _ = _ at h'
      unfold expectAt at h'
      simp only [PM.bind] at h'
      rw [bind_run (peek_cons ..), if_pos (by simpa using hk)] at h'
      cases h'

/-! ## Expressions -/

def AllIn (ts : List TokSpan) : Prop := ∀ t ∈ ts, Tok.inExpr t.tok = true

theorem allIn_nil : AllIn [] := fun _ h => by cases h
theorem allIn_cons {t : TokSpan} {ts : List TokSpan} (h : Tok.inExpr t.tok = true) (hs : AllIn ts) : AllIn (t :: ts) := by
  intro x hx
  rcases List.mem_cons.1 hx with rfl | hx
  · exact h
  · exact hs x hx
theorem allIn_append {u v : List TokSpan} (h : AllIn u) (hs : AllIn v) : AllIn (u ++ v) := by
  intro x hx
  rcases List.mem_append.1 hx with hx | hx
  · exact h x hx
  · exact hs x hx

theorem inExpr_all (T : TextOps) (n : Nat) :
    (∀ es ops need s s' used r, exprLoop T n es ops need s = (.ok r, s') → Splits s used s' → AllIn used) ∧
    (∀ s s' used r, commaExprs T n s = (.ok r, s') → Splits s used s' → AllIn used ∧ ∀ sep p r', r ≠ .skip sep p r') ∧
    (∀ prev isFirst s s' used r, commaLoop T n prev isFirst s = (.ok r, s') → Splits s used s' →
      AllIn used ∧ ∀ sep p r', r ≠ .skip sep p r') := by
  induction n with
  | zero =>
    refine ⟨?_, ?_, ?_⟩
    · intro es ops need s s' used r h; cases h
    · intro s s' used r h; cases h
    · intro prev isFirst s s' used r h; cases h
  | succ n ih =>
    obtain ⟨ih1, ih2, ih3⟩ := ih
    refine ⟨?_, ?_, ?_⟩
    · rintro es ops need ⟨toks, E, io⟩ s' used r h hu
      cases toks with
      | nil =>
        rw [exprLoop_nil] at h
        cases io
        · injection h with ha hb
          subst hb
          rw [not_used_up hu]; exact allIn_nil
        · simp at h
      | cons t ts =>
        rw [exprLoop_cons] at h
        split at h
        · injection h with ha hb
          subst hb
          rw [not_used_up hu]; exact allIn_nil
        · cases tokStep_cases T n es ops need t ⟨ts, E, io⟩ with
          | fail err hf g => rw [g] at h; cases h
          | operand e he hn g =>
            rw [g] at h
            obtain ⟨used', rfl, hu'⟩ := exprLoop_used h hu
            refine allIn_cons ?_ (ih1 _ _ _ _ _ _ _ h hu')
            obtain ⟨tok, pos⟩ := t
            cases tok <;> first | rfl | simp [TokSpan.operand] at he
          | lparen ht hn g =>
            rw [g] at h
            obtain ⟨used', rfl, hu'⟩ := exprLoop_used h hu
            exact allIn_cons (by rw [ht]; rfl) (ih1 _ _ _ _ _ _ _ h hu')
          | rparen ht ops' es' hr g =>
            rw [g] at h
            obtain ⟨used', rfl, hu'⟩ := exprLoop_used h hu
            exact allIn_cons (by rw [ht]; rfl) (ih1 _ _ _ _ _ _ _ h hu')
          | un u ht hn g =>
            rw [g] at h
            obtain ⟨used', rfl, hu'⟩ := exprLoop_used h hu
            exact allIn_cons (by rw [ht]; cases u <;> rfl) (ih1 _ _ _ _ _ _ _ h hu')
          | bin op ht hn ops' es' hr g =>
            rw [g] at h
            obtain ⟨used', rfl, hu'⟩ := exprLoop_used h hu
            exact allIn_cons (by rw [ht]; cases op <;> rfl) (ih1 _ _ _ _ _ _ _ h hu')
          | call ht hn v p es' he g =>
            rw [g] at h
            simp only [PM.bind] at h
            cases h1 : commaExprs T n ⟨ts, E, io⟩ with
            | mk r1 s1 =>
              rw [h1] at h
              cases r1 with
              | error e => cases h
              | ok args =>
                simp only at h
                obtain ⟨u, x, hx, hsp⟩ := commaExprs_last T n _ _ _ h1
                have hl := ((runs_expr T n).1 (.call v p args :: es') ops false s1).1
                rw [h] at hl
                obtain ⟨w, hw⟩ := hl
                have hused : used = t :: ((u ++ [x]) ++ w) :=
                  splits_unique hu (splits_trans (splits_trans (splits_cons t ts E io) hsp) (u := _) hw)
                rw [hused]
                exact allIn_cons (by rw [ht]; rfl) (allIn_append (ih2 _ _ _ _ h1 hsp).1 (ih1 _ _ _ _ _ _ _ h hw))
    · intro s s' used r h hu
      rw [commaExprs_succ] at h
      simp only [PM.bind] at h
      cases hc : exprLoop T n [] [] true s with
      | mk r s1 =>
        rw [hc] at h
        cases r with
        | error e => cases h
        | ok r =>
          simp only at h
          have hl := ((runs_expr T n).1 [] [] true s).1
          rw [hc] at hl
          obtain ⟨w, hw⟩ := hl
          have hl' := ((runs_expr T n).2.2 r true s1).1
          rw [h] at hl'
          obtain ⟨w', hw'⟩ := hl'
          rw [splits_unique hu (splits_trans (u := w) hw hw')]
          exact ⟨allIn_append (ih1 _ _ _ _ _ _ _ hc hw) (ih3 _ _ _ _ _ _ h hw').1, (ih3 _ _ _ _ _ _ h hw').2⟩
    · rintro prev isFirst ⟨toks, E, io⟩ s' used r h hu
      cases toks with
      | nil =>
        obtain ⟨e, g1, g2⟩ := commaLoop_nil T n prev isFirst E io
        rw [g1] at h; cases h
      | cons t ts =>
        rw [commaLoop_cons] at h
        cases commaStep_cases T n prev isFirst t ts E io with
        | fail err s'' hl hf g => rw [g] at h; cases h
        | last e ht hp g =>
          rw [g] at h
          injection h with ha hb
          subst hb
          injection ha with ha
          subst ha
          rw [splits_unique hu (splits_cons t ts E io)]
          exact ⟨allIn_cons (by rw [ht]; rfl) allIn_nil, fun _ _ _ h => by cases h⟩
        | empty ht hp hi g =>
          rw [g] at h
          injection h with ha hb
          subst hb
          injection ha with ha
          subst ha
          rw [splits_unique hu (splits_cons t ts E io)]
          exact ⟨allIn_cons (by rw [ht]; rfl) allIn_nil, fun _ _ _ h => by cases h⟩
        | more e ht hp g =>
          rw [g] at h
          simp only [PM.bind] at h
          cases hc : exprLoop T n [] [] true ⟨ts, E, io⟩ with
          | mk r s1 =>
            rw [hc] at h
            cases r with
            | error e => cases h
            | ok r =>
              simp only at h
              cases hd : commaLoop T n r false s1 with
              | mk r' s2 =>
                rw [hd] at h
                cases r' with
                | error e => cases h
                | ok r' =>
                  have hs : s2 = s' := by cases h; rfl
                  subst hs
                  have hl := ((runs_expr T n).1 [] [] true ⟨ts, E, io⟩).1
                  rw [hc] at hl
                  obtain ⟨w, hw⟩ := hl
                  have hl' := ((runs_expr T n).2.2 r false s1).1
                  rw [hd] at hl'
                  obtain ⟨w', hw'⟩ := hl'
                  have hused : used = t :: (w ++ w') :=
                    splits_unique hu (splits_trans (splits_cons t ts E io) (splits_trans (u := w) hw hw'))
                  rw [hused]
                  refine ⟨allIn_cons (by rw [ht]; rfl) (allIn_append (ih1 _ _ _ _ _ _ _ hc hw) (ih3 _ _ _ _ _ _ hd hw').1), ?_⟩
                  intro sep p r'' hh
                  cases h
                  cases hh

theorem takes_expr (T : TextOps) : Takes E [] (parseExpr T none) toks (fun te r rest => MaybeExpr te r ∧ Ends rest) := by
  intro _ r s' h
  change exprLoop T _ [] [] true _ = _ at h
  have hl := ((runs_expr T (TokStream.exprFuel ⟨toks, E, false⟩)).1 [] [] true ⟨toks, E, false⟩).1
  rw [h] at hl
  obtain ⟨used, hu⟩ := hl
  obtain ⟨rest, E', io'⟩ := s'
  simp only [Splits] at hu
  injection hu with h1 h2 h3
  subst h2; subst h3; subst h1
  have hsp : Splits ⟨used ++ rest, E, false⟩ used ⟨rest, E, false⟩ := rfl
  refine ⟨used, rest, rfl, rfl, ⟨(inExpr_all T _).1 _ _ _ _ _ _ _ h hsp, fun hreg => ?_⟩, (exprLoop_ends T _ _ _ _ _ _ _ h).1⟩
  rcases parseExpr_sound T used rest E false r h hreg with hc | ⟨t, ht, hr, hts⟩
  · exact Or.inl hc
  · exact Or.inr ⟨t.expr, hr, t, ht, hts, rfl⟩

theorem takes_required (T : TextOps) (msg : String) : Takes E [] (parseRequired T msg) toks (fun te e rest => LikeExpr te e ∧ Ends rest) := by
  unfold parseRequired
  refine takes_peek (takes_bind (takes_expr T) ?_)
  rintro te r rest rfl hq
  cases r with
  | none => exact takes_bad _ _
  | some e => exact takes_pure (by simpa [LikeExpr] using hq)

theorem canonical_args : (a : TreeArgs) → ∃ a' : TreeArgs, a'.Canonical ∧ a'.toks = a.toks
  | .last t rp => by
    obtain ⟨t', h1, h2⟩ := exists_canonical t
    exact ⟨.last t' rp, h1, by simp [TreeArgs.toks, h2]⟩
  | .more t c r => by
    obtain ⟨t', h1, h2⟩ := exists_canonical t
    obtain ⟨r', g1, g2⟩ := canonical_args r
    exact ⟨.more t' c r', ⟨h1, g1⟩, by simp [TreeArgs.toks, h2, g2]⟩

/-- Expressions between commas. -/
structure CommaTaken (toks used : List TokSpan) (args : Args) (rest : List TokSpan) : Prop where
  inExpr : AllIn used
  noSkip : ∀ sep p r, args ≠ .skip sep p r
  last : ∃ u rp, used = u ++ [⟨.rightParen, rp⟩]
  sound : ∀ a b, Tok.endsOperand b = false → Regular a b used →
    (args = .nil ∧ ∃ rp, used = [⟨.rightParen, rp⟩]) ∨ ∃ x : TreeArgs, x.Canonical ∧ args = x.args ∧ x.toks = used
  unique : ∀ (a : TreeArgs) z, toks = a.toks ++ z → z = rest

theorem takes_comma (T : TextOps) : Takes E [] (parseCommaExprs T) toks (fun used args rest => CommaTaken toks used args rest) := by
  intro _ r s' h
  have hun : ∀ (a : TreeArgs) z, toks = a.toks ++ z → s' = ⟨z, E, false⟩ := by
    rintro a z rfl
    obtain ⟨a', h1, h2⟩ := canonical_args a
    rw [← h2, commaExprs_run T a' h1] at h
    cases h; rfl
  change commaExprs T _ _ = _ at h
  obtain ⟨u, x, hx, hu⟩ := commaExprs_last T _ _ _ _ h
  obtain ⟨rest, E', io'⟩ := s'
  have hsp := hu
  simp only [Splits] at hu
  injection hu with h1 h2 h3
  subst h2; subst h3
  refine ⟨u ++ [x], rest, h1, rfl, ?_⟩
  have hin := (inExpr_all T _).2.1 _ _ _ _ h hsp
  refine ⟨by simpa using hin.1, hin.2, ⟨u, x.pos, by rw [List.nil_append, ← tokspan_eta hx]⟩, ?_, ?_⟩
  · intro a b hb hreg
    exact (sound_all T _).2.2.1 _ _ _ _ a b hb h hsp (by simpa using hreg)
  · intro a z hz
    have := hun a z hz
    cases this; rfl

theorem CommaTaken.subscripts {toks used rest : List TokSpan} {args : Args} (h : CommaTaken toks used args rest) (v : VarRef) :
    LikeSubscripts v used args.exprs := by
  refine ⟨h.inExpr, fun hreg => ?_⟩
  rcases h.sound _ _ rfl hreg with ⟨rfl, hrp⟩ | ⟨x, h1, rfl, h2⟩
  · exact Or.inl ⟨rfl, hrp⟩
  · exact Or.inr ⟨x, h1, h2, (exprs_eq x).symm⟩

end EB
