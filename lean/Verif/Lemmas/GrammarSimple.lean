import Verif.Lemmas.GrammarSound
/-!
# Only simple statements of the grammar are accepted
-/

namespace EB
open Spec

variable {α β : Type} {E : LineCol} {pre toks : List TokSpan} {R : List TokSpan → β → List TokSpan → Prop}

/-! ## Commands and assignments -/

/-- An expression that is taken up after the closing parenthesis. -/
theorem takes_resume (T : TextOps) (lp : LineCol) {toks0 ua : List TokSpan} {args : Args} {e0 : Expr} (h : CommaTaken toks0 ua args toks)
    (he : args.exprs = [e0]) :
    Takes E [] (parseExpr T (some e0)) toks (fun tl r rest => MaybeExpr ((⟨.leftParen, lp⟩ :: ua) ++ tl) r ∧ Ends rest) := by
  intro _ r s' hx
  change exprLoop T _ [e0] [] false _ = _ at hx
  have hl := ((runs_expr T (TokStream.exprFuel ⟨toks, E, false⟩)).1 [e0] [] false ⟨toks, E, false⟩).1
  rw [hx] at hl
  obtain ⟨used, hu⟩ := hl
  obtain ⟨rest, E', io'⟩ := s'
  simp only [Splits] at hu
  injection hu with h1 h2 h3
  subst h2; subst h3; subst h1
  have hsp : Splits ⟨used ++ rest, E, false⟩ used ⟨rest, E, false⟩ := rfl
  refine ⟨used, rest, rfl, rfl, ⟨?_, fun hreg => ?_⟩, (exprLoop_ends T _ _ _ _ _ _ _ hx).1⟩
  · exact allIn_append (allIn_cons rfl h.inExpr) ((inExpr_all T _).1 _ _ _ _ _ _ _ hx hsp)
  · have hreg' : Regular .eof .leftParen (ua ++ used) := by simpa using hreg.2.2.2
    obtain ⟨g1, y, g2⟩ := regular_split hreg'
    rcases h.sound _ _ rfl g1 with ⟨rfl, _⟩ | ⟨x, x1, rfl, x2⟩
    · cases he
    · rw [exprs_eq] at he
      cases x with
      | more t c r => cases r <;> simp [TreeArgs.exprs] at he
      | last t rp =>
        simp only [TreeArgs.exprs, List.cons.injEq, and_true] at he
        subst he
        have hlast : lastTok .leftParen ua = .rightParen := by
          rw [← x2]
          simp [TreeArgs.toks, lastTok_append]
        rw [hlast] at g2
        obtain ⟨t', t1, t2, t3⟩ := (sound_all T _).2.1 [] (.paren lp t rp) _ _ _ _ _ _ trivial x1 rfl rfl rfl (fun _ _ _ => Or.inr rfl) hx hsp g2
        refine Or.inr ⟨t'.expr, t2, t', t1, ?_, rfl⟩
        rw [t3, ← x2]
        simp [toksOf, Tree.toks, TreeArgs.toks]

theorem sep_is {t : Tok} {sep : ArgSep} (h : t.argSep = some sep) : IsSep t sep := by
  cases t <;> simp [Tok.argSep] at h <;> subst h <;> constructor

theorem push_eq (r : Option Expr) (sep : ArgSep) (p : LineCol) (a : Args) : Args.push r sep p a = argument r sep p a := by
  cases r <;> rfl

/-- What the arguments of a command are. -/
def ArgsTaken (E : LineCol) (isFirst : Bool) (used : List TokSpan) (a : Args) (rest : List TokSpan) : Prop :=
  (isFirst = true ∧ a = .nil ∧ MaybeExpr used none) ∨
    (LikeArgs (seen rest E).pos used a ∧ (isFirst = true → a ≠ .skip .end (seen rest E).pos .nil))

theorem takes_builtin (T : TextOps) : ∀ (n : Nat) (toks head : List TokSpan) (first : Option Expr) (isFirst : Bool),
    Takes E [] (parseExpr T first) toks (fun tl r rest => MaybeExpr (head ++ tl) r ∧ Ends rest) →
    Takes E [] (builtinLoop T n first isFirst) toks (fun tl a rest => ArgsTaken E isFirst (head ++ tl) a rest)
  | 0, _, _, _, _, _ => takes_throw _
  | n + 1, toks, head, first, isFirst, hf => by
    unfold builtinLoop
    refine takes_bind hf ?_
    rintro tl r rest rfl ⟨hm, -⟩
    refine takes_peek ?_
    split
    · cases r with
      | some e =>
        exact takes_pure (Or.inr ⟨.last hm, fun _ h => by cases h⟩)
      | none =>
        cases isFirst with
        | true => exact takes_pure (Or.inl ⟨rfl, rfl, hm⟩)
        | false => exact takes_pure (Or.inr ⟨.last hm, fun h => by cases h⟩)
    · split
      · rename_i sep hsep
        have hne : (seen rest E).tok ≠ .eof := by intro h; rw [h] at hsep; cases hsep
        refine takes_consume rfl hne ?_
        intro p ts ht
        have hp : (seen rest E).pos = p := by rw [ht]; rfl
        refine takes_bind (takes_builtin T n ts [] none false (by simpa using takes_expr T)) ?_
        intro used a rest' ht' ha
        refine takes_pure (Or.inr ⟨?_, ?_⟩)
        · rcases ha with ⟨h, _⟩ | ⟨ha, -⟩
          · cases h
          · rw [push_eq, hp]
            simpa using LikeArgs.more (p := p) hm (sep_is hsep) ha
        · intro _ h
          cases r <;> simp [Args.push] at h
          rw [h.1] at hsep
          revert hsep
          cases (seen rest E).tok <;> simp [Tok.argSep]
      · exact takes_bad _ _

/-- What a command is. -/
theorem takes_command (T : TextOps) (F : FloatOps) (v : VarRef) (p : LineCol) {toks head full : List TokSpan} {first : Option Expr}
    (hf : Takes E [] (parseExpr T first) toks (fun tl r rest => MaybeExpr (head ++ tl) r ∧ Ends rest)) (hfull : full = head ++ toks)
    (hel : ¬ LikeElement full) :
    Takes E [] (parseBuiltinCall T v p first) toks
      (fun tl s rest => LikeSimple F (seen rest E).pos (⟨.symbol v, p⟩ :: (head ++ tl)) s) := by
  unfold parseBuiltinCall
  obtain ⟨name, ty⟩ := v
  cases ty with
  | some ty =>
    intro _ a s' h
    cases h
  | none =>
    refine takes_bind (x := unannotated ⟨name, none⟩ p) (Q := fun used a rest => used = [] ∧ a = name) ?_ ?_
    · exact takes_pure ⟨rfl, rfl⟩
    · rintro used a rest rfl ⟨rfl, rfl⟩
      refine takes_bind (x := fun s => builtinLoop T (s.toks.length + 1) first true s)
        (Q := fun tl a rest => ArgsTaken E true (head ++ tl) a rest)
        (takes_builtin (E := E) T (rest.length + 1) rest head first true hf) ?_
      rintro tl a rest' rfl ha
      refine takes_pure ?_
      rcases ha with ⟨-, rfl, hm⟩ | ⟨ha, hne⟩
      · exact .command hm
      · refine .commandArgs ha (hne rfl) ?_
        rintro ⟨lp, x, q, z, hz⟩
        simp only [List.nil_append] at hz
        refine hel ⟨lp, x, q, z ++ rest', ?_⟩
        rw [hfull, List.nil_append, ← List.append_assoc, hz]
        simp

theorem takes_symbol (T : TextOps) (F : FloatOps) (v : VarRef) (p : LineCol) :
    Takes E [] (parseSymbolStmt T v p) toks (fun used s rest => LikeSimple F (seen rest E).pos (⟨.symbol v, p⟩ :: used) s) := by
  unfold parseSymbolStmt
  refine takes_peek ?_
  split
  · rename_i heq
    refine takes_consume heq (by simp) ?_
    rintro q ts rfl
    unfold parseAssignment
    refine takes_bind (takes_required T _) ?_
    rintro te e rest rfl ⟨he, -⟩
    refine takes_peek ?_
    split
    · exact takes_pure (by simpa using LikeSimple.assign he)
    · exact takes_bad _ _
  · unfold parseArrayOrBuiltin
    refine takes_peek ?_
    split
    · rename_i hne hlp
      refine takes_consume hlp (by simp) ?_
      rintro lp ts rfl
      refine takes_bind (takes_comma T) ?_
      rintro ua args rest ht hc
      refine takes_peek ?_
      split
      · rename_i heq
        refine takes_consume heq (by simp) ?_
        rintro q ts' rfl
        unfold parseArrayAssignment
        refine takes_bind (takes_required T _) ?_
        rintro te e rest' rfl ⟨he, -⟩
        refine takes_peek ?_
        split
        · exact takes_pure (by simpa using LikeSimple.arrayAssign (F := F) (p := p) (q := lp) (r := q) (hc.subscripts v) he)
        · exact takes_bad _ _
      · rename_i hneq
        split
        · rename_i e0 he0
          refine takes_last (takes_command T F v p (full := ⟨.leftParen, lp⟩ :: ts) (takes_resume T lp hc he0) (by rw [ht]; rfl) ?_) ?_
          · rintro ⟨lp', x, q, z, hz⟩
            injection hz with _ hz
            have := hc.unique x _ hz
            apply hneq
            rw [← this]
            rfl
          · intro used s rest' _ h
            simpa using h
        · exact takes_bad _ _
    · rename_i hne hlp
      refine takes_last (takes_command T F v p (head := []) (full := toks) (by simpa using takes_expr T) rfl ?_) ?_
      · rintro ⟨lp', x, q, z, hz⟩
        rw [hz] at hlp
        exact hlp rfl
      · intro used s rest' _ h
        simpa using h

/-! ## The other simple statements -/

theorem label_is {t : Tok} {l : Str} (h : t.labelName = some l) : IsLabel t l := by
  cases t <;> simp [Tok.labelName] at h <;> subst h <;> constructor

theorem takes_data (T : TextOps) (F : FloatOps) : ∀ (n : Nat) (toks : List TokSpan),
    Takes E [] (dataLoop T F n) toks (fun used vs rest => IsData F used vs)
  | 0, _ => takes_throw _
  | n + 1, toks => by
    unfold dataLoop
    refine takes_peek ?_
    split
    · exact takes_pure .none
    · rename_i hx
      clear hx
      refine takes_bind (Q := fun used r rest => match r with | none => ∃ p, used = [⟨.comma, p⟩] | some e => IsDatum F used e) ?_ ?_
      · unfold parseDatum
        refine takes_read (fun _ => takes_bad _ _) ?_
        rintro tok p ts rfl
        cases tok <;> first | exact takes_bad _ _ | skip
        case boolean b => exact takes_pure (.bool b p)
        case double b => exact takes_pure (.dbl b p)
        case integer b => exact takes_pure (.int b p)
        case text b => exact takes_pure (.text b p)
        case comma => exact takes_pure ⟨p, rfl⟩
        case minus =>
          simp only
          refine takes_bind (Q := fun used e rest => IsDatum F (⟨.minus, p⟩ :: used) e) ?_ ?_
          · unfold parseNegDatum
            refine takes_read (fun _ => takes_bad _ _) ?_
            rintro tok q ts' rfl
            cases tok <;> first | exact takes_bad _ _ | skip
            case double b => exact takes_pure (.negDbl b p q)
            case integer b =>
              simp only
              unfold negI32
              split
              · intro _ a s' h; cases h
              · rename_i hb
                exact takes_bind (Q := fun used j rest => used = [] ∧ j = -b) (takes_pure ⟨rfl, rfl⟩) (by
                  rintro used j rest rfl ⟨rfl, rfl⟩
                  exact takes_pure (by simpa using IsDatum.negInt b p q hb))
          · rintro used e rest rfl h
            exact takes_pure (by simpa using h)
      · rintro used r rest rfl hr
        cases r with
        | none =>
          obtain ⟨p, rfl⟩ := hr
          refine takes_bind (takes_data T F n rest) ?_
          rintro used' vs rest' rfl h
          exact takes_pure (by simpa using IsData.skip h)
        | some e =>
          simp only at hr ⊢
          refine takes_peek ?_
          split
          · exact takes_pure (by simpa using IsData.one hr)
          · split
            · rename_i hc
              refine takes_consume hc (by simp) ?_
              rintro p ts rfl
              refine takes_bind (takes_data T F n ts) ?_
              rintro used' vs rest' rfl h
              exact takes_pure (by simpa using IsData.more hr h)
            · exact takes_bad _ _

theorem takes_dataStmt (T : TextOps) (F : FloatOps) (p : LineCol) :
    Takes E [] (parseData T F) toks (fun used s rest => LikeSimple F (seen rest E).pos (⟨.data, p⟩ :: used) s) := by
  unfold parseData
  refine takes_bind (x := fun s => dataLoop T F (s.toks.length + 1) s) (Q := fun used vs rest => IsData F used vs)
    (takes_data (E := E) T F (toks.length + 1) toks) ?_
  rintro used vs rest rfl h
  exact takes_pure (by simpa using LikeSimple.data h)

theorem takes_maybeEnd (T : TextOps) (p : LineCol) : Takes E [] (maybeParseEnd T p) toks (fun used r rest =>
    (∃ te, r = .inl (.end te p) ∧ MaybeExpr used te ∧ Ends rest) ∨
    (∃ k, r = .inr k ∧ used = [] ∧ (seen rest E).tok = k ∧ (k = .function ∨ k = .if ∨ k = .select ∨ k = .sub))) := by
  unfold maybeParseEnd
  refine takes_peek ?_
  split
  case h_5 =>
    refine takes_bind (takes_expr T) ?_
    rintro used r rest rfl h
    exact takes_pure (Or.inl ⟨r, rfl, by simpa using h⟩)
  all_goals
    rename_i hk
    exact takes_pure (Or.inr ⟨_, rfl, rfl, hk, by simp⟩)

theorem takes_end (T : TextOps) (F : FloatOps) (p : LineCol) :
    Takes E [] (parseEnd T p) toks (fun used s rest => LikeSimple F (seen rest E).pos (⟨.end, p⟩ :: used) s) := by
  unfold parseEnd
  refine takes_bind (takes_maybeEnd T p) ?_
  rintro used r rest rfl (⟨te, rfl, hm, -⟩ | ⟨k, rfl, -⟩)
  · exact takes_pure (by simpa using LikeSimple.end hm)
  · exact takes_bad _ _

theorem takes_exit (F : FloatOps) (p : LineCol) :
    Takes E [] (parseExit p) toks (fun used s rest => LikeSimple F (seen rest E).pos (⟨.exit, p⟩ :: used) s) := by
  unfold parseExit
  refine takes_peek ?_
  split
  case h_5 => exact takes_bad _ _
  all_goals
    rename_i hk
    refine takes_consume hk (by simp) ?_
    rintro q ts rfl
    refine takes_pure ?_
    constructor

theorem takes_gosub (F : FloatOps) (p : LineCol) :
    Takes E [] parseGosub toks (fun used s rest => LikeSimple F (seen rest E).pos (⟨.gosub, p⟩ :: used) s) := by
  unfold parseGosub
  refine takes_read (fun _ => takes_bad _ _) ?_
  rintro tok q ts rfl
  split
  · rename_i l hl
    exact takes_pure (.gosub (label_is hl))
  · exact takes_bad _ _

theorem takes_goto (F : FloatOps) (p : LineCol) :
    Takes E [] parseGoto toks (fun used s rest => LikeSimple F (seen rest E).pos (⟨.goto, p⟩ :: used) s) := by
  unfold parseGoto
  refine takes_read (fun _ => takes_bad _ _) ?_
  rintro tok q ts rfl
  split
  · rename_i l hl
    exact takes_pure (.goto (label_is hl))
  · exact takes_bad _ _

theorem takes_on (F : FloatOps) (p : LineCol) :
    Takes E [] (parseOn p) toks (fun used s rest => LikeSimple F (seen rest E).pos (⟨.on, p⟩ :: used) s) := by
  unfold parseOn
  refine takes_expect .error _ (by simp) ?_
  rintro q ts rfl
  refine takes_read (fun _ => takes_bad _ _) ?_
  rintro tok r ts' rfl
  split
  · rename_i htok
    simp only at htok
    subst htok
    refine takes_read (fun _ => takes_bad _ _) ?_
    rintro tok u ts'' rfl
    split
    · rename_i h0
      simp only at h0
      subst h0
      exact takes_pure .onErrorReset
    · rename_i h0
      split
      · rename_i l hl
        exact takes_pure (.onErrorGoto (label_is hl) h0)
      · exact takes_bad _ _
  · rename_i htok
    simp only at htok
    subst htok
    refine takes_expect .next _ (by simp) ?_
    rintro u ts'' rfl
    exact takes_pure .onErrorResume
  · exact takes_bad _ _

/-- What a statement of an `IF` of one line is. -/
def UniTaken (F : FloatOps) (E : LineCol) (used : List TokSpan) (r : Option Stmt) (rest : List TokSpan) : Prop :=
  match r with
  | some s => LikeSimple F (seen rest E).pos used s
  | none => (∃ l, used = [⟨.eol, l⟩]) ∨ (used = [] ∧ rest = [])

theorem takes_some {x : PM Stmt} {F : FloatOps} {t : TokSpan}
    (h : Takes E [] x toks (fun used s rest => LikeSimple F (seen rest E).pos (t :: used) s)) :
    Takes E ([] ++ [t]) (do let s ← x; pure (some s)) toks (UniTaken F E) := by
  refine takes_bind h ?_
  rintro used s rest rfl hs
  exact takes_pure hs

theorem takes_uniline (T : TextOps) (F : FloatOps) : Takes E [] (parseUniline T F) toks (UniTaken F E) := by
  unfold parseUniline
  refine takes_noEof fun hn => ?_
  refine takes_read (fun h => takes_pure (Or.inr ⟨rfl, rfl⟩)) ?_
  rintro tok p ts rfl
  cases tok <;> first | exact takes_bad _ _ | skip
  case eof => exact absurd rfl (hn _ List.mem_cons_self)
  case eol => exact takes_pure (Or.inl ⟨p, rfl⟩)
  case data => exact takes_some (takes_dataStmt T F p)
  case «end» => exact takes_some (takes_end T F p)
  case exit => exact takes_some (takes_exit F p)
  case gosub => exact takes_some (takes_gosub F p)
  case goto => exact takes_some (takes_goto F p)
  case on => exact takes_some (takes_on F p)
  case «return» => exact takes_pure (LikeSimple.return (F := F))
  case symbol v => exact takes_some (takes_symbol T F v p)

end EB
