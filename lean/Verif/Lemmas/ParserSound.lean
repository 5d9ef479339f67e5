import Verif.Lemmas.ParserExpr
/-!
# What the parser of expressions accepts
-/

namespace EB
open Spec

/-! ## Operators without operands -/

/-- The number of binary operators on the stack. -/
def bins : List OpSpan → Nat
  | [] => 0
  | o :: os => (match o.op with | .bin _ => 1 | _ => 0) + bins os

theorem apply_short {o : OpSpan} {os : List OpSpan} {es es' : List Expr} {k : Nat}
    (h : es.length + k ≤ bins (o :: os)) (h1 : 1 ≤ bins (o :: os)) (ha : o.apply es = .ok es') :
    es'.length + k ≤ bins os ∧ 1 ≤ bins os := by
  obtain ⟨op, pos⟩ := o
  cases op with
  | leftParen => cases ha; simp [bins] at h h1 ⊢; omega
  | un u =>
    cases es with
    | nil => cases ha
    | cons e es => cases ha; simp [bins] at h h1 ⊢; omega
  | bin b =>
    cases es with
    | nil => cases ha
    | cons e es =>
      cases es with
      | nil => cases ha
      | cons e' es => cases ha; simp [bins] at h h1 ⊢; omega

theorem reduceFor_short (p : Nat) {k : Nat} : ∀ (ops : List OpSpan) (es : List Expr) {ops' : List OpSpan} {es' : List Expr},
    es.length + k ≤ bins ops → 1 ≤ bins ops → reduceFor p ops es = .ok (ops', es') →
    es'.length + k ≤ bins ops' ∧ 1 ≤ bins ops' := by
  intro ops
  induction ops with
  | nil => intro es ops' es' h h1 _; simp [bins] at h1
  | cons o os ih =>
    intro es ops' es' h h1 hr
    rw [reduceFor] at hr
    split at hr
    · cases hr; exact ⟨h, h1⟩
    · split at hr
      · cases hr
      · rename_i es1 ha
        obtain ⟨g, g1⟩ := apply_short h h1 ha
        exact ih es1 g g1 hr

theorem reduceParen_short {k : Nat} : ∀ (ops : List OpSpan) (es : List Expr) {ops' : List OpSpan} {es' : List Expr},
    es.length + k ≤ bins ops → 1 ≤ bins ops → reduceParen ops es = .ok (ops', es') →
    es'.length + k ≤ bins ops' ∧ 1 ≤ bins ops' := by
  intro ops
  induction ops with
  | nil => intro es ops' es' h h1 _; simp [bins] at h1
  | cons o os ih =>
    intro es ops' es' h h1 hr
    rw [reduceParen] at hr
    split at hr
    · cases hr
    · rename_i es1 ha
      obtain ⟨g, g1⟩ := apply_short h h1 ha
      split at hr
      · cases hr; exact ⟨g, g1⟩
      · exact ih es1 g g1 hr

theorem reduceAll_short : ∀ (ops : List OpSpan) (es : List Expr) {r : Option Expr},
    es.length ≤ bins ops → 1 ≤ bins ops → reduceAll ops es ≠ .ok r := by
  intro ops
  induction ops with
  | nil => intro es r h h1 _; simp [bins] at h1
  | cons o os ih =>
    intro es r h h1 hr
    rw [reduceAll] at hr
    split at hr
    · cases hr
    · split at hr
      · cases hr
      · rename_i es1 ha
        obtain ⟨g, g1⟩ := apply_short (k := 0) h h1 ha
        exact ih es1 g g1 hr

/-! ## Sequences of tokens -/

def lastTok : Tok → List TokSpan → Tok
  | b, [] => b
  | _, t :: ts => lastTok t.tok ts

theorem regular_split {a b : Tok} {u v : List TokSpan} (h : Regular a b (u ++ v)) :
    Regular a b u ∧ ∃ y, Regular y (lastTok b u) v := by
  induction u generalizing a b with
  | nil => exact ⟨trivial, a, h⟩
  | cons t ts ih =>
    obtain ⟨h1, h2, h3, h4⟩ := h
    obtain ⟨g, y, gy⟩ := ih h4
    exact ⟨⟨h1, h2, h3, g⟩, y, gy⟩

theorem lastTok_append (b : Tok) (u : List TokSpan) (x : TokSpan) : lastTok b (u ++ [x]) = x.tok := by
  induction u generalizing b with
  | nil => rfl
  | cons t ts ih => exact ih _

/-- `s` is `used` followed by `s'`. -/
def Splits (s : TokStream) (used : List TokSpan) (s' : TokStream) : Prop := s = ⟨used ++ s'.toks, s'.eofPos, s'.io⟩

theorem splits_unique {s s' : TokStream} {u v : List TokSpan} (h : Splits s u s') (h' : Splits s v s') : u = v := by
  unfold Splits at h h'
  rw [h] at h'
  injection h' with h'
  exact List.append_cancel_right h'

theorem splits_trans {s s' s'' : TokStream} {u v : List TokSpan} (h : Splits s u s') (h' : Splits s' v s'') : Splits s (u ++ v) s'' := by
  unfold Splits at *
  subst h'; subst h; simp

theorem splits_cons (t : TokSpan) (ts : List TokSpan) (E : LineCol) (io : Bool) : Splits ⟨t :: ts, E, io⟩ [t] ⟨ts, E, io⟩ := rfl

theorem splits_refl (s : TokStream) : Splits s [] s := rfl

/-- Arguments end with a parenthesis. -/
theorem commaLoop_last (T : TextOps) (n : Nat) : ∀ prev isFirst s a s', commaLoop T n prev isFirst s = (.ok a, s') →
    ∃ u x, x.tok = .rightParen ∧ Splits s (u ++ [x]) s' := by
  induction n with
  | zero => intro prev isFirst s a s' h; cases h
  | succ n ih =>
    rintro prev isFirst ⟨toks, E, io⟩ a s' h
    cases toks with
    | nil =>
      obtain ⟨e, h1, h2⟩ := commaLoop_nil T n prev isFirst E io
      rw [h1] at h; cases h
    | cons t ts =>
      rw [commaLoop_cons] at h
      cases commaStep_cases T n prev isFirst t ts E io with
      | fail err s'' hl hf g => rw [g] at h; cases h
      | last e ht hp g => rw [g] at h; cases h; exact ⟨[], t, ht, splits_cons _ _ _ _⟩
      | empty ht hp hi g => rw [g] at h; cases h; exact ⟨[], t, ht, splits_cons _ _ _ _⟩
      | more e ht hp g =>
        rw [g] at h
        simp only [PM.bind] at h
        cases h1 : exprLoop T n [] [] true ⟨ts, E, io⟩ with
        | mk r s1 =>
          rw [h1] at h
          cases r with
          | error e => cases h
          | ok r =>
            simp only at h
            cases h2 : commaLoop T n r false s1 with
            | mk r' s2 =>
              rw [h2] at h
              cases r' with
              | error e => cases h
              | ok r' =>
                have hs : s2 = s' := by cases h; rfl
                subst hs
                obtain ⟨u, x, hx, hsp⟩ := ih _ _ _ _ _ h2
                have hl := (runs_expr T n).1 [] [] true ⟨ts, E, io⟩
                rw [h1] at hl
                obtain ⟨w, hw⟩ := hl.1
                refine ⟨[t] ++ (w ++ u), x, hx, ?_⟩
                have := splits_trans (splits_cons t ts E io) (splits_trans (u := w) hw hsp)
                simpa using this

theorem commaExprs_last (T : TextOps) (n : Nat) (s : TokStream) (a : Args) (s' : TokStream) (h : commaExprs T n s = (.ok a, s')) :
    ∃ u x, x.tok = .rightParen ∧ Splits s (u ++ [x]) s' := by
  cases n with
  | zero => cases h
  | succ n =>
    rw [commaExprs_succ] at h
    simp only [PM.bind] at h
    cases h1 : exprLoop T n [] [] true s with
    | mk r s1 =>
      rw [h1] at h
      cases r with
      | error e => cases h
      | ok r =>
        simp only at h
        obtain ⟨u, x, hx, hsp⟩ := commaLoop_last T n _ _ _ _ _ h
        have hl := (runs_expr T n).1 [] [] true s
        rw [h1] at hl
        obtain ⟨w, hw⟩ := hl.1
        refine ⟨w ++ u, x, hx, ?_⟩
        have := splits_trans (u := w) hw hsp
        simpa using this

/-- The tokens after the first one that the loop uses. -/
theorem exprLoop_used {T : TextOps} {n : Nat} {es : List Expr} {ops : List OpSpan} {need : Bool} {t : TokSpan} {ts : List TokSpan}
    {E : LineCol} {io : Bool} {r : Except PErr (Option Expr)} {s' : TokStream} {used : List TokSpan}
    (h : exprLoop T n es ops need ⟨ts, E, io⟩ = (r, s')) (hu : Splits ⟨t :: ts, E, io⟩ used s') :
    ∃ used', used = t :: used' ∧ Splits ⟨ts, E, io⟩ used' s' := by
  have hl := ((runs_expr T n).1 es ops need ⟨ts, E, io⟩).1
  rw [h] at hl
  obtain ⟨w, hw⟩ := hl
  exact ⟨w, splits_unique hu (splits_trans (splits_cons t ts E io) hw), hw⟩

theorem not_used_up {s : TokStream} {used : List TokSpan} (h : Splits s used s) : used = [] := splits_unique h (splits_refl s)

/-- A state from which no sequence of tokens leads to an expression. -/
def Short (es : List Expr) (ops : List OpSpan) (need : Bool) : Prop :=
  es.length + (if need then 1 else 0) ≤ bins ops ∧ 1 ≤ bins ops

theorem bins_bin (op : SrcBin) (pos : LineCol) (ops : List OpSpan) : bins (⟨.bin op, pos⟩ :: ops) = bins ops + 1 := by
  simp [bins]; omega

theorem endsOperand_operand {t : TokSpan} {e : Expr} (h : t.operand = some e) : Tok.endsOperand t.tok = true := by
  obtain ⟨tok, pos⟩ := t
  cases tok <;> first | rfl | (simp [TokSpan.operand] at h)

theorem short_dead (T : TextOps) (n : Nat) : ∀ es ops need s s' used r a b, Short es ops need → (need = false → Tok.endsOperand b = true) →
    exprLoop T n es ops need s = (.ok r, s') → Splits s used s' → Regular a b used → False := by
  induction n with
  | zero => intro es ops need s s' used r a b _ _ h; cases h
  | succ n ih =>
    rintro es ops need ⟨toks, E, io⟩ s' used r a b ⟨hs, hs1⟩ hb h hu hreg
    cases toks with
    | nil =>
      rw [exprLoop_nil] at h
      cases io
      · have : reduceAll ops es = .ok r := by injection h
        exact reduceAll_short ops es (by omega) hs1 this
      · simp at h
    | cons t ts =>
      rw [exprLoop_cons] at h
      split at h
      · have : reduceAll ops es = .ok r := by injection h
        exact reduceAll_short ops es (by omega) hs1 this
      · cases tokStep_cases T n es ops need t ⟨ts, E, io⟩ with
        | fail err hf g => rw [g] at h; cases h
        | operand e he hn g =>
          rw [g] at h
          obtain ⟨used', rfl, hu'⟩ := exprLoop_used h hu
          subst hn
          exact ih _ _ _ _ _ _ _ _ _ ⟨by simp at hs ⊢; omega, hs1⟩ (fun _ => endsOperand_operand he) h hu' hreg.2.2.2
        | lparen ht hn g =>
          rw [g] at h
          obtain ⟨used', rfl, hu'⟩ := exprLoop_used h hu
          subst hn
          exact ih _ _ _ _ _ _ _ _ _ ⟨by simpa [bins] using hs, by simpa [bins] using hs1⟩ (fun h => by cases h) h hu' hreg.2.2.2
        | rparen ht ops' es' hr g =>
          rw [g] at h
          obtain ⟨used', rfl, hu'⟩ := exprLoop_used h hu
          obtain ⟨g1, g2⟩ := reduceParen_short (k := 0) ops es (by omega) hs1 hr
          exact ih _ _ _ _ _ _ _ _ _ ⟨by simpa using g1, g2⟩ (fun _ => by rw [ht]; rfl) h hu' hreg.2.2.2
        | un u ht hn g =>
          rw [g] at h
          obtain ⟨used', rfl, hu'⟩ := exprLoop_used h hu
          have hneed : need = true := by
            rcases hn with rfl | hn
            · cases need with
              | true => rfl
              | false => exact absurd ⟨hb rfl, ht⟩ hreg.1
            · exact hn
          subst hneed
          exact ih _ _ _ _ _ _ _ _ _ ⟨by simpa [bins] using hs, by simpa [bins] using hs1⟩ (fun h => by cases h) h hu' hreg.2.2.2
        | bin op ht hn ops' es' hr g =>
          rw [g] at h
          obtain ⟨used', rfl, hu'⟩ := exprLoop_used h hu
          obtain ⟨g1, g2⟩ := reduceFor_short op.priority (k := 0) ops es (by omega) hs1 hr
          exact ih _ _ _ _ _ _ _ _ _ ⟨by rw [bins_bin]; simpa using g1, by rw [bins_bin]; omega⟩ (fun h => by cases h) h hu' hreg.2.2.2
        | call ht hn v p es' he g =>
          rw [g] at h
          simp only [PM.bind] at h
          cases h1 : commaExprs T n ⟨ts, E, io⟩ with
          | mk r1 s1 =>
            rw [h1] at h
            cases r1 with
            | error e => cases h
            | ok args =>
              simp only at h
              obtain ⟨u, x, hx, hsp⟩ := commaExprs_last T n _ _ _ h1
              have hl := ((runs_expr T n).1 (.call v p args :: es') ops false s1).1
              rw [h] at hl
              obtain ⟨w, hw⟩ := hl
              have hused : used = ([t] ++ (u ++ [x])) ++ w :=
                splits_unique hu (splits_trans (splits_trans (splits_cons t ts E io) hsp) (u := _) hw)
              rw [hused] at hreg
              obtain ⟨_, y, hy⟩ := regular_split hreg
              rw [← List.append_assoc, lastTok_append] at hy
              subst hn; subst he
              exact ih _ _ _ _ _ _ _ _ _ ⟨by simpa using hs, hs1⟩ (fun _ => by rw [hx]; rfl) h hw hy

/-! ## Stacks that stand for the beginning of an expression -/

/-- How tightly the top of the stack binds. -/
def topS : List PFrame → Option Nat
  | .bin _ op _ :: _ => some (strength op)
  | .un _ _ :: _ => some prefixStrength
  | _ => none

def Above (o : Option Nat) (ks : List Nat) : Prop := ∀ k ∈ ks, ∀ p, o = some p → p < k

def FramesOk : List PFrame → Prop
  | [] => True
  | .bin l op _ :: fs =>
    l.Canonical ∧ (∀ k ∈ l.rightEdge, strength op ≤ k) ∧ Above (topS fs) (strength op :: l.leftEdge) ∧ FramesOk fs
  | _ :: fs => FramesOk fs

theorem reduceFor_frames (p : Nat) : ∀ (fs : List PFrame) (t : Tree), FramesOk fs → t.Canonical →
    (∀ k ∈ t.rightEdge, p ≤ k) → Above (topS fs) t.leftEdge →
    ∃ (fs' : List PFrame) (t' : Tree), reduceFor p (opsOf fs) (t.expr :: esOf fs) = .ok (opsOf fs', t'.expr :: esOf fs') ∧ FramesOk fs' ∧ t'.Canonical ∧
      (∀ k ∈ t'.rightEdge, p ≤ k) ∧ Above (topS fs') (p :: t'.leftEdge) ∧ toksOf fs ++ t.toks = toksOf fs' ++ t'.toks := by
  intro fs
  induction fs with
  | nil =>
    intro t _ hc hr hl
    exact ⟨[], t, rfl, trivial, hc, hr, fun k _ q hq => by simp [topS] at hq, rfl⟩
  | cons f fs ih =>
    intro t hf hc hr hl
    cases f with
    | par pos =>
      refine ⟨.par pos :: fs, t, ?_, hf, hc, hr, fun k _ q hq => by simp [topS] at hq, rfl⟩
      simp [opsOf, PFrame.op, reduceFor]
    | un u pos =>
      by_cases hp : prefixStrength < p
      · refine ⟨.un u pos :: fs, t, ?_, hf, hc, hr, ?_, rfl⟩
        · simp only [opsOf, List.map_cons, PFrame.op, reduceFor]
          rw [if_pos (Or.inr (show (ExprOp.un u).priority < p from hp))]
        · intro k hk q hq
          cases hq
          rcases List.mem_cons.1 hk with rfl | hk
          · exact hp
          · exact hl k hk _ rfl
      · obtain ⟨fs', t', h1, h2, h3, h4, h5, h6⟩ := ih (.un u pos t) hf ⟨hc, fun k hk => hl k hk _ rfl⟩
          (by
            intro k hk
            simp only [Tree.rightEdge, List.mem_cons] at hk
            rcases hk with rfl | hk
            · omega
            · exact hr k hk)
          (by intro k hk; cases hk)
        refine ⟨fs', t', ?_, h2, h3, h4, h5, ?_⟩
        · rw [← h1]
          simp only [opsOf, esOf, List.map_cons, PFrame.op, reduceFor, List.filterMap_cons, PFrame.left]
          rw [if_neg (by simp only [ExprOp.priority]; simp only [prefixStrength] at hp; simp; omega)]
          rfl
        · rw [← h6]; simp [toksOf, PFrame.toks, Tree.toks]
    | bin l op pos =>
      obtain ⟨f1, f2, f3, f4⟩ := hf
      by_cases hp : strength op < p
      · refine ⟨.bin l op pos :: fs, t, ?_, ⟨f1, f2, f3, f4⟩, hc, hr, ?_, rfl⟩
        · simp only [opsOf, List.map_cons, PFrame.op, reduceFor]
          rw [if_pos (Or.inr (by rw [strength_eq] at hp; exact hp))]
        · intro k hk q hq
          cases hq
          rcases List.mem_cons.1 hk with rfl | hk
          · exact hp
          · exact hl k hk _ rfl
      · obtain ⟨fs', t', h1, h2, h3, h4, h5, h6⟩ := ih (.bin op pos l t) f4 ⟨f1, hc, f2, fun k hk => hl k hk _ rfl⟩
          (by
            intro k hk
            simp only [Tree.rightEdge, List.mem_cons] at hk
            rcases hk with rfl | hk
            · omega
            · exact hr k hk) f3
        refine ⟨fs', t', ?_, h2, h3, h4, h5, ?_⟩
        · rw [← h1]
          simp only [opsOf, esOf, List.map_cons, PFrame.op, reduceFor, List.filterMap_cons, PFrame.left]
          rw [if_neg (by simp only [ExprOp.priority]; rw [strength_eq] at hp; simp; omega)]
          rfl
        · rw [← h6]; simp [toksOf, PFrame.toks, Tree.toks]

theorem reduceParen_frames : ∀ (fs : List PFrame) (t : Tree), FramesOk fs → t.Canonical → Above (topS fs) t.leftEdge →
    (opsOf fs).any (fun o => o.op = .leftParen) = true →
    ∃ (fs' : List PFrame) (t' : Tree) (pos : LineCol), reduceParen (opsOf fs) (t.expr :: esOf fs) = .ok (opsOf fs', t'.expr :: esOf fs') ∧ FramesOk fs' ∧ t'.Canonical ∧
      toksOf fs ++ t.toks = toksOf fs' ++ ⟨.leftParen, pos⟩ :: t'.toks := by
  intro fs
  induction fs with
  | nil => intro t _ _ _ h; cases h
  | cons f fs ih =>
    intro t hf hc hl hp
    cases f with
    | par pos =>
      exact ⟨fs, t, pos, by simp [opsOf, PFrame.op, reduceParen, OpSpan.apply, esOf, PFrame.left, List.filterMap_cons], hf, hc, by simp [toksOf, PFrame.toks]⟩
    | un u pos =>
      obtain ⟨fs', t', p, h1, h2, h3, h4⟩ := ih (.un u pos t) hf ⟨hc, fun k hk => hl k hk _ rfl⟩ (by intro k hk; cases hk)
        (by simpa [opsOf, PFrame.op] using hp)
      refine ⟨fs', t', p, ?_, h2, h3, ?_⟩
      · rw [← h1]
        simp [opsOf, esOf, PFrame.op, reduceParen, List.filterMap_cons, PFrame.left, OpSpan.apply, Tree.expr]
      · rw [← h4]; simp [toksOf, PFrame.toks, Tree.toks]
    | bin l op pos =>
      obtain ⟨f1, f2, f3, f4⟩ := hf
      obtain ⟨fs', t', p, h1, h2, h3, h4⟩ := ih (.bin op pos l t) f4 ⟨f1, hc, f2, fun k hk => hl k hk _ rfl⟩ f3
        (by simpa [opsOf, PFrame.op] using hp)
      refine ⟨fs', t', p, ?_, h2, h3, ?_⟩
      · rw [← h1]
        simp [opsOf, esOf, PFrame.op, reduceParen, PFrame.left, OpSpan.apply, Tree.expr]
      · rw [← h4]; simp [toksOf, PFrame.toks, Tree.toks]

theorem reduceAll_frames : ∀ (fs : List PFrame) (t : Tree) (r : Option Expr), FramesOk fs → t.Canonical → Above (topS fs) t.leftEdge →
    reduceAll (opsOf fs) (t.expr :: esOf fs) = .ok r →
    ∃ t' : Tree, r = some t'.expr ∧ t'.Canonical ∧ toksOf fs ++ t.toks = t'.toks := by
  intro fs
  induction fs with
  | nil => intro t r _ hc _ h; cases h; exact ⟨t, rfl, hc, rfl⟩
  | cons f fs ih =>
    intro t r hf hc hl h
    cases f with
    | par pos => simp [opsOf, PFrame.op, reduceAll] at h
    | un u pos =>
      obtain ⟨t', h1, h2, h3⟩ := ih (.un u pos t) r hf ⟨hc, fun k hk => hl k hk _ rfl⟩ (by intro k hk; cases hk)
        (by rw [← h]; simp [opsOf, esOf, PFrame.op, reduceAll, List.filterMap_cons, PFrame.left, OpSpan.apply, Tree.expr])
      exact ⟨t', h1, h2, by rw [← h3]; simp [toksOf, PFrame.toks, Tree.toks]⟩
    | bin l op pos =>
      obtain ⟨f1, f2, f3, f4⟩ := hf
      obtain ⟨t', h1, h2, h3⟩ := ih (.bin op pos l t) r f4 ⟨f1, hc, f2, fun k hk => hl k hk _ rfl⟩ f3
        (by rw [← h]; simp [opsOf, esOf, PFrame.op, reduceAll, PFrame.left, OpSpan.apply, Tree.expr])
      exact ⟨t', h1, h2, by rw [← h3]; simp [toksOf, PFrame.toks, Tree.toks]⟩

theorem esOf_length : ∀ fs : List PFrame, (esOf fs).length = bins (opsOf fs)
  | [] => rfl
  | .par _ :: fs | .un _ _ :: fs => by
    have := esOf_length fs
    simpa [esOf, opsOf, List.filterMap_cons, PFrame.left, PFrame.op, bins] using this
  | .bin _ _ _ :: fs => by
    have := esOf_length fs
    simp only [esOf, opsOf, List.filterMap_cons, PFrame.left, PFrame.op, bins, List.map_cons, List.length_cons] at this ⊢
    omega

/-! ## Only expressions are parsed -/

def Sound1 (T : TextOps) (n : Nat) : Prop :=
  ∀ (fs : List PFrame) (s s' : TokStream) (used : List TokSpan) (r : Option Expr) (a b : Tok), FramesOk fs →
    Tok.endsOperand b = false → (∀ p fs', fs = .par p :: fs' → b = .leftParen ∧ Tok.isSymbol a = false) →
    exprLoop T n (esOf fs) (opsOf fs) true s = (.ok r, s') → Splits s used s' → Regular a b used →
    (used = [] ∧ fs = [] ∧ r = none) ∨ ∃ t : Tree, t.Canonical ∧ r = some t.expr ∧ t.toks = toksOf fs ++ used

def Sound2 (T : TextOps) (n : Nat) : Prop :=
  ∀ (fs : List PFrame) (t : Tree) (s s' : TokStream) (used : List TokSpan) (r : Option Expr) (a b : Tok), FramesOk fs →
    t.Canonical → t.rightEdge = [] → t.leftEdge = [] →
    Tok.endsOperand b = true → (∀ v p, t.expr = .sym v p → (t = .sym v p ∧ b = .symbol v) ∨ b = .rightParen) →
    exprLoop T n (t.expr :: esOf fs) (opsOf fs) false s = (.ok r, s') → Splits s used s' → Regular a b used →
    ∃ t' : Tree, t'.Canonical ∧ r = some t'.expr ∧ t'.toks = toksOf fs ++ t.toks ++ used

def Sound3 (T : TextOps) (n : Nat) : Prop :=
  ∀ (s s' : TokStream) (used : List TokSpan) (args : Args) (a b : Tok), Tok.endsOperand b = false →
    commaExprs T n s = (.ok args, s') → Splits s used s' → Regular a b used →
    (args = .nil ∧ ∃ rp, used = [⟨.rightParen, rp⟩]) ∨ ∃ x : TreeArgs, x.Canonical ∧ args = x.args ∧ x.toks = used

def Sound4 (T : TextOps) (n : Nat) : Prop :=
  ∀ (prev : Option Expr) (isFirst : Bool) (s s' : TokStream) (used : List TokSpan) (args : Args) (a b : Tok),
    commaLoop T n prev isFirst s = (.ok args, s') → Splits s used s' → Regular a b used →
    (prev = none ∧ isFirst = true ∧ args = .nil ∧ ∃ rp, used = [⟨.rightParen, rp⟩]) ∨
    ∃ e, prev = some e ∧
      ((∃ rp, args = .cons e .end rp .nil ∧ used = [⟨.rightParen, rp⟩]) ∨
       ∃ (c : LineCol) (x : TreeArgs), x.Canonical ∧ args = .cons e .long c x.args ∧ used = ⟨.comma, c⟩ :: x.toks)

theorem endsOperand_unTok (u : SrcUn) : Tok.endsOperand (unTok u) = false := by cases u <;> rfl
theorem endsOperand_binTok (u : SrcBin) : Tok.endsOperand (binTok u) = false := by cases u <;> rfl
theorem not_symbol {b : Tok} (h : Tok.endsOperand b = false) : Tok.isSymbol b = false := by
  cases h' : Tok.isSymbol b with
  | false => rfl
  | true =>
    cases b
    case symbol => cases h
    all_goals cases h'

/-- The operand of a token. -/
theorem operand_tree {t : TokSpan} {e : Expr} (h : t.operand = some e) :
    ∃ x : Tree, x.expr = e ∧ x.Canonical ∧ x.rightEdge = [] ∧ x.leftEdge = [] ∧ x.toks = [t] ∧
      ∀ v p, x.expr = .sym v p → x = .sym v p ∧ t.tok = .symbol v := by
  obtain ⟨tok, pos⟩ := t
  cases tok <;> simp [TokSpan.operand] at h <;> subst h
  case boolean b => exact ⟨.bool b pos, rfl, trivial, rfl, rfl, rfl, fun v p h => by cases h⟩
  case double b => exact ⟨.dbl b pos, rfl, trivial, rfl, rfl, rfl, fun v p h => by cases h⟩
  case integer b => exact ⟨.int b pos, rfl, trivial, rfl, rfl, rfl, fun v p h => by cases h⟩
  case text b => exact ⟨.text b pos, rfl, trivial, rfl, rfl, rfl, fun v p h => by cases h⟩
  case symbol b =>
    refine ⟨.sym b pos, rfl, trivial, rfl, rfl, rfl, fun v p h => ?_⟩
    simp only [Tree.expr, Expr.sym.injEq] at h
    simp [h.1, h.2]

theorem tokspan_eta {t : TokSpan} {k : Tok} (h : t.tok = k) : t = ⟨k, t.pos⟩ := by cases t; cases h; rfl

theorem sound1_step {T : TextOps} {n : Nat} (h1 : Sound1 T n) (h2 : Sound2 T n) : Sound1 T (n + 1) := by
  rintro fs ⟨toks, E, io⟩ s' used r a b hf hb hpar h hu hreg
  -- the end of the expression
  have hend : ∀ s'', reduceAll (opsOf fs) (esOf fs) = .ok r → Splits ⟨toks, E, io⟩ used s'' → s'' = ⟨toks, E, io⟩ →
      (used = [] ∧ fs = [] ∧ r = none) ∨ ∃ t : Tree, t.Canonical ∧ r = some t.expr ∧ t.toks = toksOf fs ++ used := by
    intro s'' hr hsp hs
    subst hs
    left
    have hused := not_used_up hsp
    cases fs with
    | nil => cases hr; exact ⟨hused, rfl, rfl⟩
    | cons f fs =>
      exfalso
      by_cases hbn : 1 ≤ bins (opsOf (f :: fs))
      · exact reduceAll_short _ _ (by rw [esOf_length]; omega) hbn hr
      · have he : esOf (f :: fs) = [] := by
          have := esOf_length (f :: fs)
          exact List.length_eq_zero_iff.1 (by omega)
        rw [he] at hr
        cases f with
        | par p => simp [opsOf, PFrame.op, reduceAll] at hr
        | un u p => simp [opsOf, PFrame.op, reduceAll, OpSpan.apply, notEnough] at hr
        | bin l o p => simp [opsOf, PFrame.op, bins] at hbn
  cases toks with
  | nil =>
    rw [exprLoop_nil] at h
    cases io
    · injection h with ha hb
      exact hend s' ha hu hb.symm
    · simp at h
  | cons t ts =>
    rw [exprLoop_cons] at h
    split at h
    · injection h with ha hb
      exact hend s' ha hu hb.symm
    · rename_i hst
      right
      cases tokStep_cases T n (esOf fs) (opsOf fs) true t ⟨ts, E, io⟩ with
      | fail err hf g => rw [g] at h; cases h
      | operand e he hn g =>
        rw [g] at h
        obtain ⟨used', rfl, hu'⟩ := exprLoop_used h hu
        obtain ⟨x, rfl, hx1, hx2, hx3, hx4, hx5⟩ := operand_tree he
        obtain ⟨t', ht1, ht2, ht3⟩ := h2 fs x _ _ _ _ _ _ hf hx1 hx2 hx3 (endsOperand_operand he) (fun v p h => Or.inl (hx5 v p h)) h hu' hreg.2.2.2
        exact ⟨t', ht1, ht2, by rw [ht3, hx4]; simp⟩
      | lparen ht hn g =>
        rw [g] at h
        obtain ⟨used', rfl, hu'⟩ := exprLoop_used h hu
        have := h1 (.par t.pos :: fs) _ _ _ _ _ _ hf (by rw [ht]; rfl) (fun _ _ _ => ⟨ht, not_symbol hb⟩) h hu' hreg.2.2.2
        rcases this with ⟨_, hc, _⟩ | ⟨t', ht1, ht2, ht3⟩
        · cases hc
        · exact ⟨t', ht1, ht2, by rw [ht3, tokspan_eta ht]; simp [toksOf, PFrame.toks]⟩
      | call ht hn v p es' he g => cases hn
      | rparen ht ops' es' hr g =>
        exfalso
        rw [g] at h
        obtain ⟨used', rfl, hu'⟩ := exprLoop_used h hu
        cases fs with
        | nil => cases hr
        | cons f fs =>
          by_cases hbn : 1 ≤ bins (opsOf (f :: fs))
          · cases f with
            | par p =>
              obtain ⟨hb1, hb2⟩ := hpar p fs rfl
              exact hreg.2.1 ⟨hb2, hb1, ht⟩
            | un u p =>
              obtain ⟨g1, g2⟩ := reduceParen_short (k := 0) _ _ (by rw [esOf_length]; simp) hbn hr
              exact short_dead T n _ _ _ _ _ _ _ _ _ ⟨by simpa using g1, g2⟩ (fun _ => by rw [ht]; rfl) h hu' hreg.2.2.2
            | bin l o p =>
              obtain ⟨g1, g2⟩ := reduceParen_short (k := 0) _ _ (by rw [esOf_length]; simp) hbn hr
              exact short_dead T n _ _ _ _ _ _ _ _ _ ⟨by simpa using g1, g2⟩ (fun _ => by rw [ht]; rfl) h hu' hreg.2.2.2
          · have he : esOf (f :: fs) = [] := by
              have := esOf_length (f :: fs)
              exact List.length_eq_zero_iff.1 (by omega)
            rw [he] at hr
            cases f with
            | par p =>
              obtain ⟨hb1, hb2⟩ := hpar p fs rfl
              exact hreg.2.1 ⟨hb2, hb1, ht⟩
            | un u p => simp [opsOf, PFrame.op, reduceParen, OpSpan.apply, notEnough] at hr
            | bin l o p => simp [opsOf, PFrame.op, bins] at hbn
      | un u ht hn g =>
        rw [g] at h
        obtain ⟨used', rfl, hu'⟩ := exprLoop_used h hu
        have := h1 (.un u t.pos :: fs) _ _ _ _ _ _ hf (by rw [ht]; exact endsOperand_unTok u) (fun _ _ h => by cases h) h hu' hreg.2.2.2
        rcases this with ⟨_, hc, _⟩ | ⟨t', ht1, ht2, ht3⟩
        · cases hc
        · exact ⟨t', ht1, ht2, by rw [ht3]; conv => { rhs; rw [tokspan_eta ht] }; simp [toksOf, PFrame.toks]⟩
      | bin op ht hn ops' es' hr g =>
        exfalso
        rw [g] at h
        obtain ⟨used', rfl, hu'⟩ := exprLoop_used h hu
        have hd : es'.length ≤ bins ops' := by
          by_cases hbn : 1 ≤ bins (opsOf fs)
          · exact (reduceFor_short op.priority (k := 0) _ _ (by rw [esOf_length]; simp) hbn hr).1
          · have he : esOf fs = [] := by
              have := esOf_length fs
              exact List.length_eq_zero_iff.1 (by omega)
            rw [he] at hr
            cases fs with
            | nil => cases hr; simp
            | cons f fs =>
              cases f with
              | par p => simp [opsOf, PFrame.op, reduceFor] at hr; simp [hr.2]
              | un u p =>
                simp only [opsOf, PFrame.op, reduceFor, List.map_cons] at hr
                split at hr
                · cases hr; simp
                · simp [OpSpan.apply, notEnough] at hr
              | bin l o p => simp [opsOf, PFrame.op, bins] at hbn
        exact short_dead T n _ _ _ _ _ _ _ _ _ ⟨by rw [bins_bin]; simpa using hd, by rw [bins_bin]; omega⟩ (fun h => by cases h) h hu' hreg.2.2.2

theorem sound2_step {T : TextOps} {n : Nat} (h1 : Sound1 T n) (h2 : Sound2 T n) (h3 : Sound3 T n) : Sound2 T (n + 1) := by
  rintro fs t0 ⟨toks, E, io⟩ s' used r a b hf hc hre hle hb hsym h hu hreg
  have hab : Above (topS fs) t0.leftEdge := by rw [hle]; intro k hk; cases hk
  have hend : ∀ s'', reduceAll (opsOf fs) (t0.expr :: esOf fs) = .ok r → Splits ⟨toks, E, io⟩ used s'' → s'' = ⟨toks, E, io⟩ →
      ∃ t' : Tree, t'.Canonical ∧ r = some t'.expr ∧ t'.toks = toksOf fs ++ t0.toks ++ used := by
    intro s'' hr hsp hs
    subst hs
    have hused := not_used_up hsp
    obtain ⟨t', g1, g2, g3⟩ := reduceAll_frames fs t0 r hf hc hab hr
    exact ⟨t', g2, g1, by rw [← g3, hused]; simp⟩
  cases toks with
  | nil =>
    rw [exprLoop_nil] at h
    cases io
    · injection h with ha hb
      exact hend s' ha hu hb.symm
    · simp at h
  | cons t ts =>
    rw [exprLoop_cons] at h
    split at h
    · injection h with ha hb
      exact hend s' ha hu hb.symm
    · rename_i hst
      cases tokStep_cases T n (t0.expr :: esOf fs) (opsOf fs) false t ⟨ts, E, io⟩ with
      | fail err hf g => rw [g] at h; cases h
      | operand e he hn g => cases hn
      | lparen ht hn g => cases hn
      | un u ht hn g =>
        rw [g] at h
        obtain ⟨used', rfl, hu'⟩ := exprLoop_used h hu
        rcases hn with rfl | hn
        · exact absurd ⟨hb, ht⟩ hreg.1
        · cases hn
      | rparen ht ops' es' hr g =>
        rw [g] at h
        obtain ⟨used', rfl, hu'⟩ := exprLoop_used h hu
        have hany : (opsOf fs).any (fun o => o.op = .leftParen) = true := by
          unfold stopsAt at hst
          rw [not_or, not_and] at hst
          exact Decidable.not_not.1 (hst.2 ht)
        obtain ⟨fs', t', pos, g1, g2, g3, g4⟩ := reduceParen_frames fs t0 hf hc hab hany
        rw [g1] at hr
        injection hr with hr
        injection hr with hr1 hr2
        subst hr1; subst hr2
        obtain ⟨t'', k1, k2, k3⟩ := h2 fs' (.paren pos t' t.pos) _ _ _ _ _ _ g2 g3 rfl rfl (by rw [ht]; rfl)
          (fun v p _ => Or.inr ht) h hu' hreg.2.2.2
        refine ⟨t'', k1, k2, ?_⟩
        rw [k3, g4]
        conv => { rhs; rw [tokspan_eta ht] }
        simp [Tree.toks]
      | bin op ht hn ops' es' hr g =>
        rw [g] at h
        obtain ⟨used', rfl, hu'⟩ := exprLoop_used h hu
        obtain ⟨fs', t', g1, g2, g3, g4, g5, g6⟩ := reduceFor_frames op.priority fs t0 hf hc (by rw [hre]; intro k hk; cases hk) hab
        rw [g1] at hr
        injection hr with hr
        injection hr with hr1 hr2
        subst hr1; subst hr2
        rw [← strength_eq] at g4 g5
        have := h1 (.bin t' op t.pos :: fs') _ _ _ _ _ _ ⟨g3, g4, g5, g2⟩ (by rw [ht]; exact endsOperand_binTok op)
          (fun _ _ h => by cases h) h hu' hreg.2.2.2
        rcases this with ⟨_, hc, _⟩ | ⟨t'', ht1, ht2, ht3⟩
        · cases hc
        · refine ⟨t'', ht1, ht2, ?_⟩
          rw [ht3, g6]
          conv => { rhs; rw [tokspan_eta ht] }
          simp [toksOf, PFrame.toks]
      | call ht hn v p es' he g =>
        rw [g] at h
        simp only [PM.bind] at h
        cases hc1 : commaExprs T n ⟨ts, E, io⟩ with
        | mk r1 s1 =>
          rw [hc1] at h
          cases r1 with
          | error e => cases h
          | ok args =>
            simp only at h
            have hl := ((runs_expr T n).1 (.call v p args :: es') (opsOf fs) false s1).1
            rw [h] at hl
            obtain ⟨w, hw⟩ := hl
            obtain ⟨u, x, hx, hsp⟩ := commaExprs_last T n _ _ _ hc1
            have hused : used = t :: ((u ++ [x]) ++ w) :=
              splits_unique hu (splits_trans (splits_trans (splits_cons t ts E io) hsp) (u := _) hw)
            subst hused
            obtain ⟨_, _, hrp, hreg'⟩ := hreg
            obtain ⟨hr1, y, hr2⟩ := regular_split hreg'
            rw [lastTok_append] at hr2
            injection he with he1 he2
            subst he2
            have hsy : t0 = .sym v p ∧ b = .symbol v := by
              rcases hsym v p he1 with h | h
              · exact h
              · exact absurd ⟨h, ht⟩ hrp
            obtain ⟨rfl, rfl⟩ := hsy
            have hA := h3 _ _ _ _ _ _ (by rw [ht]; rfl) hc1 hsp hr1
            have heta := tokspan_eta ht
            rcases hA with ⟨rfl, rp, hrp'⟩ | ⟨xa, hx1, hx2, hx3⟩
            · obtain ⟨t', k1, k2, k3⟩ := h2 fs (.call0 v p t.pos rp) _ _ _ _ _ _ hf trivial rfl rfl (by rw [hx]; rfl)
                (fun v p h => by cases h) h hw hr2
              refine ⟨t', k1, k2, ?_⟩
              rw [k3, hrp']
              conv => { rhs; rw [heta] }
              simp [Tree.toks]
            · subst hx2
              obtain ⟨t', k1, k2, k3⟩ := h2 fs (.call v p t.pos xa) _ _ _ _ _ _ hf hx1 rfl rfl (by rw [hx]; rfl)
                (fun v p h => by cases h) h hw hr2
              refine ⟨t', k1, k2, ?_⟩
              rw [k3, ← hx3]
              conv => { rhs; rw [heta] }
              simp [Tree.toks]

theorem sound3_step {T : TextOps} {n : Nat} (h1 : Sound1 T n) (h4 : Sound4 T n) : Sound3 T (n + 1) := by
  intro s s' used args a b hb h hu hreg
  rw [commaExprs_succ] at h
  simp only [PM.bind] at h
  cases hc : exprLoop T n [] [] true s with
  | mk r s1 =>
    rw [hc] at h
    cases r with
    | error e => cases h
    | ok r =>
      simp only at h
      have hl := ((runs_expr T n).1 [] [] true s).1
      rw [hc] at hl
      obtain ⟨w, hw⟩ := hl
      have hl' := ((runs_expr T n).2.2 r true s1).1
      rw [h] at hl'
      obtain ⟨w', hw'⟩ := hl'
      have hused : used = w ++ w' := splits_unique hu (splits_trans (u := w) hw hw')
      subst hused
      obtain ⟨hr1, y, hr2⟩ := regular_split hreg
      have A := h1 [] s s1 w r a b trivial hb (fun _ _ h => by cases h) hc hw hr1
      have B := h4 _ _ _ _ _ _ _ _ h hw' hr2
      rcases A with ⟨rfl, _, rfl⟩ | ⟨t, ht1, rfl, ht3⟩
      · rcases B with ⟨_, _, hn, rp, hrp⟩ | ⟨e, he, _⟩
        · exact Or.inl ⟨hn, rp, by simpa using hrp⟩
        · cases he
      · right
        rcases B with ⟨hn, _⟩ | ⟨e, he, B⟩
        · cases hn
        · injection he with he
          subst he
          simp only [toksOf, List.nil_append] at ht3
          rcases B with ⟨rp, ha, hrp⟩ | ⟨c, x, hx1, hx2, hx3⟩
          · exact ⟨.last t rp, ht1, ha, by rw [hrp, ← ht3]; rfl⟩
          · exact ⟨.more t c x, ⟨ht1, hx1⟩, hx2, by rw [hx3, ← ht3]; rfl⟩

theorem sound4_step {T : TextOps} {n : Nat} (h1 : Sound1 T n) (h4 : Sound4 T n) : Sound4 T (n + 1) := by
  rintro prev isFirst ⟨toks, E, io⟩ s' used args a b h hu hreg
  cases toks with
  | nil =>
    obtain ⟨e, g1, g2⟩ := commaLoop_nil T n prev isFirst E io
    rw [g1] at h; cases h
  | cons t ts =>
    rw [commaLoop_cons] at h
    cases commaStep_cases T n prev isFirst t ts E io with
    | fail err s'' hl hf g => rw [g] at h; cases h
    | last e ht hp g =>
      rw [g] at h
      injection h with ha hb
      injection ha with ha
      subst hb
      right
      refine ⟨e, hp, Or.inl ⟨t.pos, ha.symm, ?_⟩⟩
      rw [splits_unique hu (splits_cons t ts E io), ← tokspan_eta ht]
    | empty ht hp hi g =>
      rw [g] at h
      injection h with ha hb
      injection ha with ha
      subst hb
      left
      refine ⟨hp, hi, ha.symm, t.pos, ?_⟩
      rw [splits_unique hu (splits_cons t ts E io), ← tokspan_eta ht]
    | more e ht hp g =>
      rw [g] at h
      simp only [PM.bind] at h
      cases hc : exprLoop T n [] [] true ⟨ts, E, io⟩ with
      | mk r s1 =>
        rw [hc] at h
        cases r with
        | error e => cases h
        | ok r =>
          simp only at h
          cases hd : commaLoop T n r false s1 with
          | mk r' s2 =>
            rw [hd] at h
            cases r' with
            | error e => cases h
            | ok r' =>
              have hs : s2 = s' := by cases h; rfl
              have ha : args = .cons e .long t.pos r' := by cases h; rfl
              subst hs
              have hl := ((runs_expr T n).1 [] [] true ⟨ts, E, io⟩).1
              rw [hc] at hl
              obtain ⟨w, hw⟩ := hl
              have hl' := ((runs_expr T n).2.2 r false s1).1
              rw [hd] at hl'
              obtain ⟨w', hw'⟩ := hl'
              have hused : used = t :: (w ++ w') :=
                splits_unique hu (splits_trans (splits_cons t ts E io) (splits_trans (u := w) hw hw'))
              subst hused
              obtain ⟨hr1, y, hr2⟩ := regular_split hreg.2.2.2
              have A := h1 [] _ s1 w r _ _ trivial (by rw [ht]; rfl) (fun _ _ h => by cases h) hc hw hr1
              have B := h4 _ _ _ _ _ _ _ _ hd hw' hr2
              right
              refine ⟨e, hp, Or.inr ⟨t.pos, ?_⟩⟩
              rcases A with ⟨rfl, _, rfl⟩ | ⟨x, hx1, rfl, hx3⟩
              · rcases B with ⟨_, hf, _⟩ | ⟨e, he, _⟩
                · cases hf
                · cases he
              · rcases B with ⟨hn, _⟩ | ⟨e', he, B⟩
                · cases hn
                · injection he with he
                  subst he
                  simp only [toksOf, List.nil_append] at hx3
                  have heta := tokspan_eta ht
                  rcases B with ⟨rp, ha', hrp⟩ | ⟨c, z, hz1, hz2, hz3⟩
                  · refine ⟨.last x rp, hx1, by rw [ha, ha']; rfl, ?_⟩
                    rw [hrp, ← hx3]
                    conv => { lhs; rw [heta] }
                    rfl
                  · refine ⟨.more x c z, ⟨hx1, hz1⟩, by rw [ha, hz2]; rfl, ?_⟩
                    rw [hz3, ← hx3]
                    conv => { lhs; rw [heta] }
                    rfl

theorem sound_all (T : TextOps) (n : Nat) : Sound1 T n ∧ Sound2 T n ∧ Sound3 T n ∧ Sound4 T n := by
  induction n with
  | zero =>
    refine ⟨?_, ?_, ?_, ?_⟩
    · intro fs s s' used r a b _ _ _ h; cases h
    · intro fs t s s' used r a b _ _ _ _ _ _ h; cases h
    · intro s s' used r a b _ h; cases h
    · intro prev isFirst s s' used args a b h; cases h
  | succ n ih =>
    obtain ⟨h1, h2, h3, h4⟩ := ih
    exact ⟨sound1_step h1 h2, sound2_step h1 h2 h3, sound3_step h1 h4, sound4_step h1 h4⟩

/-- Where the loop ends. -/
theorem exprLoop_ends (T : TextOps) (n : Nat) : ∀ es ops need s r s', exprLoop T n es ops need s = (.ok r, s') →
    Ends s'.toks ∧ (s'.toks = [] → s'.io = false) := by
  induction n with
  | zero => intro es ops need s r s' h; cases h
  | succ n ih =>
    rintro es ops need ⟨toks, E, io⟩ r s' h
    cases toks with
    | nil =>
      rw [exprLoop_nil] at h
      cases io
      · injection h with ha hb
        subst hb
        exact ⟨fun t ht => by simp at ht, fun _ => rfl⟩
      · simp at h
    | cons t ts =>
      rw [exprLoop_cons] at h
      split at h
      · rename_i hst
        injection h with ha hb
        subst hb
        refine ⟨fun x hx => ?_, fun h => by cases h⟩
        simp only [List.head?_cons, Option.some.injEq] at hx
        subst hx
        rcases hst with hst | hst
        · obtain ⟨tok, pos⟩ := t
          cases tok <;> first | (simp [endTokens]; done) | (simp [Tok.endsExpr] at hst)
        · rw [hst.1]; simp [endTokens]
      · cases tokStep_cases T n es ops need t ⟨ts, E, io⟩ with
        | fail err hf g => rw [g] at h; cases h
        | operand e he hn g => rw [g] at h; exact ih _ _ _ _ _ _ h
        | lparen ht hn g => rw [g] at h; exact ih _ _ _ _ _ _ h
        | rparen ht ops' es' hr g => rw [g] at h; exact ih _ _ _ _ _ _ h
        | un u ht hn g => rw [g] at h; exact ih _ _ _ _ _ _ h
        | bin op ht hn ops' es' hr g => rw [g] at h; exact ih _ _ _ _ _ _ h
        | call ht hn v p es' he g =>
          rw [g] at h
          simp only [PM.bind] at h
          cases hc : commaExprs T n ⟨ts, E, io⟩ with
          | mk r1 s1 =>
            rw [hc] at h
            cases r1 with
            | error e => cases h
            | ok args => exact ih _ _ _ _ _ _ h

/-- Only expressions are parsed, if the tokens are none of the malformed sequences. -/
theorem parseExpr_sound (T : TextOps) (used rest : List TokSpan) (E : LineCol) (io : Bool) (r : Option Expr)
    (h : parseExpr T none ⟨used ++ rest, E, io⟩ = (.ok r, ⟨rest, E, io⟩)) (hreg : Regular .eof .eof used) :
    (used = [] ∧ r = none) ∨ ∃ t : Tree, t.Canonical ∧ r = some t.expr ∧ t.toks = used := by
  have := (sound_all T (2 * (used ++ rest).length + 2)).1 [] ⟨used ++ rest, E, io⟩ ⟨rest, E, io⟩ used r .eof .eof trivial rfl
    (fun _ _ h => by cases h) h rfl hreg
  rcases this with ⟨h1, _, h2⟩ | ⟨t, h1, h2, h3⟩
  · exact Or.inl ⟨h1, h2⟩
  · exact Or.inr ⟨t, h1, h2, by simpa [toksOf] using h3⟩

end EB
