import Verif.Lemmas.ParserSound
/-!
# Grouping, redundant parentheses, and necessary conditions for acceptance
-/

namespace EB
open Spec

/-! ## Every tree has a canonical one with the same tokens -/

def NoPar : List PFrame → Prop
  | [] => True
  | .par _ :: _ => False
  | _ :: fs => NoPar fs

theorem collapse_frames : ∀ (fs : List PFrame) (t : Tree), FramesOk fs → NoPar fs → t.Canonical → Above (topS fs) t.leftEdge →
    ∃ t' : Tree, t'.Canonical ∧ toksOf fs ++ t.toks = t'.toks
  | [], t, _, _, hc, _ => ⟨t, hc, rfl⟩
  | .par _ :: _, _, _, hp, _, _ => absurd hp id
  | .un u pos :: fs, t, hf, hp, hc, hl => by
    obtain ⟨t', h1, h2⟩ := collapse_frames fs (.un u pos t) hf hp ⟨hc, fun k hk => hl k hk _ rfl⟩ (by intro k hk; cases hk)
    exact ⟨t', h1, by rw [← h2]; simp [toksOf, PFrame.toks, Tree.toks]⟩
  | .bin l op pos :: fs, t, ⟨f1, f2, f3, f4⟩, hp, hc, hl => by
    obtain ⟨t', h1, h2⟩ := collapse_frames fs (.bin op pos l t) f4 hp ⟨f1, hc, f2, fun k hk => hl k hk _ rfl⟩ f3
    exact ⟨t', h1, by rw [← h2]; simp [toksOf, PFrame.toks, Tree.toks]⟩

theorem noPar_reduce (p : Nat) : ∀ (fs : List PFrame) (t : Tree), FramesOk fs → NoPar fs → t.Canonical →
    (∀ k ∈ t.rightEdge, p ≤ k) → Above (topS fs) t.leftEdge →
    ∃ (fs' : List PFrame) (t' : Tree), FramesOk fs' ∧ NoPar fs' ∧ t'.Canonical ∧
      (∀ k ∈ t'.rightEdge, p ≤ k) ∧ Above (topS fs') (p :: t'.leftEdge) ∧ toksOf fs ++ t.toks = toksOf fs' ++ t'.toks
  | [], t, _, _, hc, hr, _ => ⟨[], t, trivial, trivial, hc, hr, fun k _ q hq => by simp [topS] at hq, rfl⟩
  | .par _ :: _, _, _, hp, _, _, _ => absurd hp id
  | .un u pos :: fs, t, hf, hn, hc, hr, hl => by
    by_cases hp : prefixStrength < p
    · refine ⟨.un u pos :: fs, t, hf, hn, hc, hr, ?_, rfl⟩
      intro k hk q hq
      cases hq
      rcases List.mem_cons.1 hk with rfl | hk
      · exact hp
      · exact hl k hk _ rfl
    · obtain ⟨fs', t', h2, h2', h3, h4, h5, h6⟩ := noPar_reduce p fs (.un u pos t) hf hn ⟨hc, fun k hk => hl k hk _ rfl⟩
        (by
          intro k hk
          simp only [Tree.rightEdge, List.mem_cons] at hk
          rcases hk with rfl | hk
          · omega
          · exact hr k hk)
        (by intro k hk; cases hk)
      exact ⟨fs', t', h2, h2', h3, h4, h5, by rw [← h6]; simp [toksOf, PFrame.toks, Tree.toks]⟩
  | .bin l op pos :: fs, t, ⟨f1, f2, f3, f4⟩, hn, hc, hr, hl => by
    by_cases hp : strength op < p
    · refine ⟨.bin l op pos :: fs, t, ⟨f1, f2, f3, f4⟩, hn, hc, hr, ?_, rfl⟩
      intro k hk q hq
      cases hq
      rcases List.mem_cons.1 hk with rfl | hk
      · exact hp
      · exact hl k hk _ rfl
    · obtain ⟨fs', t', h2, h2', h3, h4, h5, h6⟩ := noPar_reduce p fs (.bin op pos l t) f4 hn ⟨f1, hc, f2, fun k hk => hl k hk _ rfl⟩
        (by
          intro k hk
          simp only [Tree.rightEdge, List.mem_cons] at hk
          rcases hk with rfl | hk
          · omega
          · exact hr k hk) f3
      exact ⟨fs', t', h2, h2', h3, h4, h5, by rw [← h6]; simp [toksOf, PFrame.toks, Tree.toks]⟩

def Regroup (t : Tree) : Prop :=
  ∀ fs, FramesOk fs → NoPar fs → ∃ (fs' : List PFrame) (x : Tree), FramesOk fs' ∧ NoPar fs' ∧ x.Canonical ∧ x.rightEdge = [] ∧
    x.leftEdge = [] ∧ toksOf fs ++ t.toks = toksOf fs' ++ x.toks

theorem regroup_atom {t : Tree} (h1 : t.Canonical) (h2 : t.rightEdge = []) (h3 : t.leftEdge = []) : Regroup t :=
  fun fs hf hn => ⟨fs, t, hf, hn, h1, h2, h3, rfl⟩

theorem regroup_tree {t : Tree} (h : Regroup t) : ∃ t' : Tree, t'.Canonical ∧ t'.toks = t.toks := by
  obtain ⟨fs, x, h1, h2, h3, _, h5, h6⟩ := h [] trivial trivial
  obtain ⟨t', k1, k2⟩ := collapse_frames fs x h1 h2 h3 (by rw [h5]; intro k hk; cases hk)
  exact ⟨t', k1, by rw [← k2, ← h6]; rfl⟩

mutual
theorem regroup : (t : Tree) → Regroup t
  | .bool v p => regroup_atom trivial rfl rfl
  | .dbl v p => regroup_atom trivial rfl rfl
  | .int v p => regroup_atom trivial rfl rfl
  | .text v p => regroup_atom trivial rfl rfl
  | .sym v p => regroup_atom trivial rfl rfl
  | .call0 v p lp rp => regroup_atom trivial rfl rfl
  | .call v p lp args => by
    intro fs hf hn
    obtain ⟨a', h1, h2⟩ := regroup_args args
    exact ⟨fs, .call v p lp a', hf, hn, h1, rfl, rfl, by simp [Tree.toks, h2]⟩
  | .paren lp t rp => by
    intro fs hf hn
    obtain ⟨t', h1, h2⟩ := regroup_tree (regroup t)
    exact ⟨fs, .paren lp t' rp, hf, hn, h1, rfl, rfl, by simp [Tree.toks, h2]⟩
  | .un u p t => by
    intro fs hf hn
    obtain ⟨fs', x, h1, h2, h3, h4, h5, h6⟩ := regroup t (.un u p :: fs) hf hn
    exact ⟨fs', x, h1, h2, h3, h4, h5, by rw [← h6]; simp [toksOf, PFrame.toks, Tree.toks]⟩
  | .bin op p l r => by
    intro fs hf hn
    obtain ⟨fs1, x, h1, h2, h3, h4, h5, h6⟩ := regroup l fs hf hn
    obtain ⟨fs2, t2, k1, k2, k3, k4, k5, k6⟩ := noPar_reduce (strength op) fs1 x h1 h2 h3 (by rw [h4]; intro k hk; cases hk)
      (by rw [h5]; intro k hk; cases hk)
    obtain ⟨fs3, y, m1, m2, m3, m4, m5, m6⟩ := regroup r (.bin t2 op p :: fs2) ⟨k3, k4, k5, k1⟩ k2
    refine ⟨fs3, y, m1, m2, m3, m4, m5, ?_⟩
    rw [← m6]
    simp only [toksOf, PFrame.toks, Tree.toks]
    rw [← List.append_assoc, h6, k6]; simp
  termination_by structural t => t

theorem regroup_args : (a : TreeArgs) → ∃ a' : TreeArgs, a'.Canonical ∧ a'.toks = a.toks
  | .last t rp => by
    obtain ⟨t', h1, h2⟩ := regroup_tree (regroup t)
    exact ⟨.last t' rp, h1, by simp [TreeArgs.toks, h2]⟩
  | .more t c r => by
    obtain ⟨t', h1, h2⟩ := regroup_tree (regroup t)
    obtain ⟨r', h3, h4⟩ := regroup_args r
    exact ⟨.more t' c r', ⟨h1, h3⟩, by simp [TreeArgs.toks, h2, h4]⟩
  termination_by structural a => a
end

/-- Every expression has a tree that respects precedence. -/
theorem exists_canonical (t : Tree) : ∃ t' : Tree, t'.Canonical ∧ t'.toks = t.toks := regroup_tree (regroup t)

/-! ## Chains of binary operators -/

theorem primary_edges {t : Tree} (h : t.Primary) : t.leftEdge = [] ∧ t.rightEdge = [] := by
  cases t <;> first | exact ⟨rfl, rfl⟩ | exact absurd h id

theorem groups_canonical {a : Tree} {xs : Chain} {t : Tree} (h : Groups a xs t) (ha : a.Primary ∧ a.Canonical)
    (hx : ∀ x ∈ xs, x.2.2.Primary ∧ x.2.2.Canonical) :
    t.Canonical ∧ (∀ k ∈ t.leftEdge, ∃ x ∈ xs, k = strength x.1) ∧ (∀ k ∈ t.rightEdge, ∃ x ∈ xs, k = strength x.1) ∧
      t.toks = chainToks a xs := by
  induction h with
  | one a =>
    obtain ⟨h1, h2⟩ := primary_edges ha.1
    exact ⟨ha.2, by (rw [h1]; intro k hk; cases hk), by (rw [h2]; intro k hk; cases hk), by simp [chainToks]⟩
  | @split a xs l op pos b ys r left right weakest rightmost ihl ihr =>
    obtain ⟨l1, l2, l3, l4⟩ := ihl ha (fun x h => hx x (by simp [h]))
    obtain ⟨r1, r2, r3, r4⟩ := ihr (hx (op, pos, b) (by simp)) (fun x h => hx x (by simp [h]))
    refine ⟨⟨l1, r1, ?_, ?_⟩, ?_, ?_, ?_⟩
    · intro k hk; obtain ⟨x, hx, rfl⟩ := l3 k hk; exact weakest x hx
    · intro k hk; obtain ⟨x, hx, rfl⟩ := r2 k hk; exact rightmost x hx
    · intro k hk
      simp only [Tree.leftEdge, List.mem_cons] at hk
      rcases hk with rfl | hk
      · exact ⟨(op, pos, b), by simp, rfl⟩
      · obtain ⟨x, hx, h⟩ := l2 k hk; exact ⟨x, by simp [hx], h⟩
    · intro k hk
      simp only [Tree.rightEdge, List.mem_cons] at hk
      rcases hk with rfl | hk
      · exact ⟨(op, pos, b), by simp, rfl⟩
      · obtain ⟨x, hx, h⟩ := r3 k hk; exact ⟨x, by simp [hx], h⟩
    · simp only [Tree.toks, l4, r4]; simp [chainToks]

/-- A chain has a rightmost operator among those that bind the loosest. -/
theorem chain_split : ∀ xs : Chain, xs ≠ [] → ∃ us op pos b ys, xs = us ++ (op, pos, b) :: ys ∧
    (∀ x ∈ us, strength op ≤ strength x.1) ∧ (∀ y ∈ ys, strength op < strength y.1)
  | [], h => absurd rfl h
  | [(op, pos, b)], _ => ⟨[], op, pos, b, [], rfl, by simp, by simp⟩
  | (op, pos, b) :: x :: xs, _ => by
    obtain ⟨us, op', pos', b', ys, h1, h2, h3⟩ := chain_split (x :: xs) (by simp)
    by_cases h : strength op' ≤ strength op
    · refine ⟨(op, pos, b) :: us, op', pos', b', ys, by rw [h1]; rfl, ?_, h3⟩
      intro y hy
      rcases List.mem_cons.1 hy with rfl | hy
      · exact h
      · exact h2 y hy
    · refine ⟨[], op, pos, b, x :: xs, rfl, by simp, ?_⟩
      intro y hy
      rw [h1] at hy
      simp only [List.mem_append, List.mem_cons] at hy
      rcases hy with hy | rfl | hy
      · have := h2 y hy; omega
      · simp; omega
      · have := h3 y hy; omega

theorem groups_exists (n : Nat) : ∀ (a : Tree) (xs : Chain), xs.length ≤ n → ∃ t, Groups a xs t := by
  induction n with
  | zero => intro a xs h; exact ⟨a, by rw [List.length_eq_zero_iff.1 (Nat.le_zero.1 h)]; exact .one a⟩
  | succ n ih =>
    intro a xs h
    by_cases hx : xs = []
    · subst hx; exact ⟨a, .one a⟩
    · obtain ⟨us, op, pos, b, ys, rfl, h2, h3⟩ := chain_split xs hx
      simp at h
      obtain ⟨l, hl⟩ := ih a us (by omega)
      obtain ⟨r, hr⟩ := ih b ys (by omega)
      exact ⟨_, .split op pos hl hr h2 h3⟩

/-! ## Redundant parentheses -/

theorem parens_edges {t t' : Tree} (h : Parens t t') : (∀ k ∈ t'.leftEdge, k ∈ t.leftEdge) ∧ (∀ k ∈ t'.rightEdge, k ∈ t.rightEdge) := by
  induction h using Parens.rec (motive_2 := fun _ _ _ => True) with
  | un op p p' h ih =>
    refine ⟨fun k hk => by (cases hk), fun k hk => ?_⟩
    simp only [Tree.rightEdge, List.mem_cons] at hk ⊢
    exact hk.imp_right (ih.2 k)
  | bin op p p' h h' ih ih' =>
    refine ⟨fun k hk => ?_, fun k hk => ?_⟩
    · simp only [Tree.leftEdge, List.mem_cons] at hk ⊢
      exact hk.imp_right (ih.1 k)
    · simp only [Tree.rightEdge, List.mem_cons] at hk ⊢
      exact hk.imp_right (ih'.2 k)
  | last => trivial
  | more => trivial
  | _ => exact ⟨fun k hk => by (cases hk), fun k hk => by (cases hk)⟩

mutual
theorem parens_canonical : ∀ {t t' : Tree}, Parens t t' → t.Canonical → t'.Canonical ∧ noPos t'.expr = noPos t.expr
  | _, _, .bool _ _ _, _ => ⟨trivial, rfl⟩
  | _, _, .dbl _ _ _, _ => ⟨trivial, rfl⟩
  | _, _, .int _ _ _, _ => ⟨trivial, rfl⟩
  | _, _, .text _ _ _, _ => ⟨trivial, rfl⟩
  | _, _, .sym _ _ _, _ => ⟨trivial, rfl⟩
  | _, _, .call0 _ _ _ _ _ _ _, _ => ⟨trivial, rfl⟩
  | _, _, .call v p lp p' lp' h, hc => by
    obtain ⟨h1, h2⟩ := parens_canonical_args h hc
    exact ⟨h1, by simp [Tree.expr, noPos, h2]⟩
  | _, _, .paren lp rp lp' rp' h, hc => by
    obtain ⟨h1, h2⟩ := parens_canonical h hc
    exact ⟨h1, by simp [Tree.expr, h2]⟩
  | _, _, .around lp rp h, hc => by
    obtain ⟨h1, h2⟩ := parens_canonical h hc
    exact ⟨h1, by simp [Tree.expr, h2]⟩
  | _, _, .un op p p' h, hc => by
    obtain ⟨h1, h2⟩ := parens_canonical h hc.1
    exact ⟨⟨h1, fun k hk => hc.2 k ((parens_edges h).1 k hk)⟩, by simp [Tree.expr, noPos, h2]⟩
  | _, _, .bin op p p' h h', hc => by
    obtain ⟨h1, h2⟩ := parens_canonical h hc.1
    obtain ⟨h3, h4⟩ := parens_canonical h' hc.2.1
    exact ⟨⟨h1, h3, fun k hk => hc.2.2.1 k ((parens_edges h).2 k hk), fun k hk => hc.2.2.2 k ((parens_edges h').1 k hk)⟩,
      by simp [Tree.expr, noPos, h2, h4]⟩

theorem parens_canonical_args : ∀ {a a' : TreeArgs}, ParensArgs a a' → a.Canonical → a'.Canonical ∧ noPosArgs a'.args = noPosArgs a.args
  | _, _, .last rp rp' h, hc => by
    obtain ⟨h1, h2⟩ := parens_canonical h hc
    exact ⟨h1, by simp [TreeArgs.args, noPosArgs, h2]⟩
  | _, _, .more c c' h h', hc => by
    obtain ⟨h1, h2⟩ := parens_canonical h hc.1
    obtain ⟨h3, h4⟩ := parens_canonical_args h' hc.2
    exact ⟨⟨h1, h3⟩, by simp [TreeArgs.args, noPosArgs, h2, h4]⟩
end

/-! ## Necessary conditions -/

mutual
theorem toks_last : (t : Tree) → ∃ u x, t.toks = u ++ [x] ∧ Tok.endsOperand x.tok = true
  | .bool _ _ | .dbl _ _ | .int _ _ | .text _ _ | .sym _ _ => ⟨[], _, rfl, rfl⟩
  | .call0 v p lp rp => ⟨[⟨.symbol v, p⟩, ⟨.leftParen, lp⟩], _, rfl, rfl⟩
  | .call v p lp args => by
    obtain ⟨u, x, h1, h2⟩ := toks_last_args args
    exact ⟨_ :: _ :: u, x, by simp only [Tree.toks, h1]; rfl, h2⟩
  | .paren lp t rp => ⟨_ :: t.toks, _, rfl, rfl⟩
  | .un op p t => by
    obtain ⟨u, x, h1, h2⟩ := toks_last t
    exact ⟨_ :: u, x, by simp only [Tree.toks, h1]; rfl, h2⟩
  | .bin op p l r => by
    obtain ⟨u, x, h1, h2⟩ := toks_last r
    exact ⟨l.toks ++ ⟨binTok op, p⟩ :: u, x, by simp [Tree.toks, h1], h2⟩
theorem toks_last_args : (a : TreeArgs) → ∃ u x, a.toks = u ++ [x] ∧ Tok.endsOperand x.tok = true
  | .last t rp => ⟨t.toks, _, rfl, rfl⟩
  | .more t c r => by
    obtain ⟨u, x, h1, h2⟩ := toks_last_args r
    exact ⟨t.toks ++ ⟨.comma, c⟩ :: u, x, by simp [TreeArgs.toks, h1], h2⟩
end

theorem depthAfter_append (d : Nat) (u v : List TokSpan) : depthAfter d (u ++ v) = (depthAfter d u).bind (fun e => depthAfter e v) := by
  induction u generalizing d with
  | nil => rfl
  | cons t ts ih =>
    simp only [List.cons_append, depthAfter]
    split
    · exact ih _
    · split
      · rfl
      · exact ih _
    · exact ih _

theorem depthAfter_add {d e : Nat} (k : Nat) {u : List TokSpan} (h : depthAfter d u = some e) : depthAfter (d + k) u = some (e + k) := by
  induction u generalizing d with
  | nil => cases h; rfl
  | cons t ts ih =>
    simp only [depthAfter] at h ⊢
    split at h
    · rw [Nat.add_right_comm]; exact ih h
    · split at h
      · cases h
      · rename_i hd
        rw [if_neg (by omega), show d + k - 1 = d - 1 + k by omega]
        exact ih h
    · exact ih h

def pars : List OpSpan → Nat
  | [] => 0
  | o :: os => (if o.op = .leftParen then 1 else 0) + pars os

theorem pars_any {ops : List OpSpan} (h : ops.any (fun o => o.op = .leftParen) = true) : 1 ≤ pars ops := by
  induction ops with
  | nil => cases h
  | cons o os ih =>
    simp only [List.any_cons, Bool.or_eq_true, decide_eq_true_eq] at h
    simp only [pars]
    rcases h with h | h
    · simp [h]
    · have := ih h; omega

theorem reduceFor_pars (p : Nat) : ∀ (ops : List OpSpan) (es : List Expr) {ops' : List OpSpan} {es' : List Expr},
    reduceFor p ops es = .ok (ops', es') → pars ops' = pars ops
  | [], es, ops', es', h => by cases h; rfl
  | o :: os, es, ops', es', h => by
    rw [reduceFor] at h
    split at h
    · cases h; rfl
    · rename_i hn
      split at h
      · cases h
      · have := reduceFor_pars p os _ h
        simp only [not_or] at hn
        simp [pars, hn.1, this]

theorem reduceParen_pars : ∀ (ops : List OpSpan) (es : List Expr) {ops' : List OpSpan} {es' : List Expr},
    reduceParen ops es = .ok (ops', es') → pars ops' + 1 = pars ops
  | [], es, ops', es', h => by cases h
  | o :: os, es, ops', es', h => by
    rw [reduceParen] at h
    split at h
    · cases h
    · split at h
      · rename_i ho
        cases h; simp [pars, ho]; omega
      · rename_i ho
        have := reduceParen_pars os _ h
        simp [pars, ho, this]

theorem reduceAll_pars : ∀ (ops : List OpSpan) (es : List Expr) {r : Option Expr}, reduceAll ops es = .ok r → pars ops = 0
  | [], es, r, h => rfl
  | o :: os, es, r, h => by
    rw [reduceAll] at h
    split at h
    · cases h
    · rename_i ho
      split at h
      · cases h
      · have := reduceAll_pars os _ h
        simp [pars, ho, this]

theorem depth_other {t : TokSpan} (h1 : t.tok ≠ .leftParen) (h2 : t.tok ≠ .rightParen) (d : Nat) (ts : List TokSpan) :
    depthAfter d (t :: ts) = depthAfter d ts := by
  rw [depthAfter]
  split
  · exact absurd ‹_› h1
  · exact absurd ‹_› h2
  · rfl

theorem depth_lp {t : TokSpan} (h : t.tok = .leftParen) (d : Nat) (ts : List TokSpan) : depthAfter d (t :: ts) = depthAfter (d + 1) ts := by
  rw [depthAfter, h]

theorem depth_rp {t : TokSpan} (h : t.tok = .rightParen) (d : Nat) (ts : List TokSpan) : depthAfter (d + 1) (t :: ts) = depthAfter d ts := by
  rw [depthAfter, h]; simp

theorem balanced_all (T : TextOps) (n : Nat) :
    (∀ es ops need s s' used r, exprLoop T n es ops need s = (.ok r, s') → Splits s used s' → depthAfter (pars ops) used = some 0) ∧
    (∀ s s' used r, commaExprs T n s = (.ok r, s') → Splits s used s' → depthAfter 1 used = some 0) ∧
    (∀ prev isFirst s s' used r, commaLoop T n prev isFirst s = (.ok r, s') → Splits s used s' → depthAfter 1 used = some 0) := by
  induction n with
  | zero =>
    refine ⟨?_, ?_, ?_⟩
    · intro es ops need s s' used r h; cases h
    · intro s s' used r h; cases h
    · intro prev isFirst s s' used r h; cases h
  | succ n ih =>
    obtain ⟨ih1, ih2, ih3⟩ := ih
    refine ⟨?_, ?_, ?_⟩
    · rintro es ops need ⟨toks, E, io⟩ s' used r h hu
      cases toks with
      | nil =>
        rw [exprLoop_nil] at h
        cases io
        · injection h with ha hb
          subst hb
          rw [not_used_up hu, reduceAll_pars _ _ (by simpa using ha)]; rfl
        · simp at h
      | cons t ts =>
        rw [exprLoop_cons] at h
        split at h
        · injection h with ha hb
          subst hb
          rw [not_used_up hu, reduceAll_pars _ _ ha]; rfl
        · cases tokStep_cases T n es ops need t ⟨ts, E, io⟩ with
          | fail err hf g => rw [g] at h; cases h
          | operand e he hn g =>
            rw [g] at h
            obtain ⟨used', rfl, hu'⟩ := exprLoop_used h hu
            rw [depth_other (by intro hc; simp [TokSpan.operand, hc] at he) (by intro hc; simp [TokSpan.operand, hc] at he)]
            exact ih1 _ _ _ _ _ _ _ h hu'
          | lparen ht hn g =>
            rw [g] at h
            obtain ⟨used', rfl, hu'⟩ := exprLoop_used h hu
            have := ih1 _ _ _ _ _ _ _ h hu'
            rw [depth_lp ht]
            simpa [pars, Nat.add_comm] using this
          | rparen ht ops' es' hr g =>
            rw [g] at h
            obtain ⟨used', rfl, hu'⟩ := exprLoop_used h hu
            rw [← reduceParen_pars _ _ hr, depth_rp ht]
            exact ih1 _ _ _ _ _ _ _ h hu'
          | un u ht hn g =>
            rw [g] at h
            obtain ⟨used', rfl, hu'⟩ := exprLoop_used h hu
            have := ih1 _ _ _ _ _ _ _ h hu'
            rw [depth_other (by rw [ht]; cases u <;> simp [unTok]) (by rw [ht]; cases u <;> simp [unTok])]
            simpa [pars] using this
          | bin op ht hn ops' es' hr g =>
            rw [g] at h
            obtain ⟨used', rfl, hu'⟩ := exprLoop_used h hu
            have := ih1 _ _ _ _ _ _ _ h hu'
            rw [depth_other (by rw [ht]; cases op <;> simp [binTok]) (by rw [ht]; cases op <;> simp [binTok]), ← reduceFor_pars _ _ _ hr]
            simpa [pars] using this
          | call ht hn v p es' he g =>
            rw [g] at h
            simp only [PM.bind] at h
            cases h1 : commaExprs T n ⟨ts, E, io⟩ with
            | mk r1 s1 =>
              rw [h1] at h
              cases r1 with
              | error e => cases h
              | ok args =>
                simp only at h
                obtain ⟨u, x, hx, hsp⟩ := commaExprs_last T n _ _ _ h1
                have hl := ((runs_expr T n).1 (.call v p args :: es') ops false s1).1
                rw [h] at hl
                obtain ⟨w, hw⟩ := hl
                have hused : used = t :: ((u ++ [x]) ++ w) :=
                  splits_unique hu (splits_trans (splits_trans (splits_cons t ts E io) hsp) (u := _) hw)
                have k1 := depthAfter_add (pars ops) (ih2 _ _ _ _ h1 hsp)
                have k2 := ih1 _ _ _ _ _ _ _ h hw
                rw [hused, depth_lp ht, depthAfter_append, Nat.add_comm, k1]
                simpa using k2
    · intro s s' used r h hu
      rw [commaExprs_succ] at h
      simp only [PM.bind] at h
      cases hc : exprLoop T n [] [] true s with
      | mk r s1 =>
        rw [hc] at h
        cases r with
        | error e => cases h
        | ok r =>
          simp only at h
          have hl := ((runs_expr T n).1 [] [] true s).1
          rw [hc] at hl
          obtain ⟨w, hw⟩ := hl
          have hl' := ((runs_expr T n).2.2 r true s1).1
          rw [h] at hl'
          obtain ⟨w', hw'⟩ := hl'
          rw [splits_unique hu (splits_trans (u := w) hw hw'), depthAfter_append,
            depthAfter_add (d := 0) 1 (ih1 _ _ _ _ _ _ _ hc hw)]
          exact ih3 _ _ _ _ _ _ h hw'
    · rintro prev isFirst ⟨toks, E, io⟩ s' used r h hu
      cases toks with
      | nil =>
        obtain ⟨e, g1, g2⟩ := commaLoop_nil T n prev isFirst E io
        rw [g1] at h; cases h
      | cons t ts =>
        rw [commaLoop_cons] at h
        cases commaStep_cases T n prev isFirst t ts E io with
        | fail err s'' hl hf g => rw [g] at h; cases h
        | last e ht hp g =>
          rw [g] at h
          injection h with ha hb
          subst hb
          rw [splits_unique hu (splits_cons t ts E io), depth_rp ht]; rfl
        | empty ht hp hi g =>
          rw [g] at h
          injection h with ha hb
          subst hb
          rw [splits_unique hu (splits_cons t ts E io), depth_rp ht]; rfl
        | more e ht hp g =>
          rw [g] at h
          simp only [PM.bind] at h
          cases hc : exprLoop T n [] [] true ⟨ts, E, io⟩ with
          | mk r s1 =>
            rw [hc] at h
            cases r with
            | error e => cases h
            | ok r =>
              simp only at h
              cases hd : commaLoop T n r false s1 with
              | mk r' s2 =>
                rw [hd] at h
                cases r' with
                | error e => cases h
                | ok r' =>
                  have hs : s2 = s' := by cases h; rfl
                  subst hs
                  have hl := ((runs_expr T n).1 [] [] true ⟨ts, E, io⟩).1
                  rw [hc] at hl
                  obtain ⟨w, hw⟩ := hl
                  have hl' := ((runs_expr T n).2.2 r false s1).1
                  rw [hd] at hl'
                  obtain ⟨w', hw'⟩ := hl'
                  have hused : used = t :: (w ++ w') :=
                    splits_unique hu (splits_trans (splits_cons t ts E io) (splits_trans (u := w) hw hw'))
                  rw [hused, depth_other (by rw [ht]; simp) (by rw [ht]; simp), depthAfter_append,
                    depthAfter_add (d := 0) 1 (ih1 _ _ _ _ _ _ _ hc hw)]
                  exact ih3 _ _ _ _ _ _ hd hw'

theorem isOperand_none {t : TokSpan} (h : t.operand = none) : Tok.isOperand t.tok = false := by
  obtain ⟨tok, pos⟩ := t
  cases tok
  case boolean => cases h
  case double => cases h
  case integer => cases h
  case text => cases h
  case symbol => cases h
  all_goals rfl

theorem noTwo_append {b : Tok} {u v : List TokSpan} (h : NoTwoOperands b u) (h' : NoTwoOperands (lastTok b u) v) : NoTwoOperands b (u ++ v) := by
  induction u generalizing b with
  | nil => exact h'
  | cons t ts ih => exact ⟨h.1, ih h.2 h'⟩

theorem noTwo_weaken {b c : Tok} {u : List TokSpan} (h : NoTwoOperands b u) (hc : Tok.isOperand c = false) : NoTwoOperands c u := by
  cases u with
  | nil => trivial
  | cons t ts => exact ⟨by simp [hc], h.2⟩

theorem noTwo_other {b : Tok} {t : TokSpan} {u : List TokSpan} (ht : Tok.isOperand t.tok = false) (h : NoTwoOperands t.tok u) :
    NoTwoOperands b (t :: u) := ⟨by simp [ht], h⟩

theorem noTwo_all (T : TextOps) (n : Nat) :
    (∀ es ops need s s' used r b, exprLoop T n es ops need s = (.ok r, s') → Splits s used s' → (Tok.isOperand b = true → need = false) →
      NoTwoOperands b used) ∧
    (∀ s s' used r b, commaExprs T n s = (.ok r, s') → Splits s used s' → Tok.isOperand b = false → NoTwoOperands b used) ∧
    (∀ prev isFirst s s' used r b, commaLoop T n prev isFirst s = (.ok r, s') → Splits s used s' → NoTwoOperands b used) := by
  induction n with
  | zero =>
    refine ⟨?_, ?_, ?_⟩
    · intro es ops need s s' used r b h; cases h
    · intro s s' used r b h; cases h
    · intro prev isFirst s s' used r b h; cases h
  | succ n ih =>
    obtain ⟨ih1, ih2, ih3⟩ := ih
    refine ⟨?_, ?_, ?_⟩
    · rintro es ops need ⟨toks, E, io⟩ s' used r b h hu hb
      cases toks with
      | nil =>
        rw [exprLoop_nil] at h
        cases io
        · injection h with ha hb
          subst hb
          rw [not_used_up hu]; trivial
        · simp at h
      | cons t ts =>
        rw [exprLoop_cons] at h
        split at h
        · injection h with ha hb
          subst hb
          rw [not_used_up hu]; trivial
        · cases tokStep_cases T n es ops need t ⟨ts, E, io⟩ with
          | fail err hf g => rw [g] at h; cases h
          | operand e he hn g =>
            rw [g] at h
            obtain ⟨used', rfl, hu'⟩ := exprLoop_used h hu
            refine ⟨fun hc => ?_, ih1 _ _ _ _ _ _ _ _ h hu' (fun _ => rfl)⟩
            have := hb hc.1
            simp [hn] at this
          | lparen ht hn g =>
            rw [g] at h
            obtain ⟨used', rfl, hu'⟩ := exprLoop_used h hu
            exact noTwo_other (by rw [ht]; rfl) (ih1 _ _ _ _ _ _ _ _ h hu' (by rw [ht]; intro hc; cases hc))
          | rparen ht ops' es' hr g =>
            rw [g] at h
            obtain ⟨used', rfl, hu'⟩ := exprLoop_used h hu
            exact noTwo_other (by rw [ht]; rfl) (ih1 _ _ _ _ _ _ _ _ h hu' (by rw [ht]; intro hc; cases hc))
          | un u ht hn g =>
            rw [g] at h
            obtain ⟨used', rfl, hu'⟩ := exprLoop_used h hu
            have hop : Tok.isOperand t.tok = false := by rw [ht]; cases u <;> rfl
            exact noTwo_other hop (ih1 _ _ _ _ _ _ _ _ h hu' (by rw [hop]; intro hc; cases hc))
          | bin op ht hn ops' es' hr g =>
            rw [g] at h
            obtain ⟨used', rfl, hu'⟩ := exprLoop_used h hu
            have hop : Tok.isOperand t.tok = false := by rw [ht]; cases op <;> rfl
            exact noTwo_other hop (ih1 _ _ _ _ _ _ _ _ h hu' (by rw [hop]; intro hc; cases hc))
          | call ht hn v p es' he g =>
            rw [g] at h
            simp only [PM.bind] at h
            cases h1 : commaExprs T n ⟨ts, E, io⟩ with
            | mk r1 s1 =>
              rw [h1] at h
              cases r1 with
              | error e => cases h
              | ok args =>
                simp only at h
                obtain ⟨u, x, hx, hsp⟩ := commaExprs_last T n _ _ _ h1
                have hl := ((runs_expr T n).1 (.call v p args :: es') ops false s1).1
                rw [h] at hl
                obtain ⟨w, hw⟩ := hl
                have hused : used = t :: ((u ++ [x]) ++ w) :=
                  splits_unique hu (splits_trans (splits_trans (splits_cons t ts E io) hsp) (u := _) hw)
                rw [hused]
                refine noTwo_other (by rw [ht]; rfl) (noTwo_append (ih2 _ _ _ _ _ h1 hsp (by rw [ht]; rfl)) ?_)
                rw [lastTok_append]
                exact ih1 _ _ _ _ _ _ _ _ h hw (by rw [hx]; intro hc; cases hc)
    · intro s s' used r b h hu hb
      rw [commaExprs_succ] at h
      simp only [PM.bind] at h
      cases hc : exprLoop T n [] [] true s with
      | mk r s1 =>
        rw [hc] at h
        cases r with
        | error e => cases h
        | ok r =>
          simp only at h
          have hl := ((runs_expr T n).1 [] [] true s).1
          rw [hc] at hl
          obtain ⟨w, hw⟩ := hl
          have hl' := ((runs_expr T n).2.2 r true s1).1
          rw [h] at hl'
          obtain ⟨w', hw'⟩ := hl'
          rw [splits_unique hu (splits_trans (u := w) hw hw')]
          exact noTwo_append (ih1 _ _ _ _ _ _ _ _ hc hw (by rw [hb]; intro hc; cases hc)) (ih3 _ _ _ _ _ _ _ h hw')
    · rintro prev isFirst ⟨toks, E, io⟩ s' used r b h hu
      cases toks with
      | nil =>
        obtain ⟨e, g1, g2⟩ := commaLoop_nil T n prev isFirst E io
        rw [g1] at h; cases h
      | cons t ts =>
        rw [commaLoop_cons] at h
        cases commaStep_cases T n prev isFirst t ts E io with
        | fail err s'' hl hf g => rw [g] at h; cases h
        | last e ht hp g =>
          rw [g] at h
          injection h with ha hb
          subst hb
          rw [splits_unique hu (splits_cons t ts E io)]; exact noTwo_other (by rw [ht]; rfl) trivial
        | empty ht hp hi g =>
          rw [g] at h
          injection h with ha hb
          subst hb
          rw [splits_unique hu (splits_cons t ts E io)]; exact noTwo_other (by rw [ht]; rfl) trivial
        | more e ht hp g =>
          rw [g] at h
          simp only [PM.bind] at h
          cases hc : exprLoop T n [] [] true ⟨ts, E, io⟩ with
          | mk r s1 =>
            rw [hc] at h
            cases r with
            | error e => cases h
            | ok r =>
              simp only at h
              cases hd : commaLoop T n r false s1 with
              | mk r' s2 =>
                rw [hd] at h
                cases r' with
                | error e => cases h
                | ok r' =>
                  have hs : s2 = s' := by cases h; rfl
                  subst hs
                  have hl := ((runs_expr T n).1 [] [] true ⟨ts, E, io⟩).1
                  rw [hc] at hl
                  obtain ⟨w, hw⟩ := hl
                  have hl' := ((runs_expr T n).2.2 r false s1).1
                  rw [hd] at hl'
                  obtain ⟨w', hw'⟩ := hl'
                  have hused : used = t :: (w ++ w') :=
                    splits_unique hu (splits_trans (splits_cons t ts E io) (splits_trans (u := w) hw hw'))
                  rw [hused]
                  exact noTwo_other (by rw [ht]; rfl) (noTwo_append (ih1 _ _ _ _ _ _ _ _ hc hw (by rw [ht]; intro hc; cases hc))
                    (ih3 _ _ _ _ _ _ _ hd hw'))

end EB
