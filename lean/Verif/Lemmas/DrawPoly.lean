import Verif.Lemmas.Drawing
import Mathlib.Tactic.Tauto
import Mathlib.Algebra.Order.Ring.Abs
/-!
# Polygons
-/

namespace EB
open Spec
namespace Draw

theorem mapM_some {α β : Type} {f : α → Option β} {g : α → β} {l : List α} (h : ∀ a ∈ l, f a = some (g a)) : l.mapM f = some (l.map g) := by
  induction l with
  | nil => rfl
  | cons a l ih =>
    rw [List.mapM_cons, h a List.mem_cons_self, ih fun b hb => h b (List.mem_cons_of_mem _ hb)]
    rfl

theorem tdiv_pos {a b d : Int} (hd : 0 < d) (ha : 0 ≤ a) (had : a ≤ d) : (0 ≤ b → 0 ≤ (a * b).tdiv d ∧ (a * b).tdiv d ≤ b) ∧
    (b ≤ 0 → b ≤ (a * b).tdiv d ∧ (a * b).tdiv d ≤ 0) := by
  have key : ∀ b, 0 ≤ b → 0 ≤ (a * b).tdiv d ∧ (a * b).tdiv d ≤ b := by
    intro b hb
    have h0 : 0 ≤ a * b := mul_nonneg ha hb
    rw [Int.tdiv_eq_ediv_of_nonneg h0]
    refine ⟨Int.ediv_nonneg h0 (le_of_lt hd), Int.ediv_le_of_le_mul hd ?_⟩
    rw [mul_comm a b]
    exact mul_le_mul_of_nonneg_left had hb
  refine ⟨key b, fun hb => ?_⟩
  obtain ⟨h1, h2⟩ := key (-b) (by omega)
  rw [mul_neg, Int.neg_tdiv] at h1 h2
  omega

theorem tdiv_between {a b d : Int} (h : (0 < d ∧ 0 ≤ a ∧ a ≤ d) ∨ (d < 0 ∧ a ≤ 0 ∧ d ≤ a)) :
    (0 ≤ b → 0 ≤ (a * b).tdiv d ∧ (a * b).tdiv d ≤ b) ∧ (b ≤ 0 → b ≤ (a * b).tdiv d ∧ (a * b).tdiv d ≤ 0) := by
  rcases h with ⟨h1, h2, h3⟩ | ⟨h1, h2, h3⟩
  · exact tdiv_pos h1 h2 h3
  · have := tdiv_pos (a := -a) (b := b) (d := -d) (by omega) (by omega) (by omega)
    rwa [neg_mul, Int.neg_tdiv, Int.tdiv_neg, neg_neg] at this

/-- Where the edge crosses the row is between its ends. -/
theorem crossing_between {y : Int} {e : Pt × Pt} {x : Int} (h : crossing y e = some x) :
    min e.1.x e.2.x ≤ x ∧ x ≤ max e.1.x e.2.x ∧ min e.1.y e.2.y ≤ y ∧ y < max e.1.y e.2.y := by
  unfold crossing at h
  split at h
  · cases h
  next hc =>
    cases h
    have hc' : (e.1.y ≤ y ∧ ¬ e.2.y ≤ y) ∨ (¬ e.1.y ≤ y ∧ e.2.y ≤ y) := by
      by_cases h1 : e.1.y ≤ y <;> by_cases h2 : e.2.y ≤ y <;> simp [h1, h2] at hc ⊢
    obtain ⟨t1, t2⟩ := tdiv_between (a := y - e.1.y) (b := e.2.x - e.1.x) (d := e.2.y - e.1.y) (by omega)
    refine ⟨?_, ?_, by omega, by omega⟩
    · rcases le_total e.1.x e.2.x with hx | hx
      · have := t1 (by omega); omega
      · have := t2 (by omega); omega
    · rcases le_total e.1.x e.2.x with hx | hx
      · have := t1 (by omega); omega
      · have := t2 (by omega); omega

theorem edge_ok {y : Int} {p q : Pt} (hp : OnGrid p) (hq : OnGrid q) (hy : -32768 ≤ y ∧ y ≤ 32767)
    (hm : |q.x - p.x| * |q.y - p.y| ≤ 2147483647) : edgeIntersection y p q = some (crossing y (p, q)) := by
  obtain ⟨p1, p2, p3, p4⟩ := hp
  obtain ⟨q1, q2, q3, q4⟩ := hq
  unfold edgeIntersection
  by_cases hc : (p.y ≤ y) = (q.y ≤ y)
  · have hn : crossing y (p, q) = none := if_pos hc
    rw [hn]
    have hc' : (p.y ≤ y ∧ q.y ≤ y) ∨ (¬ p.y ≤ y ∧ ¬ q.y ≤ y) := by
      by_cases h1 : p.y ≤ y <;> by_cases h2 : q.y ≤ y <;> simp [h1, h2] at hc ⊢
    split
    · rfl
    next h1 =>
      rw [if_pos (by omega)]
  · have hc' : (p.y ≤ y ∧ ¬ q.y ≤ y) ∨ (¬ p.y ≤ y ∧ q.y ≤ y) := by
      by_cases h1 : p.y ≤ y <;> by_cases h2 : q.y ≤ y <;> simp [h1, h2] at hc ⊢
    have hs : crossing y (p, q) = some (p.x + ((y - p.y) * (q.x - p.x)).tdiv (q.y - p.y)) := if_neg hc
    have hbt := crossing_between hs
    simp only at hbt
    have hprod : |(y - p.y) * (q.x - p.x)| ≤ 2147483647 := by
      rw [abs_mul]
      refine le_trans ?_ hm
      rw [mul_comm |q.x - p.x|]
      refine mul_le_mul_of_nonneg_right ?_ (abs_nonneg _)
      rcases abs_cases (y - p.y) with ⟨e1, _⟩ | ⟨e1, _⟩ <;> rcases abs_cases (q.y - p.y) with ⟨e2, _⟩ | ⟨e2, _⟩ <;> rw [e1, e2] <;> omega
    rw [abs_le] at hprod
    rw [if_neg (by omega), if_neg (by omega), i32_ok (by omega) (by omega), i32_ok (by omega) (by omega)]
    simp only [Option.bind_eq_bind, Option.bind_some]
    rw [i32_ok (by omega) (by omega), Option.bind_some, i32_ok (by omega) (by omega), Option.bind_some, i32_ok (by omega) (by omega),
      Option.bind_some, i32_ok (by omega) (by omega), Option.bind_some, hs]
    rfl

theorem edges_eq (points : List Pt) : ((List.range points.length).map fun i =>
    (points.getD i ⟨0, 0⟩, points.getD ((i + 1) % points.length) ⟨0, 0⟩)) = edges points := by
  apply List.ext_getElem
  · simp [edges]
  · intro i h1 h2
    have hi : i < points.length := by simpa using h1
    have hpos : 0 < points.length := by omega
    simp only [List.getElem_map, List.getElem_range, edges, List.getElem_zip, List.getElem_rotate]
    simp [List.getD, hi, Nat.mod_lt _ hpos]

theorem mem_edges {points : List Pt} {e : Pt × Pt} (h : e ∈ edges points) : e.1 ∈ points ∧ e.2 ∈ points := by
  have := List.of_mem_zip h
  exact ⟨this.1, List.mem_rotate.1 this.2⟩

theorem crossings_ok {points : List Pt} (hg : ∀ p ∈ points, OnGrid p) (hm : Moderate points) {y : Int} (hy : -32768 ≤ y ∧ y ≤ 32767) :
    crossings points y = some ((edges points).filterMap (crossing y)) := by
  unfold crossings
  have key : ∀ e ∈ edges points, edgeIntersection y e.1 e.2 = some (crossing y e) := fun e he =>
    edge_ok (hg _ (mem_edges he).1) (hg _ (mem_edges he).2) hy (hm e he)
  have h1 : ((List.range points.length).mapM fun i =>
      edgeIntersection y (points.getD i ⟨0, 0⟩) (points.getD ((i + 1) % points.length) ⟨0, 0⟩)) = some ((edges points).map (crossing y)) := by
    rw [mapM_some (g := fun i => crossing y (points.getD i ⟨0, 0⟩, points.getD ((i + 1) % points.length) ⟨0, 0⟩))]
    · rw [← edges_eq, List.map_map]; rfl
    · intro i hi
      have hmem : (points.getD i ⟨0, 0⟩, points.getD ((i + 1) % points.length) ⟨0, 0⟩) ∈ edges points := by
        rw [← edges_eq]; exact List.mem_map.2 ⟨i, hi, rfl⟩
      exact key _ hmem
  rw [h1, Option.map_some, List.filterMap_map]
  rfl

theorem xor_parity (f : Pt → Bool) (l : List (Pt × Pt)) :
    l.countP (fun e => f e.1 != f e.2) % 2 = ((l.map Prod.fst).countP f + (l.map Prod.snd).countP f) % 2 := by
  induction l with
  | nil => rfl
  | cons e l ih =>
    simp only [List.countP_cons, List.map_cons]
    generalize l.countP (fun e => f e.1 != f e.2) = a at *
    generalize (l.map Prod.fst).countP f = b at *
    generalize (l.map Prod.snd).countP f = c at *
    cases h1 : f e.1 <;> cases h2 : f e.2 <;> simp <;> omega

/-- A closed line crosses a row an even number of times. -/
theorem crossings_even (points : List Pt) (y : Int) : ((edges points).filterMap (crossing y)).length % 2 = 0 := by
  have h1 : ((edges points).filterMap (crossing y)).length = (edges points).countP fun e => (decide (e.1.y ≤ y) != decide (e.2.y ≤ y)) := by
    rw [List.length_filterMap_eq_countP]
    refine List.countP_congr fun e _ => ?_
    unfold crossing
    by_cases a : e.1.y ≤ y <;> by_cases b : e.2.y ≤ y <;> simp [a, b]
  rw [h1, xor_parity (fun p => decide (p.y ≤ y))]
  have h2 : (edges points).map Prod.fst = points := List.map_fst_zip (by simp)
  have h3 : (edges points).map Prod.snd = points.rotate 1 := List.map_snd_zip (by simp)
  rw [h2, h3, (List.rotate_perm points 1).countP_eq]
  omega

theorem clamp_ok {n : Int} (h1 : -32768 ≤ n) (h2 : n ≤ 32767) : clampI16 n = n := by
  unfold clampI16
  rw [if_neg (by omega), if_neg (by omega)]

theorem spans_ok {y : Int} (hy : -32768 ≤ y ∧ y ≤ 32767) (n : Nat) (xs : List Int) (hn : xs.length = 2 * n) (hs : xs.Pairwise (· ≤ ·))
    (hg : ∀ x ∈ xs, -32768 ≤ x ∧ x ≤ 32767) :
    Paints (spans y xs) fun r => r.y = y ∧ (r.x ∈ xs ∨ xs.countP (· < r.x) % 2 = 1) := by
  induction n generalizing xs with
  | zero =>
    have : xs = [] := List.length_eq_zero_iff.1 hn
    subst this
    refine ⟨fun o ho => (by cases ho), fun r => ⟨fun h => ?_, ?_⟩⟩
    · simp at h
    · rintro ⟨o, ho, _⟩; cases ho
  | succ n ih =>
    match xs, hn, hs, hg with
    | [], hn, _, _ => simp at hn
    | [a], hn, _, _ => simp at hn; omega
    | a :: b :: rest, hn, hs, hg =>
      rw [List.pairwise_cons, List.pairwise_cons] at hs
      obtain ⟨s1, s2, s3⟩ := hs
      have ha := hg a (by simp)
      have hb := hg b (by simp)
      have hab : a ≤ b := s1 b (by simp)
      obtain ⟨i1, i2⟩ := ih rest (by simp at hn; omega) s3 fun x hx => hg x (by simp [hx])
      obtain ⟨l, e1, e2⟩ := line_axis (p := ⟨a, y⟩) (q := ⟨b, y⟩) ⟨ha.1, ha.2, hy.1, hy.2⟩ ⟨hb.1, hb.2, hy.1, hy.2⟩ (.inr rfl)
      have hspan : spans y (a :: b :: rest) = .line ⟨a, y⟩ ⟨b, y⟩ :: spans y rest := by
        show RasOp.line ⟨clampI16 a, clampI16 y⟩ ⟨clampI16 b, clampI16 y⟩ :: _ = _
        rw [clamp_ok ha.1 ha.2, clamp_ok hb.1 hb.2, clamp_ok hy.1 hy.2]
      rw [hspan]
      refine ⟨?_, fun r => ?_⟩
      · intro o ho
        rcases List.mem_cons.1 ho with rfl | ho
        · show (line _ _).isSome; rw [e1]; rfl
        · exact i1 o ho
      · have hbox : (∃ o ∈ RasOp.line ⟨a, y⟩ ⟨b, y⟩ :: spans y rest, ∃ l, pixels o = some l ∧ r ∈ l) ↔
            InBox ⟨a, y⟩ ⟨b, y⟩ r ∨ (r.y = y ∧ (r.x ∈ rest ∨ rest.countP (· < r.x) % 2 = 1)) := by
          constructor
          · rintro ⟨o, ho, l', h1, h2⟩
            rcases List.mem_cons.1 ho with rfl | ho
            · rw [show pixels (.line ⟨a, y⟩ ⟨b, y⟩) = some l from e1] at h1
              cases h1
              exact .inl ((e2 r).1 h2)
            · exact .inr ((i2 r).2 ⟨o, ho, l', h1, h2⟩)
          · rintro (h | h)
            · exact ⟨_, List.mem_cons_self, l, e1, (e2 r).2 h⟩
            · obtain ⟨o, ho, h⟩ := (i2 r).1 h
              exact ⟨o, List.mem_cons_of_mem _ ho, h⟩
        rw [hbox]
        have hin : InBox ⟨a, y⟩ ⟨b, y⟩ r ↔ r.y = y ∧ a ≤ r.x ∧ r.x ≤ b := by
          unfold InBox
          simp only [min_self, max_self, min_eq_left hab, max_eq_right hab]
          omega
        rw [hin]
        by_cases hyr : r.y = y
        swap
        · constructor
          · rintro ⟨h, _⟩; exact absurd h hyr
          · rintro (⟨h, _⟩ | ⟨h, _⟩) <;> exact absurd h hyr
        simp only [hyr, true_and, List.mem_cons, List.countP_cons]
        by_cases h1 : r.x < a
        · have z : rest.countP (· < r.x) = 0 := by
            rw [List.countP_eq_zero]; intro x hx
            have := s1 x (by simp [hx]); simp; omega
          have nm : r.x ∉ rest := fun hx => by have := s1 _ (List.mem_cons_of_mem _ hx); omega
          have d1 : (decide (a < r.x)) = false := by simp; omega
          have d2 : (decide (b < r.x)) = false := by simp; omega
          simp only [z, nm, d1, d2, Bool.false_eq_true, if_false, or_false, Nat.add_zero, Nat.zero_mod, Nat.zero_ne_one]
          omega
        · by_cases h2 : b < r.x
          · have d1 : (decide (a < r.x)) = true := by simp; omega
            have d2 : (decide (b < r.x)) = true := by simp; omega
            simp only [d1, d2, if_true]
            constructor
            · rintro ((h | h | h) | h)
              · omega
              · omega
              · exact .inr (.inl h)
              · exact .inr (.inr (by omega))
            · rintro (h | h | h)
              · omega
              · exact .inl (.inr (.inr h))
              · exact .inr (by omega)
          · have z : rest.countP (· < r.x) = 0 := by
              rw [List.countP_eq_zero]; intro x hx
              have := s2 x hx; simp; omega
            have d2 : (decide (b < r.x)) = false := by simp; omega
            refine ⟨fun _ => .inl ⟨by omega, by omega⟩, fun _ => ?_⟩
            by_cases h3 : r.x = a
            · exact .inl (.inl h3)
            · have d1 : (decide (a < r.x)) = true := by simp; omega
              right
              rw [z, d1, d2]; simp

theorem fold_min (l : List Pt) (m : Int) : l.foldl (fun m q => min m q.y) m ≤ m ∧ ∀ q ∈ l, l.foldl (fun m q => min m q.y) m ≤ q.y := by
  induction l generalizing m with
  | nil => exact ⟨Int.le_refl _, fun _ h => by cases h⟩
  | cons a l ih =>
    obtain ⟨h1, h2⟩ := ih (min m a.y)
    refine ⟨le_trans h1 (min_le_left _ _), fun q hq => ?_⟩
    rcases List.mem_cons.1 hq with rfl | hq
    · exact le_trans h1 (min_le_right _ _)
    · exact h2 q hq

theorem fold_max (l : List Pt) (m : Int) : m ≤ l.foldl (fun m q => max m q.y) m ∧ ∀ q ∈ l, q.y ≤ l.foldl (fun m q => max m q.y) m := by
  induction l generalizing m with
  | nil => exact ⟨Int.le_refl _, fun _ h => by cases h⟩
  | cons a l ih =>
    obtain ⟨h1, h2⟩ := ih (max m a.y)
    refine ⟨le_trans (le_max_left _ _) h1, fun q hq => ?_⟩
    rcases List.mem_cons.1 hq with rfl | hq
    · exact le_trans (le_max_right _ _) h1
    · exact h2 q hq

theorem fold_grid (f : Int → Int → Int) (hf : ∀ a b, f a b = a ∨ f a b = b) (l : List Pt) (m : Int) (hm : -32768 ≤ m ∧ m ≤ 32767) (hl : ∀ q ∈ l, OnGrid q) :
    -32768 ≤ l.foldl (fun m q => f m q.y) m ∧ l.foldl (fun m q => f m q.y) m ≤ 32767 := by
  induction l generalizing m with
  | nil => exact hm
  | cons a l ih =>
    refine ih _ ?_ fun q hq => hl q (List.mem_cons_of_mem _ hq)
    have := hl a List.mem_cons_self
    show -32768 ≤ f m a.y ∧ f m a.y ≤ 32767
    rcases hf m a.y with h | h <;> rw [h]
    · exact hm
    · exact ⟨this.2.2.1, this.2.2.2⟩

theorem fillPolygon_ok {points : List Pt} (hg : ∀ p ∈ points, OnGrid p) (hm : Moderate points) :
    ∃ ops, fillPolygon points = some ops ∧ Paints ops (Inside points) := by
  cases points with
  | nil => exact ⟨[], rfl, fun o ho => (by cases ho), fun r => ⟨fun h => by simp [Inside, edges] at h, by rintro ⟨o, ho, _⟩; cases ho⟩⟩
  | cons p ps =>
    obtain ⟨lo, hlo⟩ : ∃ lo, ps.foldl (fun m q => min m q.y) p.y = lo := ⟨_, rfl⟩
    obtain ⟨hi, hhi⟩ : ∃ hi, ps.foldl (fun m q => max m q.y) p.y = hi := ⟨_, rfl⟩
    have hp := hg p List.mem_cons_self
    have b1 := fold_min ps p.y
    have b2 := fold_max ps p.y
    have g1 := fold_grid min (fun a b => by omega) ps p.y ⟨hp.2.2.1, hp.2.2.2⟩ fun q hq => hg q (List.mem_cons_of_mem _ hq)
    have g2 := fold_grid max (fun a b => by omega) ps p.y ⟨hp.2.2.1, hp.2.2.2⟩ fun q hq => hg q (List.mem_cons_of_mem _ hq)
    rw [hlo] at b1 g1
    rw [hhi] at b2 g2
    have hrow : ∀ q ∈ p :: ps, lo ≤ q.y ∧ q.y ≤ hi := by
      intro q hq
      rcases List.mem_cons.1 hq with rfl | hq
      · exact ⟨b1.1, b2.1⟩
      · exact ⟨b1.2 q hq, b2.2 q hq⟩
    have hfill : fillPolygon (p :: ps) = some ((List.range (hi - lo + 1).toNat).map fun (k : Nat) =>
        spans (lo + k) (((edges (p :: ps)).filterMap (crossing (lo + k))).mergeSort (· ≤ ·))).flatten := by
      unfold fillPolygon
      simp only [hlo, hhi]
      rw [mapM_some (g := fun (k : Nat) => spans (lo + k) (((edges (p :: ps)).filterMap (crossing (lo + k))).mergeSort (· ≤ ·)))]
      · rfl
      · intro k hk
        rw [List.mem_range] at hk
        rw [crossings_ok hg hm (by omega), Option.map_some]
        congr 1
        split
        next h =>
          have hz := crossings_even (p :: ps) (lo + k)
          have : (edges (p :: ps)).filterMap (crossing (lo + k)) = [] := List.length_eq_zero_iff.1 (by omega)
          rw [this]
          simp [spans]
        next => rfl
    have hrowok : ∀ k : Nat, k < (hi - lo + 1).toNat → Paints (spans (lo + k) (((edges (p :: ps)).filterMap (crossing (lo + k))).mergeSort (· ≤ ·)))
        fun r => r.y = lo + k ∧ Inside (p :: ps) r := by
      intro k hk
      have hperm := List.mergeSort_perm ((edges (p :: ps)).filterMap (crossing (lo + k))) (fun a b => decide (a ≤ b))
      have heven := crossings_even (p :: ps) (lo + k)
      obtain ⟨c1, c2⟩ := spans_ok (y := lo + k) (by omega) (((edges (p :: ps)).filterMap (crossing (lo + k))).length / 2)
        (((edges (p :: ps)).filterMap (crossing (lo + k))).mergeSort (· ≤ ·)) (by rw [hperm.length_eq]; omega)
        (by
          have := List.pairwise_mergeSort (le := fun a b : Int => decide (a ≤ b)) (fun a b c h1 h2 => by simp at h1 h2 ⊢; omega) (fun a b => by simp; omega)
            ((edges (p :: ps)).filterMap (crossing (lo + k)))
          simpa using this)
        (by
          intro x hx
          obtain ⟨e, he, hc⟩ := List.mem_filterMap.1 (hperm.mem_iff.1 hx)
          have hb := crossing_between hc
          have k1 := hg _ (mem_edges he).1
          have k2 := hg _ (mem_edges he).2
          unfold OnGrid at k1 k2
          omega)
      refine ⟨c1, fun r => Iff.trans ?_ (c2 r)⟩
      constructor
      · rintro ⟨h1, h2⟩
        refine ⟨h1, ?_⟩
        unfold Inside at h2
        rw [h1] at h2
        rw [hperm.mem_iff, hperm.countP_eq]
        exact h2
      · rintro ⟨h1, h2⟩
        refine ⟨h1, ?_⟩
        rw [hperm.mem_iff, hperm.countP_eq] at h2
        unfold Inside
        rw [h1]
        exact h2
    refine ⟨_, hfill, ?_, fun r => ?_⟩
    · intro o ho
      obtain ⟨l, hl, ho⟩ := List.mem_flatten.1 ho
      obtain ⟨k, hk, rfl⟩ := List.mem_map.1 hl
      exact (hrowok k (List.mem_range.1 hk)).1 o ho
    · constructor
      · intro hr
        have hne : ∃ x, x ∈ (edges (p :: ps)).filterMap (crossing r.y) := by
          rcases hr with h | h
          · exact ⟨_, h⟩
          · cases hl : (edges (p :: ps)).filterMap (crossing r.y) with
            | nil => rw [hl] at h; simp at h
            | cons x _ => exact ⟨x, List.mem_cons_self⟩
        obtain ⟨x, hx⟩ := hne
        obtain ⟨e, he, hc⟩ := List.mem_filterMap.1 hx
        have hb := crossing_between hc
        have k1 := hrow _ (mem_edges he).1
        have k2 := hrow _ (mem_edges he).2
        have hk : (r.y - lo).toNat < (hi - lo + 1).toNat := by omega
        obtain ⟨o, ho, h⟩ := ((hrowok _ hk).2 r).1 ⟨by omega, hr⟩
        exact ⟨o, List.mem_flatten.2 ⟨_, List.mem_map.2 ⟨_, List.mem_range.2 hk, rfl⟩, ho⟩, h⟩
      · rintro ⟨o, ho, h⟩
        obtain ⟨l, hl, ho⟩ := List.mem_flatten.1 ho
        obtain ⟨k, hk, rfl⟩ := List.mem_map.1 hl
        exact (((hrowok k (List.mem_range.1 hk)).2 r).2 ⟨o, ho, h⟩).2

theorem zip_close (f : Pt → Pt → RasOp) (a p : Pt) (l : List Pt) :
    List.zipWith f (a :: l) (l ++ [p]) = List.zipWith f (a :: l) l ++ [f ((a :: l).getLast (by simp)) p] := by
  induction l generalizing a with
  | nil => rfl
  | cons b l ih =>
    show f a b :: List.zipWith f (b :: l) (l ++ [p]) = f a b :: List.zipWith f (b :: l) l ++ _
    rw [ih b]
    rfl

theorem poly_edges {points : List Pt} (h : 2 ≤ points.length) : poly points = (edges points).map fun e => RasOp.line e.1 e.2 := by
  match points, h with
  | p :: q :: rest, _ =>
    show List.zipWith RasOp.line (p :: q :: rest) (q :: rest) ++ [.line ((q :: rest).getLast _) p] = _
    have : (p :: q :: rest).rotate 1 = (q :: rest) ++ [p] := by rw [List.rotate_cons_succ, List.rotate_zero]
    rw [edges, this, List.map_zip_eq_zipWith]
    rw [show (fun e : Pt × Pt => RasOp.line e.1 e.2) = Function.uncurry RasOp.line from rfl, Function.curry_uncurry, zip_close]
    rfl

theorem Paints.append {a b : List RasOp} {s t : Pt → Prop} (ha : Paints a s) (hb : Paints b t) : Paints (a ++ b) fun r => s r ∨ t r := by
  refine ⟨fun o ho => (List.mem_append.1 ho).elim (ha.1 o) (hb.1 o), fun r => ?_⟩
  show s r ∨ t r ↔ _
  rw [ha.2 r, hb.2 r]
  constructor
  · rintro (⟨o, ho, h⟩ | ⟨o, ho, h⟩)
    · exact ⟨o, List.mem_append_left _ ho, h⟩
    · exact ⟨o, List.mem_append_right _ ho, h⟩
  · rintro ⟨o, ho, h⟩
    rcases List.mem_append.1 ho with ho | ho
    · exact .inl ⟨o, ho, h⟩
    · exact .inr ⟨o, ho, h⟩

theorem Paints.congr {a : List RasOp} {s t : Pt → Prop} (ha : Paints a s) (h : ∀ r, t r ↔ s r) : Paints a t :=
  ⟨ha.1, fun r => (h r).trans (ha.2 r)⟩

theorem line_paints {p q : Pt} (hp : OnGrid p) (hq : OnGrid q) (h : p.x = q.x ∨ p.y = q.y) : Paints [.line p q] (InBox p q) := by
  obtain ⟨l, h1, h2⟩ := line_axis hp hq h
  refine ⟨fun o ho => ?_, fun r => ?_⟩
  · rw [List.mem_singleton.1 ho]; show (line p q).isSome; rw [h1]; rfl
  · rw [← h2]
    constructor
    · intro hr; exact ⟨_, List.mem_singleton_self _, l, h1, hr⟩
    · rintro ⟨o, ho, l', h3, h4⟩
      rw [List.mem_singleton.1 ho] at h3
      have : some l = some l' := h1.symm.trans h3
      cases this
      exact h4

end Draw
end EB
