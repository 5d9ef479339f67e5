import Verif.Spec.Drawing
import Mathlib.Tactic.Linarith
import Mathlib.Tactic.Ring
import Mathlib.Tactic.SplitIfs
import Mathlib.Algebra.Order.Ring.Int
import Mathlib.Algebra.Order.Group.Abs
/-!
# Lines
-/

namespace EB
open Spec

theorem i16_ok {n : Int} (h1 : -32768 ≤ n) (h2 : n ≤ 32767) : i16? n = some n := if_pos ⟨h1, h2⟩
theorem i32_ok {n : Int} (h1 : -2147483648 ≤ n) (h2 : n ≤ 2147483647) : i32? n = some n := if_pos ⟨h1, h2⟩

namespace Draw

/-- What the loop draws from column `x1 + k` and row `y1 + yi * j` on. -/
theorem lowLoop_ok {x1 y1 dx dy yi : Int} (h0 : 0 ≤ dy) (h1 : dy ≤ dx) (h2 : dx ≤ 65535) (hyi : yi = 1 ∨ yi = -1)
    (hx : -32768 ≤ x1 ∧ x1 + dx ≤ 32767) (hy : -32768 ≤ y1 ∧ y1 ≤ 32767) (hy' : -32768 ≤ y1 + yi * dy ∧ y1 + yi * dy ≤ 32767)
    (n : Nat) (k j d : Int) (hk : 0 ≤ k) (hkn : k + n = dx + 1) (hj : 0 ≤ j) (hd : d = 2 * (k * dy) + 2 * dy - 2 * (j * dx) - dx)
    (hd1 : 2 * dy - 2 * dx ≤ d) (hd2 : d ≤ 2 * dy) (hjdy : j ≤ dy ∨ n = 0) :
    ∃ l, lowLoop dx dy yi n (x1 + k) (y1 + yi * j) d = some l ∧ l.length = n ∧
      (n ≠ 0 → l.head? = some ⟨x1 + k, y1 + yi * j⟩ ∧ l.getLast? = some ⟨x1 + dx, y1 + yi * dy⟩) ∧ l.IsChain Touch ∧
      ∀ r ∈ l, 2 * |(r.x - x1) * (yi * dy) - (r.y - y1) * dx| ≤ dx := by
  induction n generalizing k j d with
  | zero => exact ⟨[], rfl, rfl, fun h => absurd rfl h, .nil, fun _ h => by cases h⟩
  | succ n ih =>
    have hj' : j ≤ dy := hjdy.resolve_right (by omega)
    have hkd : k ≤ dx := by omega
    have ey : -32768 ≤ y1 + yi * j ∧ y1 + yi * j ≤ 32767 := by rcases hyi with rfl | rfl <;> omega
    unfold lowLoop
    rw [i16_ok (by omega) (by omega), i16_ok ey.1 ey.2]
    have hnear : 2 * |((x1 + k) - x1) * (yi * dy) - ((y1 + yi * j) - y1) * dx| ≤ dx := by
      have : ((x1 + k) - x1) * (yi * dy) - ((y1 + yi * j) - y1) * dx = yi * (k * dy - j * dx) := by ring
      rw [this]
      rcases hyi with rfl | rfl
      · rw [one_mul]
        rcases abs_cases (k * dy - j * dx) with ⟨h, _⟩ | ⟨h, _⟩ <;> omega
      · rw [neg_mul, one_mul, abs_neg]
        rcases abs_cases (k * dy - j * dx) with ⟨h, _⟩ | ⟨h, _⟩ <;> omega
    -- the next point
    obtain ⟨j', d', hstep, hj1, hd', hj2, hj3, hb1, hb2⟩ : ∃ j' d', lineStep dx dy yi (y1 + yi * j) d = some (y1 + yi * j', d') ∧ (j' = j ∨ j' = j + 1) ∧
        d' = 2 * ((k + 1) * dy) + 2 * dy - 2 * (j' * dx) - dx ∧ 0 ≤ j' ∧ (j' ≤ dy ∨ n = 0) ∧ 2 * dy - 2 * dx ≤ d' ∧ d' ≤ 2 * dy := by
      have hkk : (k + 1) * dy = k * dy + dy := by ring
      have hjj : (j + 1) * dx = j * dx + dx := by ring
      unfold lineStep
      by_cases hpos : d > 0
      · rw [if_pos hpos]
        have hyy : y1 + yi * j + yi = y1 + yi * (j + 1) := by ring
        have hr : -2147483648 ≤ y1 + yi * (j + 1) ∧ y1 + yi * (j + 1) ≤ 2147483647 := by rcases hyi with rfl | rfl <;> omega
        rw [hyy, i32_ok hr.1 hr.2, i32_ok (by omega) (by omega)]
        simp only [Option.bind_eq_bind, Option.bind_some]
        rw [i32_ok (by omega) (by omega), Option.bind_some, i32_ok (by omega) (by omega), Option.bind_some]
        refine ⟨j + 1, _, rfl, .inr rfl, by rw [hkk, hjj]; omega, by omega, ?_, by omega, by omega⟩
        by_cases hn : n = 0
        · exact .inr hn
        · left
          have hk1 : k + 1 ≤ dx := by omega
          -- (j + 1) * dx < (dy + 1) * dx
          have e1 : (k + 1) * dy ≤ dx * dy := mul_le_mul_of_nonneg_right hk1 h0
          have e2 : dx * dy = dy * dx := mul_comm _ _
          by_contra hcon
          have hj4 : dy + 1 ≤ j + 1 := by omega
          have e3 : (dy + 1) * dx ≤ (j + 1) * dx := mul_le_mul_of_nonneg_right hj4 (by omega)
          have e4 : (dy + 1) * dx = dy * dx + dx := by ring
          omega
      · rw [if_neg hpos, i32_ok (by omega) (by omega)]
        simp only [Option.bind_eq_bind, Option.bind_some]
        rw [i32_ok (by omega) (by omega), Option.bind_some]
        exact ⟨j, _, rfl, .inl rfl, by rw [hkk]; omega, hj, .inl hj', by omega, by omega⟩
    obtain ⟨l, e1, e2, e3, e4, e5⟩ := ih (k + 1) j' d' (by omega) (by push_cast at hkn; omega) hj2 hd' hb1 hb2 hj3
    refine ⟨⟨x1 + k, y1 + yi * j⟩ :: l, ?_, by simp [e2], fun _ => ⟨rfl, ?_⟩, ?_, ?_⟩
    · simp only [Option.bind_eq_bind, Option.bind_some]
      rw [hstep, Option.bind_some]
      simp only
      rw [show x1 + k + 1 = x1 + (k + 1) by ring, e1]
      rfl
    · by_cases hn : n = 0
      · subst hn
        have hl : l = [] := List.length_eq_zero_iff.1 e2
        subst hl
        have hk' : k = dx := by omega
        subst hk'
        have hjd : j = dy := by
          by_contra hcon
          have hj4 : j + 1 ≤ dy := by omega
          have e3 : (j + 1) * k ≤ dy * k := mul_le_mul_of_nonneg_right hj4 hk
          have e4 : (j + 1) * k = j * k + k := by ring
          have e5 : k * dy = dy * k := mul_comm _ _
          omega
        rw [hjd]; rfl
      · rw [List.getLast?_cons, (e3 hn).2]; rfl
    · cases l with
      | nil => exact .singleton _
      | cons a l =>
        have hn : n ≠ 0 := by rintro rfl; simp at e2
        have ha := (e3 hn).1
        simp only [List.head?_cons, Option.some.injEq] at ha
        refine .cons_cons ?_ e4
        rw [ha]
        refine ⟨?_, ?_⟩
        · show |x1 + (k + 1) - (x1 + k)| ≤ 1
          rw [show x1 + (k + 1) - (x1 + k) = 1 by ring]; decide
        · show |y1 + yi * j' - (y1 + yi * j)| ≤ 1
          rcases hj1 with rfl | rfl
          · rw [sub_self]; decide
          · rw [show y1 + yi * (j + 1) - (y1 + yi * j) = yi by ring]
            rcases hyi with rfl | rfl <;> decide
    · intro r hr
      rcases List.mem_cons.1 hr with rfl | hr
      · exact hnear
      · exact e5 r hr

/-- The points with their coordinates exchanged. -/
def swap (p : Pt) : Pt := ⟨p.y, p.x⟩

theorem lineLow_ok {p q : Pt} (hp : OnGrid p) (hq : OnGrid q) (hx : p.x ≤ q.x) (hxy : |q.y - p.y| ≤ q.x - p.x) :
    ∃ l, lineLow p.x p.y q.x q.y = some l ∧ l.head? = some p ∧ l.getLast? = some q ∧ (l.length : Int) = q.x - p.x + 1 ∧
      l.IsChain Touch ∧ ∀ r ∈ l, 2 * |(r.x - p.x) * (q.y - p.y) - (r.y - p.y) * (q.x - p.x)| ≤ q.x - p.x := by
  obtain ⟨p1, p2, p3, p4⟩ := hp
  obtain ⟨q1, q2, q3, q4⟩ := hq
  unfold lineLow
  obtain ⟨yi, dy, hpair, hyi, hdy, hdy0⟩ : ∃ yi dy : Int, (if q.y - p.y < 0 then (-1, -(q.y - p.y)) else (1, q.y - p.y)) = (yi, dy) ∧
      (yi = 1 ∨ yi = -1) ∧ yi * dy = q.y - p.y ∧ 0 ≤ dy := by
    split
    next h => exact ⟨-1, _, rfl, .inr rfl, by ring, by omega⟩
    next h => exact ⟨1, _, rfl, .inl rfl, by ring, by omega⟩
  have hle : dy ≤ q.x - p.x := by
    rw [← hdy] at hxy
    rcases hyi with rfl | rfl
    · rw [one_mul, abs_of_nonneg hdy0] at hxy; exact hxy
    · rw [neg_mul, one_mul, abs_neg, abs_of_nonneg hdy0] at hxy; exact hxy
  rw [i32_ok (by omega) (by omega), i32_ok (by omega) (by omega)]
  simp only [Option.bind_eq_bind, Option.bind_some, hpair]
  rw [i32_ok (by omega) (by omega), Option.bind_some, i32_ok (by omega) (by omega), Option.bind_some, i32_ok (by omega) (by omega), Option.bind_some]
  obtain ⟨l, e1, e2, e3, e4, e5⟩ := lowLoop_ok (x1 := p.x) (y1 := p.y) (dx := q.x - p.x) (dy := dy) (yi := yi) hdy0 hle (by omega) hyi (by omega) (by omega) (by omega)
    (q.x + 1 - p.x).toNat 0 0 (2 * dy - (q.x - p.x)) (by omega) (by omega) (by omega) (by ring) (by omega) (by omega) (.inl hdy0)
  rw [add_zero, mul_zero, add_zero] at e1
  have hn : (q.x + 1 - p.x).toNat ≠ 0 := by omega
  obtain ⟨e6, e7⟩ := e3 hn
  refine ⟨l, e1, ?_, ?_, by rw [e2]; omega, e4, ?_⟩
  · rw [e6, add_zero, mul_zero, add_zero]
  · rw [e7, hdy, show p.x + (q.x - p.x) = q.x by ring, show p.y + (q.y - p.y) = q.y by ring]
  · rw [hdy] at e5; exact e5

theorem highLoop_swap (dx dy xi : Int) (n : Nat) (y x d : Int) :
    highLoop dx dy xi n y x d = (lowLoop dy dx xi n y x d).map (·.map swap) := by
  induction n generalizing y x d with
  | zero => rfl
  | succ n ih =>
    unfold highLoop lowLoop
    simp only [Option.bind_eq_bind]
    cases hx : i16? x <;> cases hy : i16? y <;> simp only [Option.bind_some, Option.bind_none, Option.map_none]
    rename_i px py
    generalize lineStep dy dx xi x d = o
    cases o with
    | none => rfl
    | some z =>
      simp only [Option.bind_some, ih]
      cases lowLoop dy dx xi n (y + 1) z.1 z.2 with
      | none => rfl
      | some l => simp [swap]

theorem lineHigh_swap (x1 y1 x2 y2 : Int) : lineHigh x1 y1 x2 y2 = (lineLow y1 x1 y2 x2).map (·.map swap) := by
  unfold lineHigh lineLow
  simp only [Option.bind_eq_bind, highLoop_swap]
  cases i32? (x2 - x1) with
  | none => cases i32? (y2 - y1) <;> rfl
  | some dx =>
    cases i32? (y2 - y1) with
    | none => rfl
    | some dy =>
      simp only [Option.bind_some]
      generalize (if dx < 0 then (-1, -dx) else (1, dx) : Int × Int) = z
      cases i32? (2 * z.2) with
      | none => rfl
      | some b =>
        simp only [Option.bind_some]
        cases i32? (b - dy) with
        | none => rfl
        | some d =>
          simp only [Option.bind_some]
          cases i32? (y2 + 1) <;> rfl

theorem lineHigh_ok {p q : Pt} (hp : OnGrid p) (hq : OnGrid q) (hy : p.y ≤ q.y) (hxy : |q.x - p.x| ≤ q.y - p.y) :
    ∃ l, lineHigh p.x p.y q.x q.y = some l ∧ l.head? = some p ∧ l.getLast? = some q ∧ (l.length : Int) = q.y - p.y + 1 ∧
      l.IsChain Touch ∧ ∀ r ∈ l, 2 * |(r.x - p.x) * (q.y - p.y) - (r.y - p.y) * (q.x - p.x)| ≤ q.y - p.y := by
  obtain ⟨l, e1, e2, e3, e4, e5, e6⟩ := lineLow_ok (p := swap p) (q := swap q) ⟨hp.2.2.1, hp.2.2.2, hp.1, hp.2.1⟩ ⟨hq.2.2.1, hq.2.2.2, hq.1, hq.2.1⟩ hy hxy
  refine ⟨l.map swap, ?_, ?_, ?_, ?_, ?_, ?_⟩
  · rw [lineHigh_swap]
    show Option.map _ (lineLow (swap p).x (swap p).y (swap q).x (swap q).y) = _
    rw [e1]; rfl
  · rw [List.head?_map, e2]; rfl
  · rw [List.getLast?_map, e3]; rfl
  · rw [List.length_map]; exact e4
  · rw [List.isChain_map]
    exact e5.imp fun a b h => ⟨h.2, h.1⟩
  · intro r hr
    obtain ⟨s, hs, rfl⟩ := List.mem_map.1 hr
    have := e6 s hs
    rw [← abs_neg] at this
    convert this using 3
    show (s.y - p.x) * (q.y - p.y) - (s.x - p.y) * (q.x - p.x) = -((s.x - p.y) * (q.x - p.x) - (s.y - p.x) * (q.y - p.y))
    ring
    all_goals rfl

theorem line_ok {p q : Pt} (hp : OnGrid p) (hq : OnGrid q) : ∃ l, line p q = some l ∧ IsLine p q l := by
  have key : ∀ a b : Pt, ∀ r : Pt, (r.x - b.x) * (a.y - b.y) - (r.y - b.y) * (a.x - b.x) = -((r.x - a.x) * (b.y - a.y) - (r.y - a.y) * (b.x - a.x)) := by
    intro a b r; ring
  have hc1 : |p.x - q.x| = |q.x - p.x| := abs_sub_comm _ _
  have hc2 : |p.y - q.y| = |q.y - p.y| := abs_sub_comm _ _
  unfold line
  split
  next h =>
    have h' : |q.y - p.y| < |q.x - p.x| := by rw [Int.abs_eq_natAbs, Int.abs_eq_natAbs]; exact_mod_cast h
    have hlong : longSide p q = |q.x - p.x| := max_eq_left (le_of_lt h')
    split
    next hx =>
      have hab : |q.x - p.x| = p.x - q.x := by rw [abs_of_nonpos (by omega)]; ring
      obtain ⟨l, e1, e2, e3, e4, e5, e6⟩ := lineLow_ok hq hp (by omega) (by rw [hc2]; omega)
      refine ⟨l, e1, .inr ⟨e2, e3⟩, by rw [hlong, hab]; exact e4, e5, fun r hr => ?_⟩
      rw [hlong, hab, ← abs_neg, ← key p q]
      exact e6 r hr
    next hx =>
      have hab : |q.x - p.x| = q.x - p.x := abs_of_nonneg (by omega)
      obtain ⟨l, e1, e2, e3, e4, e5, e6⟩ := lineLow_ok hp hq (by omega) (by omega)
      exact ⟨l, e1, .inl ⟨e2, e3⟩, by rw [hlong, hab]; exact e4, e5, fun r hr => by rw [hlong, hab]; exact e6 r hr⟩
  next h =>
    have h' : |q.x - p.x| ≤ |q.y - p.y| := by rw [Int.abs_eq_natAbs, Int.abs_eq_natAbs]; exact_mod_cast Nat.le_of_not_lt h
    have hlong : longSide p q = |q.y - p.y| := max_eq_right h'
    split
    next hy =>
      have hab : |q.y - p.y| = p.y - q.y := by rw [abs_of_nonpos (by omega)]; ring
      obtain ⟨l, e1, e2, e3, e4, e5, e6⟩ := lineHigh_ok hq hp (by omega) (by rw [hc1]; omega)
      refine ⟨l, e1, .inr ⟨e2, e3⟩, by rw [hlong, hab]; exact e4, e5, fun r hr => ?_⟩
      rw [hlong, hab, ← abs_neg, ← key p q]
      exact e6 r hr
    next hy =>
      have hab : |q.y - p.y| = q.y - p.y := abs_of_nonneg (by omega)
      obtain ⟨l, e1, e2, e3, e4, e5, e6⟩ := lineHigh_ok hp hq (by omega) (by omega)
      exact ⟨l, e1, .inl ⟨e2, e3⟩, by rw [hlong, hab]; exact e4, e5, fun r hr => by rw [hlong, hab]; exact e6 r hr⟩

/-! ## Lines along an axis -/

theorem lowLoop_flat {dx yi : Int} {n : Nat} {x y d : Int} (hd : d ≤ 0) (hd' : -65536 ≤ d) (hx : -32768 ≤ x) (hx' : x + n ≤ 32768)
    (hy : -32768 ≤ y) (hy' : y ≤ 32767) :
    lowLoop dx 0 yi n x y d = some ((List.range n).map fun (i : Nat) => (⟨x + i, y⟩ : Pt)) := by
  induction n generalizing x with
  | zero => rfl
  | succ n ih =>
    push_cast at hx'
    unfold lowLoop lineStep
    rw [i16_ok hx (by omega), i16_ok hy hy', if_neg (by omega)]
    simp only [Option.bind_eq_bind, Option.bind_some]
    rw [i32_ok (by omega) (by omega), Option.bind_some, i32_ok (by omega) (by omega)]
    simp only [Option.pure_def, Option.bind_some, mul_zero, add_zero]
    rw [ih (by omega) (by omega), Option.bind_some, List.range_succ_eq_map]
    simp only [List.map_cons, List.map_map, Nat.cast_zero, add_zero, Option.some.injEq, List.cons.injEq, true_and]
    refine List.map_congr_left fun i _ => ?_
    simp only [Function.comp, Nat.succ_eq_add_one, Pt.mk.injEq, and_true]
    push_cast; ring

theorem lineLow_flat {x1 x2 y : Int} (h : x1 ≤ x2) (hx : -32768 ≤ x1) (hx' : x2 ≤ 32767) (hy : -32768 ≤ y) (hy' : y ≤ 32767) :
    ∃ l, lineLow x1 y x2 y = some l ∧ ∀ r, r ∈ l ↔ r.y = y ∧ x1 ≤ r.x ∧ r.x ≤ x2 := by
  refine ⟨(List.range (x2 + 1 - x1).toNat).map fun (i : Nat) => (⟨x1 + i, y⟩ : Pt), ?_, ?_⟩
  · unfold lineLow
    rw [i32_ok (by omega) (by omega), i32_ok (by omega) (by omega)]
    simp only [Option.bind_eq_bind, Option.bind_some, sub_self, lt_irrefl, if_false]
    rw [i32_ok (by omega) (by omega), Option.bind_some, i32_ok (by omega) (by omega), Option.bind_some, i32_ok (by omega) (by omega), Option.bind_some]
    exact lowLoop_flat (by omega) (by omega) hx (by omega) hy hy'
  · intro r
    rw [List.mem_map]
    constructor
    · rintro ⟨i, hi, rfl⟩
      rw [List.mem_range] at hi
      exact ⟨rfl, by simp only; omega, by simp only; omega⟩
    · rintro ⟨h1, h2, h3⟩
      refine ⟨(r.x - x1).toNat, List.mem_range.2 (by omega), ?_⟩
      cases r with
      | mk a b =>
        simp only at h1 h2 h3 ⊢
        rw [h1, Int.toNat_of_nonneg (by omega)]
        congr 1; ring

theorem line_axis {p q : Pt} (hp : OnGrid p) (hq : OnGrid q) (h : p.x = q.x ∨ p.y = q.y) :
    ∃ l, line p q = some l ∧ ∀ r, r ∈ l ↔ InBox p q r := by
  obtain ⟨p1, p2, p3, p4⟩ := hp
  obtain ⟨q1, q2, q3, q4⟩ := hq
  unfold line
  split
  next hlt =>
    have hy : p.y = q.y := by rcases h with h | h <;> omega
    split
    next hx =>
      rw [← hy]
      obtain ⟨l, h1, h2⟩ := lineLow_flat (x1 := q.x) (x2 := p.x) (y := p.y) (by omega) q1 p2 p3 p4
      refine ⟨l, h1, fun r => (h2 r).trans ?_⟩
      unfold InBox
      rw [← hy, min_self, max_self, min_eq_right (by omega), max_eq_left (by omega)]
      constructor <;> intro h <;> omega
    next hx =>
      rw [← hy]
      obtain ⟨l, h1, h2⟩ := lineLow_flat (x1 := p.x) (x2 := q.x) (y := p.y) (by omega) p1 q2 p3 p4
      refine ⟨l, h1, fun r => (h2 r).trans ?_⟩
      unfold InBox
      rw [← hy, min_self, max_self, min_eq_left (by omega), max_eq_right (by omega)]
      constructor <;> intro h <;> omega
  next hlt =>
    have hx : p.x = q.x := by rcases h with h | h <;> omega
    have sw : ∀ (l : List Pt) (r : Pt), r ∈ l.map swap ↔ swap r ∈ l := by
      intro l r
      rw [List.mem_map]
      constructor
      · rintro ⟨a, ha, rfl⟩; exact ha
      · intro h; exact ⟨_, h, rfl⟩
    split
    next hy =>
      rw [← hx, lineHigh_swap]
      obtain ⟨l, h1, h2⟩ := lineLow_flat (x1 := q.y) (x2 := p.y) (y := p.x) (by omega) q3 p4 p1 p2
      rw [h1]
      refine ⟨_, rfl, fun r => (sw l r).trans ((h2 (swap r)).trans ?_)⟩
      unfold InBox swap
      simp only
      rw [← hx, min_self, max_self, min_eq_right (by omega), max_eq_left (by omega)]
      constructor <;> intro h <;> omega
    next hy =>
      rw [← hx, lineHigh_swap]
      obtain ⟨l, h1, h2⟩ := lineLow_flat (x1 := p.y) (x2 := q.y) (y := p.x) (by omega) p3 q4 p1 p2
      rw [h1]
      refine ⟨_, rfl, fun r => (sw l r).trans ((h2 (swap r)).trans ?_)⟩
      unfold InBox swap
      simp only
      rw [← hx, min_self, max_self, min_eq_left (by omega), max_eq_right (by omega)]
      constructor <;> intro h <;> omega

end Draw
end EB
