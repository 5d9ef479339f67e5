import Verif.Lemmas.Drawing
import Mathlib.Tactic.Tauto
/-!
# Circles
-/

namespace EB
open Spec
namespace Draw

/-- The points of the outline in the first octant. -/
def First (R x y : Int) : Prop := 0 ≤ y ∧ y ≤ x ∧ x < R ∧ x ^ 2 + y ^ 2 ≤ R ^ 2 ∧ (x + 1 < R → R ^ 2 < (x + 1) ^ 2 + y ^ 2)

/-- What holds in every round. -/
structure Rounding (R : Int) (c : Circle) : Prop where
  tx : c.tx = 1 + 2 * (R - 1 - c.x)
  ty : c.ty = 1 + 2 * c.y
  e : c.e = c.x ^ 2 + c.y ^ 2 - R ^ 2
  lt : c.x < R
  lo : -1 ≤ c.x
  y0 : 0 ≤ c.y
  yR : c.y ≤ R
  far : c.x + 1 < R → R ^ 2 < (c.x + 1) ^ 2 + c.y ^ 2
  inside : c.y ≤ c.x → c.e ≤ 0

theorem sq_le {a b : Int} (h0 : 0 ≤ a) (h : a ≤ b) : a ^ 2 ≤ b ^ 2 := by nlinarith

theorem Rounding.next {R : Int} (hR : 2 ≤ R) (hR' : 2 * R ≤ 32767) {c : Circle} (h : Rounding R c) (hxy : c.y ≤ c.x) :
    ∃ c', c.next (2 * R) = some c' ∧ Rounding R c' ∧ c'.y = c.y + 1 ∧ c'.x ≤ c.x := by
  obtain ⟨x, y, tx, ty, e⟩ := c
  obtain ⟨h1, h2, h3, h4, h5, h6, h7, h8, h9⟩ := h
  simp only at h1 h2 h3 h4 h5 h6 h7 h8 h9 hxy
  have he := h9 hxy
  -- how far inside the point can be
  have hlow : -2 * x - 1 ≤ e := by
    by_cases hx : x + 1 < R
    · have := h8 hx; nlinarith
    · have : x = R - 1 := by omega
      subst this; nlinarith
  have hy2 : (y + 1) ^ 2 = y ^ 2 + 2 * y + 1 := by ring
  have hx2 : (x + 1) ^ 2 = x ^ 2 + 2 * x + 1 := by ring
  have hx3 : (x - 1) ^ 2 = x ^ 2 - 2 * x + 1 := by ring
  unfold Circle.next
  simp only [Option.bind_eq_bind]
  rw [if_pos he, i16_ok (by omega) (by omega), Option.bind_some, i16_ok (by omega) (by omega), Option.bind_some,
    i16_ok (by omega) (by omega), Option.bind_some, Option.pure_def, Option.bind_some]
  simp only
  by_cases hpos : e + ty > 0
  · rw [if_pos hpos, i16_ok (by omega) (by omega), Option.bind_some, i16_ok (by omega) (by omega), Option.bind_some,
      i16_ok (by omega) (by omega), Option.bind_some, i16_ok (by omega) (by omega), Option.bind_some]
    refine ⟨_, rfl, ⟨?_, ?_, ?_, ?_, ?_, ?_, ?_, ?_, ?_⟩, rfl, ?_⟩ <;> simp only
    · omega
    · omega
    · omega
    · omega
    · omega
    · omega
    · omega
    · intro _; rw [sub_add_cancel]; omega
    · intro hyx
      -- the point before was inside
      omega
    · omega
  · rw [if_neg hpos]
    refine ⟨_, rfl, ⟨?_, ?_, ?_, ?_, ?_, ?_, ?_, ?_, ?_⟩, rfl, ?_⟩ <;> simp only
    · omega
    · omega
    · omega
    · omega
    · omega
    · omega
    · omega
    · intro hx
      have := h8 hx
      omega
    · intro _; omega
    · omega

theorem circleLoop_ok {R : Int} (hR : 2 ≤ R) (hR' : 2 * R ≤ 32767) {round : Int → Int → Option (List RasOp)}
    (hround : ∀ x y, 0 ≤ y → y ≤ x → x < R → (round x y).isSome) (n : Nat) (c : Circle) (h : Rounding R c) (hn : c.x - c.y + 1 ≤ n) :
    ∃ l, circleLoop round (2 * R) n c = some l ∧
      ∀ o, o ∈ l ↔ ∃ x y l', c.y ≤ y ∧ First R x y ∧ round x y = some l' ∧ o ∈ l' := by
  -- no point further up is further out
  have out : ∀ x y, c.y ≤ y → First R x y → x ≤ c.x := by
    rintro x y hy ⟨a1, a2, a3, a4, a5⟩
    by_contra hcon
    have := h.far (by omega)
    have b1 := sq_le (a := c.x + 1) (b := x) (by have := h.lo; omega) (by omega)
    have b2 := sq_le h.y0 hy
    omega
  unfold circleLoop
  by_cases hxy : c.x ≥ c.y
  · rw [if_pos hxy]
    induction n generalizing c with
    | zero => simp only [Nat.cast_zero] at hn; omega
    | succ n ih =>
      simp only [Option.bind_eq_bind]
      obtain ⟨l1, hl1⟩ := Option.isSome_iff_exists.1 (hround c.x c.y h.y0 hxy h.lt)
      obtain ⟨c', e1, e2, e3, e4⟩ := h.next hR hR' hxy
      have hfirst : First R c.x c.y := by
        refine ⟨h.y0, hxy, h.lt, ?_, h.far⟩
        have := h.inside hxy
        have := h.e
        omega
      have huniq : ∀ x, First R x c.y → x = c.x := by
        intro x hx
        have h1 := out x c.y (Int.le_refl _) hx
        obtain ⟨a1, a2, a3, a4, a5⟩ := hx
        by_contra hcon
        have := a5 (by have := h.lt; omega)
        have b1 := sq_le (a := x + 1) (b := c.x) (by omega) (by omega)
        obtain ⟨_, _, _, a6, _⟩ := hfirst
        omega
      have out' : ∀ x y, c'.y ≤ y → First R x y → x ≤ c'.x := by
        rintro x y hy ⟨a1, a2, a3, a4, a5⟩
        by_contra hcon
        have := e2.far (by omega)
        have b1 := sq_le (a := c'.x + 1) (b := x) (by have := e2.lo; omega) (by omega)
        have b2 := sq_le e2.y0 hy
        omega
      have hrest : ∃ l, circleLoop round (2 * R) n c' = some l ∧ ∀ o, o ∈ l ↔ ∃ x y l', c'.y ≤ y ∧ First R x y ∧ round x y = some l' ∧ o ∈ l' := by
        unfold circleLoop
        by_cases hxy' : c'.x ≥ c'.y
        · rw [if_pos hxy']
          exact ih c' e2 (by push_cast at hn; omega) out' hxy'
        · rw [if_neg hxy']
          refine ⟨[], rfl, fun o => ⟨fun h => (by cases h), ?_⟩⟩
          rintro ⟨x, y, l', k1, k2, _⟩
          have k3 := out' x y k1 k2
          have k4 := k2.2.1
          omega
      obtain ⟨l2, hl2, hm⟩ := hrest
      refine ⟨l1 ++ l2, ?_, fun o => ?_⟩
      · rw [hl1, Option.bind_some, e1, Option.bind_some, hl2]; rfl
      · rw [List.mem_append, hm]
        constructor
        · rintro (ho | ⟨x, y, l', k1, k2⟩)
          · exact ⟨c.x, c.y, l1, Int.le_refl _, hfirst, hl1, ho⟩
          · exact ⟨x, y, l', by omega, k2⟩
        · rintro ⟨x, y, l', k1, k2, k3, k4⟩
          by_cases hy : y = c.y
          · subst hy
            rw [huniq x k2, hl1] at k3
            cases k3
            exact .inl k4
          · exact .inr ⟨x, y, l', by omega, k2, k3, k4⟩
  · rw [if_neg hxy]
    refine ⟨[], rfl, fun o => ⟨fun h => (by cases h), ?_⟩⟩
    rintro ⟨x, y, l', k1, k2, _⟩
    have k3 := out x y k1 k2
    have k4 := k2.2.1
    omega

/-- The state before the first round. -/
theorem rounding_start {R : Int} (hR : 2 ≤ R) : Rounding R ⟨R - 1, 0, 1, 1, 1 - 2 * R⟩ := by
  refine ⟨?_, ?_, ?_, ?_, ?_, ?_, ?_, ?_, ?_⟩ <;> simp only
  · ring
  · rfl
  · ring
  · omega
  · omega
  · omega
  · omega
  · intro h; omega
  · intro _; omega

theorem offset_ok {c : Pt} {R x y : Int} (h : Fits16 c R) (hx : |x| < R) (hy : |y| < R) : offset c x y = some ⟨c.x + x, c.y + y⟩ := by
  obtain ⟨h1, h2, h3, h4⟩ := h
  rw [abs_lt] at hx hy
  unfold offset
  rw [i16_ok (by omega) (by omega), i16_ok (by omega) (by omega)]
  rfl

theorem circlePoints_ok {c : Pt} {R x y : Int} (h : Fits16 c R) (h0 : 0 ≤ y) (hyx : y ≤ x) (hx : x < R) :
    circlePoints c x y = some ([(x, -y), (x, y), (-x, -y), (-x, y), (y, -x), (y, x), (-y, -x), (-y, x)].map fun d => RasOp.pixel ⟨c.x + d.1, c.y + d.2⟩) := by
  have ax : |x| < R := by rw [abs_of_nonneg (by omega)]; exact hx
  have ay : |y| < R := by rw [abs_of_nonneg h0]; omega
  have ax' : |-x| < R := by rwa [abs_neg]
  have ay' : |-y| < R := by rwa [abs_neg]
  unfold circlePoints
  simp only [List.mapM_cons, List.mapM_nil, offset_ok h ax ay, offset_ok h ax ay', offset_ok h ax' ay, offset_ok h ax' ay',
    offset_ok h ay ax, offset_ok h ay ax', offset_ok h ay' ax, offset_ok h ay' ax']
  rfl

theorem circleLines_ok {c : Pt} {R x y : Int} (h : Fits16 c R) (h0 : 0 ≤ y) (hyx : y ≤ x) (hx : x < R) :
    circleLines c x y = some ([((x, -y), (x, y)), ((-x, -y), (-x, y)), ((y, -x), (y, x)), ((-y, -x), (-y, x))].map
      fun d => RasOp.line ⟨c.x + d.1.1, c.y + d.1.2⟩ ⟨c.x + d.2.1, c.y + d.2.2⟩) := by
  have ax : |x| < R := by rw [abs_of_nonneg (by omega)]; exact hx
  have ay : |y| < R := by rw [abs_of_nonneg h0]; omega
  have ax' : |-x| < R := by rwa [abs_neg]
  have ay' : |-y| < R := by rwa [abs_neg]
  unfold circleLines
  simp only [List.mapM_cons, List.mapM_nil, offset_ok h ax ay, offset_ok h ax ay', offset_ok h ax' ay, offset_ok h ax' ay',
    offset_ok h ay ax, offset_ok h ay ax', offset_ok h ay' ax, offset_ok h ay' ax']
  rfl

theorem outline_first {R : Int} {d : Pt} : Outline R d ↔ First R (max |d.x| |d.y|) (min |d.x| |d.y|) := by
  unfold Outline First
  constructor
  · rintro ⟨h1, h2, h3⟩
    exact ⟨le_min (abs_nonneg _) (abs_nonneg _), min_le_max, h1, h2, h3⟩
  · rintro ⟨_, _, h1, h2, h3⟩
    exact ⟨h1, h2, h3⟩

theorem circleWith_ok {round : Pt → Int → Int → Option (List RasOp)} {c : Pt} {R : Nat} (hR : 2 ≤ R) (hR' : 2 * R ≤ 32767)
    (hround : ∀ x y, 0 ≤ y → y ≤ x → x < (R : Int) → (round c x y).isSome) :
    ∃ l, circleWith round c R = .ops l ∧ ∀ o, o ∈ l ↔ ∃ x y l', First R x y ∧ round c x y = some l' ∧ o ∈ l' := by
  obtain ⟨l, h1, h2⟩ := circleLoop_ok (R := (R : Int)) (by omega) (by omega) (round := round c) hround (R + 1) _ (rounding_start (by omega)) (by simp only; push_cast; omega)
  refine ⟨l, ?_, fun o => (h2 o).trans ?_⟩
  · unfold circleWith
    rw [if_neg (by omega), if_neg (by omega), if_neg (by omega), h1]
  · constructor
    · rintro ⟨x, y, l', _, h⟩; exact ⟨x, y, l', h⟩
    · rintro ⟨x, y, l', h⟩; exact ⟨x, y, l', h.1.1, h⟩

theorem octant {a b x y : Int} (hx : max |a| |b| = x) (hy : min |a| |b| = y) :
    (a, b) ∈ [(x, -y), (x, y), (-x, -y), (-x, y), (y, -x), (y, x), (-y, -x), (-y, x)] := by
  have ha : a = |a| ∨ a = -|a| := by rcases abs_cases a with ⟨e, _⟩ | ⟨e, _⟩ <;> omega
  have hb : b = |b| ∨ b = -|b| := by rcases abs_cases b with ⟨e, _⟩ | ⟨e, _⟩ <;> omega
  generalize |a| = A at *
  generalize |b| = B at *
  rcases le_total A B with h | h
  · rw [max_eq_right h] at hx
    rw [min_eq_left h] at hy
    subst hx hy
    rcases ha with rfl | rfl <;> rcases hb with rfl | rfl <;> simp
  · rw [max_eq_left h] at hx
    rw [min_eq_right h] at hy
    subst hx hy
    rcases ha with rfl | rfl <;> rcases hb with rfl | rfl <;> simp

theorem octant' {a b x y : Int} (hx : max |a| b = x) (hy : min |a| b = y) :
    ((a, -b), (a, b)) ∈ [((x, -y), (x, y)), ((-x, -y), (-x, y)), ((y, -x), (y, x)), ((-y, -x), (-y, x))] := by
  have ha : a = |a| ∨ a = -|a| := by rcases abs_cases a with ⟨e, _⟩ | ⟨e, _⟩ <;> omega
  generalize |a| = A at *
  rcases le_total A b with h | h
  · rw [max_eq_right h] at hx
    rw [min_eq_left h] at hy
    subst hx hy
    rcases ha with rfl | rfl <;> simp
  · rw [max_eq_left h] at hx
    rw [min_eq_right h] at hy
    subst hx hy
    rcases ha with rfl | rfl <;> simp

theorem circle_ok {c : Pt} {R : Nat} (hR : 2 ≤ R) (hR' : 2 * R ≤ 32767) (hc : Fits16 c R) :
    ∃ l, circle c R = .ops l ∧ ∀ o, o ∈ l ↔ ∃ p, o = .pixel p ∧ Outline R ⟨p.x - c.x, p.y - c.y⟩ := by
  obtain ⟨l, h1, h2⟩ := circleWith_ok (round := circlePoints) (c := c) hR hR' fun x y a b d => by rw [circlePoints_ok hc a b d]; rfl
  refine ⟨l, h1, fun o => (h2 o).trans ?_⟩
  constructor
  · rintro ⟨x, y, l', hf, hr, ho⟩
    have hf' := hf
    obtain ⟨a, b, d, _⟩ := hf'
    rw [circlePoints_ok hc a b d] at hr
    cases hr
    obtain ⟨q, hq, rfl⟩ := List.mem_map.1 ho
    refine ⟨_, rfl, outline_first.2 ?_⟩
    have : max |q.1| |q.2| = x ∧ min |q.1| |q.2| = y := by
      have ex : |x| = x := abs_of_nonneg (by omega)
      have ey : |y| = y := abs_of_nonneg (by omega)
      simp only [List.mem_cons, List.not_mem_nil, or_false] at hq
      have m1 : max x y = x := max_eq_left b
      have m2 : min x y = y := min_eq_right b
      have m3 : max y x = x := max_eq_right b
      have m4 : min y x = y := min_eq_left b
      rcases hq with rfl | rfl | rfl | rfl | rfl | rfl | rfl | rfl <;> simp only [abs_neg, ex, ey, m1, m2, m3, m4, and_self]
    simp only [add_sub_cancel_left]
    rw [this.1, this.2]; exact hf
  · rintro ⟨p, rfl, hp⟩
    have hf := outline_first.1 hp
    simp only at hf
    obtain ⟨x, hx⟩ : ∃ x, max |p.x - c.x| |p.y - c.y| = x := ⟨_, rfl⟩
    obtain ⟨y, hy⟩ : ∃ y, min |p.x - c.x| |p.y - c.y| = y := ⟨_, rfl⟩
    rw [hx, hy] at hf
    obtain ⟨a, b, d, _⟩ := id hf
    refine ⟨x, y, _, hf, circlePoints_ok hc a b d, List.mem_map.2 ⟨(p.x - c.x, p.y - c.y), ?_, ?_⟩⟩
    · exact octant hx hy
    · simp

theorem circleFilled_ok {c : Pt} {R : Nat} (hR : 2 ≤ R) (hR' : 2 * R ≤ 32767) (hc : Fits16 c R) :
    ∃ l, circleFilled c R = .ops l ∧ Paints l fun p => ∃ y, Outline R ⟨p.x - c.x, y⟩ ∧ |p.y - c.y| ≤ |y| := by
  obtain ⟨l, h1, h2⟩ := circleWith_ok (round := circleLines) (c := c) hR hR' fun x y a b d => by rw [circleLines_ok hc a b d]; rfl
  -- the lines
  have lines : ∀ o, o ∈ l ↔ ∃ a b, Outline R ⟨a, b⟩ ∧ 0 ≤ b ∧ o = .line ⟨c.x + a, c.y - b⟩ ⟨c.x + a, c.y + b⟩ := by
    intro o
    refine (h2 o).trans ?_
    constructor
    · rintro ⟨x, y, l', hf, hr, ho⟩
      have hf' := hf
      obtain ⟨a, b, d, _⟩ := hf'
      rw [circleLines_ok hc a b d] at hr
      cases hr
      obtain ⟨q, hq, rfl⟩ := List.mem_map.1 ho
      have ex : |x| = x := abs_of_nonneg (by omega)
      have ey : |y| = y := abs_of_nonneg (by omega)
      have m1 : max x y = x := max_eq_left b
      have m2 : min x y = y := min_eq_right b
      have m3 : max y x = x := max_eq_right b
      have m4 : min y x = y := min_eq_left b
      simp only [List.mem_cons, List.not_mem_nil, or_false] at hq
      rcases hq with rfl | rfl | rfl | rfl
      · exact ⟨x, y, outline_first.2 (by simp only [ex, ey, m1, m2]; exact hf), by omega, by simp only [sub_eq_add_neg]⟩
      · exact ⟨-x, y, outline_first.2 (by simp only [abs_neg, ex, ey, m1, m2]; exact hf), by omega, by simp only [sub_eq_add_neg]⟩
      · exact ⟨y, x, outline_first.2 (by simp only [ex, ey, m3, m4]; exact hf), by omega, by simp only [sub_eq_add_neg]⟩
      · exact ⟨-y, x, outline_first.2 (by simp only [abs_neg, ex, ey, m3, m4]; exact hf), by omega, by simp only [sub_eq_add_neg]⟩
    · rintro ⟨a, b, ho, hb, rfl⟩
      have hf := outline_first.1 ho
      simp only [abs_of_nonneg hb] at hf
      obtain ⟨x, hx⟩ : ∃ x, max |a| b = x := ⟨_, rfl⟩
      obtain ⟨y, hy⟩ : ∃ y, min |a| b = y := ⟨_, rfl⟩
      rw [hx, hy] at hf
      obtain ⟨a1, a2, a3, _⟩ := id hf
      refine ⟨x, y, _, hf, circleLines_ok hc a1 a2 a3, List.mem_map.2 ⟨((a, -b), (a, b)), ?_, by simp only [sub_eq_add_neg]⟩⟩
      exact octant' hx hy
  have paint : ∀ a b, Outline R ⟨a, b⟩ → 0 ≤ b → ∃ px, pixels (.line ⟨c.x + a, c.y - b⟩ ⟨c.x + a, c.y + b⟩) = some px ∧
      ∀ r, r ∈ px ↔ r.x = c.x + a ∧ |r.y - c.y| ≤ b := by
    intro a b ho hb
    obtain ⟨k1, k2, k3, k4⟩ := hc
    have hlt := ho.1
    simp only [max_lt_iff, abs_lt] at hlt
    obtain ⟨px, g1, g2⟩ := line_axis (p := ⟨c.x + a, c.y - b⟩) (q := ⟨c.x + a, c.y + b⟩) ⟨by simp only; omega, by simp only; omega, by simp only; omega, by simp only; omega⟩
      ⟨by simp only; omega, by simp only; omega, by simp only; omega, by simp only; omega⟩ (.inl rfl)
    refine ⟨px, g1, fun r => (g2 r).trans ?_⟩
    unfold InBox
    simp only [min_self, max_self]
    rw [min_eq_left (by omega), max_eq_right (by omega), abs_le]
    omega
  refine ⟨l, h1, ?_, fun r => ?_⟩
  · intro o ho
    obtain ⟨a, b, h3, h4, rfl⟩ := (lines o).1 ho
    obtain ⟨px, h5, _⟩ := paint a b h3 h4
    rw [h5]; rfl
  · constructor
    · rintro ⟨y, h3, h4⟩
      have h3' : Outline R ⟨r.x - c.x, |y|⟩ := by
        unfold Outline at h3 ⊢
        simp only [abs_abs] at h3 ⊢
        exact h3
      obtain ⟨px, h5, h6⟩ := paint (r.x - c.x) |y| h3' (abs_nonneg _)
      exact ⟨_, (lines _).2 ⟨_, _, h3', abs_nonneg _, rfl⟩, px, h5, (h6 r).2 ⟨by ring, h4⟩⟩
    · rintro ⟨o, ho, px, h3, h4⟩
      obtain ⟨a, b, h5, h6, rfl⟩ := (lines o).1 ho
      obtain ⟨px', h7, h8⟩ := paint a b h5 h6
      rw [h7] at h3
      cases h3
      obtain ⟨h9, h10⟩ := (h8 r).1 h4
      exact ⟨b, by rw [h9, add_sub_cancel_left]; exact h5, by rw [abs_of_nonneg h6]; exact h10⟩

/-- A circle that does not fit overflows in its first round. -/
theorem circleWith_panic {round : Pt → Int → Int → Option (List RasOp)} {c : Pt} {R : Nat} (hR : 2 ≤ R) (hR' : 2 * R ≤ 32767)
    (hround : round c ((R : Int) - 1) 0 = none) : circleWith round c R = .panic := by
  unfold circleWith
  rw [if_neg (by omega), if_neg (by omega), if_neg (by omega)]
  have : circleLoop (round c) (2 * R) (R + 1) ⟨R - 1, 0, 1, 1, 1 - 2 * R⟩ = none := by
    unfold circleLoop
    rw [if_pos (by simp only; omega)]
    simp only [hround]
    rfl
  rw [this]

theorem i16_none {n : Int} (h : n < -32768 ∨ 32767 < n) : i16? n = none := if_neg (by omega)

theorem offset_none {c : Pt} {x y : Int} (h : c.x + x < -32768 ∨ 32767 < c.x + x ∨ c.y + y < -32768 ∨ 32767 < c.y + y) : offset c x y = none := by
  unfold offset
  by_cases hx : c.x + x < -32768 ∨ 32767 < c.x + x
  · rw [i16_none hx]; rfl
  · rw [i16_ok (by omega) (by omega), i16_none (by omega)]; rfl

theorem mapM_none {α β : Type} {f : α → Option β} {l : List α} {a : α} (ha : a ∈ l) (h : f a = none) : l.mapM f = none := by
  induction l with
  | nil => cases ha
  | cons b l ih =>
    rw [List.mapM_cons]
    rcases List.mem_cons.1 ha with rfl | ha
    · rw [h]; rfl
    · rw [ih ha]
      cases f b <;> rfl

end Draw
end EB
