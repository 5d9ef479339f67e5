import Verif.Lemmas.DrawFill
import Verif.Lemmas.DrawCircle
import Verif.Lemmas.DrawPoly
/-!
# C41–C44: lines, filling, circles, polygons and rectangles
-/

namespace EB
open Spec Draw

/-- **C41**: for every two points on the grid, drawing a line between them does not overflow, and draws the pixels of a
line (`Spec.IsLine`): from one point to the other, one for each step along the longer side, each touching the next,
none further than half a pixel from the segment. -/
theorem C41_line {p q : Pt} (hp : OnGrid p) (hq : OnGrid q) : ∃ l, Draw.line p q = some l ∧ IsLine p q l := line_ok hp hq

/-- **C41**: along an axis the line is exactly the points between its ends. -/
theorem C41_axis {p q : Pt} (hp : OnGrid p) (hq : OnGrid q) (h : p.x = q.x ∨ p.y = q.y) :
    ∃ l, Draw.line p q = some l ∧ ∀ r, r ∈ l ↔ InBox p q r := line_axis hp hq h

example : Draw.line ⟨0, 0⟩ ⟨4, 2⟩ = some [⟨0, 0⟩, ⟨1, 0⟩, ⟨2, 1⟩, ⟨3, 1⟩, ⟨4, 2⟩] := by decide
example : OnGrid ⟨-32768, 32767⟩ ∧ OnGrid ⟨32767, -32768⟩ := by unfold OnGrid; decide

/-- **C42**: filling ends, and gives the new colour to the points that can be reached from the first one through points
of its colour; every other point stays as it was.  Any number of rounds from some number on gives the same. -/
theorem C42_fill {pic : Picture} (hgrid : ∀ q, pic q ≠ none → OnGrid q) (p : Pt) (color : Nat) :
    ∃ rounds, ∀ n, rounds ≤ n → ∃ pic', bucketFill n pic p color = some pic' ∧
      ∀ q, (∀ seed, pic p = some seed → Region pic seed p q → pic' q = some color) ∧
        ((∀ seed, pic p = some seed → ¬ Region pic seed p q) → pic' q = pic q) := by
  cases hp : pic p with
  | none => exact ⟨0, fun n _ => ⟨pic, by unfold bucketFill; rw [hp], fun q => ⟨fun seed h => by simp at h, fun _ => rfl⟩⟩⟩
  | some seed =>
    by_cases hc : seed = color
    · subst hc
      refine ⟨0, fun n _ => ⟨pic, by unfold bucketFill; rw [hp]; exact if_pos rfl, fun q => ⟨fun s hs hr => ?_, fun _ => rfl⟩⟩⟩
      cases hs
      cases hr <;> assumption
    · refine ⟨work pic seed [p], fun n hn => ?_⟩
      have hstart : Filling pic seed color p pic [p] := by
        refine ⟨fun q => .inl rfl, fun q hq h => ?_, fun q hq => ?_, .inr (by simp), fun q r h1 h2 => ?_⟩
        · rw [List.mem_singleton.1 hq]; exact .start hp
        · rw [List.mem_singleton.1 hq]; exact hgrid p (by rw [hp]; simp)
        · exact absurd (Option.some.inj (h1.symm.trans h2)) hc
      obtain ⟨pic', h1, h2⟩ := fillLoop_ok hc hgrid hp n pic [p] hstart hn
      refine ⟨pic', by unfold bucketFill; rw [hp]; exact (if_neg hc).trans h1, fun q => ⟨fun s hs hr => ?_, fun hno => ?_⟩⟩
      · cases hs; exact h2.done hr
      · rcases h2.same q with e | e
        · exact e
        · exact absurd e.2 (hno seed rfl)

/-- A picture for an example: a column of colour 1 between two of colour 2, the left one two points wide. -/
def Ex.pic : Picture := fun q => if q.x = 1 ∧ q.y < 3 ∧ 0 ≤ q.y then some 1 else if 0 ≤ q.x ∧ q.x < 4 ∧ 0 ≤ q.y ∧ q.y < 3 then some 2 else none

example : ∀ q, Ex.pic q ≠ none → OnGrid q := by
  intro q h
  unfold Ex.pic at h
  unfold OnGrid
  split at h
  · omega
  · split at h
    · omega
    · exact absurd rfl h
example : Region Ex.pic 2 ⟨2, 0⟩ ⟨3, 1⟩ :=
  ((Region.start (by decide)).step (q := ⟨2, 0⟩) (r := ⟨3, 0⟩) (by unfold Beside; decide) (by decide)).step (by unfold Beside; decide) (by decide)
example : (bucketFill 30 Ex.pic ⟨2, 0⟩ 7).map (fun pic => (pic ⟨3, 1⟩, pic ⟨0, 1⟩, pic ⟨1, 1⟩)) = some (some 7, some 2, some 1) := by
  decide +kernel

/-- **C43**: the outline of a circle that fits on the grid consists of the pixels of `Spec.Outline`, which by its form
is the same in all eight directions and inside the square of the radius. -/
theorem C43_circle_partial {c : Pt} {R : Nat} (hR : 2 ≤ R) (hR' : R ≤ 16383) (hc : Fits16 c R) :
    ∃ l, circle c R = .ops l ∧ ∀ o, o ∈ l ↔ ∃ p, o = .pixel p ∧ Outline R ⟨p.x - c.x, p.y - c.y⟩ := circle_ok hR (by omega) hc

/-- **C43**: the outline is symmetric about both axes and both diagonals. -/
theorem C43_symmetric {R : Int} {x y : Int} (h : Outline R ⟨x, y⟩) :
    Outline R ⟨-x, y⟩ ∧ Outline R ⟨x, -y⟩ ∧ Outline R ⟨y, x⟩ ∧ Outline R ⟨-y, -x⟩ ∧ |x| < R ∧ |y| < R := by
  unfold Outline at h ⊢
  simp only [abs_neg] at h ⊢
  refine ⟨h, h, ?_, ?_, lt_of_le_of_lt (le_max_left _ _) h.1, lt_of_le_of_lt (le_max_right _ _) h.1⟩
  · rw [max_comm, min_comm]; exact h
  · rw [max_comm, min_comm]; exact h

/-- **C43**: every column within the radius has a pixel of the outline, so that the circle is closed. -/
theorem C43_closed {R x : Int} (hR : 2 ≤ R) (hx : |x| < R) : ∃ y, Outline R ⟨x, y⟩ := by
  have key : ∀ x : Int, 0 ≤ x → x < R → ∃ y, Outline R ⟨x, y⟩ := by
    intro x h0 h1
    -- the last point of the column within the radius
    have hex : ∀ n : Nat, ∃ y : Int, 0 ≤ y ∧ y ≤ n ∧ x ^ 2 + y ^ 2 ≤ R ^ 2 ∧ (y < n → R ^ 2 < x ^ 2 + (y + 1) ^ 2) := by
      intro n
      induction n with
      | zero => exact ⟨0, le_refl _, le_refl _, by have := sq_le h0 (le_of_lt h1); simpa using this, fun h => by simp at h⟩
      | succ n ih =>
        obtain ⟨y, a1, a2, a3, a4⟩ := ih
        by_cases hy : y < n
        · exact ⟨y, a1, by push_cast; omega, a3, fun _ => a4 hy⟩
        · by_cases hy2 : x ^ 2 + (y + 1) ^ 2 ≤ R ^ 2
          · exact ⟨y + 1, by omega, by push_cast; omega, hy2, fun h => by push_cast at h; omega⟩
          · exact ⟨y, a1, by push_cast; omega, a3, fun _ => by omega⟩
    obtain ⟨y, a1, a2, a3, a4⟩ := hex (R - 1).toNat
    have hy : y < R := by omega
    by_cases hyx : x ≤ y
    · refine ⟨y, ?_⟩
      unfold Outline
      simp only [abs_of_nonneg h0, abs_of_nonneg a1, max_eq_right hyx, min_eq_left hyx]
      refine ⟨hy, by omega, fun h => ?_⟩
      have := a4 (by omega)
      omega
    · -- here the outline is nearer to the axis; take the row of the outline for a larger one
      have hy' : y < x := by omega
      have hlt := a4 (by omega)
      -- look for the row: the largest z ≤ y with the pixel on the outline
      have hex2 : ∃ z : Int, 0 ≤ z ∧ z ≤ y ∧ (x + 1 < R → R ^ 2 < (x + 1) ^ 2 + z ^ 2) := by
        by_cases hxR : x + 1 < R
        · refine ⟨y, a1, le_refl _, fun _ => ?_⟩
          have e1 : (x + 1) ^ 2 = x ^ 2 + 2 * x + 1 := by ring
          have e2 : (y + 1) ^ 2 = y ^ 2 + 2 * y + 1 := by ring
          omega
        · exact ⟨y, a1, le_refl _, fun h => absurd h hxR⟩
      obtain ⟨z, z1, z2, z3⟩ := hex2
      refine ⟨z, ?_⟩
      unfold Outline
      have hzx : z ≤ x := by omega
      simp only [abs_of_nonneg h0, abs_of_nonneg z1, max_eq_left hzx, min_eq_right hzx]
      exact ⟨h1, by have := sq_le z1 z2; omega, z3⟩
  rcases abs_cases x with ⟨e1, e2⟩ | ⟨e1, e2⟩
  · exact key x e2 (by omega)
  · obtain ⟨y, hy⟩ := key (-x) (by omega) (by omega)
    refine ⟨y, ?_⟩
    have := (C43_symmetric hy).1
    rwa [neg_neg] at this

/-- **C43**: the filled circle consists of the pixels of the outline and those between two of them in a column. -/
theorem C43_filled_partial {c : Pt} {R : Nat} (hR : 2 ≤ R) (hR' : R ≤ 16383) (hc : Fits16 c R) :
    ∃ l, circleFilled c R = .ops l ∧ Paints l fun p => ∃ y, Outline R ⟨p.x - c.x, y⟩ ∧ |p.y - c.y| ≤ |y| := circleFilled_ok hR (by omega) hc

/-- **C43**: the radii that are not a matter of rounding: none, a point, and those that are too large. -/
theorem C43_radii (c : Pt) : circle c 0 = .ops [] ∧ circle c 1 = .ops [.pixel c] ∧ circleFilled c 0 = .ops [] ∧
    circleFilled c 1 = .ops [.pixel c] ∧ ∀ R, 16383 < R → circle c R = .tooBig ∧ circleFilled c R = .tooBig := by
  refine ⟨rfl, rfl, rfl, rfl, fun R hR => ?_⟩
  unfold circle circleFilled circleWith
  rw [if_neg (by omega), if_neg (by omega), if_pos (by omega), if_neg (by omega), if_neg (by omega), if_pos (by omega)]
  exact ⟨rfl, rfl⟩

/-- **C43 fails** for the circles that do not fit on the grid: the additions of coordinates overflow. -/
theorem C43_counterexample {c : Pt} {R : Nat} (hR : 2 ≤ R) (hR' : R ≤ 16383) (hc : ¬ Fits16 c R) :
    circle c R = .panic ∧ circleFilled c R = .panic := by
  have hbad : c.x - (R - 1) < -32768 ∨ 32767 < c.x + (R - 1) ∨ c.y - (R - 1) < -32768 ∨ 32767 < c.y + (R - 1) := by
    unfold Fits16 at hc; omega
  have hpt : ∃ d ∈ [((R : Int) - 1, -(0 : Int)), (R - 1, 0), (-(R - 1), -0), (-(R - 1), 0), (0, -(R - 1)), (0, R - 1), (-0, -(R - 1)), (-0, R - 1)],
      offset c d.1 d.2 = none := by
    rcases hbad with h | h | h | h
    · exact ⟨(-(R - 1), 0), by simp, offset_none (by simp only; omega)⟩
    · exact ⟨(R - 1, 0), by simp, offset_none (by simp only; omega)⟩
    · exact ⟨(0, -(R - 1)), by simp, offset_none (by simp only; omega)⟩
    · exact ⟨(0, R - 1), by simp, offset_none (by simp only; omega)⟩
  have hln : ∃ d ∈ [(((R : Int) - 1, -(0 : Int)), ((R : Int) - 1, (0 : Int))), ((-(R - 1), -0), (-(R - 1), 0)), ((0, -(R - 1)), (0, R - 1)), ((-0, -(R - 1)), (-0, R - 1))],
      offset c d.1.1 d.1.2 = none ∨ offset c d.2.1 d.2.2 = none := by
    rcases hbad with h | h | h | h
    · exact ⟨((-(R - 1), -0), (-(R - 1), 0)), by simp, .inr (offset_none (by simp only; omega))⟩
    · exact ⟨((R - 1, -0), (R - 1, 0)), by simp, .inr (offset_none (by simp only; omega))⟩
    · exact ⟨((0, -(R - 1)), (0, R - 1)), by simp, .inl (offset_none (by simp only; omega))⟩
    · exact ⟨((0, -(R - 1)), (0, R - 1)), by simp, .inr (offset_none (by simp only; omega))⟩
  constructor
  · obtain ⟨d, hd, hn⟩ := hpt
    exact circleWith_panic hR (by omega) (mapM_none hd (by rw [hn]; rfl))
  · obtain ⟨d, hd, hn⟩ := hln
    refine circleWith_panic hR (by omega) (mapM_none hd ?_)
    rcases hn with hn | hn
    · rw [hn]; rfl
    · rw [hn]
      cases offset c d.1.1 d.1.2 <;> rfl

example : Fits16 ⟨100, 50⟩ 40 ∧ ¬ Fits16 ⟨32760, 50⟩ 40 := by unfold Fits16; decide
example : Outline 4 ⟨3, 2⟩ ∧ Outline 4 ⟨0, -3⟩ ∧ ¬ Outline 4 ⟨2, 2⟩ := by unfold Outline; decide

/-- **C44**: a filled polygon whose edges are short enough (`Spec.Moderate`: the sides of the box of each edge have a
product below 2^31) consists of its inside, by the even-odd rule in each row (`Spec.Inside`), and of its outline.  What
is missing: longer edges, for which the calculation overflows (`C44_counterexample`). -/
theorem C44_polygon_partial {points : List Pt} (h : 2 ≤ points.length) (hg : ∀ p ∈ points, OnGrid p) (hm : Moderate points) :
    ∃ ops, polyFilled points = some ops ∧
      Paints ops fun r => Inside points r ∨ ∃ e ∈ edges points, ∃ l, Draw.line e.1 e.2 = some l ∧ r ∈ l := by
  obtain ⟨ops, h1, h2⟩ := fillPolygon_ok hg hm
  refine ⟨ops ++ poly points, by unfold polyFilled; rw [h1]; rfl, Paints.append h2 ?_⟩
  rw [poly_edges h]
  refine ⟨fun o ho => ?_, fun r => ?_⟩
  · obtain ⟨e, he, rfl⟩ := List.mem_map.1 ho
    obtain ⟨l, h3, _⟩ := line_ok (hg _ (mem_edges he).1) (hg _ (mem_edges he).2)
    show (Draw.line e.1 e.2).isSome
    rw [h3]; rfl
  · constructor
    · rintro ⟨e, he, l, h3, h4⟩
      exact ⟨_, List.mem_map.2 ⟨e, he, rfl⟩, l, h3, h4⟩
    · rintro ⟨o, ho, l, h3, h4⟩
      obtain ⟨e, he, rfl⟩ := List.mem_map.1 ho
      exact ⟨e, he, l, h3, h4⟩

/-- **C44**: the outline of a polygon consists of the lines along its edges; one with less than two points has none. -/
theorem C44_outline (points : List Pt) : poly points = if points.length < 2 then [] else (edges points).map fun e => RasOp.line e.1 e.2 := by
  split
  next h =>
    match points, h with
    | [], _ => rfl
    | [_], _ => rfl
  next h => exact poly_edges (by omega)

/-- **C44**: it does not matter at which vertex a polygon starts: neither for its inside nor for its edges. -/
theorem C44_start (points : List Pt) (n : Nat) : (∀ r, Inside (points.rotate n) r ↔ Inside points r) ∧
    (∀ e, e ∈ edges (points.rotate n) ↔ e ∈ edges points) := by
  have hrot : edges (points.rotate n) = (edges points).rotate n := by
    show List.zipWith Prod.mk _ _ = (List.zipWith Prod.mk _ _).rotate n
    rw [List.zipWith_rotate_distrib _ _ _ _ (by simp), List.rotate_rotate, List.rotate_rotate, Nat.add_comm]
  refine ⟨fun r => ?_, fun e => ?_⟩
  · unfold Inside
    simp only
    have hp : ((edges (points.rotate n)).filterMap (crossing r.y)).Perm ((edges points).filterMap (crossing r.y)) := by
      rw [hrot]; exact (List.rotate_perm _ _).filterMap _
    rw [hp.mem_iff, hp.countP_eq]
  · rw [hrot, List.mem_rotate]

/-- **C44**: triangles are polygons of three points. -/
theorem C44_triangle (a b c : Pt) : tri a b c = poly [a, b, c] ∧ triFilled a b c = polyFilled [a, b, c] := ⟨rfl, rfl⟩

/-- **C44 fails** for polygons with long edges: the multiplication overflows. -/
theorem C44_counterexample : edgeIntersection 30000 ⟨-32768, -32768⟩ ⟨32767, 32767⟩ = none ∧
    fillPolygon [⟨-32768, 30000⟩, ⟨32767, -32768⟩, ⟨32767, 30001⟩] = none := by
  refine ⟨by decide, ?_⟩
  have hc : crossings [⟨-32768, 30000⟩, ⟨32767, -32768⟩, ⟨32767, 30001⟩] (-32768) = none := by decide
  unfold fillPolygon
  have : ((List.range 62770).mapM fun (k : Nat) =>
      (crossings [⟨-32768, 30000⟩, ⟨32767, -32768⟩, ⟨32767, 30001⟩] (-32768 + k)).map fun xs =>
        if xs.length < 2 then [] else spans (-32768 + k) (xs.mergeSort (· ≤ ·))) = none :=
    mapM_none (a := 0) (by simp) (by
      show (crossings _ (-32768 + ((0 : Nat) : Int))).map _ = none
      rw [show (-32768 + ((0 : Nat) : Int)) = -32768 by decide, hc]; rfl)
  exact congrArg (Option.map List.flatten) this

/-- **C44**: a rectangle of at least one pixel is the border of the box from its corner on, as far as the grid goes. -/
theorem C44_rectangle {p : Pt} (hp : OnGrid p) {w h : Nat} (hw : 0 < w) (hh : 0 < h) :
    ∃ ops, rect p w h = some ops ∧ Paints ops fun r =>
      let x2 := min (p.x + w - 1) 32767
      let y2 := min (p.y + h - 1) 32767
      (p.x ≤ r.x ∧ r.x ≤ x2 ∧ p.y ≤ r.y ∧ r.y ≤ y2) ∧ (r.x = p.x ∨ r.x = x2 ∨ r.y = p.y ∨ r.y = y2) := by
  obtain ⟨p1, p2, p3, p4⟩ := hp
  have cl : ∀ a n : Int, -32768 ≤ a → a ≤ 32767 → 0 ≤ n → clampI16 (a + n) = min (a + n) 32767 := by
    intro a n h1 h2 h3; unfold clampI16; split_ifs <;> omega
  obtain ⟨x2, hx2⟩ : ∃ x2, min (p.x + w - 1) 32767 = x2 := ⟨_, rfl⟩
  obtain ⟨y2, hy2⟩ : ∃ y2, min (p.y + h - 1) 32767 = y2 := ⟨_, rfl⟩
  have e1 : clampI16 (p.x + (w - 1)) = x2 := by rw [cl _ _ p1 p2 (by omega), ← hx2]; congr 1; omega
  have e2 : clampI16 (p.y + (h - 1)) = y2 := by rw [cl _ _ p3 p4 (by omega), ← hy2]; congr 1; omega
  simp only [hx2, hy2]
  refine ⟨[.line ⟨p.x, p.y⟩ ⟨x2, p.y⟩, .line ⟨x2, p.y⟩ ⟨x2, y2⟩, .line ⟨x2, y2⟩ ⟨p.x, y2⟩, .line ⟨p.x, y2⟩ ⟨p.x, p.y⟩],
    by unfold rect; rw [if_neg (by omega)]; simp only [e1, e2], ?_⟩
  have b1 : p.x ≤ x2 ∧ x2 ≤ 32767 := by omega
  have b2 : p.y ≤ y2 ∧ y2 ≤ 32767 := by omega
  have l1 := line_paints (p := ⟨p.x, p.y⟩) (q := ⟨x2, p.y⟩) ⟨p1, p2, p3, p4⟩ ⟨by simp only; omega, b1.2, p3, p4⟩ (.inr rfl)
  have l2 := line_paints (p := ⟨x2, p.y⟩) (q := ⟨x2, y2⟩) ⟨by simp only; omega, b1.2, p3, p4⟩ ⟨by simp only; omega, b1.2, by simp only; omega, b2.2⟩ (.inl rfl)
  have l3 := line_paints (p := ⟨x2, y2⟩) (q := ⟨p.x, y2⟩) ⟨by simp only; omega, b1.2, by simp only; omega, b2.2⟩ ⟨p1, p2, by simp only; omega, b2.2⟩ (.inr rfl)
  have l4 := line_paints (p := ⟨p.x, y2⟩) (q := ⟨p.x, p.y⟩) ⟨p1, p2, by simp only; omega, b2.2⟩ ⟨p1, p2, p3, p4⟩ (.inl rfl)
  refine Paints.congr (Paints.append l1 (Paints.append l2 (Paints.append l3 l4))) fun r => ?_
  unfold InBox
  simp only [min_self, max_self, min_eq_left b1.1, max_eq_right b1.1, min_eq_left b2.1, max_eq_right b2.1, min_eq_right b1.1,
    max_eq_left b1.1, min_eq_right b2.1, max_eq_left b2.1]
  omega

/-- **C44 fails** for rectangles without width or height: the subtraction underflows. -/
theorem C44_counterexample_rectangle (p : Pt) (h : Nat) : rect p 0 h = none ∧ rect p h 0 = none := by
  unfold rect; simp

/-- A polygon for an example: an arrow. -/
def Ex.arrow : List Pt := [⟨0, 0⟩, ⟨10, 5⟩, ⟨0, 10⟩, ⟨4, 5⟩]

example : (∀ p ∈ Ex.arrow, OnGrid p) ∧ Moderate Ex.arrow ∧ 2 ≤ Ex.arrow.length := by
  unfold OnGrid Moderate; decide
example : Inside Ex.arrow ⟨5, 4⟩ ∧ ¬ Inside Ex.arrow ⟨1, 5⟩ := by unfold Inside; decide

end EB
