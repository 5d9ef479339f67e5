import Verif.Model.Drawing
import Mathlib.Data.List.Chain
import Mathlib.Data.List.Rotate
import Mathlib.Algebra.Order.Group.Unbundled.Abs
import Mathlib.Algebra.Order.Group.Unbundled.Int
/-!
# What the drawing operations should draw
-/

namespace EB.Spec

/-- A point whose coordinates are 16-bit numbers. -/
def OnGrid (p : Pt) : Prop := -32768 ≤ p.x ∧ p.x ≤ 32767 ∧ -32768 ≤ p.y ∧ p.y ≤ 32767

/-- Two pixels that are the same or touch, at a side or at a corner. -/
def Touch (p q : Pt) : Prop := |q.x - p.x| ≤ 1 ∧ |q.y - p.y| ≤ 1

/-- The longer side of the box around two points. -/
def longSide (p q : Pt) : Int := max |q.x - p.x| |q.y - p.y|

/-- The pixels of a line between two points, in order. -/
structure IsLine (p q : Pt) (l : List Pt) : Prop where
  /-- It goes from one point to the other. -/
  ends : (l.head? = some p ∧ l.getLast? = some q) ∨ (l.head? = some q ∧ l.getLast? = some p)
  /-- There is one pixel for each step along the longer side. -/
  count : (l.length : Int) = longSide p q + 1
  /-- Each pixel touches the next one. -/
  connected : l.IsChain Touch
  /-- Each pixel is at most half a pixel, across the longer side, from the segment between the points. -/
  near : ∀ r ∈ l, 2 * |(r.x - p.x) * (q.y - p.y) - (r.y - p.y) * (q.x - p.x)| ≤ longSide p q

/-- The points of the smallest box that has both points in it. -/
def InBox (p q r : Pt) : Prop := min p.x q.x ≤ r.x ∧ r.x ≤ max p.x q.x ∧ min p.y q.y ≤ r.y ∧ r.y ≤ max p.y q.y

/-- Two points next to each other in a row or in a column. -/
def Beside (p q : Pt) : Prop := |q.x - p.x| + |q.y - p.y| = 1

/-- The points that can be reached from `p` through points next to each other, all of colour `color`. -/
inductive Region (pic : Draw.Picture) (color : Nat) (p : Pt) : Pt → Prop where
  | start : pic p = some color → Region pic color p p
  | step {q r : Pt} : Region pic color p q → Beside q r → pic r = some color → Region pic color p r

/-- The outline of a circle around the origin: in each direction, the last point within the radius, and less than it
along the axes. -/
def Outline (radius : Int) (d : Pt) : Prop :=
  let far := max |d.x| |d.y|
  let near := min |d.x| |d.y|
  far < radius ∧ far ^ 2 + near ^ 2 ≤ radius ^ 2 ∧ (far + 1 < radius → radius ^ 2 < (far + 1) ^ 2 + near ^ 2)

/-- A centre around which the whole circle is on the grid. -/
def Fits16 (c : Pt) (R : Int) : Prop :=
  -32768 ≤ c.x - (R - 1) ∧ c.x + (R - 1) ≤ 32767 ∧ -32768 ≤ c.y - (R - 1) ∧ c.y + (R - 1) ≤ 32767

/-- The pixels that the device sets for an operation. -/
def pixels : RasOp → Option (List Pt)
  | .pixel p => some [p]
  | .line p q => Draw.line p q

/-- The operations set exactly the pixels of a set. -/
def Paints (ops : List RasOp) (s : Pt → Prop) : Prop :=
  (∀ o ∈ ops, (pixels o).isSome) ∧ ∀ r, s r ↔ ∃ o ∈ ops, ∃ l, pixels o = some l ∧ r ∈ l

/-- The edges of a polygon: from each point to the next, and from the last to the first. -/
def edges (points : List Pt) : List (Pt × Pt) := points.zip (points.rotate 1)

/-- Where an edge crosses the row of pixels `y`: if one end is on it or above and the other is below, at the point
of the edge in this row, rounded towards its first end. -/
def crossing (y : Int) (e : Pt × Pt) : Option Int :=
  if (e.1.y ≤ y) = (e.2.y ≤ y) then none else some (e.1.x + ((y - e.1.y) * (e.2.x - e.1.x)).tdiv (e.2.y - e.1.y))

/-- Edges short enough for the multiplication. -/
def Moderate (points : List Pt) : Prop := ∀ e ∈ edges points, |e.2.x - e.1.x| * |e.2.y - e.1.y| ≤ 2147483647

/-- The inside of a polygon by the even-odd rule: the points that are at a crossing or have an odd number of crossings
to their left. -/
def Inside (points : List Pt) (r : Pt) : Prop :=
  let xs := (edges points).filterMap (crossing r.y)
  r.x ∈ xs ∨ xs.countP (· < r.x) % 2 = 1

end EB.Spec
