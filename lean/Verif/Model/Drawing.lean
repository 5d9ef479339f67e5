import Verif.Model.Strings
/-!
# Drawing algorithms (std/src/console/drawing.rs)

The raster device is a sink of pixels and lines (`RasOp`) whose operations do not fail, except for `bucket_fill`,
which also reads pixels back: there the device is a picture (`Picture`).  Numbers are `Int`; `i16?` and `i32?` are the
checks that Rust makes on every result.  `none` is a panic.
-/

namespace EB

/-- `PixelsXY` (std/src/console/mod.rs 145-153): two `i16`. -/
structure Pt where
  x : Int
  y : Int
  deriving DecidableEq, Repr

/-- A result of type `i16`, or an overflow. -/
def i16? (n : Int) : Option Int := if -32768 ≤ n ∧ n ≤ 32767 then some n else none

/-- A result of type `i32`, or an overflow. -/
def i32? (n : Int) : Option Int := if -2147483648 ≤ n ∧ n ≤ 2147483647 then some n else none

/-- `clamped_into` from `i32` to `i16` (std/src/console/graphics.rs 54-64). -/
def clampI16 (n : Int) : Int := if n > 32767 then 32767 else if n < -32768 then -32768 else n

/-- What the algorithms ask of the device (`RasterOps`, std/src/console/graphics.rs 190-270). -/
inductive RasOp where
  | pixel (p : Pt)
  | line (p q : Pt)
  deriving DecidableEq, Repr

namespace Draw

/-- The end of a round of `draw_line_low` (std/src/console/drawing.rs 49-54) and of `draw_line_high` (85-90): the next
coordinate along the shorter side, and the next `d`. -/
def lineStep (long short step s d : Int) : Option (Int × Int) :=
  if d > 0 then do
    let s' ← i32? (s + step)
    let a ← i32? (short - long)
    let b ← i32? (2 * a)
    let d' ← i32? (d + b)
    pure (s', d')
  else do
    let b ← i32? (2 * short)
    let d' ← i32? (d + b)
    pure (s, d')

/-- The loop of `draw_line_low` (std/src/console/drawing.rs 39-57), for the `n` columns from `x` on. -/
def lowLoop (dx dy yi : Int) : Nat → Int → Int → Int → Option (List Pt)
  | 0, _, _, _ => some []
  | n + 1, x, y, d => do
    let px ← i16? x
    let py ← i16? y
    let (y', d') ← lineStep dx dy yi y d
    let ps ← lowLoop dx dy yi n (x + 1) y' d'
    pure (⟨px, py⟩ :: ps)

/-- `draw_line_low` (std/src/console/drawing.rs 25-58). -/
def lineLow (x1 y1 x2 y2 : Int) : Option (List Pt) := do
  let dx ← i32? (x2 - x1)
  let dy ← i32? (y2 - y1)
  let (yi, dy) := if dy < 0 then (-1, -dy) else (1, dy)
  let b ← i32? (2 * dy)
  let d ← i32? (b - dx)
  let stop ← i32? (x2 + 1)
  lowLoop dx dy yi (stop - x1).toNat x1 y1 d

/-- The loop of `draw_line_high` (std/src/console/drawing.rs 75-92), for the `n` rows from `y` on. -/
def highLoop (dx dy xi : Int) : Nat → Int → Int → Int → Option (List Pt)
  | 0, _, _, _ => some []
  | n + 1, y, x, d => do
    let px ← i16? x
    let py ← i16? y
    let (x', d') ← lineStep dy dx xi x d
    let ps ← highLoop dx dy xi n (y + 1) x' d'
    pure (⟨px, py⟩ :: ps)

/-- `draw_line_high` (std/src/console/drawing.rs 61-94). -/
def lineHigh (x1 y1 x2 y2 : Int) : Option (List Pt) := do
  let dx ← i32? (x2 - x1)
  let dy ← i32? (y2 - y1)
  let (xi, dx) := if dx < 0 then (-1, -dx) else (1, dx)
  let b ← i32? (2 * dx)
  let d ← i32? (b - dy)
  let stop ← i32? (y2 + 1)
  highLoop dx dy xi (stop - y1).toNat y1 x1 d

/-- `draw_line` (std/src/console/drawing.rs 100-123): the pixels, in order. -/
def line (p q : Pt) : Option (List Pt) :=
  if (q.y - p.y).natAbs < (q.x - p.x).natAbs then
    if p.x > q.x then lineLow q.x q.y p.x p.y else lineLow p.x p.y q.x q.y
  else
    if p.y > q.y then lineHigh q.x q.y p.x p.y else lineHigh p.x p.y q.x q.y

/-- What `peek_pixel` tells about each point (std/src/console/graphics.rs 213-214): the number of the colour, or that
the point is out of bounds or has a colour without a number. -/
abbrev Picture := Pt → Option Nat

/-- `draw_pixel` on a picture. -/
def Picture.set (pic : Picture) (p : Pt) (color : Nat) : Picture := fun q => if q = p then some color else pic q

/-- The points pushed for a pixel (std/src/console/drawing.rs 145-156), last one first: the end of the vector is the
head of the list. -/
def neighbours (p : Pt) : List Pt :=
  (if p.y < 32767 then [⟨p.x, p.y + 1⟩] else []) ++ (if p.y > -32768 then [⟨p.x, p.y - 1⟩] else []) ++
  (if p.x < 32767 then [⟨p.x + 1, p.y⟩] else []) ++ (if p.x > -32768 then [⟨p.x - 1, p.y⟩] else [])

/-- The loop of `bucket_fill` (std/src/console/drawing.rs 138-158).  `none`: it needs more rounds. -/
def fillLoop (seed color : Nat) : Nat → Picture → List Pt → Option Picture
  | _, pic, [] => some pic
  | 0, _, _ :: _ => none
  | n + 1, pic, p :: pending =>
    if pic p ≠ some seed then fillLoop seed color n pic pending
    else fillLoop seed color n (pic.set p color) (neighbours p ++ pending)

/-- `bucket_fill` (std/src/console/drawing.rs 126-161), with the drawing colour set to `color` as its caller does. -/
def bucketFill (rounds : Nat) (pic : Picture) (p : Pt) (color : Nat) : Option Picture :=
  match pic p with
  | none => some pic
  | some seed => if seed = color then some pic else fillLoop seed color rounds pic [p]

/-- The outcome of drawing a circle. -/
inductive Drawn where
  | ops (l : List RasOp)
  | tooBig
  | panic
  deriving DecidableEq, Repr

/-- The state of the loop of `draw_circle` (std/src/console/drawing.rs 188-192). -/
structure Circle where
  x : Int
  y : Int
  tx : Int
  ty : Int
  e : Int

/-- The end of a round (std/src/console/drawing.rs 204-215). -/
def Circle.next (diameter : Int) (c : Circle) : Option Circle := do
  let c ← if c.e ≤ 0 then do
      let y ← i16? (c.y + 1)
      let e ← i16? (c.e + c.ty)
      let ty ← i16? (c.ty + 2)
      pure { c with y, e, ty }
    else pure c
  if c.e > 0 then do
    let x ← i16? (c.x - 1)
    let tx ← i16? (c.tx + 2)
    let d ← i16? (tx - diameter)
    let e ← i16? (c.e + d)
    pure { c with x, tx, e }
  else pure c

/-- One of the eight points of a round. -/
def offset (c : Pt) (x y : Int) : Option Pt := do
  let x ← i16? (c.x + x)
  let y ← i16? (c.y + y)
  pure ⟨x, y⟩

/-- The points of a round (std/src/console/drawing.rs 195-202). -/
def circlePoints (c : Pt) (x y : Int) : Option (List RasOp) :=
  [(x, -y), (x, y), (-x, -y), (-x, y), (y, -x), (y, x), (-y, -x), (-y, x)].mapM fun d =>
    (offset c d.1 d.2).map RasOp.pixel

/-- The lines of a round of `draw_circle_filled` (std/src/console/drawing.rs 254-257). -/
def circleLines (c : Pt) (x y : Int) : Option (List RasOp) :=
  [((x, -y), (x, y)), ((-x, -y), (-x, y)), ((y, -x), (y, x)), ((-y, -x), (-y, x))].mapM fun d => do
    let p ← offset c d.1.1 d.1.2
    let q ← offset c d.2.1 d.2.2
    pure (RasOp.line p q)

/-- The loop of `draw_circle` and `draw_circle_filled` (std/src/console/drawing.rs 194-216 and 253-271).  Every round
brings `x` and `y` nearer to each other, so that the rounds given are enough; without them the result would be
`none`. -/
def circleLoop (round : Int → Int → Option (List RasOp)) (diameter : Int) : Nat → Circle → Option (List RasOp)
  | n, c =>
    if c.x ≥ c.y then
      match n with
      | 0 => none
      | n + 1 => do
        let a ← round c.x c.y
        let c' ← c.next diameter
        let b ← circleLoop round diameter n c'
        pure (a ++ b)
    else some []

/-- `draw_circle` and `draw_circle_filled` (std/src/console/drawing.rs 167-219 and 225-274), which differ in what they
draw in a round. -/
def circleWith (round : Pt → Int → Int → Option (List RasOp)) (center : Pt) (radius : Nat) : Drawn :=
  if radius = 0 then .ops []
  else if radius = 1 then .ops [.pixel center]
  else if 2 * radius > 32767 then .tooBig
  else match circleLoop (round center) (2 * radius) (radius + 1) ⟨radius - 1, 0, 1, 1, 1 - 2 * radius⟩ with
    | some l => .ops l
    | none => .panic

/-- `draw_circle` (std/src/console/drawing.rs 167-219). -/
def circle (center : Pt) (radius : Nat) : Drawn := circleWith circlePoints center radius

/-- `draw_circle_filled` (std/src/console/drawing.rs 225-274). -/
def circleFilled (center : Pt) (radius : Nat) : Drawn := circleWith circleLines center radius

/-- `draw_poly` (std/src/console/drawing.rs 277-290). -/
def poly (points : List Pt) : List RasOp :=
  match points with
  | p :: q :: rest => (List.zipWith RasOp.line (p :: q :: rest) (q :: rest)) ++ [.line ((q :: rest).getLast (by simp)) p]
  | _ => []

/-- `edge_intersection` (std/src/console/drawing.rs 301-319).  The outer `none` is an overflow. -/
def edgeIntersection (y : Int) (p1 p2 : Pt) : Option (Option Int) :=
  if p1.y = p2.y then some none
  else if y < min p1.y p2.y ∨ y ≥ max p1.y p2.y then some none
  else do
    let a ← i32? (y - p1.y)
    let b ← i32? (p2.x - p1.x)
    let c ← i32? (a * b)
    let d ← i32? (p2.y - p1.y)
    let q ← i32? (c.tdiv d)
    let x ← i32? (p1.x + q)
    pure (some x)

/-- The crossings of a scan line (std/src/console/drawing.rs 334-340). -/
def crossings (points : List Pt) (y : Int) : Option (List Int) :=
  ((List.range points.length).mapM fun i =>
    edgeIntersection y (points.getD i ⟨0, 0⟩) (points.getD ((i + 1) % points.length) ⟨0, 0⟩)).map fun l => l.filterMap id

/-- `chunks_exact(2)` on the sorted crossings, and the lines (std/src/console/drawing.rs 347-352). -/
def spans (y : Int) : List Int → List RasOp
  | a :: b :: rest => .line ⟨clampI16 a, clampI16 y⟩ ⟨clampI16 b, clampI16 y⟩ :: spans y rest
  | _ => []

/-- `fill_polygon` (std/src/console/drawing.rs 322-356). -/
def fillPolygon (points : List Pt) : Option (List RasOp) :=
  match points with
  | [] => some []
  | p :: ps =>
    let minY := ps.foldl (fun m q => min m q.y) p.y
    let maxY := ps.foldl (fun m q => max m q.y) p.y
    ((List.range (maxY - minY + 1).toNat).mapM fun (k : Nat) =>
      (crossings points (minY + k)).map fun xs =>
        if xs.length < 2 then [] else spans (minY + k) (xs.mergeSort (· ≤ ·))).map List.flatten

/-- `draw_poly_filled` (std/src/console/drawing.rs 359-365). -/
def polyFilled (points : List Pt) : Option (List RasOp) := (fillPolygon points).map (· ++ poly points)

/-- `draw_rect` (std/src/console/drawing.rs 368-381).  A width or height of zero underflows. -/
def rect (p : Pt) (width height : Nat) : Option (List RasOp) :=
  if width = 0 ∨ height = 0 then none
  else
    let q : Pt := ⟨clampI16 (p.x + (width - 1)), clampI16 (p.y + (height - 1))⟩
    some [.line ⟨p.x, p.y⟩ ⟨q.x, p.y⟩, .line ⟨q.x, p.y⟩ ⟨q.x, q.y⟩, .line ⟨q.x, q.y⟩ ⟨p.x, q.y⟩, .line ⟨p.x, q.y⟩ ⟨p.x, p.y⟩]

/-- `draw_tri` (std/src/console/drawing.rs 424-432). -/
def tri (a b c : Pt) : List RasOp := [.line a b, .line b c, .line c a]

/-- `draw_tri_filled` (std/src/console/drawing.rs 435-446). -/
def triFilled (a b c : Pt) : Option (List RasOp) := (fillPolygon [a, b, c]).map (· ++ tri a b c)

end Draw
end EB
