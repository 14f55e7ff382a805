import Verif.Model.Geom
import Mathlib.Analysis.SpecialFunctions.Trigonometric.Basic
import Mathlib.Analysis.SpecialFunctions.Complex.Arg
import Mathlib.Analysis.SpecialFunctions.Pow.Real

/-!
# Shapes over the reals (vm/types/vector.py, vm/commands/shape.py, vm/commands/shape_segments/*.py)

`math.atan2(s, c)` is the argument of the complex number `c + s i`; `math.sqrt`, `math.cos` and `math.sin` are the
real functions.  Simplification: exact real arithmetic instead of IEEE doubles.
-/

namespace Verif.Geom
noncomputable section
open Real

/-- `math.degrees`. -/
def degrees (r : ℝ) : ℝ := r * 180 / π

/-- `math.radians`. -/
def radians (d : ℝ) : ℝ := d * π / 180

/-- Python's `a % b` on floats with `b > 0`. -/
def pyMod (a b : ℝ) : ℝ := a - b * ⌊a / b⌋

namespace Vec

/-- vector.py 152-154 (`length`). -/
def length (v : Vec ℝ) : ℝ := √(v.x * v.x + v.y * v.y)

open Classical in
/-- vector.py 145-150 (`normalized`). -/
def normalized (v : Vec ℝ) : Vec ℝ := if v.x = 0 ∧ v.y = 0 then ⟨1, 0⟩ else v.divBy v.length

/-- vector.py 131-143 (`angle_between_cc`). -/
def angleBetweenCc (u v : Vec ℝ) : ℝ :=
  let v0 := u.normalized
  let v1 := v.normalized
  let angle := degrees (Complex.arg ⟨v0.x * v1.x + v0.y * v1.y, v0.x * v1.y - v1.x * v0.y⟩)
  angle + 360 * (if angle < 0 then 1 else 0)

/-- vector.py 114-129 (`angle_between`). -/
def angleBetween (u v : Vec ℝ) : ℝ := 360 - angleBetweenCc u v

/-- vector.py 161-163 (`Vector.unit`). -/
def unitX : Vec ℝ := ⟨1, 0⟩
/-- vector.py 161-163 (`Vector.unit`). -/
def unitY : Vec ℝ := ⟨0, 1⟩

end Vec

/-- matrix.py 46-70 (`new_rotate`, degrees). -/
def Mat.newRotate (angle : ℝ) : Mat ℝ := Mat.newRotateCS (cos (radians angle)) (sin (radians angle))

/-- arc.py 111-112: the test `transform[0][0] * transform[1][1] > 0`. Simplification: the matrices of the code are made by
`new_rotate` (matrix.py 46-70) from the cosine and the sine that `math.cos` and `math.sin` compute. No floating point number
is an odd multiple of π/2, and the cosine computed for 90 degrees is 6.1e-17, so both entries are tiny numbers and the product
has the sign it has for neighbouring angles. In exact arithmetic both entries are zero there. The second part stands for that
case only: it gives the sign of the product for neighbouring angles. `Verif.Props.Geom.c30_test_as_written` shows that it adds
nothing when the cosine is not zero. -/
def Mat.keepsSense (m : Mat ℝ) : Prop :=
  m.m 0 0 * m.m 1 1 > 0 ∨ (m.m 0 0 = 0 ∧ m.m 1 1 = 0 ∧ m.m 0 1 * m.m 1 0 < 0)

noncomputable instance (m : Mat ℝ) : Decidable m.keepsSense := Classical.propDecidable _

/-- shape_segments/arc.py 17-28 (`Arc`). -/
@[ext] structure Arc where
  start : Vec ℝ
  stop : Vec ℝ
  center : Vec ℝ
  clockwise : Bool

/-- shape_segments/line.py 16-20 (`Line`). -/
@[ext] structure Line where
  start : Vec ℝ
  stop : Vec ℝ

/-- shape_segments/shape_segment.py: a line or an arc. -/
inductive Segment
  | line (l : Line)
  | arc (a : Arc)

namespace Arc

/-- arc.py 47-49 (`get_relative_start_point`). -/
def relStart (a : Arc) : Vec ℝ := a.start - a.center
/-- arc.py 51-53 (`get_relative_end_point`). -/
def relStop (a : Arc) : Vec ℝ := a.stop - a.center
/-- arc.py 55-57 (`get_radius`). -/
def radius (a : Arc) : ℝ := a.relStart.length

/-- arc.py 72-74 and 86-87: the swept angle in degrees. -/
def totalAngle (a : Arc) : ℝ :=
  let t := a.relStart.angleBetween a.relStop
  if a.clockwise then t else 360 - t

/-- arc.py 76-79 and 86-91: angle from the start to one of the four axis directions. -/
def axisAngle (a : Arc) (dir : Vec ℝ) : ℝ :=
  let t := pyMod (a.relStart.angleBetween dir) 360
  if a.clockwise then t else 360 - t

open Classical in
/-- arc.py 81-100: the points whose bounding box is taken, relative to the centre. -/
def candidates (a : Arc) : List (Vec ℝ) :=
  [a.relStart, a.relStop]
  ++ (if a.axisAngle Vec.unitX < a.totalAngle then [⟨a.radius, 0⟩] else [])
  ++ (if a.axisAngle (-Vec.unitY) < a.totalAngle then [⟨0, -a.radius⟩] else [])
  ++ (if a.axisAngle (-Vec.unitX) < a.totalAngle then [⟨-a.radius, 0⟩] else [])
  ++ (if a.axisAngle Vec.unitY < a.totalAngle then [⟨0, a.radius⟩] else [])

/-- arc.py 66-102 (`outer_box`); the list of the code starts with the null vector (the centre itself). -/
def outerBox (a : Arc) : Box ℝ :=
  Box.fromVectors ((⟨0, 0⟩ : Vec ℝ) + a.center) (a.candidates.map (· + a.center))

/-- arc.py 104-115 (`transform`). The condition of the code is the first part of `keepsSense`. -/
def transform (a : Arc) (m : Mat ℝ) : Arc :=
  { start := m.apply a.start, stop := m.apply a.stop, center := m.apply a.center,
    clockwise := if m.keepsSense then a.clockwise else !a.clockwise }

end Arc

namespace Line

/-- line.py 27-30 (`outer_box`). -/
def outerBox (l : Line) : Box ℝ := Box.fromVectors l.start [l.stop]

/-- line.py 32-37 (`transform`). -/
def transform (l : Line) (m : Mat ℝ) : Line := ⟨m.apply l.start, m.apply l.stop⟩

end Line

namespace Segment

/-- Dynamic dispatch of `outer_box`. -/
def outerBox : Segment → Box ℝ
  | line l => l.outerBox
  | arc a => a.outerBox

/-- Dynamic dispatch of `transform`. -/
def transform (s : Segment) (m : Mat ℝ) : Segment :=
  match s with
  | line l => line (l.transform m)
  | arc a => arc (a.transform m)

/-- Start point of the segment. -/
def start : Segment → Vec ℝ
  | line l => l.start
  | arc a => a.start

/-- End point of the segment. -/
def stop : Segment → Vec ℝ
  | line l => l.stop
  | arc a => a.stop

end Segment

/-- vm/commands/shape.py 28-38 (`Shape`): `min_length=1` is expressed by a separate head.
Simplification: `metadata` is left out (see `Verif.Model.Metadata`). -/
structure Shape where
  head : Segment
  tail : List Segment
  negative : Bool

namespace Shape

/-- All segments. -/
def segments (s : Shape) : List Segment := s.head :: s.tail

/-- shape.py 40-46 (`outer_box`). -/
def outerBox (s : Shape) : Box ℝ := s.tail.foldl (fun acc g => acc.union g.outerBox) s.head.outerBox

/-- shape.py 48-54 (`transform`). -/
def transform (s : Shape) (m : Mat ℝ) : Shape :=
  { head := s.head.transform m, tail := s.tail.map (·.transform m), negative := s.negative }

/-- A line segment between two points. -/
def ln (ax ay bx by' : ℝ) : Segment := .line ⟨⟨ax, ay⟩, ⟨bx, by'⟩⟩

/-- shape.py 60-98 (`new_rectangle`). -/
def newRectangle (c : Vec ℝ) (w h : ℝ) (neg : Bool) : Shape :=
  let hh := h / 2
  let hw := w / 2
  { head := ln (c.x - hw) (c.y - hh) (c.x + hw) (c.y - hh)
    tail := [ln (c.x + hw) (c.y - hh) (c.x + hw) (c.y + hh),
             ln (c.x + hw) (c.y + hh) (c.x - hw) (c.y + hh),
             ln (c.x - hw) (c.y + hh) (c.x - hw) (c.y - hh)]
    negative := neg }

open Classical in
/-- shape.py 100-179 (`new_obround`). -/
def newObround (c : Vec ℝ) (w h : ℝ) (neg : Bool) : Shape :=
  let hh := h / 2
  let hw := w / 2
  if w ≤ h then
    let d := hw
    { head := .arc ⟨⟨c.x - hw, c.y - hh + d⟩, ⟨c.x + hw, c.y - hh + d⟩, ⟨c.x, c.y - hh + d⟩, false⟩
      tail := [ln (c.x + hw) (c.y - hh + d) (c.x + hw) (c.y + hh - d),
               .arc ⟨⟨c.x + hw, c.y + hh - d⟩, ⟨c.x - hw, c.y + hh - d⟩, ⟨c.x, c.y + hh - d⟩, false⟩,
               ln (c.x - hw) (c.y + hh - d) (c.x - hw) (c.y - hh + d)]
      negative := neg }
  else
    let d := hh
    { head := ln (c.x - hw + d) (c.y - hh) (c.x + hw - d) (c.y - hh)
      tail := [.arc ⟨⟨c.x + hw - d, c.y - hh⟩, ⟨c.x + hw - d, c.y + hh⟩, ⟨c.x + hw - d, c.y⟩, false⟩,
               ln (c.x + hw - d) (c.y + hh) (c.x - hw + d) (c.y + hh),
               .arc ⟨⟨c.x - hw + d, c.y + hh⟩, ⟨c.x - hw + d, c.y - hh⟩, ⟨c.x - hw + d, c.y⟩, false⟩]
      negative := neg }

/-- shape.py 181-209 (`new_circle`). -/
def newCircle (c : Vec ℝ) (diameter : ℝ) (neg : Bool) : Shape :=
  let r := diameter / 2
  { head := .arc ⟨⟨c.x - r, c.y⟩, ⟨c.x + r, c.y⟩, c, true⟩
    tail := [.arc ⟨⟨c.x + r, c.y⟩, ⟨c.x - r, c.y⟩, c, true⟩]
    negative := neg }

open Classical in
/-- shape.py 239-249: the `while` loop of `new_polygon`, with the number of remaining iterations bounded by `fuel`
(`vertices_count` is enough, see `Verif.Geom.polygonLoop_fuel`). -/
def polygonLoop (center : Vec ℝ) (step : ℝ) : Nat → ℝ → Vec ℝ → List Segment
  | 0, _, _ => []
  | fuel + 1, angle, offset =>
    if angle < 360 then
      let offset' := (Mat.newRotate step).apply offset
      .line ⟨center + offset, center + offset'⟩ :: polygonLoop center step fuel (angle + step) offset'
    else []

/-- shape.py 211-251 (`new_polygon`): the list of its segments; the assertion `vertices_count >= 3` is a hypothesis
of the theorems. -/
def polygonSegments (center : Vec ℝ) (diameter : ℝ) (n : Nat) (rotation : ℝ) : List Segment :=
  let rotation := pyMod rotation 360
  let step : ℝ := 360 / (n : ℝ)
  let offset := (Mat.newRotate rotation).apply ((Vec.unitX.scale diameter).divBy 2)
  polygonLoop center step n rotation offset

/-- shape.py 253-282 (`new_line`). -/
def newLine (s e : Vec ℝ) (thickness : ℝ) (neg : Bool) : Shape :=
  let parallel := (e - s).normalized
  let perp := (⟨-parallel.y, parallel.x⟩ : Vec ℝ).scale (thickness / 2)
  { head := .line ⟨s + perp, e + perp⟩
    tail := [.line ⟨e - perp, s - perp⟩]
    negative := neg }

/-- shape.py 284-323 (`new_cw_arc`). -/
def newCwArc (s e c : Vec ℝ) (thickness : ℝ) (neg : Bool) : Shape :=
  let es := (s - c).normalized.scale (thickness / 2)
  let ee := (e - c).normalized.scale (thickness / 2)
  { head := .arc ⟨s + es, e + ee, c, true⟩
    tail := [.arc ⟨e - ee, s - es, c, false⟩]
    negative := neg }

/-- shape.py 325-344 (`new_ccw_arc`). -/
def newCcwArc (s e c : Vec ℝ) (thickness : ℝ) (neg : Bool) : Shape := newCwArc e s c thickness neg

/-- shape.py 346-385 (`new_ring`); the assertions are hypotheses of the theorems. -/
def newRing (c : Vec ℝ) (outer inner : ℝ) (neg : Bool) : Shape × Shape :=
  let thickness := (outer - inner) / 2
  let ir := inner / 2
  let ht := thickness / 2
  let p0 : Vec ℝ := ⟨c.x + ir + ht, c.y⟩
  let p1 : Vec ℝ := ⟨c.x - ir - ht, c.y⟩
  (newCwArc p0 p1 c thickness neg, newCwArc p1 p0 c thickness neg)

/-- shape.py 395-397: lines between consecutive points. -/
def connect : List (Vec ℝ) → List Segment
  | a :: b :: rest => .line ⟨a, b⟩ :: connect (b :: rest)
  | _ => []

/-- shape.py 387-399 (`new_connected_points`) for a non-empty list of points: the list of its segments. -/
def connectedPoints (p : Vec ℝ) (ps : List (Vec ℝ)) : List Segment :=
  connect (p :: ps) ++ [.line ⟨(p :: ps).getLast (by simp), p⟩]

end Shape
end
end Verif.Geom
