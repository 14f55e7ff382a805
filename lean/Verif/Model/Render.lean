import Verif.Model.Vm
import Mathlib.Data.Set.Lattice

/-!
# The two rendering backends (vm/shapely/vm.py, vm/pillow/vm.py)

Loops that need not terminate take the number of steps they may make as `fuel`.
Simplifications: exact real arithmetic instead of IEEE doubles; the geometry library (GEOS, through shapely) and the
image library (Pillow) are described by the operations used of them, see `Geos` and `Raster`.
-/

namespace Verif.Render
open Verif.Geom Verif.Rvmc Verif.Vm
noncomputable section
open Real

/-- What can go wrong while the points of an arc are generated. -/
inductive ArcErr
  | outOfFuel | assertion | zeroDivision | dpmmTooSmall
  deriving DecidableEq, Repr

open Classical in
/-- shapely/vm.py 359-371, pillow/vm.py 431-443 (`_generate_arc_angles`) with the operators of shapely/vm.py 28-29 and
pillow/vm.py 38-39: increasing angles compared by `<`, or decreasing angles compared by `>`. -/
def arcAngles (increase : Bool) (stop delta : ℝ) : ℕ → ℝ → Except ArcErr (List ℝ)
  | 0, _ => .error .outOfFuel
  | fuel + 1, current =>
    if (if increase then current < stop else current > stop) then do
      let rest ← arcAngles increase stop delta fuel (if increase then current + delta else current - delta)
      return current :: rest
    else return [stop]

/-- shapely/vm.py 302-313, pillow/vm.py 366-377: an angle of a point relative to the centre. -/
def pointAngle (v : Vec ℝ) : ℝ := pyMod (v.angleBetween Vec.unitX) 360

open Classical in
/-- shapely/vm.py 327-347, pillow/vm.py 395-415: the choice of direction and of the final angle. -/
def arcSweep (fuel : ℕ) (start stop delta : ℝ) (clockwise : Bool) : Except ArcErr (List ℝ) :=
  if start ≤ stop then
    if clockwise then arcAngles false (stop - 360) delta fuel start
    else arcAngles true stop delta fuel start
  else if clockwise then arcAngles false stop delta fuel start
  else arcAngles true (stop + 360) delta fuel start

/-- shapely/vm.py 351-357, pillow/vm.py 421-427: the point at an angle. -/
def arcPoint (a : Arc) (angle : ℝ) : Vec ℝ :=
  a.center + ⟨a.radius * cos (radians angle), a.radius * sin (radians angle)⟩

/-- shapely/vm.py 320-321, pillow/vm.py 384-386: the arc length the number of segments depends on. -/
def arcLength (a : Arc) : ℝ := |pointAngle a.relStart - pointAngle a.relStop| / 360 * (a.radius * 2 * π)

open Classical in
/-- shapely/vm.py 298-357 (`_calculate_arc_points`); `count` is `angle_length_to_segment_count`. -/
def shapelyArc (count : ℝ → ℤ) (fuel : ℕ) (a : Arc) : Except ArcErr (List (Vec ℝ)) :=
  let n := count (arcLength a)
  if n = 0 then .error .zeroDivision else
  let delta := |pointAngle a.relStart - pointAngle a.relStop| / n
  if delta < 0 then .error .assertion else do
  let angles ← arcSweep fuel (pointAngle a.relStart) (pointAngle a.relStop) delta a.clockwise
  return angles.map (arcPoint a)

/-- shapely/vm.py 209-211: the default `angle_length_to_segment_count`. -/
def shapelyCount (length : ℝ) : ℤ := ⌊|length| * (4 / 10) + 24⌋

open Classical in
/-- `int` of a float: truncation. -/
def truncate (x : ℝ) : ℤ := if 0 ≤ x then ⌊x⌋ else ⌈x⌉

/-- pillow/vm.py 506-508 and 284-286 (`to_pixel`). -/
def toPixel (dpmm : ℤ) (x : ℝ) : ℤ := truncate (x * dpmm)

/-- pillow/vm.py 313-317 and 41 (`angle_length_to_segment_count`). -/
def pillowCount (pixels : ℤ) : ℤ := if pixels * 2 > 12 then pixels * 2 else 12

open Classical in
/-- pillow/vm.py 362-429 (`_calculate_arc_points`). -/
def pillowArc (dpmm : ℤ) (fuel : ℕ) (a : Arc) : Except ArcErr (List (Vec ℝ)) :=
  let n := pillowCount (toPixel dpmm (arcLength a))
  if n < 1 then .error .dpmmTooSmall else
  let delta := |pointAngle a.relStart - pointAngle a.relStop| / n
  if delta ≤ 0 then .error .assertion else do
  let angles ← arcSweep fuel (pointAngle a.relStart) (pointAngle a.relStop) delta a.clockwise
  return a.start :: (angles.map (arcPoint a) ++ [a.stop])

open Classical in
/-- shapely/vm.py 242-244 and 250-252, pillow/vm.py 339-343 and 348-352: a start point, unless it is the last point. -/
def addStart (points : List (Vec ℝ)) (p : Vec ℝ) : List (Vec ℝ) :=
  if points.getLast? = some p then points else points ++ [p]

open Classical in
/-- shapely/vm.py 240-260: one segment. -/
def shapelySegment (count : ℝ → ℤ) (fuel : ℕ) (points : List (Vec ℝ)) : Segment → Except ArcErr (List (Vec ℝ))
  | .line l => .ok (addStart points l.start ++ [l.stop])
  | .arc a => do
    let pts ← shapelyArc count fuel a
    let points := addStart points a.start ++ pts
    return if points.getLast? = some a.stop then points else points ++ [a.stop]

/-- The loop of shapely/vm.py 240-260. -/
def shapelyLoop (count : ℝ → ℤ) (fuel : ℕ) : List Segment → List (Vec ℝ) → Except ArcErr (List (Vec ℝ))
  | [], points => .ok points
  | g :: gs, points => do
    let points ← shapelySegment count fuel points g
    shapelyLoop count fuel gs points

/-- shapely/vm.py 238-263: the vertices of a shape, closed. -/
def shapelyVertices (count : ℝ → ℤ) (fuel : ℕ) (s : Shape) : Except ArcErr (List (Vec ℝ)) := do
  let points ← shapelyLoop count fuel s.segments []
  return points ++ points.head?.toList

/-- pillow/vm.py 337-358: one segment. -/
def pillowSegment (dpmm : ℤ) (fuel : ℕ) (points : List (Vec ℝ)) : Segment → Except ArcErr (List (Vec ℝ))
  | .line l => .ok (addStart points l.start ++ [l.stop])
  | .arc a => do
    let pts ← pillowArc dpmm fuel a
    return addStart points a.start ++ pts ++ [a.stop]

/-- The loop of pillow/vm.py 337-358. -/
def pillowLoop (dpmm : ℤ) (fuel : ℕ) : List Segment → List (Vec ℝ) → Except ArcErr (List (Vec ℝ))
  | [], points => .ok points
  | g :: gs, points => do
    let points ← pillowSegment dpmm fuel points g
    pillowLoop dpmm fuel gs points

/-- pillow/vm.py 334-358: the vertices of a shape. -/
def pillowVertices (dpmm : ℤ) (fuel : ℕ) (s : Shape) : Except ArcErr (List (Vec ℝ)) :=
  pillowLoop dpmm fuel s.segments []

/-! ## Shapely -/

/-- What is used of the geometry library.  A geometry is a set of points.
Simplification: the library keeps boundaries, so that the boundary of a difference belongs to it; here it does not. -/
structure Geos where
  /-- `Polygon(points).buffer(0)`. -/
  region : List (Vec ℝ) → Set (Vec ℝ)
  /-- `STRtree.query`: whether the bounding boxes intersect. -/
  meets : Set (Vec ℝ) → Set (Vec ℝ) → Bool
  /-- A moved polygon is the polygon of the moved points. -/
  region_move : ∀ pts v, region (pts.map (· + v)) = {p | p - v ∈ region pts}
  /-- Geometries whose bounding boxes do not intersect have no point in common. -/
  meets_complete : ∀ a b, meets a b = false → a ∩ b = ∅

/-- Indices of the members of the tree that the geometry may intersect. -/
def Geos.query (G : Geos) (tree : List (Set (Vec ℝ))) (g : Set (Vec ℝ)) : List ℕ :=
  (List.range tree.length).filter (fun i => G.meets (tree.getD i ∅) g)

/-- shapely/vm.py 290-294: the geometry is taken away from the members it may intersect. -/
def subtractAt (indices : List ℕ) (g : Set (Vec ℝ)) (shapes : List (Set (Vec ℝ))) : List (Set (Vec ℝ)) :=
  indices.foldl (fun shapes i => shapes.modify i (· \ g)) shapes

/-- shapely/vm.py 277-296 (`_add_polygon`) after the polygon has been moved. -/
def addGeometry (G : Geos) (shapes : List (Set (Vec ℝ))) (g : Set (Vec ℝ)) (negative : Bool) : List (Set (Vec ℝ)) :=
  if negative then subtractAt (G.query shapes g) g shapes else shapes ++ [g]

/-- shapely/vm.py 267-296 (`_add_polygon`).  A ring of one, two or three points is refused by the library. -/
def addPolygon (G : Geos) (e : Eager (List (Set (Vec ℝ)))) (points : List (Vec ℝ)) (negative : Bool) :
    Except VErr (List (Set (Vec ℝ))) :=
  if points.length < 4 then .error .backend
  else .ok (addGeometry G e.content (G.region (points.map (· + (-e.origin)))) negative)

/-- Exceptions of the point generation. -/
def arcErr : ArcErr → VErr
  | .assertion => .assertion
  | _ => .backend

/-- shapely/vm.py 236-265 (`on_shape_eager`). -/
def shapelyShape (G : Geos) (count : ℝ → ℤ) (fuel : ℕ) (e : Eager (List (Set (Vec ℝ)))) (s : Shape) :
    Except VErr (List (Set (Vec ℝ))) :=
  match shapelyVertices count fuel s with
  | .error x => .error (arcErr x)
  | .ok points => addPolygon G e points s.negative

/-- shapely/vm.py 401-410: the moved geometries of the source are added or taken away.  The tree is queried once, before
anything is taken away. -/
def pasteGeometries (G : Geos) (shapes moved : List (Set (Vec ℝ))) (negative : Bool) : List (Set (Vec ℝ)) :=
  if negative then
    (moved.map (fun g => (G.query shapes g, g))).foldl (fun acc q => subtractAt q.1 q.2 acc) shapes
  else shapes ++ moved

/-- shapely/vm.py 373-410 (`on_paste_layer_eager`). -/
def shapelyPaste (G : Geos) (e src : Eager (List (Set (Vec ℝ)))) (center : Vec ℝ) (negative : Bool) :
    List (Set (Vec ℝ)) :=
  pasteGeometries G e.content (src.content.map (fun g => {p | p - (-e.origin + center) ∈ g})) negative

/-- shapely/vm.py 202-410: the overridden methods. -/
def shapely (G : Geos) (count : ℝ → ℤ) (fuel : ℕ) : Backend (List (Set (Vec ℝ))) where
  create _ _ := .ok []
  shape e s := shapelyShape G count fuel e s
  paste e src center negative := .ok (shapelyPaste G e src center negative)

/-- shapely/vm.py 412-422: `unary_union` of the shapes of the main layer. -/
def shapelyResult (e : Eager (List (Set (Vec ℝ)))) : Set (Vec ℝ) := ⋃₀ {g | g ∈ e.content}

/-! ## Pillow -/

/-- A one-bit image: its size and the pixels that are set. -/
structure Bitmap where
  width : ℤ
  height : ℤ
  lit : Set (ℤ × ℤ)

/-- The pixels of an image. -/
def Bitmap.frame (i : Bitmap) : Set (ℤ × ℤ) := {q | 0 ≤ q.1 ∧ q.1 < i.width ∧ 0 ≤ q.2 ∧ q.2 < i.height}

/-- `ImageDraw.polygon(…, fill, width=0)` given the pixels inside the polygon: pixels outside of the image are ignored. -/
def Bitmap.paint (i : Bitmap) (pixels : Set (ℤ × ℤ)) (value : Bool) : Bitmap :=
  { i with lit := if value then i.lit ∪ (pixels ∩ i.frame) else i.lit \ (pixels ∩ i.frame) }

/-- `ImageOps.invert(image.convert("L")).convert("1")`. -/
def Bitmap.invert (i : Bitmap) : Bitmap := { i with lit := i.frame \ i.lit }

open Classical in
/-- `Image.paste(image, (x, y), mask)`: pixels set in the mask are copied, if they are in this image. -/
def Bitmap.paste (i image mask : Bitmap) (at' : ℤ × ℤ) : Bitmap :=
  { i with lit := {q | if q ∈ i.frame ∧ (q.1 - at'.1, q.2 - at'.2) ∈ mask.frame ∧ (q.1 - at'.1, q.2 - at'.2) ∈ mask.lit
      then (q.1 - at'.1, q.2 - at'.2) ∈ image.lit else q ∈ i.lit} }

/-- `Image.transpose(FLIP_TOP_BOTTOM)`. -/
def Bitmap.flip (i : Bitmap) : Bitmap := { i with lit := {q | (q.1, i.height - 1 - q.2) ∈ i.lit} }

/-- What is used of the image library: the pixels inside a polygon. -/
structure Raster where
  /-- Filled polygon. -/
  fill : List (ℤ × ℤ) → Set (ℤ × ℤ)

open Classical in
/-- pillow/vm.py 324-328 and 273-282 (`create_eager_layer`, `PillowEagerLayer.__init__`). -/
def pillowCreate (dpmm : ℤ) (box : Box ℝ) : Except VErr Bitmap :=
  if box.width > 0 ∧ box.height > 0 then
    if toPixel dpmm box.width < 0 ∨ toPixel dpmm box.height < 0 then .error .backend
    else .ok ⟨toPixel dpmm box.width, toPixel dpmm box.height, ∅⟩
  else .error .assertion

/-- pillow/vm.py 449-452 and 480-483: the lower left corner of a layer. -/
def corner (b : Box ℝ) : Vec ℝ := ⟨b.center.x - b.width / 2, b.center.y - b.height / 2⟩

/-- pillow/vm.py 445-464 and 510-512 (`_polygon`, `get_color`). -/
def pillowPolygon (R : Raster) (dpmm : ℤ) (e : Eager Bitmap) (points : List (Vec ℝ)) (negative : Bool) : Bitmap :=
  e.content.paint (R.fill (points.map (fun p =>
    (toPixel dpmm (p.x - (corner e.box).x), toPixel dpmm (p.y - (corner e.box).y))))) (!negative)

/-- pillow/vm.py 334-360 (`on_shape_eager`). -/
def pillowShape (R : Raster) (dpmm : ℤ) (fuel : ℕ) (e : Eager Bitmap) (s : Shape) : Except VErr Bitmap :=
  match pillowVertices dpmm fuel s with
  | .error x => .error (arcErr x)
  | .ok points => .ok (pillowPolygon R dpmm e points s.negative)

/-- pillow/vm.py 486-502: where the source image is put. -/
def pillowOffset (dpmm : ℤ) (e src : Eager Bitmap) (center : Vec ℝ) : ℤ × ℤ :=
  (toPixel dpmm (center.x - src.box.width / 2 + src.box.center.x - src.origin.x - (corner e.box).x),
   toPixel dpmm (center.y - src.box.height / 2 + src.box.center.y - src.origin.y - (corner e.box).y))

/-- pillow/vm.py 466-504 (`on_paste_layer_eager`). -/
def pillowPaste (dpmm : ℤ) (e src : Eager Bitmap) (center : Vec ℝ) (negative : Bool) : Bitmap :=
  e.content.paste (if negative then src.content.invert else src.content) src.content (pillowOffset dpmm e src center)

/-- pillow/vm.py 292-512: the overridden methods. -/
def pillow (R : Raster) (dpmm : ℤ) (fuel : ℕ) : Backend Bitmap where
  create _ box := pillowCreate dpmm box
  shape e s := pillowShape R dpmm fuel e s
  paste e src center negative := .ok (pillowPaste dpmm e src center negative)

/-- pillow/vm.py 527-530: the image of the main layer, turned upside down. -/
def pillowResult (e : Eager Bitmap) : Bitmap := e.content.flip

end
end Verif.Render
