import Verif.Spec.Geom
import Verif.Model.Vm
import Mathlib.Data.Set.Lattice

/-!
# Vocabulary for rendering: discretised arcs and painting
-/

namespace Verif.Spec
open Verif.Geom

/-- Angles that begin with 0, increase by at most `step` each, and end with `t`. -/
def Discretises (t step : ℝ) (offsets : List ℝ) : Prop :=
  offsets.head? = some 0 ∧ offsets.getLast? = some t ∧ offsets.IsChain (fun a b => a < b ∧ b - a ≤ step)

/-- Lists of points that are equal up to immediate repetitions of a point. -/
inductive SamePath : List (Vec ℝ) → List (Vec ℝ) → Prop
  | refl (l) : SamePath l l
  | symm {l m} : SamePath l m → SamePath m l
  | trans {l m n} : SamePath l m → SamePath m n → SamePath l n
  | repeated (before p after) : SamePath (before ++ p :: p :: after) (before ++ p :: after)

/-- Points along a segment: the two ends of a line, or points of an arc from its start to its end, in its direction, at
most `step` radians apart. -/
def Follows (step : ℝ) : Segment → List (Vec ℝ) → Prop
  | .line l, pts => pts = [l.start, l.stop]
  | .arc a, pts => ∃ t offs, Sweep a.clockwise (a.start - a.center) (a.stop - a.center) t ∧ Discretises t step offs ∧
      pts = offs.map (fun τ => a.center + turn a.clockwise τ (a.start - a.center)) ∧ pts.getLast? = some a.stop

/-- The radius of an arc; a line has none. -/
noncomputable def arcRadius : Segment → ℝ
  | .line _ => 1
  | .arc a => vlen (a.start - a.center)

/-- Points along a segment: the two ends of a line, or points of an arc from its start to its end, in its direction, at
most `ε` apart, measured along the arc. -/
def Along (ε : ℝ) (g : Segment) (pts : List (Vec ℝ)) : Prop := Follows (ε / arcRadius g) g pts

/-- A line, or an arc with a radius, whose ends are different points equally far from the centre. -/
def NotClosed : Segment → Prop
  | .line _ => True
  | .arc a => a.start ≠ a.center ∧ vlen (a.start - a.center) = vlen (a.stop - a.center) ∧ a.start ≠ a.stop

/-- An object on a layer: whether it is dark, and the points (or pixels) it contains. -/
structure Painted (α : Type) where
  dark : Bool
  points : Set α

/-- After painting the objects in order, a point is covered when the last object that contains it is dark. -/
def Covered {α : Type} (objects : List (Painted α)) (p : α) : Prop :=
  ∃ before o after, objects = before ++ o :: after ∧ p ∈ o.points ∧ (∀ o' ∈ after, p ∉ o'.points) ∧ o.dark = true

/-! ## What a program paints

A machine that keeps, for every layer, the list of the objects drawn on it. -/

open Verif.Vm Verif.Rvmc

/-- Objects as sets of points of the plane; `outline` gives the points of a shape.  Pasting a layer is drawing one object:
the points covered on that layer, moved so that its origin is at the given point. -/
def painting (outline : Shape → Except VErr (Set (Vec ℝ))) : Backend (List (Painted (Vec ℝ))) where
  create _ _ := .ok []
  shape e s := do
    let points ← outline s
    return e.content ++ [⟨!s.negative, points⟩]
  paste e src center negative := .ok (e.content ++ [⟨!negative, {p | Covered src.content (p - center + src.origin)}⟩])

/-- Rounding towards zero. -/
noncomputable def towardZero (x : ℝ) : ℤ := if 0 ≤ x then ⌊x⌋ else -⌊-x⌋

/-- Pixels at `dpmm` pixels per unit, rounded towards zero. -/
noncomputable def pixel (dpmm : ℤ) (v : Vec ℝ) : ℤ × ℤ := (towardZero (v.x * dpmm), towardZero (v.y * dpmm))

/-- The lower left corner of a box. -/
noncomputable def lowerLeft (b : Box ℝ) : Vec ℝ := ⟨min b.minX b.maxX, min b.minY b.maxY⟩

/-- The pixels of the image of a box. -/
def imageOf (dpmm : ℤ) (b : Box ℝ) : Set (ℤ × ℤ) :=
  {q | 0 ≤ q.1 ∧ q.1 < towardZero (|b.maxX - b.minX| * dpmm) ∧ 0 ≤ q.2 ∧ q.2 < towardZero (|b.maxY - b.minY| * dpmm)}

/-- Objects as sets of pixels of the image of their layer, whose pixel (0, 0) is the lower left corner of the box.
`outline` gives the vertices of a shape and `fill` the pixels of a polygon.  Pasting a layer is drawing one object: the
pixels covered on the image of that layer, moved so that its origin is at the given point. -/
noncomputable def pixelPainting (dpmm : ℤ) (outline : Shape → Except VErr (List (Vec ℝ)))
    (fill : List (ℤ × ℤ) → Set (ℤ × ℤ)) : Backend (List (Painted (ℤ × ℤ))) where
  create _ _ := .ok []
  shape e s := do
    let vertices ← outline s
    return e.content ++ [⟨!s.negative, fill (vertices.map (fun p => pixel dpmm (p - lowerLeft e.box)))⟩]
  paste e src center negative :=
    let shift := pixel dpmm (center + lowerLeft src.box - src.origin - lowerLeft e.box)
    .ok (e.content ++ [⟨!negative, {q | (q.1 - shift.1, q.2 - shift.2) ∈ imageOf dpmm src.box ∧
      Covered src.content (q.1 - shift.1, q.2 - shift.2)}⟩])

end Verif.Spec
