import Verif.Spec.Raster
import Verif.Spec.Svg
import Verif.Spec.History

/-!
# Pixels and the outlines near them
-/

namespace Verif.Spec
open Verif.Geom Verif.Rvmc Verif.Vm

/-- The point is at most `δ` away from a point of the edge, horizontally and vertically. -/
def Near (δ : ℝ) (p : Vec ℝ) (e : Vec ℝ × Vec ℝ) : Prop :=
  ∃ t, 0 ≤ t ∧ t ≤ 1 ∧ |p.x - ((1 - t) * e.1.x + t * e.2.x)| ≤ δ ∧ |p.y - ((1 - t) * e.1.y + t * e.2.y)| ≤ δ

/-- A pixel as a point of the plane, the side of a pixel being the unit. -/
def place (q : ℤ × ℤ) : Vec ℝ := ⟨q.1, q.2⟩

/-- The image library fills polygons by the even-odd rule, for pixels more than `ρ` away from its sides. -/
def FillsEvenOdd (ρ : ℝ) (fill : List (ℤ × ℤ) → Set (ℤ × ℤ)) : Prop :=
  ∀ corners q, (∀ e ∈ sides (corners.map place), ¬ Near ρ (place q) e) →
    (q ∈ fill corners ↔ WithinLine (corners.map place) (place q))

/-- The points within the outline of a shape. -/
def polygonOf (outline : Shape → Except VErr (List (Vec ℝ))) (s : Shape) : Except VErr (Set (Vec ℝ)) :=
  match outline s with
  | .error x => .error x
  | .ok corners => .ok {p | WithinLine corners p}

/-- `PolygonAt … id n corners`: a polygon with these corners is drawn on the layer `id`, by a shape on this layer (`n = 0`) or
on a layer that is pasted, through `n` layers. -/
inductive PolygonAt {ι : Type} (outline : Shape → Except VErr (List (Vec ℝ))) (layers : List (Layer ι)) :
    ι → ℕ → List (Vec ℝ) → Prop
  | shape (l : Layer ι) (mem : l ∈ layers) (s : Shape) (drawn : .shape s ∈ l.cmds) (corners : List (Vec ℝ))
      (outlined : outline s = .ok corners) : PolygonAt outline layers l.id 0 corners
  | paste (l : Layer ι) (mem : l ∈ layers) (source : ι) (center : Vec ℝ) (negative : Bool)
      (drawn : .paste source center negative ∈ l.cmds) (n : ℕ) (corners : List (Vec ℝ))
      (inner : PolygonAt outline layers source n corners) :
      PolygonAt outline layers l.id (n + 1) (corners.map (· + center))

/-- Outlines lie in the boxes that are computed for the shapes on the layers. -/
def OutlinesInBoxes {ι : Type} (outline : Shape → Except VErr (List (Vec ℝ))) (layers : List (Layer ι)) : Prop :=
  ∀ l ∈ layers, ∀ s, .shape s ∈ l.cmds → ∀ corners, outline s = .ok corners → ∀ v ∈ corners, InBox v s.outerBox

/-- The point is more than `n + 1 + ρ` pixels away from every side of every polygon that is drawn on the layer through `n`
layers. -/
def AwayFromSides {ι : Type} (outline : Shape → Except VErr (List (Vec ℝ))) (layers : List (Layer ι)) (dpmm ρ : ℝ) (id : ι)
    (p : Vec ℝ) : Prop :=
  ∀ n corners, PolygonAt outline layers id n corners → ∀ e ∈ sides corners, ¬ Near ((n + 1 + ρ) / dpmm) p e

open Verif.Visitor in
/-- `G70`, `G71`, `MO`. -/
def setsUnit : Atom → Option UnitMode
  | .leaf .g70 => some .imperial
  | .leaf .g71 => some .metric
  | .leaf (.mo u) => some u
  | _ => none

/-- Millimetres in a unit of length. -/
noncomputable def millimetres : Visitor.UnitMode → ℝ
  | .metric => 1
  | .imperial => 25.4

/-- The place of the lower left corner of a pixel: the columns are counted from the left and the rows from the top of an
image with so many rows. -/
noncomputable def pixelPlace (corner : Vec ℝ) (dpmm rows : ℤ) (column row : ℤ) : Vec ℝ :=
  ⟨corner.x + column / dpmm, corner.y + (rows - 1 - row) / dpmm⟩

end Verif.Spec
