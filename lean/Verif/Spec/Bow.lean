import Verif.Spec.Enclosed
import Verif.Spec.Image

/-!
# Vector images and the picture
-/

namespace Verif.Spec
open Verif.Geom Verif.Vm Real
noncomputable section

/-- How far the chords of a piece are from it, if an arc is divided into at least `n` parts for a full turn: not at all for
a line, and the height of the bow over a chord of one `n`-th of a turn for an arc. -/
def bow (n : ℕ) : Segment → ℝ
  | .line _ => 0
  | .arc a => vlen (a.start - a.center) * (1 - cos (π / n))

/-- A point is on no line of an outline, and further away from the arcs than the chords are. -/
def ClearOf (n : ℕ) (s : Shape) (p : Vec ℝ) : Prop :=
  (∀ g ∈ s.segments, ∀ v, OnPiece v g → bow n g < vlen (p - v)) ∧
    ∀ g ∈ successors s.segments, ¬ OnSegment g.1.stop g.2.start p

/-- A point is clear of all outlines that are drawn on a layer or pasted on it. -/
def ClearOfOutlines {ι : Type} (n : ℕ) (layers : List (Layer ι)) (id : ι) (p : Vec ℝ) : Prop :=
  ∀ m s c, ShapeAt layers id m s c → ClearOf n s (p - c)

/-- A set is the inside of a polygon by the even-odd rule, but for the points on its sides. -/
def EvenOddInside (region : Set (Vec ℝ)) (corners : List (Vec ℝ)) : Prop :=
  ∀ p, (∀ e ∈ sides corners, ¬ OnSegment e.1 e.2 p) → (p ∈ region ↔ WithinLine corners p)

end
end Verif.Spec
