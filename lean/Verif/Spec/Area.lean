import Verif.Spec.Geom
import Verif.Model.Rvmc
import Mathlib.Topology.Instances.Real.Lemmas

/-!
# The area of a shape
-/

namespace Verif.Spec
open Verif.Geom Verif.Rvmc

/-- The points of a piece of an outline: a straight segment, or the arc in the given sense from its start to its end. -/
def OnPiece (p : Vec ℝ) : Segment → Prop
  | .line l => OnSegment l.start l.stop p
  | .arc a => ∃ t, Sweep a.clockwise (a.start - a.center) (a.stop - a.center) t ∧ OnArc a.start a.center a.clockwise t p

/-- The points of the pieces of an outline. -/
def OnOutline (s : Shape) (p : Vec ℝ) : Prop := ∃ g ∈ s.segments, OnPiece p g

/-- The pieces of an outline with the one that follows each; the first follows the last. -/
def successors (pieces : List Segment) : List (Segment × Segment) := pieces.zip (pieces.tail ++ pieces.take 1)

/-- The points of the closed curve along the pieces: where a piece does not begin at the end of the one before it, the two
points are joined by a straight segment. -/
def OnRim (s : Shape) (p : Vec ℝ) : Prop :=
  OnOutline s p ∨ ∃ g ∈ successors s.segments, OnSegment g.1.stop g.2.start p

/-- The points on a curve or enclosed by it: a path that begins there cannot get arbitrarily far away without meeting
the curve. -/
def Surrounded (curve : Vec ℝ → Prop) : Set (Vec ℝ) :=
  {p | ∃ r : ℝ, ∀ path : ℝ → Vec ℝ, Continuous (fun t => (path t).x) → Continuous (fun t => (path t).y) →
    path 0 = p → (∀ t, ¬ curve (path t)) → ∀ t, |(path t).x| ≤ r ∧ |(path t).y| ≤ r}

/-- The points of a shape: those on its outline and those enclosed by it. -/
def areaOf (s : Shape) : Set (Vec ℝ) := Surrounded (OnRim s)

end Verif.Spec
