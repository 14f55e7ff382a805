import Verif.Spec.Area
import Verif.Spec.Drawing

/-!
# Strokes
-/

namespace Verif.Spec
open Verif.Geom Verif.Rvmc Verif.Compiler

/-- The points painted by drawing commands that are shapes. -/
def Inked (ds : List (Draw LayerId)) (p : Vec ℝ) : Prop := ∃ s, Draw.shape s ∈ ds ∧ p ∈ areaOf s

/-- The points that a round aperture of diameter `d` touches when it moves straight from `a` to `b`. -/
def Swept (a b : Vec ℝ) (d : ℝ) (p : Vec ℝ) : Prop := ∃ q, OnSegment a b q ∧ vlen (p - q) ≤ d / 2

/-- The points that a round aperture of diameter `d` touches when it moves along the arc from `a` to `b` about `c` in the
given sense; from a point to itself that is the whole circle. -/
def SweptAlong (clockwise : Bool) (a b c : Vec ℝ) (d : ℝ) (p : Vec ℝ) : Prop :=
  ∃ q t, Sweep clockwise (a - c) (b - c) t ∧ OnArc a c clockwise t q ∧ vlen (p - q) ≤ d / 2

end Verif.Spec
