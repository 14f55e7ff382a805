import Verif.Model.Geom
import Mathlib.Analysis.SpecialFunctions.Trigonometric.Basic

/-!
# Geometric vocabulary used by the statements

Only the data types (`Vec`, `Box`) come from the model.
-/

namespace Verif.Spec
open Verif.Geom

/-- The point lies in the (closed) box. -/
def InBox {K : Type*} [LE K] (p : Vec K) (b : Box K) : Prop :=
  b.minX ≤ p.x ∧ p.x ≤ b.maxX ∧ b.minY ≤ p.y ∧ p.y ≤ b.maxY

/-- Box `a` is contained in box `b`, bound by bound. -/
def BoxIn {K : Type*} [LE K] (a b : Box K) : Prop :=
  b.minX ≤ a.minX ∧ b.minY ≤ a.minY ∧ a.maxX ≤ b.maxX ∧ a.maxY ≤ b.maxY

/-- Squared distance. -/
def distSq {K : Type*} [CommRing K] (p q : Vec K) : K := (p.x - q.x) ^ 2 + (p.y - q.y) ^ 2

noncomputable section
open Real

/-- Distance from the origin. -/
def vlen (v : Vec ℝ) : ℝ := √(v.x ^ 2 + v.y ^ 2)

/-- Counter-clockwise rotation about the origin by `t` radians. -/
def rotCcw (t : ℝ) (v : Vec ℝ) : Vec ℝ := ⟨cos t * v.x - sin t * v.y, sin t * v.x + cos t * v.y⟩

/-- Rotation about the origin by `t` radians in the given sense. -/
def turn (clockwise : Bool) (t : ℝ) (v : Vec ℝ) : Vec ℝ := rotCcw (if clockwise then -t else t) v

/-- Turning the direction of `u` by `t` (in the given sense) gives the direction of `v`, and `t` is more than zero and
at most one turn. -/
def Sweep (clockwise : Bool) (u v : Vec ℝ) (t : ℝ) : Prop :=
  0 < t ∧ t ≤ 2 * π ∧ (turn clockwise t u).x * vlen v = v.x * vlen u ∧ (turn clockwise t u).y * vlen v = v.y * vlen u

/-- The points of the circular arc that begins at `start` and turns about `center` by `t` radians. -/
def OnArc (start center : Vec ℝ) (clockwise : Bool) (t : ℝ) (p : Vec ℝ) : Prop :=
  ∃ τ, 0 ≤ τ ∧ τ ≤ t ∧ p = center + turn clockwise τ (start - center)

/-- The points of the straight segment between `a` and `b`. -/
def OnSegment (a b p : Vec ℝ) : Prop :=
  ∃ l : ℝ, 0 ≤ l ∧ l ≤ 1 ∧ p = ⟨a.x + l * (b.x - a.x), a.y + l * (b.y - a.y)⟩

end
end Verif.Spec
