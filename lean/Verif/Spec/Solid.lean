import Verif.Spec.Picture

/-!
# Pictures with an area, and outlines that are more than a line
-/

namespace Verif.Spec
open Verif.Geom Verif.Visitor Verif.Macro

/-- The objects cover a square, however small. -/
def HasArea (objects : List (Painted (Vec ℝ))) : Prop :=
  ∃ v : Vec ℝ, ∃ r > 0, ∀ p : Vec ℝ, |p.x - v.x| ≤ r → |p.y - v.y| ≤ r → Covered objects p

/-- No outline of the file is a single line. -/
structure NoLoneLines (h : List Atom) : Prop where
  /-- Outlines in macros have a second point. -/
  outlines : ∀ name body, .leaf (.am name body) ∈ h → ∀ exposure count startX startY points rotation,
    Prim.code4 exposure count startX startY points rotation ∈ body → points ≠ []
  /-- The contours of regions, which moves and the end of the region complete, have a second segment or are an arc. -/
  contours : ∀ p l q s g gs, h = p ++ .leaf l :: q → ((∃ x y, l = .d02 x y) ∨ l = .g37) → inRegion p = true → Pictured p s →
    s.contour = g :: gs → gs ≠ [] ∨ ∃ a, g = .arc a

end Verif.Spec
