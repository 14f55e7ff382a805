import Verif.Model.ShapeCache

/-!
# Specification: shapes are values

A shape is a value; asking for its bounding box has no effect on it or on shapes made from it.
-/

namespace Verif.Spec

open Verif.Geom Verif.ShapeCache

noncomputable section

/-- The shapes after an action. -/
def valueAfter (shapes : List Shape) : Action → List Shape
  | .new shape => shapes ++ [shape]
  | .outerBox _ => shapes
  | .transform i m => shapes ++ (shapes[i]?.map (·.transform m)).toList

/-- The box that an action has to give. -/
def boxOf (shapes : List Shape) : Action → Option (Box ℝ)
  | .outerBox i => shapes[i]?.map Shape.outerBox
  | _ => none

/-- The boxes that a history has to give. -/
def boxesOf (shapes : List Shape) : List Action → List (Option (Box ℝ))
  | [] => []
  | a :: as => boxOf shapes a :: boxesOf (valueAfter shapes a) as

/-- No shape is transformed after its box was asked for. -/
def TransformsFirst : List Action → Prop
  | [] => True
  | .outerBox i :: as => (∀ m, .transform i m ∉ as) ∧ TransformsFirst as
  | _ :: as => TransformsFirst as

end

end Verif.Spec
