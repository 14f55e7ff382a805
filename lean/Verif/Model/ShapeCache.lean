import Verif.Model.Shape

/-!
# Shapes as objects with a cached bounding box (vm/commands/shape.py 40-54)

`Shape.outer_box` is a cached property: the first reading stores the box in the `__dict__` of the object (pyparsing
`cached_property`), later readings return what is stored.  `Shape.transform` is `model_copy(update={"commands": …})`, and
pydantic's `model_copy` starts from a copy of the `__dict__`.  Segments are rebuilt by their constructors
(shape_segments/line.py 32-37, arc.py 104-115), so their caches start empty and are not modelled.
-/

namespace Verif.ShapeCache

open Verif.Geom

noncomputable section

/-- vm/commands/shape.py 28-46: a shape and what its `__dict__` holds under `outer_box`. -/
structure Object where
  shape : Shape
  cached : Option (Box ℝ)

/-- What a user does with shapes; objects are numbered in the order of their creation. -/
inductive Action
  | new (shape : Shape)
  | outerBox (object : Nat)
  | transform (object : Nat) (matrix : Mat ℝ)

/-- vm/commands/shape.py 40-46: the box and the object afterwards. -/
def Object.outerBox (o : Object) : Box ℝ × Object :=
  match o.cached with
  | some box => (box, o)
  | none => (o.shape.outerBox, { o with cached := some o.shape.outerBox })

/-- vm/commands/shape.py 48-54. -/
def Object.transform (o : Object) (m : Mat ℝ) : Object := { o with shape := o.shape.transform m }

/-- One action: the objects afterwards and the box that was read.  Actions on objects that do not exist do nothing. -/
def act (objects : List Object) : Action → List Object × Option (Box ℝ)
  | .new shape => (objects ++ [⟨shape, none⟩], none)
  | .outerBox i =>
    match objects[i]? with
    | none => (objects, none)
    | some o => (objects.set i o.outerBox.2, some o.outerBox.1)
  | .transform i m =>
    match objects[i]? with
    | none => (objects, none)
    | some o => (objects ++ [o.transform m], none)

/-- The boxes read in the course of a history. -/
def answers (objects : List Object) : List Action → List (Option (Box ℝ))
  | [] => []
  | a :: as => (act objects a).2 :: answers (act objects a).1 as

end

end Verif.ShapeCache
