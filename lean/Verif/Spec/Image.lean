import Verif.Spec.Compile
import Verif.Spec.Render

/-!
# The image described by layers that paste each other
-/

namespace Verif.Spec
open Verif.Geom Verif.Rvmc Verif.Vm

mutual
/-- `Shows outline layers id objects`: what is drawn on the layer `id` are the `objects`, in order. -/
inductive Shows {ι : Type} (outline : Shape → Except VErr (Set (Vec ℝ))) (layers : List (Layer ι)) :
    ι → List (Painted (Vec ℝ)) → Prop
  | layer (l : Layer ι) (objects : List (Painted (Vec ℝ))) (mem : l ∈ layers) (drawn : ShowsAll outline layers l.cmds objects) :
      Shows outline layers l.id objects
/-- The objects drawn by commands: for a shape the points within its outline; for a pasted layer the points covered on
that layer, moved so that its origin is at the given point. -/
inductive ShowsAll {ι : Type} (outline : Shape → Except VErr (Set (Vec ℝ))) (layers : List (Layer ι)) :
    List (Draw ι) → List (Painted (Vec ℝ)) → Prop
  | nil : ShowsAll outline layers [] []
  | shape (s : Shape) (points : Set (Vec ℝ)) (ds : List (Draw ι)) (os : List (Painted (Vec ℝ)))
      (inside : outline s = .ok points) (more : ShowsAll outline layers ds os) :
      ShowsAll outline layers (.shape s :: ds) (⟨!s.negative, points⟩ :: os)
  | paste (source : ι) (center : Vec ℝ) (negative : Bool) (objects : List (Painted (Vec ℝ))) (ds : List (Draw ι))
      (os : List (Painted (Vec ℝ))) (pasted : Shows outline layers source objects) (more : ShowsAll outline layers ds os) :
      ShowsAll outline layers (.paste source center negative :: ds) (⟨!negative, {p | Covered objects (p - center)}⟩ :: os)
end

end Verif.Spec
