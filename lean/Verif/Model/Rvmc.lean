import Verif.Model.Shape

/-!
# Commands of the rendering virtual machine (vm/commands, vm/rvmc.py)

`ι` is the type of layer identifiers (`LayerID`, vm/types/layer_id.py 10-21: a text compared by value).
Simplification: `metadata` is not modelled.
-/

namespace Verif.Rvmc
open Verif.Geom

/-- The drawing commands (vm/vm.py 27): `Shape` and `PasteLayer` (vm/commands/paste.py 18-23). -/
inductive Draw (ι : Type)
  | shape (s : Shape)
  | paste (source : ι) (center : Vec ℝ) (negative : Bool)

/-- vm/commands: the drawing commands, `StartLayer` (layer.py 16-21) and `EndLayer` (layer.py 28-33). -/
inductive Command (ι : Type)
  | start (id : ι) (box : Option (Box ℝ)) (origin : Vec ℝ)
  | draw (d : Draw ι)
  | stop

/-- The layers a list of drawing commands pastes. -/
def Draw.sources {ι : Type} (cmds : List (Draw ι)) : List ι :=
  cmds.filterMap fun
    | .paste s _ _ => some s
    | .shape _ => none

end Verif.Rvmc
