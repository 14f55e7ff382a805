import Verif.Spec.Image
import Verif.Spec.Drawing
import Verif.Spec.Area

/-!
# What lies within an outline, and what an aperture looks like

Vocabulary for the statement that a flash puts the image of its aperture on the layer being drawn.
-/

namespace Verif.Spec
open Verif.Visitor Verif.Geom Verif.Rvmc Verif.Vm Verif.Compiler
noncomputable section

/-- The points within the outline of a shape. -/
def within (s : Shape) : Except VErr (Set (Vec ℝ)) := .ok (areaOf s)

/-- The layers that exist in a state of the compiler, each with what is drawn on it. -/
def layersOf (c : CState) : List (Layer LayerId) :=
  c.buffers.keys.filterMap fun k => (c.buffers.get? k).map (Layer.mk k)

/-- An object, every point of it mapped. -/
def Painted.image (f : Vec ℝ → Vec ℝ) (o : Painted (Vec ℝ)) : Painted (Vec ℝ) := ⟨o.dark, f '' o.points⟩

/-- Commands that begin to define the aperture code `id`. -/
def opensCode (id : Name) : Atom → Bool
  | .leaf (.ad i _) => i == id
  | .abOpen i => i == id
  | _ => false

/-- Blocks that are open after a history, innermost first: the code of an `AB` block, nothing for an `SR` block. -/
def openBlocks (h : List Atom) : List (Option Name) :=
  h.foldl (fun open_ a => match a with
    | .abOpen id => some id :: open_
    | .srOpen _ => none :: open_
    | .abClose _ => open_.tail
    | .srClose _ => open_.tail
    | .leaf _ => open_) []

/-- Ends of blocks end the block opened last, as they do in every file. -/
def Nested (h : List Atom) : Prop :=
  ∀ p a q, h = p ++ a :: q →
    (∀ id, a = .abClose id → (openBlocks p).head? = some (some id)) ∧
    (∀ sr, a = .srClose sr → (openBlocks p).head? = some none)

/-- Thermals, by their identity. -/
def thermalNode : Macro.Prim → Option Nat
  | .code7 node _ _ _ _ _ _ => some node
  | _ => none

/-- The thermals that the apertures defined in a history draw, given the macros defined before. -/
def drawnThermals (macros : Name → List Macro.Prim) : List Atom → List Nat
  | [] => []
  | .leaf (.am name body) :: as => drawnThermals (fun n => if n = name then body else macros n) as
  | .leaf (.ad _ (.macro name _)) :: as =>
    (macros name).filterMap thermalNode ++ drawnThermals macros as
  | _ :: as => drawnThermals macros as

end
end Verif.Spec
