import Verif.Model.Hover
import Verif.Spec.History

/-!
# What a preview has to show
-/

namespace Verif.Spec
open Verif.Visitor Verif.Coord Verif.Hover

/-- What a drawing command paints: everything that its appearance depends on. -/
inductive Picture
  | drawn (kind : DrawKind) (inRegion : Bool) (start stop : ℚ × ℚ) (offset : Option (ℚ × ℚ)) (transform : Transform)
      (unit : UnitMode) (aperture : Option Aperture)
  | flashed (kind : FlashKind) (at_ : ℚ × ℚ) (transform : Transform) (unit : UnitMode) (aperture : Aperture)
  deriving DecidableEq

/-- What a callback paints.  The offsets of the centre matter for arcs only. -/
def picture : Event → Option Picture
  | .draw k r s => some (.drawn k r (s.currentX, s.currentY) (s.coordinateX, s.coordinateY)
      (if k = .line then none else some (s.coordinateI, s.coordinateJ)) s.transform s.unit s.currentAperture.toOption)
  | .flash k ap s => some (.flashed k (s.coordinateX, s.coordinateY) s.transform s.unit ap)
  | _ => none

/-- What the last callback paints. -/
def finalPicture (o : Out) : Option Picture := o.ev.getLast?.bind picture

/-- What a definition makes of an aperture: its parameters and, for a macro, the body that the macro has at that
moment. -/
def shapeIn (id : Name) : Event → Option (ApDef × Option (List Macro.Prim))
  | .define i d s =>
    if i = id then some (d, match d with
      | .macro n _ => s.macros.get? n
      | _ => none)
    else none
  | _ => none

/-- The shape of an aperture after these callbacks: that of its latest definition. -/
def shapeOf (o : Out) (id : Name) : Option (ApDef × Option (List Macro.Prim)) := (o.ev.filterMap (shapeIn id)).getLast?

/-- Nodes in the order of the text, none of them empty. -/
def InText : List Located → Prop
  | [] => True
  | [c] => c.start < c.stop
  | c :: d :: cs => c.start < c.stop ∧ c.stop ≤ d.start ∧ InText (d :: cs)

/-- No macro is defined after an aperture that uses its name. -/
def MacrosFirst (h : List Atom) : Prop :=
  ∀ pre n b post, h = pre ++ .leaf (.am n b) :: post → ∀ id ps, Atom.leaf (.ad id (.macro n ps)) ∉ pre

/-- No aperture is defined again after it was selected. -/
def SelectedLast (h : List Atom) : Prop :=
  ∀ pre id post, h = pre ++ .leaf (.dnn id) :: post → ∀ d, Atom.leaf (.ad id d) ∉ post

/-- The conditions under which a preview is right: one `FS` command, with at least one integer and one decimal digit for
each axis; dark polarity; not in a region; the selected aperture was not defined by a block, no aperture is defined
again after it was selected, no macro after an aperture that uses it. -/
structure Previewable (h : List Atom) (f : CoordinateFormat) : Prop where
  format : h.filterMap setsFormat = [f]
  early : ∀ pre a post, h = pre ++ a :: post → setsFormat a ≠ none → ∀ ax, ∀ b ∈ pre, gives ax b = none
  digits : 0 < f.xIntegral ∧ 0 < f.xDecimal ∧ 0 < f.yIntegral ∧ 0 < f.yDecimal
  dark : latest setsPolarity .dark h = .dark
  outside : latest setsRegion false h = false
  noBlock : ∀ id, latest (fun a => (selects a).map some) none h = some id → Atom.abClose id ∉ h
  selectedLast : SelectedLast h
  macrosFirst : MacrosFirst h

end Verif.Spec
