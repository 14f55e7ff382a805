import Verif.Model.State
import Verif.Spec.Numeral

/-!
# Histories of commands

Vocabulary for properties of the form "after any history": the commands a file executes, and "the latest command of
some kind".  Only the command and data types come from the model.
-/

namespace Verif.Spec
open Verif.Visitor Verif.Coord

/-- The latest value that `f` assigns to a command of the history, or `d`. -/
def latest {α : Type} (f : Atom → Option α) (d : α) (h : List Atom) : α := (h.filterMap f).getLast?.getD d

mutual
/-- The commands of a node in the order of the text, with block bodies bracketed. -/
def atomsOf : Cmd → List Atom
  | .leaf l => [.leaf l]
  | .ab id body => .abOpen id :: (atomsOfAll body ++ [.abClose id])
  | .sr p body => .srOpen p :: (atomsOfAll body ++ [.srClose p])
def atomsOfAll : List Cmd → List Atom
  | [] => []
  | c :: cs => atomsOf c ++ atomsOfAll cs
end

/-- `M00` and `M02`. -/
def isStop : Atom → Bool
  | .leaf .m00 => true
  | .leaf .m02 => true
  | _ => false

/-- The commands that a file executes.  `resume` says whether processing goes on with the next top-level node after
a stop command (which then abandons the rest of the top-level node that contains it). -/
def executed (resume : Bool) : List Cmd → List Atom
  | [] => []
  | c :: cs =>
    if (atomsOf c).any isStop then
      (atomsOf c).takeWhile (fun a => !isStop a) ++ (if resume then executed resume cs else [])
    else atomsOf c ++ executed resume cs

/-- `G01`, `G02`, `G03`. -/
def setsPlot : Atom → Option Plot
  | .leaf .g01 => some .linear
  | .leaf .g02 => some .arc
  | .leaf .g03 => some .ccwArc
  | _ => none

/-- `G74`, `G75`. -/
def setsQuad : Atom → Option Quad
  | .leaf .g74 => some .single
  | .leaf .g75 => some .multi
  | _ => none

/-- `G36`, `G37`. -/
def setsRegion : Atom → Option Bool
  | .leaf .g36 => some true
  | .leaf .g37 => some false
  | _ => none

/-- `LP`. -/
def setsPolarity : Atom → Option Polarity
  | .leaf (.lp p) => some p
  | _ => none

/-- `LM`. -/
def setsMirroring : Atom → Option Mirroring
  | .leaf (.lm m) => some m
  | _ => none

/-- `LR`. -/
def setsRotation : Atom → Option ℚ
  | .leaf (.lr r) => some r
  | _ => none

/-- `LS`. -/
def setsScaling : Atom → Option ℚ
  | .leaf (.ls k) => some k
  | _ => none

/-- Which drawing a `D01` is in a plot mode and a quadrant mode. -/
def drawingOf (p : Plot) (q : Quad) : DrawKind :=
  if p = .linear then .line
  else if p = .arc then (if q = .single then .cwSq else .cwMq)
  else (if q = .single then .ccwSq else .ccwMq)

/-- The drawings a list of commands must produce, given the commands executed before it. -/
def drawsExpected : List Atom → List Atom → List (DrawKind × Bool)
  | _, [] => []
  | before, .leaf (.d01 x y i j) :: rest =>
    (drawingOf (latest setsPlot .linear before) (latest setsQuad .single before), latest setsRegion false before)
      :: drawsExpected (before ++ [.leaf (.d01 x y i j)]) rest
  | before, a :: rest => drawsExpected (before ++ [a]) rest

/-- The text given for a coordinate by `D01`, `D02`, `D03`. -/
def gives : Axis → Atom → Option (List Char)
  | .x, .leaf (.d01 x _ _ _) => x
  | .x, .leaf (.d02 x _) => x
  | .x, .leaf (.d03 x _) => x
  | .y, .leaf (.d01 _ y _ _) => y
  | .y, .leaf (.d02 _ y) => y
  | .y, .leaf (.d03 _ y) => y
  | _, _ => none

/-- `FS`. -/
def setsFormat : Atom → Option CoordinateFormat
  | .leaf (.fs f) => some f
  | _ => none

/-- `G90`, `G91`. -/
def setsNotation : Atom → Bool
  | .leaf .g90 => true
  | .leaf .g91 => true
  | _ => false

/-- The coordinate format in force after a history: the latest `FS`, or the default 2.6 format when `G90`/`G91`
occurred without any `FS`. -/
def FormatInForce (h : List Atom) (f : CoordinateFormat) : Prop :=
  (h.filterMap setsFormat).getLast? = some f ∨
    (h.filterMap setsFormat = [] ∧ (∃ a ∈ h, setsNotation a) ∧ f = {})

/-- `v` is the value last given for the coordinate in the history, read in the format in force at that command; or it
is 0 and no value was given. -/
def LastGiven (a : Axis) (h : List Atom) (v : ℚ) : Prop :=
  (∃ pre c post t f, h = pre ++ c :: post ∧ gives a c = some t ∧ (∀ b ∈ post, gives a b = none) ∧
    FormatInForce pre f ∧ f.unpack a t = .ok v) ∨ ((∀ b ∈ h, gives a b = none) ∧ v = 0)

/-- Effect of a command on the file attribute `n`. -/
def setsFileAttr (n : Name) : Atom → Option (Option Name)
  | .leaf (.tf m v) => if m = n then some (some v) else none
  | _ => none

/-- Effect of a command on the aperture attribute `n`: set, deleted or unchanged. -/
def setsApertureAttr (n : Name) : Atom → Option (Option Name)
  | .leaf (.ta m v) => if m = n then some (some v) else none
  | .leaf (.td none) => some none
  | .leaf (.td (some m)) => if m = n then some none else none
  | _ => none

/-- Effect of a command on the object attribute `n`. -/
def setsObjectAttr (n : Name) : Atom → Option (Option Name)
  | .leaf (.to m v) => if m = n then some (some v) else none
  | .leaf (.td none) => some none
  | .leaf (.td (some m)) => if m = n then some none else none
  | _ => none

/-- The aperture that a command stores under the code `id`: `AD`, or the end of an `AB` block. -/
def stores (id : Name) : Atom → Option Aperture
  | .leaf (.ad i d) => if i = id then some (.ad i d) else none
  | .abClose i => if i = id then some (.ab i) else none
  | _ => none

/-- `Dnn`. -/
def selects : Atom → Option Name
  | .leaf (.dnn id) => some id
  | _ => none

/-- Number denoted by an aperture code `D…`. -/
def CodeNumber (id : Name) (n : Nat) : Prop := ∃ ds, id = 'D' :: ds ∧ ds ≠ [] ∧ Digits ds ∧ numeral ds = n

end Verif.Spec
