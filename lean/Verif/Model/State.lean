import Verif.Model.Coord
import Verif.Model.Dict
import Verif.Model.Macro

/-!
# The state tracking visitor (gerber/ast/state_tracking_visitor.py 249-953)

The visitor is modelled as a function from a state and a command to a new state, the callbacks that were invoked
(with a snapshot of the state seen by the callback) and the exception raised, if any.  Mutations made before an
exception persist, as in Python.

Simplifications: attribute values and the nodes stored in dictionaries are reduced to the data the callbacks read;
source positions and comments are dropped; deprecated image attributes other than those of the state are dropped.
-/

namespace Verif.Visitor
open Verif.Coord

/-- Names and codes are character lists. -/
abbrev Name := List Char

/-- gerber/ast/nodes/aperture/AD{C,R,O,P,macro}.py: the payload of an aperture definition.  `params=None` and an
empty list behave the same. -/
inductive ApDef
  | circle (diameter : ℚ) (hole : Option ℚ)
  | rect (width height : ℚ) (hole : Option ℚ)
  | obround (width height : ℚ) (hole : Option ℚ)
  | polygon (diameter : ℚ) (vertices : Nat) (rotation : Option ℚ) (hole : Option ℚ)
  | «macro» (name : Name) (params : List ℚ)
  deriving DecidableEq, Repr

/-- gerber/ast/nodes/enums.py: `Polarity`. -/
inductive Polarity | clear | dark
  deriving DecidableEq, Repr
/-- gerber/ast/nodes/enums.py: `Mirroring`. -/
inductive Mirroring | none | xy | x | y
  deriving DecidableEq, Repr
/-- gerber/ast/nodes/enums.py: `UnitMode`. -/
inductive UnitMode | imperial | metric
  deriving DecidableEq, Repr
/-- gerber/ast/nodes/enums.py: `ImagePolarity`. -/
inductive ImagePolarity | positive | negative
  deriving DecidableEq, Repr
/-- gerber/ast/nodes/enums.py: `AxisCorrespondence`. -/
inductive AxisCorrespondence | axBy | ayBx
  deriving DecidableEq, Repr
/-- state_tracking_visitor.py 323-333 (`PlotMode`). -/
inductive Plot | linear | arc | ccwArc
  deriving DecidableEq, Repr
/-- state_tracking_visitor.py 336-343 (`ArcInterpolation`). -/
inductive Quad | single | multi
  deriving DecidableEq, Repr

/-- state_tracking_visitor.py 302-320 (`Transform`). -/
structure Transform where
  polarity : Polarity := .dark
  mirroring : Mirroring := .none
  rotation : ℚ := 0
  scaling : ℚ := 1
  deriving DecidableEq, Repr

/-- state_tracking_visitor.py 262-299 (`ImageAttributes`). -/
structure ImageAttributes where
  polarity : ImagePolarity := .positive
  rotation : ℚ := 0
  aMirroring : Int := 0
  bMirroring : Int := 0
  aOffset : Option ℚ := some 0
  bOffset : Option ℚ := some 0
  aScale : Option ℚ := some 0
  bScale : Option ℚ := some 0
  imageName : Option Name := .none
  fileName : Option Name := .none
  axis : AxisCorrespondence := .axBy
  deriving DecidableEq, Repr

/-- gerber/ast/nodes/aperture/SR_open.py 17-47: repeats and deltas (`X`, `Y` default to 1, `I`, `J` to 0).  The
node identity is used by the compiler to name a buffer. -/
structure SrParams where
  node : Nat
  xRepeats : Nat
  yRepeats : Nat
  xDelta : ℚ
  yDelta : ℚ
  deriving DecidableEq, Repr

/-- Commands without a body. -/
inductive Leaf
  | ad (id : Name) (d : ApDef)
  | am (name : Name) (body : List Macro.Prim)
  | ta (name value : Name) | tf (name value : Name) | to (name value : Name)
  | td (name : Option Name)
  | d01 (x y i j : Option (List Char))
  | d02 (x y : Option (List Char))
  | d03 (x y : Option (List Char))
  | dnn (id : Name)
  | g01 | g02 | g03 | g04 | g36 | g37 | g54 | g55 | g70 | g71 | g74 | g75 | g90 | g91
  | lm (m : Mirroring) | ln (name : Name) | lp (p : Polarity) | lr (rotation : ℚ) | ls (scale : ℚ)
  | m00 | m01 | m02
  | as_ (a : AxisCorrespondence) | fs (f : CoordinateFormat) | in_ (name : Name) | ip (p : ImagePolarity)
  | ir (rotation : ℚ) | mi (a b : Int) | mo (u : UnitMode) | of_ (a b : Option ℚ) | sf (a b : Option ℚ)

/-- Nodes of a file: gerber/ast/nodes/file.py, aperture/AB.py, aperture/SR.py. -/
inductive Cmd
  | leaf (l : Leaf)
  | ab (id : Name) (body : List Cmd)
  | sr (p : SrParams) (body : List Cmd)

/-- A flattened command: leaves, and the two ends of a block. -/
inductive Atom
  | leaf (l : Leaf)
  | abOpen (id : Name) | abClose (id : Name)
  | srOpen (p : SrParams) | srClose (p : SrParams)

/-- Exceptions: `ProgramStop`, `CoordinateFormatNotSetError`, the errors of unpacking, `ApertureNotSelectedError`,
`ApertureNotFoundError` (gerber/ast/errors.py). -/
inductive Exn
  | programStop | formatNotSet | unpack (e : Coord.Err) | apertureNotSelected | apertureNotFound (id : Name)
  deriving DecidableEq, Repr

/-- The draw callbacks: `on_draw_line`, `on_draw_cw_arc_sq`, … -/
inductive DrawKind | line | cwSq | cwMq | ccwSq | ccwMq
  deriving DecidableEq, Repr

/-- The flash callbacks: `on_flash_circle`, … -/
inductive FlashKind | circle | rectangle | obround | polygon | «macro» | block
  deriving DecidableEq, Repr

/-- An aperture as returned by `State.current_aperture`: an `AD` node or an `AB` node. -/
inductive Aperture
  | ad (id : Name) (d : ApDef)
  | ab (id : Name)
  deriving DecidableEq, Repr

/-- `State` (state_tracking_visitor.py 372-423, with `Attributes` 249-259 and `ApertureStorage` 346-359) together
with the three handler slots of the visitor (462-497): `_on_d01_handler` as (kind, in region), `_on_d03_handler`
(`none` is the lambda that throws) and `_dispatch_d01_handler`. -/
structure VState where
  unit : UnitMode := .metric
  format : Option CoordinateFormat := none
  plot : Plot := .linear
  quad : Quad := .single
  apId : Option Name := none
  currentX : ℚ := 0
  currentY : ℚ := 0
  coordX : Option ℚ := none
  coordY : Option ℚ := none
  coordI : Option ℚ := none
  coordJ : Option ℚ := none
  transform : Transform := {}
  apertures : Dict Name ApDef := []
  blocks : Dict Name Unit := []
  macros : Dict Name (List Macro.Prim) := []
  perAperture : Dict Name (Dict Name Name) := []
  apertureAttrs : Dict Name Name := []
  fileAttrs : Dict Name Name := []
  objectAttrs : Dict Name Name := []
  image : ImageAttributes := {}
  isRegion : Bool := false
  drawHandler : DrawKind × Bool := (.line, false)
  flashHandler : Option FlashKind := none
  dispatchInRegion : Bool := false

namespace VState

/-- state_tracking_visitor.py 499-505 (`coordinate_x`). -/
def coordinateX (s : VState) : ℚ := s.coordX.getD s.currentX
/-- state_tracking_visitor.py 507-513 (`coordinate_y`). -/
def coordinateY (s : VState) : ℚ := s.coordY.getD s.currentY
/-- state_tracking_visitor.py 515-521 (`coordinate_i`). -/
def coordinateI (s : VState) : ℚ := s.coordI.getD 0
/-- state_tracking_visitor.py 523-529 (`coordinate_j`). -/
def coordinateJ (s : VState) : ℚ := s.coordJ.getD 0
/-- state_tracking_visitor.py 531-534 (`is_negative`). -/
def isNegative (s : VState) : Bool := s.transform.polarity == .clear

/-- state_tracking_visitor.py 426-438 (`current_aperture`). -/
def currentAperture (s : VState) : Except Exn Aperture :=
  match s.apId with
  | none => .error .apertureNotSelected
  | some id =>
    match s.apertures.get? id with
    | some d => .ok (.ad id d)
    | none => match s.blocks.get? id with
      | some () => .ok (.ab id)
      | none => .error (.apertureNotFound id)

/-- state_tracking_visitor.py 848. -/
def putX (s : VState) (v : ℚ) : VState := { s with coordX := some v }
/-- state_tracking_visitor.py 857. -/
def putY (s : VState) (v : ℚ) : VState := { s with coordY := some v }
/-- state_tracking_visitor.py 866. -/
def putI (s : VState) (v : ℚ) : VState := { s with coordI := some v }
/-- state_tracking_visitor.py 875. -/
def putJ (s : VState) (v : ℚ) : VState := { s with coordJ := some v }

/-- state_tracking_visitor.py 612-616 (`_update_coordinates`). -/
def updateCoordinates (s : VState) : VState :=
  let s := match s.coordX with
    | some x => { s with currentX := x }
    | none => s
  match s.coordY with
  | some y => { s with currentY := y }
  | none => s

/-- state_tracking_visitor.py 464-477 and 478-491: the two handler tables. -/
def drawTable : Plot → Quad → DrawKind
  | .linear, .single => .line
  | .linear, .multi => .line
  | .arc, .single => .cwSq
  | .arc, .multi => .cwMq
  | .ccwArc, .single => .ccwSq
  | .ccwArc, .multi => .ccwMq

/-- state_tracking_visitor.py 685-693: the bound `_dispatch_d01_handler`. -/
def dispatch (s : VState) : VState :=
  { s with drawHandler := (drawTable s.plot s.quad, s.dispatchInRegion) }

/-- state_tracking_visitor.py 715-719 (`on_start_region`). -/
def startRegion (s : VState) : VState := dispatch { s with isRegion := true, dispatchInRegion := true }

/-- state_tracking_visitor.py 754-758 (`on_end_region`). -/
def endRegion (s : VState) : VState := dispatch { s with isRegion := false, dispatchInRegion := false }

end VState

/-- Callbacks of the visitor that subclasses override, with the state at the time of the call.  `define` is
`on_adc`/… after `on_ad`. -/
inductive Event
  | draw (kind : DrawKind) (inRegion : Bool) (s : VState)
  | flash (kind : FlashKind) (ap : Aperture) (s : VState)
  | startRegion | flushRegion (s : VState) | endRegion
  | define (id : Name) (d : ApDef) (s : VState)
  | abOpen (id : Name) | abClose (id : Name)
  | srOpen (p : SrParams) | srClose (p : SrParams) (s : VState)

/-- Outcome of visiting: state, callbacks in order, exception. -/
structure Out where
  st : VState
  ev : List Event
  exn : Option Exn

namespace Out

/-- Normal termination. -/
def ok (s : VState) (ev : List Event := []) : Out := ⟨s, ev, none⟩

/-- Termination by an exception. -/
def fail (s : VState) (e : Exn) : Out := ⟨s, [], some e⟩

/-- Sequencing: `f` runs only when the first part raised nothing. -/
def andThen (a : Out) (f : VState → Out) : Out :=
  match a.exn with
  | some e => ⟨a.st, a.ev, some e⟩
  | none => ⟨(f a.st).st, a.ev ++ (f a.st).ev, (f a.st).exn⟩

end Out

/-- state_tracking_visitor.py 842-876 (`on_coordinate_x`, `_y`, `_i`, `_j`): `put` stores the value; nothing
happens for an absent coordinate (ast_visitor.py 383-423). -/
def coordinate (a : Axis) (put : ℚ → VState → VState) (text : Option (List Char)) (s : VState) : Out :=
  match text with
  | none => .ok s
  | some t =>
    match s.format with
    | none => .fail s .formatNotSet
    | some f => match f.unpack a t with
      | .ok v => .ok (put v s)
      | .error e => .fail s (.unpack e)

/-- Coordinates `X` and `Y`, in the order in which ast_visitor.py 383-423 visits them. -/
def visitXY (x y : Option (List Char)) (s : VState) : Out :=
  (coordinate .x (fun v s => s.putX v) x s).andThen (coordinate .y (fun v s => s.putY v) y)

/-- Coordinates `I` and `J` of a `D01`, ast_visitor.py 391-395. -/
def visitIJ (i j : Option (List Char)) (s : VState) : Out :=
  (coordinate .x (fun v s => s.putI v) i s).andThen (coordinate .y (fun v s => s.putJ v) j)

/-- state_tracking_visitor.py 657-668: the flash callback for an aperture. -/
def flashKind : Aperture → FlashKind
  | .ad _ (.circle ..) => .circle
  | .ad _ (.rect ..) => .rectangle
  | .ad _ (.obround ..) => .obround
  | .ad _ (.polygon ..) => .polygon
  | .ad _ (.macro ..) => .macro
  | .ab _ => .block

/-- state_tracking_visitor.py 538-545 and 547-552: the common part of `on_ab` and `on_ad`. -/
def storeAttributes (id : Name) (s : VState) : VState :=
  { s with perAperture := s.perAperture.set id s.apertureAttrs }

/-- state_tracking_visitor.py 629-630: the argument `current_aperture` is evaluated before the handler runs. -/
def flashCurrent (s : VState) : Out :=
  match s.currentAperture with
  | .error e => .fail s e
  | .ok ap => match s.flashHandler with
    | none => .fail s .apertureNotSelected
    | some k => .ok s.updateCoordinates [.flash k ap s]

/-- state_tracking_visitor.py 786-802 (`on_g90`, `on_g91`). -/
def setNotation (n : Notation) (s : VState) : VState :=
  { s with format := some { s.format.getD {} with notation_ := n } }

/-- The `on_…` methods of `StateTrackingVisitor`, one case per command: state_tracking_visitor.py 547-940. -/
def stepLeaf (s : VState) : Leaf → Out
  -- 547-552
  | .ad id d =>
    let s := storeAttributes id { s with apertures := s.apertures.set id d }
    .ok s [.define id d s]
  -- 554-557
  | .am name body => .ok { s with macros := s.macros.set name body }
  -- 561-582
  | .ta n v => .ok { s with apertureAttrs := s.apertureAttrs.set n v }
  | .tf n v => .ok { s with fileAttrs := s.fileAttrs.set n v }
  | .to n v => .ok { s with objectAttrs := s.objectAttrs.set n v }
  | .td none => .ok { s with apertureAttrs := [], objectAttrs := [] }
  | .td (some n) => .ok { s with apertureAttrs := s.apertureAttrs.pop n, objectAttrs := s.objectAttrs.pop n }
  -- 584-589
  | .d01 x y i j =>
    ((visitXY x y s).andThen (visitIJ i j)).andThen fun s =>
      .ok s.updateCoordinates [.draw s.drawHandler.1 s.drawHandler.2 s]
  -- 618-624
  | .d02 x y =>
    (visitXY x y s).andThen fun s =>
      let s := s.updateCoordinates
      .ok s (if s.isRegion then [.flushRegion s] else [])
  -- 626-631
  | .d03 x y =>
    (visitXY x y s).andThen flashCurrent
  -- 651-674
  | .dnn id =>
    let s := { s with apId := some id }
    match s.currentAperture with
    | .error e => .fail s e
    | .ok ap => .ok { s with flashHandler := some (flashKind ap) }
  -- 678-683, 695-707
  | .g01 => .ok { s with plot := .linear }.dispatch
  | .g02 => .ok { s with plot := .arc }.dispatch
  | .g03 => .ok { s with plot := .ccwArc }.dispatch
  -- 709-719, 744-758
  | .g36 => .ok s.startRegion [.startRegion]
  | .g37 => .ok s.endRegion [.flushRegion s, .endRegion]
  -- 760-802
  | .g70 => .ok { s with unit := .imperial }
  | .g71 => .ok { s with unit := .metric }
  | .g74 => .ok { s with quad := .single }.dispatch
  | .g75 => .ok { s with quad := .multi }.dispatch
  | .g90 => .ok (setNotation .absolute s)
  | .g91 => .ok (setNotation .incremental s)
  -- 804-832
  | .lm m => .ok { s with transform := { s.transform with mirroring := m } }
  | .ln n => .ok { s with image := { s.image with fileName := some n } }
  | .lp p => .ok { s with transform := { s.transform with polarity := p } }
  | .lr r => .ok { s with transform := { s.transform with rotation := r } }
  | .ls k => .ok { s with transform := { s.transform with scaling := k } }
  -- 834-840
  | .m00 => .fail s .programStop
  | .m02 => .fail s .programStop
  -- 878-940
  | .as_ a => .ok { s with image := { s.image with axis := a } }
  | .fs f => .ok { s with format := some f }
  | .in_ n => .ok { s with image := { s.image with imageName := some n } }
  | .ip p => .ok { s with image := { s.image with polarity := p } }
  | .ir r => .ok { s with image := { s.image with rotation := r } }
  | .mi a b => .ok { s with image := { s.image with aMirroring := a, bMirroring := b } }
  | .mo u => .ok { s with unit := u }
  | .of_ a b => .ok { s with image := { s.image with aOffset := a, bOffset := b } }
  | .sf a b => .ok { s with image := { s.image with aScale := a, bScale := b } }
  -- ast_visitor.py 437-455, 505-515: not overridden
  | .g04 => .ok s
  | .g54 => .ok s
  | .g55 => .ok s
  | .m01 => .ok s

/-- One flattened command.  The ends of a block: compiler.py 214-231 brackets the body with callbacks, and
state_tracking_visitor.py 538-545 stores the block after its body was visited. -/
def step (s : VState) : Atom → Out
  | .leaf l => stepLeaf s l
  | .abOpen id => .ok s [.abOpen id]
  | .abClose id =>
    .ok (storeAttributes id { s with blocks := s.blocks.set id () }) [.abClose id]
  | .srOpen p => .ok s [.srOpen p]
  | .srClose p => .ok s [.srClose p s]

/-- Runs flattened commands until the first exception. -/
def run (s : VState) : List Atom → Out
  | [] => .ok s
  | a :: as => (step s a).andThen fun s => run s as

mutual
/-- `Node.visit`: ast_visitor.py 142-149 (`on_ab`), 203-209 (`on_sr`) and the leaves. -/
def visit (s : VState) : Cmd → Out
  | .leaf l => stepLeaf s l
  | .ab id body =>
    ((step s (.abOpen id)).andThen fun s => visitAll s body).andThen fun s => step s (.abClose id)
  | .sr p body =>
    ((step s (.srOpen p)).andThen fun s => visitAll s body).andThen fun s => step s (.srClose p)
/-- The loop over the nodes of a block body. -/
def visitAll (s : VState) : List Cmd → Out
  | [] => .ok s
  | c :: cs => (visit s c).andThen fun s => visitAll s cs
end

/-- ast_visitor.py 773-784 (`on_file`) with state_tracking_visitor.py 942-953: `on_exception` returns
`bool(ignore_program_stop)` for `ProgramStop`, and a true result re-raises, which `suppress` turns into the end of
the file; any other exception is re-raised and propagates. -/
def onFile (ignore : Bool) (s : VState) : List Cmd → Out
  | [] => .ok s
  | c :: cs =>
    let a := visit s c
    match a.exn with
    | none => ⟨(onFile ignore a.st cs).st, a.ev ++ (onFile ignore a.st cs).ev, (onFile ignore a.st cs).exn⟩
    | some .programStop =>
      if ignore then ⟨a.st, a.ev, none⟩
      else ⟨(onFile ignore a.st cs).st, a.ev ++ (onFile ignore a.st cs).ev, (onFile ignore a.st cs).exn⟩
    | some e => ⟨a.st, a.ev, some e⟩

/-- `StateTrackingVisitor(ignore_program_stop=ignore)` visiting a file. -/
def processFile (ignore : Bool) (cmds : List Cmd) : Out := onFile ignore {} cmds

/-! ## Next free aperture code -/

/-- Python's `int(text)` on decimal digits; anything else is a `ValueError` (`none`). -/
def pyInt (t : List Char) : Option Nat :=
  if t ≠ [] ∧ t.all Text.isDigit then some (Text.natVal t) else none

/-- `max` over a generator: raises on an empty one. -/
def maxOf : List Nat → Option Nat
  | [] => none
  | n :: ns => some (ns.foldl max n)

/-- state_tracking_visitor.py 361-369 (`get_next_free_aperture_code`): `none` is the `ValueError` of `int` or of
`max` on nothing. -/
def nextFreeApertureCode (s : VState) : Option Nat :=
  match (s.apertures.keys ++ s.blocks.keys).mapM (fun id => pyInt (id.dropWhile (· == 'D'))) with
  | some ns => (maxOf ns).map (· + 1)
  | none => none

end Verif.Visitor
