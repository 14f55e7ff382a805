import Verif.Model.State

/-!
# The Gerber builder (builder/gerber.py)

A call is a function from the state of the builder to a new state and the exception raised, if any: mutations made
before an exception persist, as in Python.

Objects that the user keeps references to are positions: the pads returned by the pad creator (`given`), the drawing
operations in the order in which they were added, the custom pad creators and the region creators.

Simplifications: numbers are exact rationals; the value of an attribute is one text (the nodes `TA_AperFunction`,
`TA_DrillTolerance` and `TA_UserName` carry enumerations, numbers and lists of fields); pads of another builder and
direct assignment to fields of returned objects are not modelled; the `attributes` of drawing operations, which no
method sets, are dropped.
-/

namespace Verif.GerberBuilder
open Verif.Coord Verif.Visitor

/-- builder/gerber.py 85 (`Loc2D`). -/
abbrev Loc := ℚ × ℚ

/-- Exceptions: `NotAPadError`, the errors of packing, `TypeError` (a drawing operation is not subscriptable),
`NotImplementedError`, `InvalidRegionOutlineError`, `RuntimeError` of a finalized custom pad, `AssertionError` of a
short outline, and `noObject` for a reference to an object that does not exist, which no Python program can make. -/
inductive Err
  | notAPad | pack (e : Coord.Err) | typeError | notImplemented | invalidOutline | finalized | assertion | noObject
  deriving DecidableEq, Repr

/-- gerber.py 869-873: a pad.  `node` is the definition of the aperture `id`. -/
structure Pad where
  id : Name
  node : ApDef
  userAttributes : List (Name × Name) := []
  aperFunction : Option Name := none
  drillTolerance : Option Name := none

/-- What later calls may ask of a drawing operation: gerber.py 1683-1734. -/
inductive Anchor
  | pad (location : Loc)
  | trace (begin end_ : Loc)
  | region (location : Loc)

/-- gerber.py 1653-1734: a drawing operation.  For a region, `ops` is `nodes`. -/
structure Draw where
  stateUpdates : List Leaf := []
  ops : List Leaf
  anchor : Anchor

/-- gerber.py 1683-1734 (`_new_current_location`). -/
def Draw.newLocation (d : Draw) : Loc :=
  match d.anchor with
  | .pad l => l
  | .trace _ e => e
  | .region l => l

/-- gerber.py 1675-1680 and 1725-1729 (`_get_nodes`), without attributes. -/
def Draw.nodes (d : Draw) : List Leaf := d.stateUpdates ++ d.ops

/-- gerber.py 1462-1477: the parts of an outline. -/
inductive Segment
  | line (end_ : Loc)
  | cw (begin center end_ : Loc)
  | ccw (begin center end_ : Loc)

/-- gerber.py 1463 (`end`). -/
def Segment.end_ : Segment → Loc
  | .line e => e
  | .cw _ _ e => e
  | .ccw _ _ e => e

/-- gerber.py 1487-1495: a region creator. -/
structure RegionCreator where
  begin : Loc
  outline : List Segment := []
  previousEnd : Loc

/-- gerber.py 962-965: a custom pad creator. -/
structure CustomPad where
  primitives : List Macro.Prim := []
  finalized : Bool := false

/-- gerber.py 100-124 and 671-680: the builder with its pad creator.  `macros` counts the macro names given out
(`_macro_id + 1`); `given`, `customs` and `regions` are the objects returned to the user. -/
structure Builder where
  nextId : Nat := 9
  macroIds : Nat := 0
  pads : List Pad := []
  macros : List (Name × List Macro.Prim) := []
  draws : List Draw := []
  currentLocation : Option Loc := none
  selectedAperture : Option Name := none
  rotation : ℚ := 0
  mirroring : Mirroring := .none
  mirrorX : Bool := false
  mirrorY : Bool := false
  scale : ℚ := 1
  polarity : Polarity := .dark
  plotMode : Option Plot := none
  tracePads : Dict ℚ Pad := []
  given : List Nat := []
  customs : List CustomPad := []
  regions : List RegionCreator := []

/-- gerber.py 104-111: the format of coordinates. -/
def format : CoordinateFormat :=
  { zeros := .skipLeading, notation_ := .absolute, xIntegral := 4, xDecimal := 6, yIntegral := 4, yDecimal := 6 }

/-- A call: new state, exception. -/
abbrev Result := Builder × Option Err

namespace Builder

/-! ## Pads -/

/-- gerber.py 682-684 (`_new_id`) and the common tail of 695-845: a new pad is stored. -/
def newPad (b : Builder) (d : ApDef) : Builder × Pad :=
  let pad : Pad := { id := 'D' :: Text.natStr (b.nextId + 1), node := d }
  ({ b with nextId := b.nextId + 1, pads := b.pads ++ [pad] }, pad)

/-- gerber.py 695-845: `circle`, `rectangle`, `rounded_rectangle`, `regular_polygon` return the pad to the user. -/
def givePad (b : Builder) (d : ApDef) : Builder :=
  { (b.newPad d).1 with given := b.given ++ [b.pads.length] }

/-- gerber.py 432-437 (`_get_trace_aperture`). -/
def getTraceAperture (b : Builder) (width : ℚ) : Builder × Pad :=
  match b.tracePads.get? width with
  | some pad => (b, pad)
  | none =>
    let r := b.newPad (.circle width none)
    ({ r.1 with tracePads := r.1.tracePads.set width r.2 }, r.2)

/-- gerber.py 875-932: an attribute of a pad is set. -/
def updatePad (b : Builder) (pad : Nat) (f : Pad → Pad) : Result :=
  match b.given[pad]? with
  | none => (b, some .noObject)
  | some k => ({ b with pads := b.pads.modify k f }, none)

/-! ## Custom pads -/

/-- gerber.py 995-998 (`_check_finalized`) followed by `self._primitives.append(p)`. -/
def addPrimitive (b : Builder) (k : Nat) (p : Macro.Prim) : Result :=
  match b.customs[k]? with
  | none => (b, some .noObject)
  | some c =>
    if c.finalized then (b, some .finalized)
    else ({ b with customs := b.customs.set k { c with primitives := c.primitives ++ [p] } }, none)

/-- gerber.py 967-993 (`CustomPadCreator.create`). -/
def createCustom (b : Builder) (k : Nat) : Result :=
  match b.customs[k]? with
  | none => (b, some .noObject)
  | some c =>
    if c.finalized then (b, some .finalized)
    else
      let name := 'M' :: Text.natStr b.macroIds
      let b := { b with macroIds := b.macroIds + 1, macros := b.macros ++ [(name, c.primitives)] }
      let b := b.givePad (.macro name [])
      ({ b with customs := b.customs.set k { c with finalized := true } }, none)

/-! ## State updates -/

/-- gerber.py 227-232. -/
def selectUpdate (b : Builder) (a : Option Name) : Builder × List Leaf :=
  match a with
  | some id => if b.selectedAperture ≠ some id then ({ b with selectedAperture := some id }, [.dnn id]) else (b, [])
  | none => (b, [])

/-- gerber.py 234-236. -/
def polarityUpdate (b : Builder) (p : Option Polarity) : Builder × List Leaf :=
  match p with
  | some p => if p ≠ b.polarity then ({ b with polarity := p }, [.lp p]) else (b, [])
  | none => (b, [])

/-- gerber.py 238-240. -/
def rotationUpdate (b : Builder) (r : Option ℚ) : Builder × List Leaf :=
  match r with
  | some r => if r ≠ b.rotation then ({ b with rotation := r }, [.lr r]) else (b, [])
  | none => (b, [])

/-- gerber/ast/nodes/enums.py 155-165 (`Mirroring.new`). -/
def mirroringOf (x y : Bool) : Mirroring :=
  if x && y then .xy else if x then .x else if y then .y else .none

/-- gerber.py 242-252. -/
def mirroringUpdate (b : Builder) (x y : Option Bool) : Builder × List Leaf :=
  let m := mirroringOf (x.getD b.mirrorX) (y.getD b.mirrorY)
  if m ≠ b.mirroring then ({ b with mirroring := m }, [.lm m]) else (b, [])

/-- gerber.py 254-256. -/
def scaleUpdate (b : Builder) (k : Option ℚ) : Builder × List Leaf :=
  match k with
  | some k => if k ≠ b.scale then ({ b with scale := k }, [.ls k]) else (b, [])
  | none => (b, [])

/-- gerber.py 259-264: the command of a plot mode. -/
def modeCommand : Plot → Leaf
  | .linear => .g01
  | .arc => .g02
  | .ccwArc => .g03

/-- gerber.py 258-267. -/
def modeUpdate (b : Builder) (m : Option Plot) : Builder × List Leaf :=
  match m with
  | some m => if b.plotMode ≠ some m then ({ b with plotMode := some m }, [modeCommand m]) else (b, [])
  | none => (b, [])

/-- gerber.py 217-267 (`_create_state_updates`), run to its end by `list(...)`. -/
def createStateUpdates (b : Builder) (aperture : Option Name) (polarity : Option Polarity) (rotation : Option ℚ)
    (mirrorX mirrorY : Option Bool) (scale : Option ℚ) (mode : Option Plot) : Builder × List Leaf :=
  let r1 := b.selectUpdate aperture
  let r2 := r1.1.polarityUpdate polarity
  let r3 := r2.1.rotationUpdate rotation
  let r4 := r3.1.mirroringUpdate mirrorX mirrorY
  let r5 := r4.1.scaleUpdate scale
  let r6 := r5.1.modeUpdate mode
  (r6.1, r1.2 ++ r2.2 ++ r3.2 ++ r4.2 ++ r5.2 ++ r6.2)

/-! ## Drawing -/

/-- gerber.py 138-140 (`_add_draw`). -/
def addDraw (b : Builder) (d : Draw) : Builder :=
  { b with currentLocation := some d.newLocation, draws := b.draws ++ [d] }

/-- Where a call is to draw: coordinates, or an earlier drawing operation. -/
inductive Ref
  | loc (l : Loc)
  | draw (k : Nat)

/-- `_pack_x`, `_pack_y`, `_pack_i`, `_pack_j`: gerber.py 126-136. -/
def packed (a : Axis) (v : ℚ) : Except Err (List Char) :=
  match format.pack a v with
  | .ok t => .ok t
  | .error e => .error (.pack e)

/-- gerber.py 198 and 323 (`at.end_location if isinstance(at, TraceDraw) else at`), with the `TypeError` of
`location[0]` for any other drawing operation. -/
def padLocation (b : Builder) : Ref → Except Err Loc
  | .loc l => .ok l
  | .draw k => match b.draws[k]? with
    | none => .error .noObject
    | some d => match d.anchor with
      | .trace _ e => .ok e
      | _ => .error .typeError

/-- gerber.py 421-430 (`_dispatch_begin_location`). -/
def beginLocation (b : Builder) : Ref → Except Err Loc
  | .loc l => .ok l
  | .draw k => match b.draws[k]? with
    | none => .error .noObject
    | some d => match d.anchor with
      | .pad l => .ok l
      | .trace _ e => .ok e
      | .region _ => .error .notImplemented

/-- gerber.py 410-419 (`_dispatch_end_location`). -/
def endLocation (b : Builder) : Ref → Except Err Loc
  | .loc l => .ok l
  | .draw k => match b.draws[k]? with
    | none => .error .noObject
    | some d => match d.anchor with
      | .pad l => .ok l
      | .trace s _ => .ok s
      | .region _ => .error .notImplemented

/-- The flash command of gerber.py 202-207 and 327-332. -/
def flashOp (l : Loc) : Except Err Leaf :=
  match packed .x l.1 with
  | .error e => .error e
  | .ok x => match packed .y l.2 with
    | .error e => .error e
    | .ok y => .ok (.d03 (some x) (some y))

/-- gerber.py 146-211 (`add_pad`, `polarity = Dark`) and 269-336 (`add_cutout_pad`, `polarity = Clear`). -/
def addFlash (b : Builder) (polarity : Polarity) (pad : Nat) (at_ : Ref) (rotation : ℚ) (mirrorX mirrorY : Bool)
    (scale : ℚ) : Result :=
  match b.given[pad]?.bind (b.pads[·]?) with
  | none => (b, some .notAPad)
  | some p =>
    let u := b.createStateUpdates (some p.id) (some polarity) (some rotation) (some mirrorX) (some mirrorY)
      (some scale) none
    match u.1.padLocation at_ with
    | .error e => (u.1, some e)
    | .ok l => match flashOp l with
      | .error e => (u.1, some e)
      | .ok op => (u.1.addDraw { stateUpdates := u.2, ops := [op], anchor := .pad l }, none)

/-- A `D02` to a location: gerber.py 384-390 and its siblings. -/
def moveOp (l : Loc) : Except Err Leaf :=
  match packed .x l.1 with
  | .error e => .error e
  | .ok x => match packed .y l.2 with
    | .error e => .error e
    | .ok y => .ok (.d02 (some x) (some y))

/-- A `D01` to a location: gerber.py 393-398, and with offsets of a centre 495-502, 574-581. -/
def drawOp (e : Loc) (offset : Option Loc) : Except Err Leaf :=
  match packed .x e.1 with
  | .error e => .error e
  | .ok x => match packed .y e.2 with
    | .error e => .error e
    | .ok y => match offset with
      | none => .ok (.d01 (some x) (some y) none none)
      | some o => match packed .x o.1 with
        | .error e => .error e
        | .ok i => match packed .y o.2 with
          | .error e => .error e
          | .ok j => .ok (.d01 (some x) (some y) (some i) (some j))

/-- The drawing commands of a trace: gerber.py 383-398, 484-502, 563-581. -/
def traceOps (current : Option Loc) (begin end_ : Loc) (offset : Option Loc) : Except Err (List Leaf) :=
  match (if current ≠ some begin then (moveOp begin).map (fun m => [m]) else .ok []) with
  | .error e => .error e
  | .ok ms => match drawOp end_ offset with
    | .error e => .error e
    | .ok d => .ok (ms ++ [d])

/-- gerber.py 338-408 (`add_line_trace`: mode `LINEAR`, no centre), 439-516 (`add_clockwise_arc_trace`: mode `ARC`)
and 518-595 (`add_counter_clockwise_arc_trace`: mode `CCW_ARC`). -/
def addTrace (b : Builder) (mode : Plot) (width : ℚ) (begin end_ : Ref) (center : Option Loc) : Result :=
  let a := b.getTraceAperture width
  match a.1.beginLocation begin with
  | .error e => (a.1, some e)
  | .ok s => match a.1.endLocation end_ with
    | .error e => (a.1, some e)
    | .ok t =>
      let u := a.1.createStateUpdates (some a.2.id) (some .dark) (some 0) (some false) (some false) (some 1) (some mode)
      match traceOps u.1.currentLocation s t (center.map fun c => (c.1 - s.1, c.2 - s.2)) with
      | .error e => (u.1, some e)
      | .ok ops => (u.1.addDraw { stateUpdates := u.2, ops := ops, anchor := .trace s t }, none)

/-! ## Regions -/

/-- The mode of a part of an outline, and the offset of its centre: gerber.py 1598-1640. -/
def Segment.plot : Segment → Plot
  | .line _ => .linear
  | .cw .. => .arc
  | .ccw .. => .ccwArc

/-- gerber.py 1615-1620 and 1631-1636. -/
def Segment.offset : Segment → Option Loc
  | .line _ => none
  | .cw b c _ => some (c.1 - b.1, c.2 - b.2)
  | .ccw b c _ => some (c.1 - b.1, c.2 - b.2)

/-- gerber.py 1596-1641: the loop over the outline; `mode` is the local variable of that name. -/
def outlineOps : Option Plot → List Segment → Except Err (List Leaf)
  | _, [] => .ok []
  | mode, s :: rest =>
    match drawOp s.end_ (Segment.offset s) with
    | .error e => .error e
    | .ok d => match outlineOps (some (Segment.plot s)) rest with
      | .error e => .error e
      | .ok ds => .ok ((if mode ≠ some (Segment.plot s) then [modeCommand (Segment.plot s)] else []) ++ d :: ds)

/-- gerber.py 1592-1594: the closing line. -/
def RegionCreator.closed (r : RegionCreator) : List Segment :=
  if (r.outline.getLast?.map Segment.end_) ≠ some r.begin then r.outline ++ [.line r.begin] else r.outline

/-- gerber.py 1586-1646: the commands of a region after the state updates. -/
def regionOps (r : RegionCreator) : Except Err (List Leaf) :=
  match moveOp r.begin with
  | .error e => .error e
  | .ok m => match outlineOps none (RegionCreator.closed r) with
    | .error e => .error e
    | .ok ops => .ok (.g36 :: m :: ops ++ [.g37, m])

/-- gerber.py 1563-1650 (`RegionCreator.create`).  When packing fails the closing line stays in the outline if the
start could be packed, since the generator had appended it. -/
def createRegion (b : Builder) (k : Nat) : Result :=
  match b.regions[k]? with
  | none => (b, some .noObject)
  | some r =>
    if r.outline.length < 3 then (b, some .invalidOutline)
    else
      let a := b.getTraceAperture 1
      let u := a.1.createStateUpdates (some a.2.id) (some .dark) (some 0) (some false) (some false) (some 1) none
      match moveOp r.begin with
      | .error e => (u.1, some e)
      | .ok _ =>
        let b := { u.1 with regions := u.1.regions.set k { r with outline := RegionCreator.closed r } }
        match regionOps r with
        | .error e => (b, some e)
        | .ok ops => (b.addDraw { ops := u.2 ++ ops, anchor := .region r.begin }, none)

/-- gerber.py 1497-1561 (`add_line`, `add_clockwise_arc`, `add_counterclockwise_arc`). -/
def addSegment (b : Builder) (k : Nat) (f : Loc → Segment) : Result :=
  match b.regions[k]? with
  | none => (b, some .noObject)
  | some r =>
    let s := f r.previousEnd
    ({ b with regions := b.regions.set k { r with outline := r.outline ++ [s], previousEnd := s.end_ } }, none)

end Builder

/-! ## Calls -/

open Builder in
/-- A shape added to, or cut from (`cut`), a custom pad: gerber.py 1000-1457.  `node` is the identity of the node that
a thermal is stored as. -/
inductive CustomShape
  | circle (cut : Bool) (diameter : ℚ) (center : Loc) (rotation : ℚ)
  | vectorLine (cut : Bool) (width : ℚ) (start end_ : Loc) (rotation : ℚ)
  | centerLine (cut : Bool) (width height : ℚ) (center : Loc) (rotation : ℚ)
  | outline (cut : Bool) (points : List Loc) (rotation : ℚ)
  | polygon (cut : Bool) (vertices : Nat) (center : Loc) (diameter rotation : ℚ)
  | thermal (node : Nat) (center : Loc) (outer inner gap rotation : ℚ)

/-- The `exposition` argument: 1 for `add_…`, 0 for `cut_…`. -/
def exposure (cut : Bool) : Math.Expr := .const (if cut then 0 else 1)

/-- gerber.py 1025-1041 (`_circle`), 1101-1120 (`_vector_line`), 1188-1206 (`_center_line`), 1272-1292 (`_outline`,
preceded by the assertion of 1266 and 1319), 1358-1376 (`_polygon`), 1447-1457 (`add_thermal`). -/
def CustomShape.prim : CustomShape → Except Err Macro.Prim
  | .circle cut d c r => .ok (.code1 (exposure cut) (.const d) (.const c.1) (.const c.2) (some (.const r)))
  | .vectorLine cut w s e r =>
    .ok (.code20 (exposure cut) (.const w) (.const s.1) (.const s.2) (.const e.1) (.const e.2) (.const r))
  | .centerLine cut w h c r =>
    .ok (.code21 (exposure cut) (.const w) (.const h) (.const c.1) (.const c.2) (.const r))
  | .outline cut ps r =>
    if ps.length < 3 then .error .assertion
    else match ps.getLast? with
      | none => .error .assertion
      | some l => .ok (.code4 (exposure cut) (.const ps.length) (.const l.1) (.const l.2)
          (ps.map fun p => (.const p.1, .const p.2)) (.const r))
  | .polygon cut n c d r =>
    .ok (.code5 (exposure cut) (.const n) (.const c.1) (.const c.2) (.const d) (.const r))
  | .thermal node c o i g r =>
    .ok (.code7 node (.const c.1) (.const c.2) (.const o) (.const i) (.const g) (.const r))

open Builder in
/-- The calls of the public interface. -/
inductive Call
  | circle (diameter : ℚ) (hole : Option ℚ)
  | rectangle (width height : ℚ) (hole : Option ℚ)
  | roundedRectangle (width height : ℚ) (hole : Option ℚ)
  | regularPolygon (diameter : ℚ) (vertices : Nat) (rotation : ℚ) (hole : Option ℚ)
  | custom
  | customShape (creator : Nat) (s : CustomShape)
  | customCreate (creator : Nat)
  | setFunction (pad : Nat) (value : Name)
  | setTolerance (pad : Nat) (value : Name)
  | setCustom (pad : Nat) (name value : Name)
  | addPad (pad : Nat) (at_ : Ref) (rotation : ℚ) (mirrorX mirrorY : Bool) (scale : ℚ)
  | addCutoutPad (pad : Nat) (at_ : Ref) (rotation : ℚ) (mirrorX mirrorY : Bool) (scale : ℚ)
  | lineTrace (width : ℚ) (begin end_ : Ref)
  | cwTrace (width : ℚ) (begin end_ : Ref) (center : Loc)
  | ccwTrace (width : ℚ) (begin end_ : Ref) (center : Loc)
  | newRegion (begin : Loc)
  | regionLine (creator : Nat) (dest : Loc)
  | regionCw (creator : Nat) (dest center : Loc)
  | regionCcw (creator : Nat) (dest center : Loc)
  | regionCreate (creator : Nat)

open Builder in
/-- One call; citations at the methods. -/
def exec (b : Builder) : Call → Result
  -- 695-724
  | .circle d h => (b.givePad (.circle d h), none)
  -- 726-763
  | .rectangle w h hole => (b.givePad (.rect w h hole), none)
  -- 765-802
  | .roundedRectangle w h hole => (b.givePad (.obround w h hole), none)
  -- 804-845
  | .regularPolygon d n r hole => (b.givePad (.polygon d n (some r) hole), none)
  -- 847-859
  | .custom => ({ b with customs := b.customs ++ [{}] }, none)
  | .customShape k s => match s.prim with
    | .error e => (b, some e)
    | .ok p => b.addPrimitive k p
  | .customCreate k => b.createCustom k
  -- 875-897
  | .setFunction p v => b.updatePad p fun pad => { pad with aperFunction := some v }
  -- 899-916
  | .setTolerance p v => b.updatePad p fun pad => { pad with drillTolerance := some v }
  -- 918-932
  | .setCustom p n v => b.updatePad p fun pad => { pad with userAttributes := pad.userAttributes ++ [(n, v)] }
  | .addPad p a r mx my k => b.addFlash .dark p a r mx my k
  | .addCutoutPad p a r mx my k => b.addFlash .clear p a r mx my k
  | .lineTrace w s e => b.addTrace .linear w s e none
  | .cwTrace w s e c => b.addTrace .arc w s e (some c)
  | .ccwTrace w s e c => b.addTrace .ccwArc w s e (some c)
  -- 597-611, 1487-1495
  | .newRegion l => ({ b with regions := b.regions ++ [{ begin := l, previousEnd := l }] }, none)
  | .regionLine k t => b.addSegment k fun _ => .line t
  | .regionCw k t c => b.addSegment k fun s => .cw s c t
  | .regionCcw k t c => b.addSegment k fun s => .ccw s c t
  | .regionCreate k => b.createRegion k

/-- A program: the calls in order, each exception being handled by the caller; the exception of each call. -/
def execAll (b : Builder) : List Call → Builder × List (Option Err)
  | [] => (b, [])
  | c :: cs => ((execAll (exec b c).1 cs).1, (exec b c).2 :: (execAll (exec b c).1 cs).2)

/-! ## The file -/

/-- gerber/ast/nodes/attribute/TA.py 55-58 (`attribute_name`): `.AperFunction`. -/
def functionName : Name := ['.', 'A', 'p', 'e', 'r', 'F', 'u', 'n', 'c', 't', 'i', 'o', 'n']

/-- gerber/ast/nodes/attribute/TA.py 77-80 (`attribute_name`): `.DrillTolerance`. -/
def toleranceName : Name := ['.', 'D', 'r', 'i', 'l', 'l', 'T', 'o', 'l', 'e', 'r', 'a', 'n', 'c', 'e']

/-- gerber.py 934-952 (`Pad._get_nodes`). -/
def Pad.nodes (p : Pad) : List Leaf :=
  let attributes : List Leaf :=
    (p.aperFunction.toList.map fun v => .ta functionName v) ++
    (p.drillTolerance.toList.map fun v => .ta toleranceName v) ++
    p.userAttributes.map fun a => .ta a.1 a.2
  attributes ++ .ad p.id p.node :: (if attributes.isEmpty then [] else [.td none])

/-- gerber.py 690-693 (`PadCreator._get_nodes`). -/
def Builder.padNodes (b : Builder) : List Leaf :=
  (b.macros.map fun m => .am m.1 m.2) ++ b.pads.flatMap Pad.nodes

/-- gerber.py 613-633 (`get_code`). -/
def Builder.getCode (b : Builder) : List Leaf :=
  [.fs format, .mo .metric] ++ b.padNodes ++ [.g75] ++ b.draws.flatMap Draw.nodes ++ [.m02]

end Verif.GerberBuilder
