import Verif.Model.State
import Verif.Model.Rvmc
import Mathlib.Data.List.Dedup

/-!
# The compiler (gerber/compiler/compiler.py)

The compiler subclasses the state tracking visitor and overrides its callbacks, so it is modelled as a consumer of
the callbacks `Verif.Visitor.Event`; it never changes the state of the visitor.

Simplifications: layer identifiers are structured values instead of texts; matrices are compared by value instead of
by the text of their entries (compiler.py 670); `depends_on` is computed from the commands, with which it is always
in step; metadata is left out (see `Verif.Model.Metadata`); geometry is exact (see `Verif.Model.Shape`).
-/

namespace Verif.Compiler
open Verif.Visitor Verif.Geom Verif.Rvmc Verif.Math Verif.Macro
noncomputable section

/-- The texts that name buffers: `"%main%"` (compiler.py 127), an aperture code, the names made of a node identity
and the time in seconds (compiler.py 228 and 1017) and `f"{base}%{matrix.tag}"` (compiler.py 670). -/
inductive LayerId
  | main
  | ap (id : Name)
  | sr (node time : Nat)
  | code7 (node time : Nat)
  | xform (base : LayerId) (m : Mat ℝ)

instance : DecidableEq LayerId := Classical.decEq _

/-- Drawing commands of compiled programs. -/
abbrev Cmd := Draw LayerId

/-- Exceptions. -/
inductive CErr
  | visitor (e : Exn)
  | eval (e : EvalErr)
  | keyError | indexError | attributeError | notImplemented | assertion | validation
  | macroNotDefined | contourNotSet | cyclic | recursion
  deriving DecidableEq, Repr

/-- What the code reads from its surroundings: the result of the n-th call of `time.time()` in whole seconds, the
order in which a set of layer names is iterated, and the recursion limit of the interpreter. -/
structure Env where
  /-- `f"{time.time():.0f}"`. -/
  time : Nat → Nat
  /-- Iteration order of a `set`, given its elements in insertion order. -/
  iter : List LayerId → List LayerId
  /-- Recursion limit. -/
  depth : Nat

/-- compiler.py 129-137: the attributes of the compiler. -/
structure CState where
  /-- `_buffers`: the commands of each buffer. -/
  buffers : Dict LayerId (List Cmd)
  /-- `_buffer_stack`, innermost first. -/
  stack : List LayerId
  /-- `_contour_buffer`. -/
  contour : Option (List Segment)
  /-- Number of calls of `time.time()` so far. -/
  calls : Nat

/-- compiler.py 129-137 (`__init__`). -/
def CState.init : CState := { buffers := [(.main, [])], stack := [.main], contour := some [], calls := 0 }

/-- A method of the compiler. -/
abbrev Step := CState → Except CErr CState

/-- compiler.py 155-171 (`_get_current_buffer`, `_append_shape_to_current_buffer`, `_append_paste_to_current_buffer`,
`_expand_buffer_to_current_buffer`): appends commands to the current buffer. -/
def append (cmds : List Cmd) (c : CState) : Except CErr CState :=
  match cmds with
  | [] => .ok c
  | cmds =>
    match c.stack with
    | [] => .error .indexError
    | id :: _ =>
      match c.buffers.get? id with
      | none => .error .keyError
      | some b => .ok { c with buffers := c.buffers.set id (b ++ cmds) }

/-- compiler.py 286-297 (`_create_aperture_buffer`). -/
def create (id : LayerId) (cmds : List Cmd) (c : CState) : CState :=
  { c with buffers := c.buffers.set id cmds }

/-- A point of the file. -/
def pt (x y : ℚ) : Vec ℝ := ⟨(x : ℝ), (y : ℝ)⟩

/-- `Shape(commands=…)` (vm/commands/shape.py 37): at least one segment. -/
def shapeOf (segments : List Segment) (negative : Bool) : Except CErr Shape :=
  match segments with
  | [] => .error .validation
  | g :: gs => .ok ⟨g, gs, negative⟩

/-- `Shape.new_polygon` (vm/commands/shape.py 211-251) with its assertion. -/
def polygon (center : Vec ℝ) (diameter : ℝ) (n : Int) (rotation : ℝ) (negative : Bool) : Except CErr Shape :=
  if n < 3 then .error .assertion else shapeOf (Shape.polygonSegments center diameter n.toNat rotation) negative

open Classical in
/-- `Shape.new_ring` (vm/commands/shape.py 346-385) with its assertions. -/
def ring (center : Vec ℝ) (outer inner : ℝ) (negative : Bool) : Except CErr (List Shape) :=
  if (outer - inner) / 2 > 0 ∧ inner / 2 > 0 then
    .ok [(Shape.newRing center outer inner negative).1, (Shape.newRing center outer inner negative).2]
  else .error .assertion

/-! ## Macros: `MacroEvalVisitor` -/

/-- compiler.py 834-835 (`_eval`). -/
def evalE (scope : Dict Name ℚ) (e : Expr) : Except CErr ℚ :=
  match eval scope.get? e with
  | .ok v => .ok v
  | .error x => .error (.eval x)

/-- compiler.py 885: the values of the points, in order. -/
def evalPoints (scope : Dict Name ℚ) : List (Expr × Expr) → Except CErr (List (ℚ × ℚ))
  | [] => .ok []
  | p :: ps => do
    let x ← evalE scope p.1
    let y ← evalE scope p.2
    return (x, y) :: (← evalPoints scope ps)

/-- `shape.transform(Matrix3x3.new_rotate(rotation))`. -/
def rotated (rotation : ℚ) (s : Shape) : Shape := s.transform (Mat.newRotate rotation)

/-- compiler.py 1073-1076 and 857-879 (`on_code_20`, `on_code_2`, `_on_vector_line`). -/
def vectorLine (scope : Dict Name ℚ) (exposure width startX startY endX endY rotation : Expr) :
    Except CErr (List Shape) := do
  let e ← evalE scope exposure
  let w ← evalE scope width
  let sx ← evalE scope startX
  let sy ← evalE scope startY
  let ex ← evalE scope endX
  let ey ← evalE scope endY
  let r ← evalE scope rotation
  return [rotated r (Shape.newLine (pt sx sy) (pt ex ey) (w : ℝ) (e == 0))]

/-- The truncation of `int(x)` on a number. -/
def truncQ (q : ℚ) : Int := if q < 0 then -⌊-q⌋ else ⌊q⌋

/-- compiler.py 960-985: the loop of `on_code_6` over the rings; the first argument counts the remaining
iterations. -/
def rings (center : Vec ℝ) (thickness delta : ℚ) : Nat → ℚ → ℚ → Except CErr (List Shape)
  | 0, _, _ => .ok []
  | n + 1, outer, inner =>
    if outer ≤ thickness then .ok [Shape.newCircle center (outer : ℝ) false]
    else do
      let r ← ring center (outer : ℝ) (inner : ℝ) false
      return r ++ (← rings center thickness delta n (outer - delta) (inner - delta))

/-- compiler.py 923-994 (`on_code_6`). -/
def moire (scope : Dict Name ℚ)
    (centerX centerY outer ringThickness gap maxRings crossThickness crossLength rotation : Expr) :
    Except CErr (List Shape) := do
  let cx ← evalE scope centerX
  let cy ← evalE scope centerY
  let od ← evalE scope outer
  let rt ← evalE scope ringThickness
  let g ← evalE scope gap
  let mr ← evalE scope maxRings
  let ct ← evalE scope crossThickness
  let cl ← evalE scope crossLength
  let r ← evalE scope rotation
  let cross := if cl > 0 ∧ ct > 0 then
      [Shape.newLine (pt cx (cy - cl / 2)) (pt cx (cy + cl / 2)) (ct : ℝ) false,
       Shape.newLine (pt (cx - cl / 2) cy) (pt (cx + cl / 2) cy) (ct : ℝ) false]
    else []
  let rs ← if rt > 0 ∧ od > 0 ∧ mr > 0 then
      rings (pt cx cy) rt (g * 2 + rt * 2) (truncQ mr).toNat od (od - rt * 2)
    else .ok []
  return (cross ++ rs).map (rotated r)

/-- The effect of one primitive: the variables, the commands appended to the aperture's buffer, the buffer created
(by a thermal) and the number of calls of the clock. -/
structure PrimOut where
  /-- `_scope` afterwards. -/
  scope : Dict Name ℚ
  /-- Commands for the buffer of the aperture. -/
  cmds : List Cmd
  /-- A buffer created. -/
  layer : Option (LayerId × List Cmd)
  /-- Calls of the clock. -/
  ticks : Nat

/-- A primitive that only appends shapes. -/
def PrimOut.shapes (scope : Dict Name ℚ) (ss : List Shape) : PrimOut := ⟨scope, ss.map .shape, none, 0⟩

open Classical in
/-- compiler.py 996-1071 (`on_code_7`); `now` is the time in seconds. -/
def thermal (now : Nat) (scope : Dict Name ℚ) (node : Nat) (centerX centerY outer inner gap rotation : Expr) :
    Except CErr PrimOut := do
  let cx ← evalE scope centerX
  let cy ← evalE scope centerY
  let od ← evalE scope outer
  let id ← evalE scope inner
  if id ≥ od then return .shapes scope []
  else
    let g ← evalE scope gap
    let r ← evalE scope rotation
    if (g : ℝ) * √2 ≥ (id : ℝ) then return .shapes scope []
    else
      let rs ← ring ⟨0, 0⟩ (od : ℝ) (id : ℝ) false
      let delta : ℝ := (od : ℝ) / 2 + ((od : ℝ) - (id : ℝ)) / (199 / 100)
      let lines := [Shape.newLine ⟨0 - delta, 0⟩ ⟨0 + delta, 0⟩ (g : ℝ) true,
                    Shape.newLine ⟨0, 0 - delta⟩ ⟨0, 0 + delta⟩ (g : ℝ) true]
      return ⟨scope, [.paste (.code7 node now) ((Mat.newRotate (r : ℝ)).apply (pt cx cy)) false],
        some (.code7 node now, ((rs ++ lines).map (rotated r)).map .shape), 1⟩

/-- compiler.py 837-1125: the methods of `MacroEvalVisitor`. -/
def primitive (now : Nat) (scope : Dict Name ℚ) : Prim → Except CErr PrimOut
  | .code0 => .ok (.shapes scope [])
  -- 837-855
  | .code1 exposure diameter centerX centerY rotation => do
    let e ← evalE scope exposure
    let d ← evalE scope diameter
    let cx ← evalE scope centerX
    let cy ← evalE scope centerY
    match rotation with
    | none => return .shapes scope [Shape.newCircle (pt cx cy) (d : ℝ) (e == 0)]
    | some rotation =>
      let r ← evalE scope rotation
      return .shapes scope [rotated r (Shape.newCircle (pt cx cy) (d : ℝ) (e == 0))]
  | .code2 exposure width startX startY endX endY rotation => do
    return .shapes scope (← vectorLine scope exposure width startX startY endX endY rotation)
  -- 881-898
  | .code4 exposure _ startX startY points rotation => do
    let e ← evalE scope exposure
    let sx ← evalE scope startX
    let sy ← evalE scope startY
    let ps ← evalPoints scope points
    let r ← evalE scope rotation
    let s ← shapeOf (Shape.connectedPoints (pt sx sy) (ps.map fun p => pt p.1 p.2)) (e == 0)
    return .shapes scope [rotated r s]
  -- 900-921
  | .code5 exposure vertices centerX centerY diameter rotation => do
    let e ← evalE scope exposure
    let n ← evalE scope vertices
    let cx ← evalE scope centerX
    let cy ← evalE scope centerY
    let d ← evalE scope diameter
    let r ← evalE scope rotation
    let s ← polygon (pt cx cy) (d : ℝ) (truncQ n) (r : ℝ) (e == 0)
    return .shapes scope [rotated r s]
  | .code6 cx cy outer rt gap mr ct cl rotation => do
    return .shapes scope (← moire scope cx cy outer rt gap mr ct cl rotation)
  | .code7 node cx cy outer inner gap rotation => thermal now scope node cx cy outer inner gap rotation
  | .code20 exposure width startX startY endX endY rotation => do
    return .shapes scope (← vectorLine scope exposure width startX startY endX endY rotation)
  -- 1078-1098
  | .code21 exposure width height centerX centerY rotation => do
    let e ← evalE scope exposure
    let w ← evalE scope width
    let h ← evalE scope height
    let cx ← evalE scope centerX
    let cy ← evalE scope centerY
    let r ← evalE scope rotation
    return .shapes scope [rotated r (Shape.newRectangle (pt cx cy) (w : ℝ) (h : ℝ) (e == 0))]
  -- 1100-1120
  | .code22 exposure width height xLowerLeft yLowerLeft rotation => do
    let e ← evalE scope exposure
    let w ← evalE scope width
    let h ← evalE scope height
    let x ← evalE scope xLowerLeft
    let y ← evalE scope yLowerLeft
    let r ← evalE scope rotation
    return .shapes scope
      [rotated r (Shape.newRectangle (pt (x + w / 2) (y + h / 2)) (w : ℝ) (h : ℝ) (e == 0))]
  -- 1122-1125
  | .assign v e => do
    return .shapes (scope.set v (← evalE scope e)) []

/-- One primitive on the state of the compiler: `id` is the buffer of the aperture, `cmds` its commands so far. -/
def runPrims (env : Env) (id : LayerId) : List Prim → Dict Name ℚ → List Cmd → Step
  | [], _, cmds, c => .ok (create id cmds c)
  | p :: ps, scope, cmds, c => do
    let o ← primitive (env.time c.calls) scope p
    let c' := { c with calls := c.calls + o.ticks }
    runPrims env id ps o.scope (cmds ++ o.cmds) (match o.layer with
      | some l => create l.1 l.2 c'
      | none => c')

/-! ## Aperture definitions -/

/-- compiler.py 275, 314, 340, 367: the hole of an aperture, at most as large as the given sizes. -/
def holeOf (hole : Option ℚ) (limit : ℚ) : List Cmd :=
  match hole with
  | some h => if h > 0 then [.shape (Shape.newCircle ⟨0, 0⟩ ((min h limit : ℚ) : ℝ) true)] else []
  | none => []

/-- compiler.py 387: the parameters of a macro. -/
def paramScope (params : List ℚ) : Dict Name ℚ :=
  params.zipIdx.map fun p => ('$' :: Text.natStr (p.2 + 1), p.1)

/-- compiler.py 261-394 (`on_adc`, `on_adr`, `on_ado`, `on_adp`, `on_ad_macro`). -/
def define (env : Env) (id : Name) (d : ApDef) (s : VState) : Step := fun c =>
  match d with
  | .circle diameter hole =>
    .ok (create (.ap id) (.shape (Shape.newCircle ⟨0, 0⟩ (diameter : ℝ) false) :: holeOf hole diameter) c)
  | .rect w h hole =>
    .ok (create (.ap id) (.shape (Shape.newRectangle ⟨0, 0⟩ (w : ℝ) (h : ℝ) false) :: holeOf hole (min w h)) c)
  | .obround w h hole =>
    .ok (create (.ap id) (.shape (Shape.newObround ⟨0, 0⟩ (w : ℝ) (h : ℝ) false) :: holeOf hole (min w h)) c)
  | .polygon diameter n rotation hole => do
    let s ← polygon ⟨0, 0⟩ (diameter : ℝ) n ((rotation.getD 0 : ℚ) : ℝ) false
    return create (.ap id) (.shape s :: holeOf hole diameter) c
  | .macro name params =>
    match s.macros.get? name with
    | none => .error .macroNotDefined
    | some body => runPrims env (.ap id) body (paramScope params) [] (create (.ap id) [] c)

/-! ## Drawing -/

/-- compiler.py 194-212 (`_get_line_thickness`). -/
def lineThickness (s : VState) (direction : Vec ℝ) : Except CErr ℝ :=
  match s.currentAperture with
  | .error e => .error (.visitor e)
  | .ok (.ad _ (.circle d _)) => .ok (d : ℝ)
  | .ok (.ad _ (.rect w h _)) => .ok (sized w h)
  | .ok (.ad _ (.obround w h _)) => .ok (sized w h)
  | .ok (.ad _ (.polygon d _ _ _)) => .ok (d : ℝ)
  | .ok _ => .error .notImplemented
where
  /-- compiler.py 199-207. -/
  sized (w h : ℚ) : ℝ :=
    let angle := direction.angleBetween Vec.unitX
    (⟨(w : ℝ) * Real.cos (radians (-angle)), (h : ℝ) * Real.sin (radians (-angle))⟩ : Vec ℝ).length

/-- The start point of a draw (compiler.py 407-409). -/
def startPoint (s : VState) : Vec ℝ := pt s.currentX s.currentY
/-- The end point of a draw (compiler.py 411-413). -/
def endPoint (s : VState) : Vec ℝ := pt s.coordinateX s.coordinateY
/-- The centre of an arc (compiler.py 459-461). -/
def arcCenter (s : VState) : Vec ℝ := pt (s.currentX + s.coordinateI) (s.currentY + s.coordinateJ)

/-- compiler.py 403-442 (`on_draw_line`): the shapes. -/
def lineShapes (s : VState) : Except CErr (List Shape) := do
  let t ← lineThickness s (endPoint s)
  return [Shape.newCircle (startPoint s) t s.isNegative,
    Shape.newLine (startPoint s) (endPoint s) t s.isNegative,
    Shape.newCircle (endPoint s) t s.isNegative]

/-- `Shape.new_cw_arc` or `Shape.new_ccw_arc`, compiler.py 446 and 525. -/
def arcShape (clockwise : Bool) (start stop center : Vec ℝ) (t : ℝ) (negative : Bool) : Shape :=
  if clockwise then Shape.newCwArc start stop center t negative else Shape.newCcwArc start stop center t negative

/-- compiler.py 475: `start_point == end_point`. -/
def closed (s : VState) : Bool := s.currentX == s.coordinateX && s.currentY == s.coordinateY

/-- compiler.py 448-519 (`_on_draw_arc_mq`): the shapes. -/
def arcShapes (clockwise : Bool) (s : VState) : Except CErr (List Shape) := do
  let t ← lineThickness s (endPoint s)
  let c := arcCenter s
  let r := (pt s.coordinateI s.coordinateJ).length
  let a : Vec ℝ := ⟨c.x - r, c.y⟩
  let b : Vec ℝ := ⟨c.x + r, c.y⟩
  if closed s then
    return [Shape.newCircle (startPoint s) t s.isNegative, arcShape clockwise a b c t s.isNegative,
      arcShape clockwise b a c t s.isNegative, Shape.newCircle b t s.isNegative]
  else
    return [Shape.newCircle (startPoint s) t s.isNegative,
      arcShape clockwise (startPoint s) (endPoint s) c t s.isNegative,
      Shape.newCircle (endPoint s) t s.isNegative]

/-- compiler.py 532-603: the segments a draw in a region adds to the contour.  Single quadrant arcs add nothing
(state_tracking_visitor.py 724-742). -/
def contourSegments (kind : DrawKind) (s : VState) : List Segment :=
  match kind with
  | .line => [.line ⟨startPoint s, endPoint s⟩]
  | .cwMq => arcSegments true
  | .ccwMq => arcSegments false
  | .cwSq => []
  | .ccwSq => []
where
  /-- compiler.py 553-597 (`_on_in_region_draw_arc_mq`). -/
  arcSegments (clockwise : Bool) : List Segment :=
    let c := arcCenter s
    let opposite : Vec ℝ := pt (s.currentX + s.coordinateI + s.coordinateI) (s.currentY + s.coordinateJ + s.coordinateJ)
    if closed s then
      [.arc ⟨startPoint s, opposite, c, clockwise⟩, .arc ⟨opposite, startPoint s, c, clockwise⟩]
    else [.arc ⟨startPoint s, endPoint s, c, clockwise⟩]

/-- The draw callbacks outside a region: compiler.py 403-525; single quadrant arcs draw nothing
(state_tracking_visitor.py 594-610). -/
def drawShapes (kind : DrawKind) (s : VState) : Except CErr (List Shape) :=
  match kind with
  | .line => lineShapes s
  | .cwMq => arcShapes true s
  | .ccwMq => arcShapes false s
  | .cwSq => .ok []
  | .ccwSq => .ok []

/-- compiler.py 403-603: the draw callbacks. -/
def draw (kind : DrawKind) (inRegion : Bool) (s : VState) : Step := fun c =>
  if inRegion then
    match kind with
    | .cwSq => .ok c
    | .ccwSq => .ok c
    | _ =>
      match c.contour with
      | none => .error .contourNotSet
      | some g => .ok { c with contour := some (g ++ contourSegments kind s) }
  else do
    let ss ← drawShapes kind s
    append (ss.map .shape) c

/-- compiler.py 615-631 (`on_flush_region`). -/
def flushRegion (s : VState) : Step := fun c =>
  match c.contour with
  | none => .error .contourNotSet
  | some [] => .ok { c with contour := some [] }
  | some (g :: gs) => do
    let c ← append [.shape ⟨g, gs, s.isNegative⟩] c
    return { c with contour := some [] }

/-! ## Flashing -/

/-- compiler.py 656-663: `mirroring @ rotation @ scale`. -/
def transformMatrix (t : Transform) : Mat ℝ :=
  ((Mat.newReflect (t.mirroring == .x || t.mirroring == .xy) (t.mirroring == .y || t.mirroring == .xy)).matmul
    (Mat.newRotate (t.rotation : ℝ))).matmul (Mat.newScale (t.scaling : ℝ) (t.scaling : ℝ))

/-- compiler.py 689-706: the loop over the commands of a buffer; `get` is `_get_aperture_buffer`. -/
def transformCmds (m : Mat ℝ) (get : LayerId → CState → Except CErr (LayerId × CState)) :
    List Cmd → CState → Except CErr (List Cmd × CState)
  | [], c => .ok ([], c)
  | .shape s :: cmds, c => do
    let r ← transformCmds m get cmds c
    return (.shape (s.transform m) :: r.1, r.2)
  | .paste src center neg :: cmds, c => do
    let b ← get src c
    let r ← transformCmds m get cmds b.2
    return (.paste b.1 (m.apply center) neg :: r.1, r.2)

/-- compiler.py 667-715 (`_get_buffer_with_transform`, `_apply_transform_to_buffer`); the matrix of the nested calls
(694) is the same, because the state of the visitor does not change.  The first argument bounds the recursion. -/
def bufferWithTransform (m : Mat ℝ) : Nat → LayerId → CState → Except CErr (LayerId × CState)
  | 0, _, _ => .error .recursion
  | fuel + 1, base, c =>
    match c.buffers.get? (.xform base m) with
    | some _ => .ok (.xform base m, c)
    | none =>
      match c.buffers.get? base with
      | none => .error .keyError
      | some cmds => do
        let r ← transformCmds m (bufferWithTransform m fuel) cmds c
        return (.xform base m, create (.xform base m) r.1 r.2)

/-- compiler.py 749-765: the loop of `_apply_transform_to_buffer_non_recursive_tmp`. -/
def moved (m : Mat ℝ) (cmds : List Cmd) : List Cmd :=
  cmds.map fun
    | .shape s => .shape (s.transform m)
    | .paste src center neg => .paste src (m.apply center) neg

/-- compiler.py 642-654 (`_on_flash_aperture`). -/
def flashAperture (env : Env) (id : Name) (s : VState) : Step := fun c => do
  let b ← bufferWithTransform (transformMatrix s.transform) env.depth (.ap id) c
  append [.paste b.1 (endPoint s) s.isNegative] b.2

/-- compiler.py 733-741 (`on_flash_block`). -/
def flashBlock (env : Env) (id : Name) (s : VState) : Step := fun c => do
  let b ← bufferWithTransform (transformMatrix s.transform) env.depth (.ap id) c
  match b.2.buffers.get? b.1 with
  | none => .error .keyError
  | some cmds => append (moved (Mat.newTranslate (s.coordinateX : ℝ) (s.coordinateY : ℝ)) cmds) b.2

/-- compiler.py 638-741: the flash callbacks; a definition passed to `on_flash_block` has no attribute `open`, and a
block passed to one of the others has no attribute `aperture_id`. -/
def flash (env : Env) (kind : FlashKind) (ap : Aperture) (s : VState) : Step := fun c =>
  match kind, ap with
  | .block, .ab id => flashBlock env id s c
  | .block, .ad _ _ => .error .attributeError
  | _, .ad id _ => flashAperture env id s c
  | _, .ab _ => .error .attributeError

/-! ## Step and repeat -/

/-- compiler.py 241-249: the copies, by column and within a column by row. -/
def copies (p : SrParams) (s : VState) (body : List Cmd) : List Cmd :=
  (List.range p.xRepeats).flatMap fun x : ℕ => (List.range p.yRepeats).flatMap fun y : ℕ =>
    moved (Mat.newTranslate ((s.coordinateX + x * p.xDelta : ℚ) : ℝ) ((s.coordinateY + y * p.yDelta : ℚ) : ℝ)) body

/-- compiler.py 234-251: the end of `on_sr`.  The name of the buffer is the one on top of the stack
(compiler.py 236 keeps it in a local variable).  SR_open.py 25-37 asserts that the repeats are positive. -/
def closeSr (p : SrParams) (s : VState) : Step := fun c =>
  match c.stack with
  | [] => .error .indexError
  | id :: rest =>
    match c.buffers.get? id with
    | none => .error .keyError
    | some body =>
      if p.xRepeats = 0 ∨ p.yRepeats = 0 then .error .assertion
      else do
        let c ← append (copies p s body) { c with stack := rest }
        return { c with buffers := c.buffers.pop id }

/-! ## The callbacks together -/

/-- One callback. -/
def step (env : Env) (e : Event) : Step := fun c =>
  match e with
  | .draw kind inRegion s => draw kind inRegion s c
  | .flash kind ap s => flash env kind ap s c
  -- 527-530
  | .startRegion => .ok { c with contour := some [] }
  | .flushRegion s => flushRegion s c
  -- 633-636
  | .endRegion => .ok { c with contour := none }
  | .define id d s => define env id d s c
  -- 216-217
  | .abOpen id => .ok { create (.ap id) [] c with stack := .ap id :: c.stack }
  -- 221
  | .abClose _ =>
    match c.stack with
    | [] => .error .indexError
    | _ :: rest => .ok { c with stack := rest }
  -- 227-230
  | .srOpen p =>
    let id := LayerId.sr p.node (env.time c.calls)
    .ok { create id [] c with stack := id :: c.stack, calls := c.calls + 1 }
  | .srClose p s => closeSr p s c

/-- All callbacks in order. -/
def feed (env : Env) : List Event → Step
  | [], c => .ok c
  | e :: es, c => do
    let c ← step env e c
    feed env es c

/-! ## Emitting the program -/

/-- compiler.py 779-787: the local function of `_resolve_buffer_submit_order`, for any type of names; `deps` gives
the dependencies of a buffer in the order of the loop, `none` is a `KeyError`; the first argument bounds the
recursion; `order` is `buffer_submit_order`. -/
def resolve {ι : Type} [DecidableEq ι] (deps : ι → Option (List ι)) : Nat → ι → List ι → Except CErr (List ι)
  | 0, _, _ => .error .recursion
  | fuel + 1, id, order =>
    match deps id with
    | none => .error .keyError
    | some ds => do
      let order ← loop (resolve deps fuel) id ds order
      return order ++ [id]
where
  /-- compiler.py 780-785: the loop over the dependencies. -/
  loop {ι : Type} [DecidableEq ι] (rec : ι → List ι → Except CErr (List ι)) (id : ι) :
      List ι → List ι → Except CErr (List ι)
    | [], order => .ok order
    | d :: ds, order => do
      let order ← rec d order
      if id ∈ order then .error .cyclic else loop rec id ds order

/-- compiler.py 780: `depends_on` of a buffer in iteration order. -/
def dependsOn (env : Env) (buffers : Dict LayerId (List Cmd)) (id : LayerId) : Option (List LayerId) :=
  (buffers.get? id).map fun cmds => env.iter (Draw.sources cmds).dedup

/-- compiler.py 804-807: the commands of one buffer. -/
def layerCommands (id : LayerId) (cmds : List Cmd) : List (Command LayerId) :=
  .start id none ⟨0, 0⟩ :: cmds.map .draw ++ [.stop]

/-- compiler.py 776-809 (`_resolve_buffer_submit_order`, `_convert_buffers_to_rvmc`). -/
def convert (env : Env) (c : CState) : Except CErr (List (Command LayerId)) := do
  let order ← resolve (dependsOn env c.buffers) env.depth .main []
  return order.flatMap fun id => layerCommands id ((c.buffers.get? id).getD [])

/-- compiler.py 811-815 (`compile`), for the outcome of the visitor. -/
def finish (env : Env) (o : Out) : Except CErr (List (Command LayerId)) := do
  let c ← feed env o.ev CState.init
  match o.exn with
  | some e => .error (.visitor e)
  | none => convert env c

/-- compiler.py 811-815 (`compile`). -/
def compile (env : Env) (ignore : Bool) (file : List Visitor.Cmd) : Except CErr (List (Command LayerId)) :=
  finish env (processFile ignore file)

end
end Verif.Compiler
