import Verif.Model.Compiler

/-!
# Metadata of compiled programs (gerber/compiler/compiler.py)

`Compiler(include_metadata=True)` writes attributes of the file into the commands of the program.  This is the
compiler of `Verif.Model.Compiler` again, with the field `metadata` (vm/commands/command.py 19, vm/rvmc.py 15) of every
command.  Where a method only passes one value of metadata to all the shapes it makes, the shapes are those of
`Verif.Model.Compiler`.

Simplification: an attribute is the text that stands for its node in the model of the visitor, instead of the JSON text
`model_dump_json` makes of the node (compiler.py 113-119).
-/

namespace Verif.Metadata
open Verif.Visitor Verif.Geom Verif.Rvmc Verif.Math Verif.Macro Verif.Compiler
noncomputable section

/-- The field `metadata`. -/
abbrev Info := Option (Dict Name Name)

/-- A drawing command and its metadata. -/
structure Tagged where
  /-- The command. -/
  cmd : Compiler.Cmd
  /-- Its field `metadata`. -/
  info : Info

/-- The attributes of the compiler, with metadata (compiler.py 129-137). -/
structure MState where
  buffers : Dict LayerId (List Tagged)
  stack : List LayerId
  contour : Option (List Segment)
  calls : Nat

/-- compiler.py 129-137 (`__init__`). -/
def MState.init : MState := { buffers := [(.main, [])], stack := [.main], contour := some [], calls := 0 }

/-- compiler.py 113-119, 254-259, 396-401 and 793-798 (`_convert_attributes_to_metadata`, `_get_aperture_metadata`,
`_get_object_metadata`, `_get_file_metadata`). -/
def keep (inc : Bool) (attrs : Dict Name Name) : Info := if inc then some attrs else none

/-- compiler.py 605-613 (`_get_region_metadata`): the dictionary is made and not returned. -/
def regionInfo (_inc : Bool) (_s : VState) : Info := none

/-- compiler.py 155-171, as `Compiler.append`. -/
def append (cmds : List Tagged) (c : MState) : Except CErr MState :=
  match cmds with
  | [] => .ok c
  | cmds =>
    match c.stack with
    | [] => .error .indexError
    | id :: _ =>
      match c.buffers.get? id with
      | none => .error .keyError
      | some b => .ok { c with buffers := c.buffers.set id (b ++ cmds) }

/-- compiler.py 286-297 (`_create_aperture_buffer`). -/
def create (id : LayerId) (cmds : List Tagged) (c : MState) : MState :=
  { c with buffers := c.buffers.set id cmds }

/-- Commands with the same metadata. -/
def tag (info : Info) (cmds : List Compiler.Cmd) : List Tagged := cmds.map fun c => ⟨c, info⟩

/-! ## Macros -/

/-- compiler.py 923-994 (`on_code_6`): only the cross hair is given metadata (947, 956); the circles and rings
(968-983) are not. -/
def moire (info : Info) (scope : Dict Name ℚ)
    (centerX centerY outer ringThickness gap maxRings crossThickness crossLength rotation : Expr) :
    Except CErr (List Tagged) := do
  let cx ← evalE scope centerX
  let cy ← evalE scope centerY
  let od ← evalE scope outer
  let rt ← evalE scope ringThickness
  let g ← evalE scope gap
  let mr ← evalE scope maxRings
  let ct ← evalE scope crossThickness
  let cl ← evalE scope crossLength
  let r ← evalE scope rotation
  let cross := if cl > 0 ∧ ct > 0 then
      [Shape.newLine (pt cx (cy - cl / 2)) (pt cx (cy + cl / 2)) (ct : ℝ) false,
       Shape.newLine (pt (cx - cl / 2) cy) (pt (cx + cl / 2) cy) (ct : ℝ) false]
    else []
  let rs ← if rt > 0 ∧ od > 0 ∧ mr > 0 then
      rings (pt cx cy) rt (g * 2 + rt * 2) (truncQ mr).toNat od (od - rt * 2)
    else .ok []
  return tag info ((cross.map (rotated r)).map .shape) ++ tag none ((rs.map (rotated r)).map .shape)

/-- The effect of one primitive, as `Compiler.PrimOut`. -/
structure PrimOut where
  scope : Dict Name ℚ
  cmds : List Tagged
  layer : Option (LayerId × List Tagged)
  ticks : Nat

/-- compiler.py 837-1125: the methods of `MacroEvalVisitor`.  The shapes of a thermal have the metadata (1029, 1041,
1050), the command that pastes it has none (1064-1070). -/
def primitive (info : Info) (now : Nat) (scope : Dict Name ℚ) : Prim → Except CErr PrimOut
  | .code6 cx cy outer rt gap mr ct cl rotation => do
    return ⟨scope, ← moire info scope cx cy outer rt gap mr ct cl rotation, none, 0⟩
  | .code7 node cx cy outer inner gap rotation => do
    let o ← thermal now scope node cx cy outer inner gap rotation
    return ⟨o.scope, tag none o.cmds, o.layer.map fun l => (l.1, tag info l.2), o.ticks⟩
  | p => do
    let o ← Compiler.primitive now scope p
    return ⟨o.scope, tag info o.cmds, o.layer.map fun l => (l.1, tag info l.2), o.ticks⟩

/-- The primitives of a macro in order, as `Compiler.runPrims`. -/
def runPrims (env : Env) (info : Info) (id : LayerId) :
    List Prim → Dict Name ℚ → List Tagged → MState → Except CErr MState
  | [], _, cmds, c => .ok (create id cmds c)
  | p :: ps, scope, cmds, c => do
    let o ← primitive info (env.time c.calls) scope p
    let c' := { c with calls := c.calls + o.ticks }
    runPrims env info id ps o.scope (cmds ++ o.cmds) (match o.layer with
      | some l => create l.1 l.2 c'
      | none => c')

/-! ## Aperture definitions -/

/-- compiler.py 261-394: the shape and the hole have the aperture attributes. -/
def define (env : Env) (inc : Bool) (id : Name) (d : ApDef) (s : VState) (c : MState) : Except CErr MState :=
  let info := keep inc s.apertureAttrs
  match d with
  | .circle diameter hole =>
    .ok (create (.ap id)
      (tag info (.shape (Shape.newCircle ⟨0, 0⟩ (diameter : ℝ) false) :: holeOf hole diameter)) c)
  | .rect w h hole =>
    .ok (create (.ap id)
      (tag info (.shape (Shape.newRectangle ⟨0, 0⟩ (w : ℝ) (h : ℝ) false) :: holeOf hole (min w h))) c)
  | .obround w h hole =>
    .ok (create (.ap id)
      (tag info (.shape (Shape.newObround ⟨0, 0⟩ (w : ℝ) (h : ℝ) false) :: holeOf hole (min w h))) c)
  | .polygon diameter n rotation hole => do
    let s ← polygon ⟨0, 0⟩ (diameter : ℝ) n ((rotation.getD 0 : ℚ) : ℝ) false
    return create (.ap id) (tag info (.shape s :: holeOf hole diameter)) c
  | .macro name params =>
    match s.macros.get? name with
    | none => .error .macroNotDefined
    | some body => runPrims env info (.ap id) body (paramScope params) [] (create (.ap id) [] c)

/-! ## Drawing -/

/-- compiler.py 403-603: the draw callbacks; the shapes have the object attributes. -/
def draw (inc : Bool) (kind : DrawKind) (inRegion : Bool) (s : VState) (c : MState) : Except CErr MState :=
  if inRegion then
    match kind with
    | .cwSq => .ok c
    | .ccwSq => .ok c
    | _ =>
      match c.contour with
      | none => .error .contourNotSet
      | some g => .ok { c with contour := some (g ++ contourSegments kind s) }
  else do
    let ss ← drawShapes kind s
    append (tag (keep inc s.objectAttrs) (ss.map .shape)) c

/-- compiler.py 615-631 (`on_flush_region`). -/
def flushRegion (inc : Bool) (s : VState) (c : MState) : Except CErr MState :=
  match c.contour with
  | none => .error .contourNotSet
  | some [] => .ok { c with contour := some [] }
  | some (g :: gs) => do
    let c ← append [⟨.shape ⟨g, gs, s.isNegative⟩, regionInfo inc s⟩] c
    return { c with contour := some [] }

/-! ## Flashing -/

/-- compiler.py 689-706: `model_copy` (vm/commands/shape.py 50) and line 701 keep the metadata. -/
def transformCmds (m : Mat ℝ) (get : LayerId → MState → Except CErr (LayerId × MState)) :
    List Tagged → MState → Except CErr (List Tagged × MState)
  | [], c => .ok ([], c)
  | ⟨.shape s, info⟩ :: cmds, c => do
    let r ← transformCmds m get cmds c
    return (⟨.shape (s.transform m), info⟩ :: r.1, r.2)
  | ⟨.paste src center neg, info⟩ :: cmds, c => do
    let b ← get src c
    let r ← transformCmds m get cmds b.2
    return (⟨.paste b.1 (m.apply center) neg, info⟩ :: r.1, r.2)

/-- compiler.py 667-715, as `Compiler.bufferWithTransform`. -/
def bufferWithTransform (m : Mat ℝ) : Nat → LayerId → MState → Except CErr (LayerId × MState)
  | 0, _, _ => .error .recursion
  | fuel + 1, base, c =>
    match c.buffers.get? (.xform base m) with
    | some _ => .ok (.xform base m, c)
    | none =>
      match c.buffers.get? base with
      | none => .error .keyError
      | some cmds => do
        let r ← transformCmds m (bufferWithTransform m fuel) cmds c
        return (.xform base m, create (.xform base m) r.1 r.2)

/-- compiler.py 749-765: the metadata is kept (760). -/
def moved (m : Mat ℝ) (cmds : List Tagged) : List Tagged :=
  cmds.map fun
    | ⟨.shape s, info⟩ => ⟨.shape (s.transform m), info⟩
    | ⟨.paste src center neg, info⟩ => ⟨.paste src (m.apply center) neg, info⟩

/-- compiler.py 642-654 (`_on_flash_aperture`): the paste has the object attributes. -/
def flashAperture (env : Env) (inc : Bool) (id : Name) (s : VState) (c : MState) : Except CErr MState := do
  let b ← bufferWithTransform (transformMatrix s.transform) env.depth (.ap id) c
  append [⟨.paste b.1 (endPoint s) s.isNegative, keep inc s.objectAttrs⟩] b.2

/-- compiler.py 733-741 (`on_flash_block`): the object attributes are not used. -/
def flashBlock (env : Env) (id : Name) (s : VState) (c : MState) : Except CErr MState := do
  let b ← bufferWithTransform (transformMatrix s.transform) env.depth (.ap id) c
  match b.2.buffers.get? b.1 with
  | none => .error .keyError
  | some cmds => append (moved (Mat.newTranslate (s.coordinateX : ℝ) (s.coordinateY : ℝ)) cmds) b.2

/-- compiler.py 638-741, as `Compiler.flash`. -/
def flash (env : Env) (inc : Bool) (kind : FlashKind) (ap : Aperture) (s : VState) (c : MState) : Except CErr MState :=
  match kind, ap with
  | .block, .ab id => flashBlock env id s c
  | .block, .ad _ _ => .error .attributeError
  | _, .ad id _ => flashAperture env inc id s c
  | _, .ab _ => .error .attributeError

/-! ## Step and repeat -/

/-- compiler.py 241-249. -/
def copies (p : SrParams) (s : VState) (body : List Tagged) : List Tagged :=
  (List.range p.xRepeats).flatMap fun x : ℕ => (List.range p.yRepeats).flatMap fun y : ℕ =>
    moved (Mat.newTranslate ((s.coordinateX + x * p.xDelta : ℚ) : ℝ) ((s.coordinateY + y * p.yDelta : ℚ) : ℝ)) body

/-- compiler.py 234-251, as `Compiler.closeSr`. -/
def closeSr (p : SrParams) (s : VState) (c : MState) : Except CErr MState :=
  match c.stack with
  | [] => .error .indexError
  | id :: rest =>
    match c.buffers.get? id with
    | none => .error .keyError
    | some body =>
      if p.xRepeats = 0 ∨ p.yRepeats = 0 then .error .assertion
      else do
        let c ← append (copies p s body) { c with stack := rest }
        return { c with buffers := c.buffers.pop id }

/-! ## The callbacks together -/

/-- One callback, as `Compiler.step`. -/
def step (env : Env) (inc : Bool) (e : Event) (c : MState) : Except CErr MState :=
  match e with
  | .draw kind inRegion s => draw inc kind inRegion s c
  | .flash kind ap s => flash env inc kind ap s c
  | .startRegion => .ok { c with contour := some [] }
  | .flushRegion s => flushRegion inc s c
  | .endRegion => .ok { c with contour := none }
  | .define id d s => define env inc id d s c
  | .abOpen id => .ok { create (.ap id) [] c with stack := .ap id :: c.stack }
  | .abClose _ =>
    match c.stack with
    | [] => .error .indexError
    | _ :: rest => .ok { c with stack := rest }
  | .srOpen p =>
    let id := LayerId.sr p.node (env.time c.calls)
    .ok { create id [] c with stack := id :: c.stack, calls := c.calls + 1 }
  | .srClose p s => closeSr p s c

/-- All callbacks in order. -/
def feed (env : Env) (inc : Bool) : List Event → MState → Except CErr MState
  | [], c => .ok c
  | e :: es, c => do
    let c ← step env inc e c
    feed env inc es c

/-! ## Emitting the program -/

/-- compiler.py 780: `depends_on` of a buffer in iteration order. -/
def dependsOn (env : Env) (buffers : Dict LayerId (List Tagged)) (id : LayerId) : Option (List LayerId) :=
  (buffers.get? id).map fun cmds => env.iter (Draw.sources (cmds.map Tagged.cmd)).dedup

/-- compiler.py 804-807: the commands of one buffer; the commands that start and end a layer have no metadata. -/
def layerCommands (id : LayerId) (cmds : List Tagged) : List (Command LayerId × Info) :=
  (.start id none ⟨0, 0⟩, none) :: cmds.map (fun t => (.draw t.cmd, t.info)) ++ [(.stop, none)]

/-- A compiled program (vm/rvmc.py 12-15). -/
structure Program where
  commands : List (Command LayerId × Info)
  metadata : Info

/-- compiler.py 776-809; `s` is the state of the visitor at the end. -/
def convert (env : Env) (inc : Bool) (s : VState) (c : MState) : Except CErr Program := do
  let order ← resolve (dependsOn env c.buffers) env.depth .main []
  return ⟨order.flatMap fun id => layerCommands id ((c.buffers.get? id).getD []), keep inc s.fileAttrs⟩

/-- compiler.py 811-815 (`compile`), for the outcome of the visitor. -/
def finish (env : Env) (inc : Bool) (o : Out) : Except CErr Program := do
  let c ← feed env inc o.ev MState.init
  match o.exn with
  | some e => .error (.visitor e)
  | none => convert env inc o.st c

/-- compiler.py 811-815: `Compiler(include_metadata=inc).compile(file)`. -/
def compile (env : Env) (inc ignore : Bool) (file : List Visitor.Cmd) : Except CErr Program :=
  finish env inc (processFile ignore file)

end
end Verif.Metadata
