import Verif.Model.Peg
import Verif.Model.State

/-!
# Syntax tree nodes (gerber/ast/nodes/**)

The nodes the grammar builds and the formatter prints.  Simplifications: source positions are dropped; an `Enum` member
whose values are free text (`AperFunction`, `Part`, `FileFunction`, `Mount`) is represented by its value; a `datetime`
is represented by its `isoformat()` text; floats are exact rationals.
-/

namespace Verif.Syntax

open Verif.Peg Verif.Math
open Verif.Visitor (Polarity Mirroring UnitMode ImagePolarity AxisCorrespondence)
open Verif.Coord (Zeros Notation)

/-- The G codes that may stand before a D code without an asterisk, gerber/ast/nodes/g_codes/G{01,…,91}.py. -/
inductive GCode | g01 | g02 | g03 | g36 | g37 | g54 | g55 | g70 | g71 | g74 | g75 | g90 | g91
  deriving DecidableEq, Repr

/-- The object attributes with one text field, gerber/ast/nodes/attribute/TO.py 94-112 and 136-196, 220-280,
304-343: `TO_C`, `TO_CMfr`, `TO_CMNP`, `TO_CVal`, `TO_CFtp`, `TO_CPgN`, `TO_CPgD`, `TO_CLbN`, `TO_CLbD`. -/
inductive ToKind | c | cMfr | cMpn | cVal | cFtp | cPgN | cPgD | cLbN | cLbD
  deriving DecidableEq, Repr

/-- Nodes of a macro body, gerber/ast/nodes/primitives/Code*.py and gerber/ast/nodes/math/assignment.py. -/
inductive Prim
  | assign (variable_ : Text) (expression : Expr)
  | code0 (string : Text)
  | code1 (exposure diameter centerX centerY : Expr) (rotation : Option Expr)
  | code2 (exposure width startX startY endX endY rotation : Expr)
  | code4 (exposure numberOfPoints startX startY : Expr) (points : List (Expr × Expr)) (rotation : Expr)
  | code5 (exposure numberOfVertices centerX centerY diameter rotation : Expr)
  | code6 (centerX centerY outerDiameter ringThickness gapBetweenRings maxRingCount crosshairThickness
      crosshairLength rotation : Expr)
  | code7 (centerX centerY outerDiameter innerDiameter gapThickness rotation : Expr)
  | code20 (exposure width startX startY endX endY rotation : Expr)
  | code21 (exposure width height centerX centerY rotation : Expr)
  | code22 (exposure width height xLowerLeft yLowerLeft rotation : Expr)

/-- Nodes of a file. -/
inductive Node
  /-- `AB` with its `ABopen`, nodes/aperture/AB.py 17-22, ABopen.py 16-19. -/
  | ab (apertureId : Text) (nodes : List Node)
  /-- `AM` with its `AMopen`, nodes/aperture/AM.py 17-22, AMopen.py 15-18. -/
  | am (name : Text) (primitives : List Prim)
  /-- `SR` with its `SRopen`, nodes/aperture/SR.py 17-22, SR_open.py 17-23. -/
  | sr (x y i j : Option Text) (nodes : List Node)
  /-- nodes/aperture/ADC.py 18-22. -/
  | adc (apertureId : Text) (diameter : ℚ) (hole : Option ℚ)
  /-- nodes/aperture/ADR.py 18-23. -/
  | adr (apertureId : Text) (width height : ℚ) (hole : Option ℚ)
  /-- nodes/aperture/ADO.py 18-23. -/
  | ado (apertureId : Text) (width height : ℚ) (hole : Option ℚ)
  /-- nodes/aperture/ADP.py 18-24. -/
  | adp (apertureId : Text) (outerDiameter : ℚ) (vertices : ℤ) (rotation hole : Option ℚ)
  /-- nodes/aperture/ADmacro.py 18-22. -/
  | adMacro (apertureId name : Text) (params : Option (List ℚ))
  /-- nodes/attribute/TA.py 27-31. -/
  | taUser (name : Text) (fields : List Text)
  /-- nodes/attribute/TA.py 49-53. -/
  | taFunction (function : Option Text) (fields : List Text)
  /-- nodes/attribute/TA.py 71-75. -/
  | taDrill (plus minus : Option ℚ)
  /-- nodes/attribute/TA.py 93-101. -/
  | taFlash (string mode mirroring : Text) (font size : Option Text) (comments : List Text)
  /-- nodes/attribute/TD.py 17-20. -/
  | td (name : Option Text)
  /-- nodes/attribute/TF.py 30-34. -/
  | tfUser (name : Text) (fields : List Text)
  /-- nodes/attribute/TF.py 52-56. -/
  | tfPart (part : Text) (fields : List Text)
  /-- nodes/attribute/TF.py 74-78. -/
  | tfFunction (function : Text) (fields : List Text)
  /-- nodes/attribute/TF.py 96-99. -/
  | tfPolarity (polarity : Text)
  /-- nodes/attribute/TF.py 117-120. -/
  | tfSame (identifier : Option Text)
  /-- nodes/attribute/TF.py 138-141. -/
  | tfDate (date : Text)
  /-- nodes/attribute/TF.py 159-164. -/
  | tfSoftware (vendor application version : Option Text)
  /-- nodes/attribute/TF.py 182-187. -/
  | tfProject (name guid revision : Option Text)
  /-- nodes/attribute/TF.py 208-211. -/
  | tfMd5 (md5 : Text)
  /-- nodes/attribute/TO.py 28-32. -/
  | toUser (name : Text) (fields : List Text)
  /-- nodes/attribute/TO.py 50-53. -/
  | toN (netNames : List Text)
  /-- nodes/attribute/TO.py 71-76. -/
  | toP (refdes number : Text) (function : Option Text)
  /-- The attributes with one text field. -/
  | toText (kind : ToKind) (value : Text)
  /-- nodes/attribute/TO.py 115-118. -/
  | toRot (angle : ℚ)
  /-- nodes/attribute/TO.py 283-286. -/
  | toHeight (height : ℚ)
  /-- nodes/attribute/TO.py 199-202. -/
  | toMount (mount : Text)
  /-- nodes/attribute/TO.py 346-352. -/
  | toSup (supplier supplierPart : Text) (others : List Text)
  /-- nodes/d_codes/Dnn.py 16-19, D.py 10-13. -/
  | dnn (apertureId : Text) (standalone : Bool)
  /-- nodes/d_codes/D01.py 21-27. -/
  | d01 (x y i j : Option Text) (standalone : Bool)
  /-- nodes/d_codes/D02.py 19-23. -/
  | d02 (x y : Option Text) (standalone : Bool)
  /-- nodes/d_codes/D03.py 19-23. -/
  | d03 (x y : Option Text) (standalone : Bool)
  /-- nodes/g_codes/G.py 10-13 and its subclasses. -/
  | g (code : GCode) (standalone : Bool)
  /-- nodes/g_codes/G04.py 17-20. -/
  | g04 (string : Option Text)
  /-- nodes/load/LM.py 16-19. -/
  | lm (mirroring : Mirroring)
  /-- nodes/load/LN.py 15-18. -/
  | ln (name : Text)
  /-- nodes/load/LP.py 16-19. -/
  | lp (polarity : Polarity)
  /-- nodes/load/LR.py 16-19. -/
  | lr (rotation : ℚ)
  /-- nodes/load/LS.py 16-19. -/
  | ls (scale : ℚ)
  /-- nodes/m_codes/M00.py. -/
  | m00
  /-- nodes/m_codes/M01.py. -/
  | m01
  /-- nodes/m_codes/M02.py. -/
  | m02
  /-- nodes/properties/AS.py 16-19. -/
  | as_ (correspondence : AxisCorrespondence)
  /-- nodes/properties/FS.py 16-26. -/
  | fs (zeros : Zeros) (mode : Notation) (xIntegral xDecimal yIntegral yDecimal : Nat)
  /-- nodes/properties/IN.py 17-20. -/
  | in_ (name : Text)
  /-- nodes/properties/IP.py 16-19. -/
  | ip (polarity : ImagePolarity)
  /-- nodes/properties/IR.py 15-18. -/
  | ir (degrees : ℤ)
  /-- nodes/properties/MI.py 17-21; `true` is 1. -/
  | mi (a b : Bool)
  /-- nodes/properties/MO.py 16-19. -/
  | mo (mode : UnitMode)
  /-- nodes/properties/OF.py 17-21. -/
  | of_ (a b : Option ℚ)
  /-- nodes/properties/SF.py 18-22. -/
  | sf (a b : ℚ)

/-! ## Enumerations (gerber/ast/nodes/enums.py) -/

/-- `AperFunction`, enums.py 41-75. -/
def aperFunctions : List Text :=
  [t!"ViaDrill", t!"BackDrill", t!"ComponentDrill", t!"MechanicalDrill", t!"CastellatedDrill", t!"OtherDrill",
   t!"ComponentPad", t!"SMDPad", t!"BGAPad", t!"ConnectorPad", t!"HeatsinkPad", t!"ViaPad", t!"TestPad",
   t!"CastellatedPad", t!"FiducialPad", t!"ThermalReliefPad", t!"WasherPad", t!"AntiPad", t!"OtherPad",
   t!"Conductor", t!"EtchedComponent", t!"NonConductor", t!"CopperBalancing", t!"Border", t!"OtherCopper",
   t!"ComponentMain", t!"ComponentOutline", t!"ComponentPin", t!"Profile", t!"Material", t!"NonMaterial", t!"Other"]

/-- `Part`, enums.py 83-90. -/
def parts : List Text := [t!"Single", t!"Array", t!"FabricationPanel", t!"Coupon", t!"Other"]

/-- `FileFunction`, enums.py 93-121. -/
def fileFunctions : List Text :=
  [t!"Copper", t!"Plated", t!"NonPlated", t!"Profile", t!"Soldermask", t!"Legend", t!"Component", t!"Paste", t!"Glue",
   t!"Carbonmask", t!"Goldmask", t!"Heatsinkmask", t!"Peelablemask", t!"Silvermask", t!"Tinmask", t!"Depthrout",
   t!"Vcut", t!"Viafill", t!"Pads", t!"Other", t!"Drillmap", t!"FabricationDrawing", t!"Vcutmap", t!"AssemblyDrawing",
   t!"ArrayDrawing", t!"OtherDrawing"]

/-- `Mount`, enums.py 129-136. -/
def mounts : List Text := [t!"SMD", t!"TH", t!"Pressfit", t!"Fiducial", t!"Other"]

/-- `Mirroring.value`, enums.py 139-145. -/
def mirroringValue : Mirroring → Text
  | .none => t!"N"
  | .x => t!"X"
  | .y => t!"Y"
  | .xy => t!"XY"

/-- `Polarity.value`, enums.py 168-172. -/
def polarityValue : Polarity → Text
  | .clear => t!"C"
  | .dark => t!"D"

/-- `AxisCorrespondence.value`, enums.py 175-179. -/
def axisValue : AxisCorrespondence → Text
  | .axBy => t!"AXBY"
  | .ayBx => t!"AYBX"

/-- `UnitMode.value`, enums.py 182-188. -/
def unitValue : UnitMode → Text
  | .imperial => t!"IN"
  | .metric => t!"MM"

/-- `ImagePolarity.value`, enums.py 191-198. -/
def imageValue : ImagePolarity → Text
  | .positive => t!"POS"
  | .negative => t!"NEG"

/-- `Zeros.value`, enums.py 8-18. -/
def zerosValue : Zeros → Text
  | .skipLeading => t!"L"
  | .skipTrailing => t!"T"
  | .skipLeadingImplied => []

/-- `CoordinateNotation.value`, enums.py 26-33. -/
def notationValue : Notation → Text
  | .absolute => t!"A"
  | .incremental => t!"I"

/-- `Enum(value)`: the member with that value; `none` is the `ValueError` pydantic turns into a `ValidationError`. -/
def member {α : Type} (value : α → Text) (all : List α) (t : Text) : Option α := all.find? (fun a => value a == t)

end Verif.Syntax
