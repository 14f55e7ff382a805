import Verif.Model.GerberBuilder
import Verif.Model.View
import Verif.Model.Formatter

/-!
# The text of a built board (builder/gerber.py, `GerberCode`)

The builder (`Verif.GerberBuilder`) keeps commands as the visitors see them; here they are turned into the syntax tree
nodes that `get_code` puts into the file, and these are printed.
Simplification: the values of an attribute are kept by the builder as one text, every value after a comma
(`Verif.View.fieldsOf`); they are split again here.
-/

namespace Verif.Dump

open Verif.Peg Verif.Syntax Verif.Visitor Verif.GerberBuilder

/-- The parts of a text between commas. -/
def split : Text → List Text
  | [] => [[]]
  | c :: t =>
    if c = ',' then [] :: split t
    else match split t with
      | [] => [[c]]
      | f :: fs => (c :: f) :: fs

/-- The values of an attribute; see above. -/
def fields : Text → List Text
  | [] => []
  | _ :: t => split t

/-- The number that was written as a value of `.DrillTolerance`. -/
def number (t : Text) : Option ℚ := (Fmt.pDouble t).map (·.1)

/-- The nodes of a macro body, builder/gerber.py 1025-1457: `Code1`, `Code20`, `Code21`, `Code4`, `Code5`, `Code7`.  The
other primitives are not made by the builder. -/
def prim : Macro.Prim → Syntax.Prim
  | .assign v e => .assign v e
  | .code0 => .code0 []
  | .code1 a b c d r => .code1 a b c d r
  | .code2 a b c d e f r => .code2 a b c d e f r
  | .code4 a b c d ps r => .code4 a b c d ps r
  | .code5 a b c d e r => .code5 a b c d e r
  | .code6 a b c d e f g h r => .code6 a b c d e f g h r
  | .code7 _ a b c d e r => .code7 a b c d e r
  | .code20 a b c d e f r => .code20 a b c d e f r
  | .code21 a b c d e r => .code21 a b c d e r
  | .code22 a b c d e r => .code22 a b c d e r

/-- The node of an aperture definition, builder/gerber.py 717-722, 755-760, 794-799, 836-842, 986-989. -/
def definition (i : Name) : ApDef → Node
  | .circle d h => .adc i d h
  | .rect w h o => .adr i w h o
  | .obround w h o => .ado i w h o
  | .polygon d n r h => .adp i d n r h
  | .macro m ps => .adMacro i m (if ps = [] then none else some ps)

/-- The node of an attribute, builder/gerber.py 890-897 (`TA_AperFunction`), 913-916 (`TA_DrillTolerance`) and 932
(`TA_UserName`). -/
def attribute_ (n v : Name) : Node :=
  if n = functionName then .taFunction (fields v)[0]? ((fields v).drop 1)
  else if n = toleranceName then .taDrill ((fields v)[0]?.bind number) ((fields v)[1]?.bind number)
  else .taUser n (fields v)

/-- The nodes that the builder makes; `is_standalone` has its default `True` (nodes/d_codes/D.py 13, nodes/g_codes/G.py
13).  Commands that the builder does not make become an empty comment. -/
def node : Leaf → Node
  | .fs f => .fs f.zeros f.notation_ f.xIntegral f.xDecimal f.yIntegral f.yDecimal
  | .mo u => .mo u
  | .am n ps => .am n (ps.map prim)
  | .ad i d => definition i d
  | .ta n v => attribute_ n v
  | .td n => .td n
  | .dnn i => .dnn i true
  | .lp p => .lp p
  | .lr r => .lr r
  | .lm m => .lm m
  | .ls k => .ls k
  | .g01 => .g .g01 true
  | .g02 => .g .g02 true
  | .g03 => .g .g03 true
  | .g36 => .g .g36 true
  | .g37 => .g .g37 true
  | .g75 => .g .g75 true
  | .d01 x y i j => .d01 x y i j true
  | .d02 x y => .d02 x y true
  | .d03 x y => .d03 x y true
  | .m02 => .m02
  | _ => .g04 none

/-- The syntax tree, builder/gerber.py 613-633 (`get_code`) and 658-661 (`raw`). -/
def file (b : Builder) : List Node := b.getCode.map node

/-- builder/gerber.py 652-656 (`dump`, `dumps`): the file printed with the default options. -/
def dumps (b : Builder) : Text := Formatter.formats (Formatter.build {}) (file b)

end Verif.Dump
