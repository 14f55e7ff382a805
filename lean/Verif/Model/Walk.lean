import Verif.Model.Resilient

/-!
# Walking the syntax tree (gerber/ast/ast_visitor.py, gerber/linter/event_ast_visitor.py)

`node.visit(visitor)` calls the method of the visitor for the class of the node.  A class derived from `AstVisitor` is
modelled by what its methods do given the inherited method (`super`), so that a method may do anything before and after
it, call it or not, and raise.  The objects a visitor changes are a state that survives exceptions.
Simplifications: the node that methods return is dropped, it is always the node that they were given; exceptions that
are not an `Exception` are not modelled.
-/

namespace Verif.Walk

open Verif.Peg Verif.Math Verif.Syntax
open Verif.Grammar (Entry)

/-- The letter of a coordinate, nodes/other/Coordinate{X,Y,I,J}.py. -/
inductive Axis | x | y | i | j
  deriving DecidableEq, Repr

/-- Objects that are visited: those of `Verif.Syntax` and the parts of them that are nodes too. -/
inductive Item
  /-- `File`, nodes/file.py. -/
  | file (nodes : List Entry)
  /-- `Invalid`, nodes/invalid.py. -/
  | invalid (string : Text)
  /-- The nodes of a file. -/
  | node (n : Node)
  /-- `ABopen`, nodes/aperture/ABopen.py. -/
  | abOpen (apertureId : Text)
  /-- `ABclose`, nodes/aperture/ABclose.py. -/
  | abClose
  /-- `AMopen`, nodes/aperture/AMopen.py. -/
  | amOpen (name : Text)
  /-- `AMclose`, nodes/aperture/AMclose.py. -/
  | amClose
  /-- `SRopen`, nodes/aperture/SR_open.py. -/
  | srOpen (x y i j : Option Text)
  /-- `SRclose`, nodes/aperture/SR_close.py. -/
  | srClose
  /-- The nodes of a macro. -/
  | prim (p : Prim)
  /-- `Point`, nodes/math/point.py. -/
  | point (x y : Expr)
  /-- The nodes of an expression. -/
  | expr (e : Expr)
  /-- `CoordinateX` to `CoordinateJ`. -/
  | coord (axis : Axis) (value : Text)

/-- A call: the new state, and the exception if one is raised. -/
abbrev Act (σ ε : Type) := σ → σ × Option ε

variable {σ ε : Type}

/-- `pass`. -/
def nothing : Act σ ε := fun s => (s, none)

/-- One call after the other. -/
def andThen (a b : Act σ ε) : Act σ ε := fun s =>
  match a s with
  | (s, none) => b s
  | (s, some e) => (s, some e)

/-- Calls one after the other. -/
def inTurn : List (Act σ ε) → Act σ ε
  | [] => nothing
  | a :: as => andThen a (inTurn as)

/-- A visitor. -/
structure Visitor (σ ε : Type) where
  /-- The method for the node, given the inherited one. -/
  on : Item → Act σ ε → Act σ ε
  /-- `on_ad` (159), `on_ta` (221), `on_tf` (248), `on_to` (298), `on_expression` (586), `on_coordinate` (608). -/
  group : Item → Act σ ε
  /-- `on_end_of_file` (786). -/
  endOfFile : Item → Act σ ε
  /-- `on_exception` (789-794): it may raise itself. -/
  onException : Item → ε → σ → σ × Except ε Bool

/-- ast_visitor.py 126-798: `AstVisitor` itself. -/
def Visitor.base : Visitor σ ε where
  on _ super := super
  group _ := nothing
  endOfFile _ := nothing
  onException _ _ s := (s, .ok true)

variable (v : Visitor σ ε)

mutual
/-- ast_visitor.py 521-604: `on_add`, `on_div`, `on_mul`, `on_sub`, `on_neg`, `on_pos`, `on_constant`,
`on_parenthesis`, `on_variable`. -/
def visitExpr : Expr → Act σ ε
  | .const c => v.on (.expr (.const c)) (v.group (.expr (.const c)))
  | .var n => v.on (.expr (.var n)) (v.group (.expr (.var n)))
  | .paren e => v.on (.expr (.paren e)) (andThen (v.group (.expr (.paren e))) (visitExpr e))
  | .neg e => v.on (.expr (.neg e)) (andThen (v.group (.expr (.neg e))) (visitExpr e))
  | .pos e => v.on (.expr (.pos e)) (andThen (v.group (.expr (.pos e))) (visitExpr e))
  | .bin op h t => v.on (.expr (.bin op h t)) (andThen (v.group (.expr (.bin op h t)))
      (andThen (visitExpr h) (visitTail t)))
/-- ast_visitor.py 526-527: the loop over `node.tail`. -/
def visitTail : List Expr → Act σ ε
  | [] => nothing
  | e :: es => andThen (visitExpr e) (visitTail es)
end

/-- ast_visitor.py 595-599 (`on_point`). -/
def visitPoint (p : Expr × Expr) : Act σ ε :=
  v.on (.point p.1 p.2) (andThen (visitExpr v p.1) (visitExpr v p.2))

/-- ast_visitor.py 611-629: `on_coordinate_x` to `on_coordinate_j`. -/
def visitCoord (a : Axis) (t : Text) : Act σ ε := v.on (.coord a t) (v.group (.coord a t))

/-- `if node.x is not None: node.x.visit(self)`. -/
def visitOption {α : Type} (visit : α → Act σ ε) : Option α → Act σ ε
  | none => nothing
  | some a => visit a

/-- What the methods for the nodes of a macro do: ast_visitor.py 575-579 (`on_assignment`), 633-731. -/
def insidePrim : Prim → Act σ ε
  | .assign x e => andThen (visitExpr v (.var x)) (visitExpr v e)
  | .code0 _ => nothing
  | .code1 a b c d r => andThen (inTurn [visitExpr v a, visitExpr v b, visitExpr v c, visitExpr v d])
      (visitOption (visitExpr v) r)
  | .code2 a b c d e f g => inTurn [visitExpr v a, visitExpr v b, visitExpr v c, visitExpr v d, visitExpr v e,
      visitExpr v f, visitExpr v g]
  | .code4 a b c d ps r => inTurn ([visitExpr v a, visitExpr v b, visitExpr v c, visitExpr v d]
      ++ ps.map (visitPoint v) ++ [visitExpr v r])
  | .code5 a b c d e f => inTurn [visitExpr v a, visitExpr v b, visitExpr v c, visitExpr v d, visitExpr v e,
      visitExpr v f]
  | .code6 a b c d e f g h i => inTurn [visitExpr v a, visitExpr v b, visitExpr v c, visitExpr v d, visitExpr v e,
      visitExpr v f, visitExpr v g, visitExpr v h, visitExpr v i]
  | .code7 a b c d e f => inTurn [visitExpr v a, visitExpr v b, visitExpr v c, visitExpr v d, visitExpr v e,
      visitExpr v f]
  | .code20 a b c d e f g => inTurn [visitExpr v a, visitExpr v b, visitExpr v c, visitExpr v d, visitExpr v e,
      visitExpr v f, visitExpr v g]
  | .code21 a b c d e f => inTurn [visitExpr v a, visitExpr v b, visitExpr v c, visitExpr v d, visitExpr v e,
      visitExpr v f]
  | .code22 a b c d e f => inTurn [visitExpr v a, visitExpr v b, visitExpr v c, visitExpr v d, visitExpr v e,
      visitExpr v f]

/-- A node of a macro. -/
def visitPrim (p : Prim) : Act σ ε := v.on (.prim p) (insidePrim v p)

/-- What the methods for the nodes without a body do: ast_visitor.py 159-185, 221-515 and 735-769. -/
def insideLeaf : Node → Act σ ε
  | .adc a b c => v.group (.node (.adc a b c))
  | .adr a b c d => v.group (.node (.adr a b c d))
  | .ado a b c d => v.group (.node (.ado a b c d))
  | .adp a b c d e => v.group (.node (.adp a b c d e))
  | .adMacro a b c => v.group (.node (.adMacro a b c))
  | .taUser a b => v.group (.node (.taUser a b))
  | .taFunction a b => v.group (.node (.taFunction a b))
  | .taDrill a b => v.group (.node (.taDrill a b))
  | .taFlash a b c d e f => v.group (.node (.taFlash a b c d e f))
  | .tfUser a b => v.group (.node (.tfUser a b))
  | .tfPart a b => v.group (.node (.tfPart a b))
  | .tfFunction a b => v.group (.node (.tfFunction a b))
  | .tfPolarity a => v.group (.node (.tfPolarity a))
  | .tfSame a => v.group (.node (.tfSame a))
  | .tfDate a => v.group (.node (.tfDate a))
  | .tfSoftware a b c => v.group (.node (.tfSoftware a b c))
  | .tfProject a b c => v.group (.node (.tfProject a b c))
  | .tfMd5 a => v.group (.node (.tfMd5 a))
  | .toUser a b => v.group (.node (.toUser a b))
  | .toN a => v.group (.node (.toN a))
  | .toP a b c => v.group (.node (.toP a b c))
  | .toText a b => v.group (.node (.toText a b))
  | .toRot a => v.group (.node (.toRot a))
  | .toHeight a => v.group (.node (.toHeight a))
  | .toMount a => v.group (.node (.toMount a))
  | .toSup a b c => v.group (.node (.toSup a b c))
  | .d01 x y i j _ => inTurn [visitOption (visitCoord v .x) x, visitOption (visitCoord v .y) y,
      visitOption (visitCoord v .i) i, visitOption (visitCoord v .j) j]
  | .d02 x y _ => inTurn [visitOption (visitCoord v .x) x, visitOption (visitCoord v .y) y]
  | .d03 x y _ => inTurn [visitOption (visitCoord v .x) x, visitOption (visitCoord v .y) y]
  | _ => nothing

mutual
/-- A node: ast_visitor.py 142-149 (`on_ab`), 187-193 (`on_am`), 203-209 (`on_sr`) and the others. -/
def visitNode : Node → Act σ ε
  | .ab id ns => v.on (.node (.ab id ns)) (andThen (v.on (.abOpen id) nothing)
      (andThen (visitNodes ns) (v.on .abClose nothing)))
  | .sr x y i j ns => v.on (.node (.sr x y i j ns)) (andThen (v.on (.srOpen x y i j) nothing)
      (andThen (visitNodes ns) (v.on .srClose nothing)))
  | .am name ps => v.on (.node (.am name ps)) (andThen (v.on (.amOpen name) nothing)
      (andThen (inTurn (ps.map (visitPrim v))) (v.on .amClose nothing)))
  | n => v.on (.node n) (insideLeaf v n)
/-- ast_visitor.py 145-146: the loop over `node.nodes`. -/
def visitNodes : List Node → Act σ ε
  | [] => nothing
  | n :: ns => andThen (visitNode n) (visitNodes ns)
end

/-- The node of an entry. -/
def entryItem : Entry → Item
  | .node n => .node n
  | .invalid t => .invalid t

/-- An entry of a file; ast_visitor.py 796-798 (`on_invalid`). -/
def visitEntry : Entry → Act σ ε
  | .node n => visitNode v n
  | .invalid t => v.on (.invalid t) nothing

/-- ast_visitor.py 776-781: the loop of `on_file`. -/
def fileLoop : List Entry → Act σ ε
  | [], s => (s, none)
  | n :: ns, s =>
    match visitEntry v n s with
    | (s, none) => fileLoop ns s
    | (s, some e) =>
      match v.onException (entryItem n) e s with
      | (s, .ok false) => fileLoop ns s
      | (s, .ok true) => (s, some e)
      | (s, .error e) => (s, some e)

/-- ast_visitor.py 773-784 (`on_file`): `try: … finally: self.on_end_of_file(node)`. -/
def insideFile (ns : List Entry) : Act σ ε := fun s =>
  match fileLoop v ns s with
  | (s, r) =>
    match v.endOfFile (.file ns) s with
    | (s, none) => (s, r)
    | (s, some e) => (s, some e)

/-- `file.visit(visitor)`, nodes/file.py 23-25. -/
def visitFile (ns : List Entry) : Act σ ε := v.on (.file ns) (insideFile v ns)

/-! ## Listeners -/

/-- `type(node)` of the G codes. -/
def gClass : GCode → String
  | .g01 => "G01" | .g02 => "G02" | .g03 => "G03" | .g36 => "G36" | .g37 => "G37" | .g54 => "G54" | .g55 => "G55"
  | .g70 => "G70" | .g71 => "G71" | .g74 => "G74" | .g75 => "G75" | .g90 => "G90" | .g91 => "G91"

/-- `type(node)` of the object attributes with one field. -/
def toClass : ToKind → String
  | .c => "TO_C" | .cMfr => "TO_CMfr" | .cMpn => "TO_CMNP" | .cVal => "TO_CVal" | .cFtp => "TO_CFtp"
  | .cPgN => "TO_CPgN" | .cPgD => "TO_CPgD" | .cLbN => "TO_CLbN" | .cLbD => "TO_CLbD"

/-- `type(node)` of the nodes of a file. -/
def nodeClass : Node → String
  | .ab .. => "AB" | .am .. => "AM" | .sr .. => "SR"
  | .adc .. => "ADC" | .adr .. => "ADR" | .ado .. => "ADO" | .adp .. => "ADP" | .adMacro .. => "ADmacro"
  | .taUser .. => "TA_UserName" | .taFunction .. => "TA_AperFunction" | .taDrill .. => "TA_DrillTolerance"
  | .taFlash .. => "TA_FlashText" | .td .. => "TD"
  | .tfUser .. => "TF_UserName" | .tfPart .. => "TF_Part" | .tfFunction .. => "TF_FileFunction"
  | .tfPolarity .. => "TF_FilePolarity" | .tfSame .. => "TF_SameCoordinates" | .tfDate .. => "TF_CreationDate"
  | .tfSoftware .. => "TF_GenerationSoftware" | .tfProject .. => "TF_ProjectId" | .tfMd5 .. => "TF_MD5"
  | .toUser .. => "TO_UserName" | .toN .. => "TO_N" | .toP .. => "TO_P" | .toText k _ => toClass k
  | .toRot .. => "TO_CRot" | .toHeight .. => "TO_CHgt" | .toMount .. => "TO_CMnt" | .toSup .. => "TO_CSup"
  | .dnn .. => "Dnn" | .d01 .. => "D01" | .d02 .. => "D02" | .d03 .. => "D03"
  | .g c _ => gClass c | .g04 .. => "G04"
  | .lm .. => "LM" | .ln .. => "LN" | .lp .. => "LP" | .lr .. => "LR" | .ls .. => "LS"
  | .m00 => "M00" | .m01 => "M01" | .m02 => "M02"
  | .as_ .. => "AS" | .fs .. => "FS" | .in_ .. => "IN" | .ip .. => "IP" | .ir .. => "IR" | .mi .. => "MI"
  | .mo .. => "MO" | .of_ .. => "OF" | .sf .. => "SF"

/-- `type(node)` of the nodes of a macro. -/
def primClass : Prim → String
  | .assign .. => "Assignment" | .code0 .. => "Code0" | .code1 .. => "Code1" | .code2 .. => "Code2"
  | .code4 .. => "Code4" | .code5 .. => "Code5" | .code6 .. => "Code6" | .code7 .. => "Code7"
  | .code20 .. => "Code20" | .code21 .. => "Code21" | .code22 .. => "Code22"

/-- `type(node)` of the nodes of an expression. -/
def exprClass : Expr → String
  | .const .. => "Constant" | .var .. => "Variable" | .paren .. => "Parenthesis" | .neg .. => "Neg" | .pos .. => "Pos"
  | .bin .add _ _ => "Add" | .bin .sub _ _ => "Sub" | .bin .mul _ _ => "Mul" | .bin .div _ _ => "Div"

/-- `type(node)`. -/
def className : Item → String
  | .file .. => "File" | .invalid .. => "Invalid" | .node n => nodeClass n
  | .abOpen .. => "ABopen" | .abClose => "ABclose" | .amOpen .. => "AMopen" | .amClose => "AMclose"
  | .srOpen .. => "SRopen" | .srClose => "SRclose" | .prim p => primClass p | .point .. => "Point"
  | .expr e => exprClass e
  | .coord .x _ => "CoordinateX" | .coord .y _ => "CoordinateY" | .coord .i _ => "CoordinateI"
  | .coord .j _ => "CoordinateJ"

/-- A call of `register_listener(node_type, listener)`. -/
structure Registration (σ ε : Type) where
  /-- `node_type`. -/
  nodeType : String
  /-- `listener`. -/
  listener : Item → Act σ ε

/-- event_ast_visitor.py 137-147: the listeners for `type(node)`, in the order of registration. -/
def trigger (rs : List (Registration σ ε)) (i : Item) : Act σ ε :=
  inTurn ((rs.filter fun r => r.nodeType == className i).map fun r => r.listener i)

/-- event_ast_visitor.py 128-613 (`EventAstVisitor`) after the calls `rs` of `register_listener`: every method calls
`_trigger_listeners`, the methods of groups and `on_end_of_file` too. -/
def eventVisitor (rs : List (Registration σ ε)) : Visitor σ ε where
  on i super := andThen (trigger rs i) super
  group i := trigger rs i
  endOfFile i := trigger rs i
  onException _ _ s := (s, .ok true)

end Verif.Walk
