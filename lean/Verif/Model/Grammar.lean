import Verif.Model.Syntax

/-!
# The grammar of Gerber files (gerber/parser/pyparsing/grammar.py)

Rule by rule, with the default syntax switches and without optimisations.  `readDate` stands for pydantic's conversion
of a text to a `datetime`, followed by `isoformat()`.
-/

namespace Verif.Grammar

open Verif.Text Verif.Fmt Verif.Peg Verif.Syntax
open Verif.Math hiding P
open Verif.Visitor (Polarity Mirroring UnitMode ImagePolarity AxisCorrespondence)
open Verif.Coord (Zeros Notation)

/-- `_asterisk`, grammar.py 260-262. -/
def asterisk : P Unit := lit ['*']

/-- `_command`, grammar.py 268-269. -/
def command {α : Type} (inner : P α) : P α := inner ~> fun a => asterisk ≫ ret a

/-- `_extended_command`, grammar.py 271-272. -/
def extended {α : Type} (inner : P α) : P α := lit ['%'] ≫ inner ~> fun a => asterisk ≫ lit ['%'] ≫ ret a

/-- `comma`, grammar.py 283-286. -/
def comma : P Unit := lit [',']

/-- A comma and an element. -/
def cs {α : Type} (p : P α) : P α := comma ≫ p

/-- `pp.ZeroOrMore(self.comma + self.field)`. -/
def fields : P (List Text) := many (cs field)

/-- Conversion of a token by a parse action: `none` is a `ValidationError`. -/
def convert {α β : Type} (f : α → Option β) (p : P α) : P β := p ~> fun a =>
  match f a with
  | some b => ret b
  | none => raise

/-- A token that must be the value of a member of an enumeration represented by its values. -/
def valueIn (values : List Text) (t : Text) : Option Text := if t ∈ values then some t else none

/-- A text that pydantic converts to a float.  Simplification: only the notation of `double` is accepted (pydantic also
accepts exponents, blanks, `inf` and `nan`). -/
def floatText (t : Text) : Option ℚ :=
  match pDouble t with
  | some (q, []) => some q
  | _ => none

/-! ## D codes -/

/-- `_coordinate_x` … `_coordinate_j`, grammar.py 1516-1546. -/
def coordinate (letter : Char) : P Text := clit [letter] ≫ integer

/-- `_dnn`, grammar.py 1152-1159. -/
def dnn (standalone : Bool) : P Node := command (mapP (Node.dnn · standalone) apertureId)

/-- `_d01`, grammar.py 1161-1178 (`D01` itself may be missing). -/
def d01 (standalone : Bool) : P Node :=
  command (opt (coordinate 'X') ~> fun x => opt (coordinate 'Y') ~> fun y => opt (coordinate 'I') ~> fun i =>
    opt (coordinate 'J') ~> fun j => opt (codeRe 'D' ['1']) ≫ ret (.d01 x y i j standalone))

/-- `_d02`, grammar.py 1180-1191. -/
def d02 (standalone : Bool) : P Node :=
  command (opt (coordinate 'X') ~> fun x => opt (coordinate 'Y') ~> fun y => codeRe 'D' ['2'] ≫
    ret (.d02 x y standalone))

/-- `_d03`, grammar.py 1193-1204. -/
def d03 (standalone : Bool) : P Node :=
  command (opt (coordinate 'X') ~> fun x => opt (coordinate 'Y') ~> fun y => codeRe 'D' ['3'] ≫
    ret (.d03 x y standalone))

/-- `_d_codes`, grammar.py 1136-1150. -/
def dCodes (standalone : Bool) : P Node := firstOf [dnn standalone, d01 standalone, d02 standalone, d03 standalone]

/-! ## G codes -/

/-- The number in the class name, grammar.py 1225 and 1235: `int(cls.__qualname__.lstrip("G"))`. -/
def gDigits : GCode → Text
  | .g01 => ['1']
  | .g02 => ['2']
  | .g03 => ['3']
  | .g36 => ['3', '6']
  | .g37 => ['3', '7']
  | .g54 => ['5', '4']
  | .g55 => ['5', '5']
  | .g70 => ['7', '0']
  | .g71 => ['7', '1']
  | .g74 => ['7', '4']
  | .g75 => ['7', '5']
  | .g90 => ['9', '0']
  | .g91 => ['9', '1']

/-- The order of the alternatives, grammar.py 1247-1265 and 1274-1294: `reversed((G01, …, G91))`. -/
def gOrder : List GCode :=
  [.g91, .g90, .g75, .g74, .g71, .g70, .g55, .g54, .g37, .g36, .g03, .g02, .g01]

/-- The comment, grammar.py 1215-1222. -/
def g04 : P Node := command (codeRe 'G' ['4'] ≫ mapP Node.g04 (opt string))

/-- `_standalone`, grammar.py 1224-1230. -/
def gStandalone (c : GCode) : P Node := command (codeRe 'G' (gDigits c) ≫ ret (.g c true))

/-- `_non_standalone`, grammar.py 1232-1243: the G code and the D code are two nodes. -/
def gNonStandalone (c : GCode) : P (List Node) :=
  codeRe 'G' (gDigits c) ≫ followedBy ['D', 'X', 'Y', 'I', 'J'] ≫ mapP (fun d => [.g c false, d]) (dCodes false)

/-- An element that yields one node. -/
def one (p : P Node) : P (List Node) := mapP (fun n => [n]) p

/-- `g_codes`, grammar.py 1212-1297. -/
def gCodes : P (List Node) :=
  firstOf ([one g04] ++ gOrder.map (fun c => one (gStandalone c)) ++ gOrder.map gNonStandalone)

/-! ## Load commands -/

/-- `ln`, grammar.py 1307-1315. -/
def ln : P Node := extended (lit t!"LN" ≫ mapP Node.ln string)

/-- `lp`, grammar.py 1317-1325. -/
def lp : P Node :=
  extended (lit t!"LP" ≫ mapP Node.lp (convert (member polarityValue [.clear, .dark]) (oneOf [t!"C", t!"D"])))

/-- `lr`, grammar.py 1327-1335. -/
def lr : P Node := extended (lit t!"LR" ≫ mapP Node.lr double)

/-- `ls`, grammar.py 1337-1345. -/
def ls : P Node := extended (lit t!"LS" ≫ mapP Node.ls double)

/-- `lm`, grammar.py 1347-1356. -/
def lm : P Node :=
  extended (lit t!"LM" ≫ mapP Node.lm (convert (member mirroringValue [.none, .x, .y, .xy])
    (oneOf [t!"N", t!"XY", t!"X", t!"Y"])))

/-- `load_commands`, grammar.py 1302-1305. -/
def load : P Node := firstOf [ln, lp, lr, ls, lm]

/-! ## Macros -/

/-- `variable`, grammar.py 1492-1499, as text. -/
def variable_ : P Text := fun s =>
  match pVar (skip s) with
  | some (.var n, r) => .ok n r
  | _ => .fail

/-- `assignment`, grammar.py 1501-1508. -/
def assignment : P Prim := command (variable_ ~> fun v => lit ['='] ≫ expr ~> fun e => ret (.assign v e))

/-- `primitive(Code0, 0, …)`, grammar.py 1563 and 1727-1736. -/
def code0 : P Prim := command (lit ['0'] ≫ mapP Prim.code0 string)

/-- grammar.py 1564-1576. -/
def code1 : P Prim :=
  command (lit ['1'] ≫ cs expr ~> fun a => cs expr ~> fun b => cs expr ~> fun c => cs expr ~> fun d =>
    opt (cs expr) ~> fun r => ret (.code1 a b c d r))

/-- grammar.py 1577-1594. -/
def code2 : P Prim :=
  command (lit ['2'] ≫ cs expr ~> fun a => cs expr ~> fun b => cs expr ~> fun c => cs expr ~> fun d =>
    cs expr ~> fun e => cs expr ~> fun f => cs expr ~> fun r => ret (.code2 a b c d e f r))

/-- A point of an outline, grammar.py 1607-1614. -/
def point : P (Expr × Expr) := cs expr ~> fun x => cs expr ~> fun y => ret (x, y)

/-- grammar.py 1595-1618: the points are read greedily, the expression left over is the rotation. -/
def code4 : P Prim :=
  command (lit ['4'] ≫ cs expr ~> fun a => cs expr ~> fun b => cs expr ~> fun c => cs expr ~> fun d =>
    many1 point ~> fun ps => cs expr ~> fun r => ret (.code4 a b c d ps r))

/-- grammar.py 1619-1634. -/
def code5 : P Prim :=
  command (lit ['5'] ≫ cs expr ~> fun a => cs expr ~> fun b => cs expr ~> fun c => cs expr ~> fun d =>
    cs expr ~> fun e => cs expr ~> fun r => ret (.code5 a b c d e r))

/-- grammar.py 1635-1656. -/
def code6 : P Prim :=
  command (lit ['6'] ≫ cs expr ~> fun a => cs expr ~> fun b => cs expr ~> fun c => cs expr ~> fun d =>
    cs expr ~> fun e => cs expr ~> fun f => cs expr ~> fun g => cs expr ~> fun h => cs expr ~> fun r =>
    ret (.code6 a b c d e f g h r))

/-- grammar.py 1657-1672. -/
def code7 : P Prim :=
  command (lit ['7'] ≫ cs expr ~> fun a => cs expr ~> fun b => cs expr ~> fun c => cs expr ~> fun d =>
    cs expr ~> fun e => cs expr ~> fun r => ret (.code7 a b c d e r))

/-- grammar.py 1673-1690. -/
def code20 : P Prim :=
  command (lit t!"20" ≫ cs expr ~> fun a => cs expr ~> fun b => cs expr ~> fun c => cs expr ~> fun d =>
    cs expr ~> fun e => cs expr ~> fun f => cs expr ~> fun r => ret (.code20 a b c d e f r))

/-- grammar.py 1691-1706. -/
def code21 : P Prim :=
  command (lit t!"21" ≫ cs expr ~> fun a => cs expr ~> fun b => cs expr ~> fun c => cs expr ~> fun d =>
    cs expr ~> fun e => cs expr ~> fun r => ret (.code21 a b c d e r))

/-- grammar.py 1707-1722. -/
def code22 : P Prim :=
  command (lit t!"22" ≫ cs expr ~> fun a => cs expr ~> fun b => cs expr ~> fun c => cs expr ~> fun d =>
    cs expr ~> fun e => cs expr ~> fun r => ret (.code22 a b c d e r))

/-- The alternatives of `primitives`, grammar.py 1554-1725. -/
def primitive : P Prim :=
  firstOf [assignment, code0, code1, code2, code4, code5, code6, code7, code20, code21, code22]

/-- `macro` with `am_open` and `am_close`, grammar.py 411-440. -/
def macro_ : P Node :=
  lit ['%'] ≫ lit t!"AM" ≫ name ~> fun n => asterisk ≫ many primitive ~> fun ps => lit ['%'] ≫ ret (.am n ps)

/-! ## Aperture definitions -/

/-- `self._x + self.double`. -/
def xDouble : P ℚ := lit ['X'] ≫ double

/-- `add_aperture_circle`, grammar.py 512-524. -/
def adc : P Node :=
  extended (lit t!"AD" ≫ apertureId ~> fun i => lit t!"C," ≫ double ~> fun d => opt xDouble ~> fun h =>
    ret (.adc i d h))

/-- `add_aperture_rectangle("R", ADR)`, grammar.py 504 and 526-544. -/
def adr : P Node :=
  extended (lit t!"AD" ≫ apertureId ~> fun i => lit t!"R," ≫ double ~> fun w => xDouble ~> fun h =>
    opt xDouble ~> fun o => ret (.adr i w h o))

/-- `add_aperture_rectangle("O", ADO)`, grammar.py 505 and 526-544. -/
def ado : P Node :=
  extended (lit t!"AD" ≫ apertureId ~> fun i => lit t!"O," ≫ double ~> fun w => xDouble ~> fun h =>
    opt xDouble ~> fun o => ret (.ado i w h o))

/-- `add_aperture_polygon`, grammar.py 546-563: the conversion of the number of vertices happens in the parse action of
the whole command. -/
def adp : P Node :=
  extended (lit t!"AD" ≫ apertureId ~> fun i => lit t!"P," ≫ double ~> fun d => xDouble ~> fun v =>
    opt xDouble ~> fun r => opt xDouble ~> fun h => ret (v, i, d, r, h)) ~> fun t =>
  if t.1.den = 1 then ret (.adp t.2.1 t.2.2.1 t.1.num t.2.2.2.1 t.2.2.2.2) else raise

/-- `add_aperture_macro`, grammar.py 565-580. -/
def adMacro : P Node :=
  extended (lit t!"AD" ≫ apertureId ~> fun i => name ~> fun n =>
    opt (cs double ~> fun p => many xDouble ~> fun ps => ret (p :: ps)) ~> fun ps => ret (.adMacro i n ps))

/-- `add_aperture`, grammar.py 499-510. -/
def addAperture : P Node := firstOf [adc, adr, ado, adp, adMacro]

/-! ## Attributes -/

/-- `_ta_user_name`, grammar.py 615-628. -/
def taUser : P Node := extended (lit t!"TA" ≫ userName ~> fun n => mapP (Node.taUser n) fields)

/-- `_ta_aper_function`, grammar.py 630-649. -/
def taFunction : P Node :=
  extended (lit t!"TA" ≫ lit t!".AperFunction" ≫ opt (cs (oneOf aperFunctions)) ~> fun f =>
    mapP (Node.taFunction f) fields)

/-- `_ta_drill_tolerance`, grammar.py 651-667. -/
def taDrill : P Node :=
  extended (lit t!"TA" ≫ lit t!".DrillTolerance" ≫ opt (cs double ~> fun p => opt (cs double) ~> fun m => ret (p, m)) ~>
    fun t => ret (.taDrill (t.map (·.1)) (t.bind (·.2))))

/-- `_ta_flash_text`, grammar.py 669-694; the default of `mirroring` is `R` (nodes/attribute/TA.py 98).  The optional
font, size and comments always match, possibly an empty text. -/
def taFlash : P Node :=
  extended (lit t!"TA" ≫ lit t!".FlashText" ≫ cs field ~> fun s => cs (oneOf [['B'], ['C']]) ~> fun m =>
    cs (opt (oneOf [['R'], ['M']])) ~> fun r => cs (opt field) ~> fun f => cs (opt field) ~> fun z =>
    mapP (Node.taFlash s m (r.getD ['R']) f z) fields)

/-- `td`, grammar.py 700-708. -/
def td : P Node := extended (lit t!"TD" ≫ mapP Node.td (opt string))

/-- `_tf_user_name`, grammar.py 726-739. -/
def tfUser : P Node := extended (lit t!"TF" ≫ userName ~> fun n => mapP (Node.tfUser n) fields)

/-- `_tf_part`, grammar.py 741-756; conversion to `Part` in the parse action. -/
def tfPart : P Node :=
  extended (lit t!"TF" ≫ clit t!".Part" ≫ cs field ~> fun p => mapP (fun f => (p, f)) fields) ~> fun t =>
  if t.1 ∈ parts then ret (.tfPart t.1 t.2) else raise

/-- `_tf_file_function`, grammar.py 758-773; conversion to `FileFunction` in the parse action. -/
def tfFunction : P Node :=
  extended (lit t!"TF" ≫ clit t!".FileFunction" ≫ cs field ~> fun p => mapP (fun f => (p, f)) fields) ~> fun t =>
  if t.1 ∈ fileFunctions then ret (.tfFunction t.1 t.2) else raise

/-- `_tf_file_polarity`, grammar.py 775-786; the polarity is a `Literal["Positive", "Negative"]`. -/
def tfPolarity : P Node :=
  extended (lit t!"TF" ≫ clit t!".FilePolarity" ≫ cs field) ~> fun p =>
  if p ∈ [t!"Positive", t!"Negative"] then ret (.tfPolarity p) else raise

/-- `_tf_same_coordinates`, grammar.py 788-798. -/
def tfSame : P Node := extended (lit t!"TF" ≫ clit t!".SameCoordinates" ≫ mapP Node.tfSame (opt (cs field)))

/-- `_tf_creation_date`, grammar.py 800-811. -/
def tfDate (readDate : Text → Option Text) : P Node :=
  convert (fun t => (readDate t).map Node.tfDate) (extended (lit t!"TF" ≫ clit t!".CreationDate" ≫ cs field))

/-- Up to three optional fields: `Opt(comma + field + Opt(comma + field + Opt(comma + field)))`,
grammar.py 818-826 and 838-846. -/
def upTo3 : P (Option Text × Option Text × Option Text) :=
  mapP (fun t => (t.map (·.1), t.bind (·.2.1), t.bind (·.2.2)))
    (opt (cs field ~> fun a => opt (cs field ~> fun b => opt (cs field) ~> fun c => ret (b, c)) ~> fun bc =>
      ret (a, bc.map (·.1), bc.bind (·.2))))

/-- `_tf_generation_software`, grammar.py 813-831. -/
def tfSoftware : P Node :=
  extended (lit t!"TF" ≫ clit t!".GenerationSoftware" ≫ mapP (fun t => .tfSoftware t.1 t.2.1 t.2.2) upTo3)

/-- `_tf_project_id`, grammar.py 833-851. -/
def tfProject : P Node :=
  extended (lit t!"TF" ≫ clit t!".ProjectId" ≫ mapP (fun t => .tfProject t.1 t.2.1 t.2.2) upTo3)

/-- `_tf_md5`, grammar.py 853-864; the length is checked by pydantic (nodes/attribute/TF.py 205-211). -/
def tfMd5 : P Node :=
  extended (lit t!"TF" ≫ clit t!".MD5" ≫ cs field) ~> fun t => if t.length = 32 then ret (.tfMd5 t) else raise

/-- `tf`, grammar.py 710-724. -/
def tf (readDate : Text → Option Text) : P Node :=
  firstOf [tfUser, tfPart, tfFunction, tfPolarity, tfSame, tfDate readDate, tfSoftware, tfProject, tfMd5]

/-- `ta`, grammar.py 604-613. -/
def ta : P Node := firstOf [taUser, taFunction, taDrill, taFlash]

/-- `_to_user_name`, grammar.py 893-906. -/
def toUser : P Node := extended (lit t!"TO" ≫ userName ~> fun n => mapP (Node.toUser n) fields)

/-- `_to_n`, grammar.py 908-921. -/
def toN : P Node := extended (lit t!"TO" ≫ clit t!".N" ≫ mapP Node.toN fields)

/-- `_to_p`, grammar.py 923-937. -/
def toP : P Node :=
  extended (lit t!"TO" ≫ clit t!".P" ≫ cs field ~> fun r => cs field ~> fun n => mapP (Node.toP r n) (opt (cs field)))

/-- The names of the attributes with one text field in the grammar, grammar.py 944, 970, 983, 996, 1022, 1035, 1048,
1074, 1087. -/
def toLiteral : ToKind → Text
  | .c => t!".C"
  | .cMfr => t!".CMfr"
  | .cMpn => t!".CMPN"
  | .cVal => t!".CVal"
  | .cFtp => t!".CFtp"
  | .cPgN => t!".CPgN"
  | .cPgD => t!".CPgD"
  | .cLbN => t!".CLbn"
  | .cLbD => t!".CLbD"

/-- `_to_c`, `_to_cmfr`, `_to_cmpn`, `_to_cval`, `_to_cftp`, `_to_cpgn`, `_to_cpgd`, `_to_clbn`, `_to_clbd`,
grammar.py 939-1093. -/
def toText (k : ToKind) : P Node := extended (lit t!"TO" ≫ clit (toLiteral k) ≫ mapP (Node.toText k) (cs field))

/-- `_to_crot`, grammar.py 952-963. -/
def toRot : P Node := convert (fun t => (floatText t).map Node.toRot) (extended (lit t!"TO" ≫ clit t!".CRot" ≫ cs field))

/-- `_to_cmnt`, grammar.py 1004-1015. -/
def toMount : P Node :=
  extended (lit t!"TO" ≫ clit t!".CMnt" ≫ cs field) ~> fun t => if t ∈ mounts then ret (.toMount t) else raise

/-- `_to_chgt`, grammar.py 1056-1067. -/
def toHeight : P Node :=
  convert (fun t => (floatText t).map Node.toHeight) (extended (lit t!"TO" ≫ clit t!".CHgt" ≫ cs field))

/-- `_to_csup`, grammar.py 1095-1114. -/
def toSup : P Node :=
  extended (lit t!"TO" ≫ clit t!".CSup" ≫ cs field ~> fun a => cs field ~> fun b => mapP (Node.toSup a b) fields)

/-- `to`, grammar.py 870-891. -/
def to_ : P Node :=
  firstOf [toUser, toN, toP, toText .c, toRot, toText .cMfr, toText .cMpn, toText .cVal, toMount, toText .cFtp,
    toText .cPgN, toText .cPgD, toHeight, toText .cLbN, toText .cLbD, toSup]

/-- `attribute`, grammar.py 592-602. -/
def attributes (readDate : Text → Option Text) : P Node := firstOf [ta, td, tf readDate, to_]

/-! ## Properties -/

/-- `fs`, grammar.py 1760-1776. -/
def fs : P Node :=
  extended (lit t!"FS" ≫
    convert (member zerosValue [.skipLeading, .skipTrailing, .skipLeadingImplied]) (oneOf [['L'], ['T'], []]) ~> fun z =>
    convert (member notationValue [.absolute, .incremental]) (oneOf [['I'], ['A']]) ~> fun m =>
    clit ['X'] ≫ digit ~> fun a => digit ~> fun b => clit ['Y'] ≫ digit ~> fun c => digit ~> fun d =>
    ret (.fs z m a b c d))

/-- `ip`, grammar.py 1778-1787. -/
def ip : P Node :=
  extended (lit t!"IP" ≫ mapP Node.ip (convert (member imageValue [.positive, .negative]) (oneOf [t!"POS", t!"NEG"])))

/-- `ir`, grammar.py 1789-1797; the conversion to `int` happens in the parse action of the whole command. -/
def ir : P Node := extended (lit t!"IR" ≫ double) ~> fun q => if q.den = 1 then ret (.ir q.num) else raise

/-- `mo`, grammar.py 1799-1807. -/
def mo : P Node :=
  extended (lit t!"MO" ≫ mapP Node.mo (convert (member unitValue [.imperial, .metric]) (oneOf [t!"IN", t!"MM"])))

/-- `of`, grammar.py 1809-1819. -/
def of_ : P Node :=
  extended (lit t!"OF" ≫ opt (lit ['A'] ≫ double) ~> fun a => opt (lit ['B'] ≫ double) ~> fun b => ret (.of_ a b))

/-- `as_`, grammar.py 1821-1830. -/
def as_ : P Node :=
  extended (lit t!"AS" ≫ mapP Node.as_ (convert (member axisValue [.axBy, .ayBx]) (oneOf [t!"AXBY", t!"AYBX"])))

/-- `boolean`, grammar.py 315-318. -/
def boolean : P Bool := mapP (fun t => t == ['1']) (oneOf [['0'], ['1']])

/-- `mi`, grammar.py 1832-1842; missing values default to 0 (nodes/properties/MI.py 20-21). -/
def mi : P Node :=
  extended (lit t!"MI" ≫ opt (lit ['A'] ≫ boolean) ~> fun a => opt (lit ['B'] ≫ boolean) ~> fun b =>
    ret (.mi (a.getD false) (b.getD false)))

/-- `in_`, grammar.py 1844-1852. -/
def in_ : P Node := extended (lit t!"IN" ≫ mapP Node.in_ string)

/-- `sf`, grammar.py 1854-1864; missing values default to 1 (nodes/properties/SF.py 21-22). -/
def sf : P Node :=
  extended (lit t!"SF" ≫ opt (lit ['A'] ≫ double) ~> fun a => opt (lit ['B'] ≫ double) ~> fun b =>
    ret (.sf (a.getD 1) (b.getD 1)))

/-- `properties`, grammar.py 1743-1758. -/
def properties : P Node := firstOf [fs, mo, ip, ir, of_, as_, mi, in_, sf]

/-! ## M codes -/

/-- `m_codes`, grammar.py 1364-1387. -/
def mCodes : P Node :=
  firstOf [command (codeRe 'M' ['2'] ≫ ret .m02), command (codeRe 'M' ['1'] ≫ ret .m01), command (mZeros ≫ ret .m00)]

/-! ## Blocks and files -/

/-- The commands allowed in the body of an aperture block and of a step and repeat block, grammar.py 370-383 and
452-465.  `self.step_repeat_forward` is created in `__init__` (185) and never assigned, so that alternative always
fails; `ab` is `self.aperture_block_forward`. -/
def bodyItem (readDate : Text → Option Text) (ab : P Node) : P (List Node) :=
  firstOf [one (dCodes true), gCodes, one load, one properties, one (attributes readDate), one addAperture, fun _ => .fail,
    one ab, one macro_, one mCodes]

/-- `ab_open`, grammar.py 393-400. -/
def abOpen : P Text := extended (lit t!"AB" ≫ apertureId)

/-- `ab_close`, grammar.py 402-409. -/
def abClose : P Unit := extended (lit t!"AB")

/-- `aperture_block`, grammar.py 360-391; `depth` bounds the nesting. -/
def apertureBlock (readDate : Text → Option Text) : Nat → P Node
  | 0 => fun _ => .fail
  | n + 1 => abOpen ~> fun i => many (bodyItem readDate (apertureBlock readDate n)) ~> fun ns => abClose ≫
      ret (.ab i ns.flatten)

/-- `sr_open`, grammar.py 475-488. -/
def srOpen : P (Option Text × Option Text × Option Text × Option Text) :=
  extended (lit t!"SR" ≫ opt (lit ['X'] ≫ doubleText) ~> fun x => opt (lit ['Y'] ≫ doubleText) ~> fun y =>
    opt (lit ['I'] ≫ doubleText) ~> fun i => opt (lit ['J'] ≫ doubleText) ~> fun j => ret (x, y, i, j))

/-- `sr_close`, grammar.py 490-497. -/
def srClose : P Unit := extended (lit t!"SR")

/-- `step_repeat`, grammar.py 442-473. -/
def stepRepeat (readDate : Text → Option Text) (depth : Nat) : P Node :=
  srOpen ~> fun o => many (bodyItem readDate (apertureBlock readDate depth)) ~> fun ns => srClose ≫
    ret (.sr o.1 o.2.1 o.2.2.1 o.2.2.2 ns.flatten)

/-- `aperture`, grammar.py 349-358. -/
def aperture (readDate : Text → Option Text) (depth : Nat) : P Node :=
  firstOf [apertureBlock readDate depth, macro_, stepRepeat readDate depth, addAperture]

/-- The alternatives at the top of a file, grammar.py 198-210. -/
def rootItem (readDate : Text → Option Text) (depth : Nat) : P (List Node) :=
  firstOf [one (dCodes true), gCodes, one load, one (aperture readDate depth), one (attributes readDate), one properties,
    one mCodes]

/-- Result of `Parser.parse`: `ParseException`, another exception, or the nodes of the file. -/
inductive Outcome
  | parseException
  | validationError
  | file (nodes : List Node)

/-- The grammar, grammar.py 189-222, applied to a text without tabs, strictly: one or more commands and nothing but blanks
after them. -/
def parseFile (readDate : Text → Option Text) (s : Text) : Outcome :=
  match many1 (rootItem readDate s.length) s with
  | .fail => .parseException
  | .raised => .validationError
  | .ok ns r => if skip r = [] then .file ns.flatten else .parseException

/-- `str.expandtabs()` from column `col` on. -/
def expandFrom : Nat → Text → Text
  | _, [] => []
  | col, c :: s =>
    if c = '\t' then List.replicate (8 - col % 8) ' ' ++ expandFrom (col + (8 - col % 8)) s
    else if c = '\n' ∨ c = '\r' then c :: expandFrom 0 s
    else c :: expandFrom (col + 1) s

/-- `str.expandtabs()`. -/
def expandTabs (s : Text) : Text := expandFrom 0 s

/-- `Parser.parse(code, strict=True)`, gerber/parser/pyparsing/parser.py 16-33: `parse_string` of pyparsing expands the
tabs of the text (the grammar does not call `parse_with_tabs`) before anything is read. -/
def parseCode (readDate : Text → Option Text) (code : Text) : Outcome := parseFile readDate (expandTabs code)

end Verif.Grammar
