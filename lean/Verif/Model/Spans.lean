import Verif.Model.Resilient

/-!
# Source positions of nodes

gerber/parser/pyparsing/grammar.py 325-342 (`make_unpack_callback`) gives every node a `SourceInfo` with `location`, where
the element of the node begins after blanks, and `length`, the sum of the lengths of its tokens; the length of a token
that is a node is the `length` of that node (gerber/ast/nodes/base.py 75-79).  `Verif.Grammar` drops these positions.  Here
is the grammar again, rule by rule, with elements that count the lengths of tokens and keep the positions of nodes;
`Verif.Spans.erase_resilientItem` proves that both grammars read the same nodes.
Simplification: the positions of coordinates, points and expressions inside a command are not kept.
-/

namespace Verif.Spans

open Verif.Text Verif.Fmt Verif.Syntax
open Verif.Math hiding P
open Verif.Peg (Text Res P firstOf)
open Verif.Grammar (gDigits gOrder toLiteral floatText Entry)
open Verif.Visitor (Polarity Mirroring UnitMode ImagePolarity AxisCorrespondence)
open Verif.Coord (Zeros Notation)

/-- The position of a node: how many characters there are from its first character to the end of the text, its `length`,
and the positions of the nodes it consists of. -/
inductive Span
  | mk (left : Nat) (length : Nat) (parts : List Span)

/-- What an element yields: its value, the sum of the lengths of its tokens, and the positions of the nodes among its
tokens. -/
structure Out (α : Type) where
  /-- The value. -/
  val : α
  /-- `sum(len(t) for t in tokens)`. -/
  width : Nat
  /-- Positions of nodes. -/
  spans : List Span

/-- A parser element that keeps positions. -/
abbrev L (α : Type) := P (Out α)

/-! ## Elements (see `Verif.Model.Peg`) -/

/-- An element that reads nothing. -/
def ret {α : Type} (a : α) : L α := fun s => .ok ⟨a, 0, []⟩ s

/-- An element that never matches. -/
def failing {α : Type} : L α := fun _ => .fail

/-- A failing parse action. -/
def raise {α : Type} : L α := fun _ => .raised

/-- One element after the other. -/
def andThen {α β : Type} (p : L α) (f : α → L β) : L β := fun s =>
  match p s with
  | .fail => .fail
  | .raised => .raised
  | .ok a r => match f a.val r with
    | .fail => .fail
    | .raised => .raised
    | .ok b r' => .ok ⟨b.val, a.width + b.width, a.spans ++ b.spans⟩ r'

@[inherit_doc] infixr:55 " ~~> " => andThen

/-- `p + q` keeping the value of `q` only. -/
def before {α β : Type} (p : L α) (q : L β) : L β := p ~~> fun _ => q

@[inherit_doc] infixr:55 " ≫≫ " => before

/-- Apply a function to the value. -/
def mapL {α β : Type} (f : α → β) (p : L α) : L β := p ~~> fun a => ret (f a)

/-- `pp.Opt`. -/
def opt {α : Type} (p : L α) : L (Option α) := fun s =>
  match p s with
  | .ok a r => .ok ⟨some a.val, a.width, a.spans⟩ r
  | .fail => .ok ⟨none, 0, []⟩ s
  | .raised => .raised

/-- `pp.ZeroOrMore`. -/
def manyFuel {α : Type} (p : L α) : Nat → L (List α)
  | 0 => ret []
  | n + 1 => fun s =>
    match p s with
    | .ok a r => match manyFuel p n r with
      | .ok as r' => .ok ⟨a.val :: as.val, a.width + as.width, a.spans ++ as.spans⟩ r'
      | .fail => .fail
      | .raised => .raised
    | .fail => .ok ⟨[], 0, []⟩ s
    | .raised => .raised

/-- `pp.ZeroOrMore`. -/
def many {α : Type} (p : L α) : L (List α) := fun s => manyFuel p s.length s

/-- `pp.OneOrMore`. -/
def many1 {α : Type} (p : L α) : L (List α) := p ~~> fun a => many p ~~> fun as => ret (a :: as)

/-- A token: the text it matches begins after blanks. -/
def tok {α : Type} (p : P α) : L α := fun s =>
  match p s with
  | .ok a r => .ok ⟨a, (skip s).length - r.length, []⟩ r
  | .fail => .fail
  | .raised => .raised

/-- The parse action of a node, grammar.py 332-340: `loc` is where the element begins after blanks. -/
def node {α : Type} (p : L α) : L α := fun s =>
  match p s with
  | .ok a r => .ok ⟨a.val, a.width, [.mk (skip s).length a.width a.spans]⟩ r
  | .fail => .fail
  | .raised => .raised

/-! ## Tokens (see `Verif.Model.Peg`) -/

/-- `pp.Literal`. -/
def lit (w : Text) : L Unit := tok (Peg.lit w)
/-- `pp.CaselessLiteral`: the token is the literal, as long as the text it matches. -/
def clit (w : Text) : L Unit := tok (Peg.clit w)
/-- `pp.one_of`. -/
def oneOf (ws : List Text) : L Text := tok (Peg.oneOf ws)
/-- `pp.FollowedBy`: no tokens. -/
def followedBy (cs : List Char) : L Unit := fun s =>
  match Peg.followedBy cs s with
  | .ok a r => .ok ⟨a, 0, []⟩ r
  | .fail => .fail
  | .raised => .raised
/-- `string`, grammar.py 278-281: `CharsNotIn`, leading blanks belong to the token. -/
def string : L Text := fun s =>
  match Peg.string s with
  | .ok a r => .ok ⟨a, s.length - r.length, []⟩ r
  | .fail => .fail
  | .raised => .raised
/-- `name`, grammar.py 288-291. -/
def name : L Text := tok Peg.name
/-- `user_name`, grammar.py 293-296. -/
def userName : L Text := tok Peg.userName
/-- `field`, grammar.py 298-301. -/
def field : L Text := tok Peg.field
/-- `double`, grammar.py 303-308. -/
def double : L ℚ := tok Peg.double
/-- `double` kept as text, grammar.py 303-308. -/
def doubleText : L Text := tok Peg.doubleText
/-- `integer`, grammar.py 310-313. -/
def integer : L Text := tok Peg.integer
/-- `aperture_id`, grammar.py 320-323. -/
def apertureId : L Text := tok Peg.apertureId
/-- The regular expressions `G0*91`, `D0*1`, …. -/
def codeRe (letter : Char) (code : Text) : L Unit := tok (Peg.codeRe letter code)
/-- The regular expression `M0*0`. -/
def mZeros : L Unit := tok Peg.mZeros
/-- One digit. -/
def digit : L Nat := tok Peg.digit

/-- `expression`, grammar.py 1398-1483: the tokens of an expression are all its characters except blanks. -/
def expr : L Expr := fun s =>
  match Peg.expr s with
  | .ok a r => .ok ⟨a, ((s.take (s.length - r.length)).filter (fun c => !isBlank c)).length, []⟩ r
  | .fail => .fail
  | .raised => .raised

/-! ## The grammar (see `Verif.Model.Grammar`) -/

/-- `_asterisk`, grammar.py 260-262. -/
def asterisk : L Unit := lit ['*']

/-- `_command`, grammar.py 268-269, with the parse action of its node. -/
def command {α : Type} (inner : L α) : L α := node (inner ~~> fun a => asterisk ≫≫ ret a)

/-- `_extended_command`, grammar.py 271-272, with the parse action of its node. -/
def extended {α : Type} (inner : L α) : L α :=
  node (lit ['%'] ≫≫ inner ~~> fun a => asterisk ≫≫ lit ['%'] ≫≫ ret a)

/-- `comma`, grammar.py 283-286. -/
def comma : L Unit := lit [',']

/-- A comma and an element. -/
def cs {α : Type} (p : L α) : L α := comma ≫≫ p

/-- `pp.ZeroOrMore(self.comma + self.field)`. -/
def fields : L (List Text) := many (cs field)

/-- Conversion of a token by a parse action. -/
def convert {α β : Type} (f : α → Option β) (p : L α) : L β := p ~~> fun a =>
  match f a with
  | some b => ret b
  | none => raise

/-! ## D codes -/

/-- `_coordinate_x` … `_coordinate_j`, grammar.py 1516-1546. -/
def coordinate (letter : Char) : L Text := clit [letter] ≫≫ integer

/-- `_dnn`, grammar.py 1152-1159. -/
def dnn (standalone : Bool) : L Node := command (mapL (Node.dnn · standalone) apertureId)

/-- `_d01`, grammar.py 1161-1178 (`D01` itself may be missing). -/
def d01 (standalone : Bool) : L Node :=
  command (opt (coordinate 'X') ~~> fun x => opt (coordinate 'Y') ~~> fun y => opt (coordinate 'I') ~~> fun i =>
    opt (coordinate 'J') ~~> fun j => opt (codeRe 'D' ['1']) ≫≫ ret (.d01 x y i j standalone))

/-- `_d02`, grammar.py 1180-1191. -/
def d02 (standalone : Bool) : L Node :=
  command (opt (coordinate 'X') ~~> fun x => opt (coordinate 'Y') ~~> fun y => codeRe 'D' ['2'] ≫≫
    ret (.d02 x y standalone))

/-- `_d03`, grammar.py 1193-1204. -/
def d03 (standalone : Bool) : L Node :=
  command (opt (coordinate 'X') ~~> fun x => opt (coordinate 'Y') ~~> fun y => codeRe 'D' ['3'] ≫≫
    ret (.d03 x y standalone))

/-- `_d_codes`, grammar.py 1136-1150. -/
def dCodes (standalone : Bool) : L Node := firstOf [dnn standalone, d01 standalone, d02 standalone, d03 standalone]

/-! ## G codes -/

/-- The comment, grammar.py 1215-1222. -/
def g04 : L Node := command (codeRe 'G' ['4'] ≫≫ mapL Node.g04 (opt string))

/-- `_standalone`, grammar.py 1224-1230. -/
def gStandalone (c : GCode) : L Node := command (codeRe 'G' (gDigits c) ≫≫ ret (.g c true))

/-- `_non_standalone`, grammar.py 1232-1243: the G code and the D code are two nodes. -/
def gNonStandalone (c : GCode) : L (List Node) :=
  node (codeRe 'G' (gDigits c) ≫≫ followedBy ['D', 'X', 'Y', 'I', 'J']) ≫≫ mapL (fun d => [.g c false, d]) (dCodes false)

/-- An element that yields one node. -/
def one (p : L Node) : L (List Node) := mapL (fun n => [n]) p

/-- `g_codes`, grammar.py 1212-1297. -/
def gCodes : L (List Node) :=
  firstOf ([one g04] ++ gOrder.map (fun c => one (gStandalone c)) ++ gOrder.map gNonStandalone)

/-! ## Load commands -/

/-- `ln`, grammar.py 1307-1315. -/
def ln : L Node := extended (lit t!"LN" ≫≫ mapL Node.ln string)

/-- `lp`, grammar.py 1317-1325. -/
def lp : L Node :=
  extended (lit t!"LP" ≫≫ mapL Node.lp (convert (member polarityValue [.clear, .dark]) (oneOf [t!"C", t!"D"])))

/-- `lr`, grammar.py 1327-1335. -/
def lr : L Node := extended (lit t!"LR" ≫≫ mapL Node.lr double)

/-- `ls`, grammar.py 1337-1345. -/
def ls : L Node := extended (lit t!"LS" ≫≫ mapL Node.ls double)

/-- `lm`, grammar.py 1347-1356. -/
def lm : L Node :=
  extended (lit t!"LM" ≫≫ mapL Node.lm (convert (member mirroringValue [.none, .x, .y, .xy])
    (oneOf [t!"N", t!"XY", t!"X", t!"Y"])))

/-- `load_commands`, grammar.py 1302-1305. -/
def load : L Node := firstOf [ln, lp, lr, ls, lm]

/-! ## Macros -/

/-- `variable`, grammar.py 1492-1499, as text. -/
def variable_ : L Text := tok Grammar.variable_

/-- `assignment`, grammar.py 1501-1508. -/
def assignment : L Prim := command (variable_ ~~> fun v => lit ['='] ≫≫ expr ~~> fun e => ret (.assign v e))

/-- `primitive(Code0, 0, …)`, grammar.py 1563 and 1727-1736. -/
def code0 : L Prim := command (lit ['0'] ≫≫ mapL Prim.code0 string)

/-- grammar.py 1564-1576. -/
def code1 : L Prim :=
  command (lit ['1'] ≫≫ cs expr ~~> fun a => cs expr ~~> fun b => cs expr ~~> fun c => cs expr ~~> fun d =>
    opt (cs expr) ~~> fun r => ret (.code1 a b c d r))

/-- grammar.py 1577-1594. -/
def code2 : L Prim :=
  command (lit ['2'] ≫≫ cs expr ~~> fun a => cs expr ~~> fun b => cs expr ~~> fun c => cs expr ~~> fun d =>
    cs expr ~~> fun e => cs expr ~~> fun f => cs expr ~~> fun r => ret (.code2 a b c d e f r))

/-- A point of an outline, grammar.py 1607-1614. -/
def point : L (Expr × Expr) := cs expr ~~> fun x => cs expr ~~> fun y => ret (x, y)

/-- grammar.py 1595-1618: the points are read greedily, the expression left over is the rotation. -/
def code4 : L Prim :=
  command (lit ['4'] ≫≫ cs expr ~~> fun a => cs expr ~~> fun b => cs expr ~~> fun c => cs expr ~~> fun d =>
    many1 point ~~> fun ps => cs expr ~~> fun r => ret (.code4 a b c d ps r))

/-- grammar.py 1619-1634. -/
def code5 : L Prim :=
  command (lit ['5'] ≫≫ cs expr ~~> fun a => cs expr ~~> fun b => cs expr ~~> fun c => cs expr ~~> fun d =>
    cs expr ~~> fun e => cs expr ~~> fun r => ret (.code5 a b c d e r))

/-- grammar.py 1635-1656. -/
def code6 : L Prim :=
  command (lit ['6'] ≫≫ cs expr ~~> fun a => cs expr ~~> fun b => cs expr ~~> fun c => cs expr ~~> fun d =>
    cs expr ~~> fun e => cs expr ~~> fun f => cs expr ~~> fun g => cs expr ~~> fun h => cs expr ~~> fun r =>
    ret (.code6 a b c d e f g h r))

/-- grammar.py 1657-1672. -/
def code7 : L Prim :=
  command (lit ['7'] ≫≫ cs expr ~~> fun a => cs expr ~~> fun b => cs expr ~~> fun c => cs expr ~~> fun d =>
    cs expr ~~> fun e => cs expr ~~> fun r => ret (.code7 a b c d e r))

/-- grammar.py 1673-1690. -/
def code20 : L Prim :=
  command (lit t!"20" ≫≫ cs expr ~~> fun a => cs expr ~~> fun b => cs expr ~~> fun c => cs expr ~~> fun d =>
    cs expr ~~> fun e => cs expr ~~> fun f => cs expr ~~> fun r => ret (.code20 a b c d e f r))

/-- grammar.py 1691-1706. -/
def code21 : L Prim :=
  command (lit t!"21" ≫≫ cs expr ~~> fun a => cs expr ~~> fun b => cs expr ~~> fun c => cs expr ~~> fun d =>
    cs expr ~~> fun e => cs expr ~~> fun r => ret (.code21 a b c d e r))

/-- grammar.py 1707-1722. -/
def code22 : L Prim :=
  command (lit t!"22" ≫≫ cs expr ~~> fun a => cs expr ~~> fun b => cs expr ~~> fun c => cs expr ~~> fun d =>
    cs expr ~~> fun e => cs expr ~~> fun r => ret (.code22 a b c d e r))

/-- The alternatives of `primitives`, grammar.py 1554-1725. -/
def primitive : L Prim :=
  firstOf [assignment, code0, code1, code2, code4, code5, code6, code7, code20, code21, code22]

/-- `macro` with `am_open` and `am_close`, grammar.py 411-440. -/
def macro_ : L Node :=
  node (node (lit ['%'] ≫≫ lit t!"AM" ≫≫ name ~~> fun n => asterisk ≫≫ ret n) ~~> fun n =>
    many primitive ~~> fun ps => node (lit ['%']) ≫≫ ret (.am n ps))

/-! ## Aperture definitions -/

/-- `self._x + self.double`. -/
def xDouble : L ℚ := lit ['X'] ≫≫ double

/-- `add_aperture_circle`, grammar.py 512-524. -/
def adc : L Node :=
  extended (lit t!"AD" ≫≫ apertureId ~~> fun i => lit t!"C," ≫≫ double ~~> fun d => opt xDouble ~~> fun h =>
    ret (.adc i d h))

/-- `add_aperture_rectangle("R", ADR)`, grammar.py 504 and 526-544. -/
def adr : L Node :=
  extended (lit t!"AD" ≫≫ apertureId ~~> fun i => lit t!"R," ≫≫ double ~~> fun w => xDouble ~~> fun h =>
    opt xDouble ~~> fun o => ret (.adr i w h o))

/-- `add_aperture_rectangle("O", ADO)`, grammar.py 505 and 526-544. -/
def ado : L Node :=
  extended (lit t!"AD" ≫≫ apertureId ~~> fun i => lit t!"O," ≫≫ double ~~> fun w => xDouble ~~> fun h =>
    opt xDouble ~~> fun o => ret (.ado i w h o))

/-- `add_aperture_polygon`, grammar.py 546-563: the conversion of the number of vertices happens in the parse action of
the whole command. -/
def adp : L Node :=
  extended (lit t!"AD" ≫≫ apertureId ~~> fun i => lit t!"P," ≫≫ double ~~> fun d => xDouble ~~> fun v =>
    opt xDouble ~~> fun r => opt xDouble ~~> fun h => ret (v, i, d, r, h)) ~~> fun t =>
  if t.1.den = 1 then ret (.adp t.2.1 t.2.2.1 t.1.num t.2.2.2.1 t.2.2.2.2) else raise

/-- `add_aperture_macro`, grammar.py 565-580. -/
def adMacro : L Node :=
  extended (lit t!"AD" ≫≫ apertureId ~~> fun i => name ~~> fun n =>
    opt (cs double ~~> fun p => many xDouble ~~> fun ps => ret (p :: ps)) ~~> fun ps => ret (.adMacro i n ps))

/-- `add_aperture`, grammar.py 499-510. -/
def addAperture : L Node := firstOf [adc, adr, ado, adp, adMacro]

/-! ## Attributes -/

/-- `_ta_user_name`, grammar.py 615-628. -/
def taUser : L Node := extended (lit t!"TA" ≫≫ userName ~~> fun n => mapL (Node.taUser n) fields)

/-- `_ta_aper_function`, grammar.py 630-649. -/
def taFunction : L Node :=
  extended (lit t!"TA" ≫≫ lit t!".AperFunction" ≫≫ opt (cs (oneOf aperFunctions)) ~~> fun f =>
    mapL (Node.taFunction f) fields)

/-- `_ta_drill_tolerance`, grammar.py 651-667. -/
def taDrill : L Node :=
  extended (lit t!"TA" ≫≫ lit t!".DrillTolerance" ≫≫ opt (cs double ~~> fun p => opt (cs double) ~~> fun m => ret (p, m)) ~~>
    fun t => ret (.taDrill (t.map (·.1)) (t.bind (·.2))))

/-- `_ta_flash_text`, grammar.py 669-694; the default of `mirroring` is `R` (nodes/attribute/TA.py 98).  The optional
font, size and comments always match, possibly an empty text. -/
def taFlash : L Node :=
  extended (lit t!"TA" ≫≫ lit t!".FlashText" ≫≫ cs field ~~> fun s => cs (oneOf [['B'], ['C']]) ~~> fun m =>
    cs (opt (oneOf [['R'], ['M']])) ~~> fun r => cs (opt field) ~~> fun f => cs (opt field) ~~> fun z =>
    mapL (Node.taFlash s m (r.getD ['R']) f z) fields)

/-- `td`, grammar.py 700-708. -/
def td : L Node := extended (lit t!"TD" ≫≫ mapL Node.td (opt string))

/-- `_tf_user_name`, grammar.py 726-739. -/
def tfUser : L Node := extended (lit t!"TF" ≫≫ userName ~~> fun n => mapL (Node.tfUser n) fields)

/-- `_tf_part`, grammar.py 741-756; conversion to `Part` in the parse action. -/
def tfPart : L Node :=
  extended (lit t!"TF" ≫≫ clit t!".Part" ≫≫ cs field ~~> fun p => mapL (fun f => (p, f)) fields) ~~> fun t =>
  if t.1 ∈ parts then ret (.tfPart t.1 t.2) else raise

/-- `_tf_file_function`, grammar.py 758-773; conversion to `FileFunction` in the parse action. -/
def tfFunction : L Node :=
  extended (lit t!"TF" ≫≫ clit t!".FileFunction" ≫≫ cs field ~~> fun p => mapL (fun f => (p, f)) fields) ~~> fun t =>
  if t.1 ∈ fileFunctions then ret (.tfFunction t.1 t.2) else raise

/-- `_tf_file_polarity`, grammar.py 775-786; the polarity is a `Literal["Positive", "Negative"]`. -/
def tfPolarity : L Node :=
  extended (lit t!"TF" ≫≫ clit t!".FilePolarity" ≫≫ cs field) ~~> fun p =>
  if p ∈ [t!"Positive", t!"Negative"] then ret (.tfPolarity p) else raise

/-- `_tf_same_coordinates`, grammar.py 788-798. -/
def tfSame : L Node := extended (lit t!"TF" ≫≫ clit t!".SameCoordinates" ≫≫ mapL Node.tfSame (opt (cs field)))

/-- `_tf_creation_date`, grammar.py 800-811. -/
def tfDate (readDate : Text → Option Text) : L Node :=
  convert (fun t => (readDate t).map Node.tfDate) (extended (lit t!"TF" ≫≫ clit t!".CreationDate" ≫≫ cs field))

/-- Up to three optional fields: `Opt(comma + field + Opt(comma + field + Opt(comma + field)))`,
grammar.py 818-826 and 838-846. -/
def upTo3 : L (Option Text × Option Text × Option Text) :=
  mapL (fun t => (t.map (·.1), t.bind (·.2.1), t.bind (·.2.2)))
    (opt (cs field ~~> fun a => opt (cs field ~~> fun b => opt (cs field) ~~> fun c => ret (b, c)) ~~> fun bc =>
      ret (a, bc.map (·.1), bc.bind (·.2))))

/-- `_tf_generation_software`, grammar.py 813-831. -/
def tfSoftware : L Node :=
  extended (lit t!"TF" ≫≫ clit t!".GenerationSoftware" ≫≫ mapL (fun t => .tfSoftware t.1 t.2.1 t.2.2) upTo3)

/-- `_tf_project_id`, grammar.py 833-851. -/
def tfProject : L Node :=
  extended (lit t!"TF" ≫≫ clit t!".ProjectId" ≫≫ mapL (fun t => .tfProject t.1 t.2.1 t.2.2) upTo3)

/-- `_tf_md5`, grammar.py 853-864; the length is checked by pydantic (nodes/attribute/TF.py 205-211). -/
def tfMd5 : L Node :=
  extended (lit t!"TF" ≫≫ clit t!".MD5" ≫≫ cs field) ~~> fun t => if t.length = 32 then ret (.tfMd5 t) else raise

/-- `tf`, grammar.py 710-724. -/
def tf (readDate : Text → Option Text) : L Node :=
  firstOf [tfUser, tfPart, tfFunction, tfPolarity, tfSame, tfDate readDate, tfSoftware, tfProject, tfMd5]

/-- `ta`, grammar.py 604-613. -/
def ta : L Node := firstOf [taUser, taFunction, taDrill, taFlash]

/-- `_to_user_name`, grammar.py 893-906. -/
def toUser : L Node := extended (lit t!"TO" ≫≫ userName ~~> fun n => mapL (Node.toUser n) fields)

/-- `_to_n`, grammar.py 908-921. -/
def toN : L Node := extended (lit t!"TO" ≫≫ clit t!".N" ≫≫ mapL Node.toN fields)

/-- `_to_p`, grammar.py 923-937. -/
def toP : L Node :=
  extended (lit t!"TO" ≫≫ clit t!".P" ≫≫ cs field ~~> fun r => cs field ~~> fun n => mapL (Node.toP r n) (opt (cs field)))

/-- `_to_c`, `_to_cmfr`, `_to_cmpn`, `_to_cval`, `_to_cftp`, `_to_cpgn`, `_to_cpgd`, `_to_clbn`, `_to_clbd`,
grammar.py 939-1093. -/
def toText (k : ToKind) : L Node := extended (lit t!"TO" ≫≫ clit (toLiteral k) ≫≫ mapL (Node.toText k) (cs field))

/-- `_to_crot`, grammar.py 952-963. -/
def toRot : L Node := convert (fun t => (floatText t).map Node.toRot) (extended (lit t!"TO" ≫≫ clit t!".CRot" ≫≫ cs field))

/-- `_to_cmnt`, grammar.py 1004-1015. -/
def toMount : L Node :=
  extended (lit t!"TO" ≫≫ clit t!".CMnt" ≫≫ cs field) ~~> fun t => if t ∈ mounts then ret (.toMount t) else raise

/-- `_to_chgt`, grammar.py 1056-1067. -/
def toHeight : L Node :=
  convert (fun t => (floatText t).map Node.toHeight) (extended (lit t!"TO" ≫≫ clit t!".CHgt" ≫≫ cs field))

/-- `_to_csup`, grammar.py 1095-1114. -/
def toSup : L Node :=
  extended (lit t!"TO" ≫≫ clit t!".CSup" ≫≫ cs field ~~> fun a => cs field ~~> fun b => mapL (Node.toSup a b) fields)

/-- `to`, grammar.py 870-891. -/
def to_ : L Node :=
  firstOf [toUser, toN, toP, toText .c, toRot, toText .cMfr, toText .cMpn, toText .cVal, toMount, toText .cFtp,
    toText .cPgN, toText .cPgD, toHeight, toText .cLbN, toText .cLbD, toSup]

/-- `attribute`, grammar.py 592-602. -/
def attributes (readDate : Text → Option Text) : L Node := firstOf [ta, td, tf readDate, to_]

/-! ## Properties -/

/-- `fs`, grammar.py 1760-1776. -/
def fs : L Node :=
  extended (lit t!"FS" ≫≫
    convert (member zerosValue [.skipLeading, .skipTrailing, .skipLeadingImplied]) (oneOf [['L'], ['T'], []]) ~~> fun z =>
    convert (member notationValue [.absolute, .incremental]) (oneOf [['I'], ['A']]) ~~> fun m =>
    clit ['X'] ≫≫ digit ~~> fun a => digit ~~> fun b => clit ['Y'] ≫≫ digit ~~> fun c => digit ~~> fun d =>
    ret (.fs z m a b c d))

/-- `ip`, grammar.py 1778-1787. -/
def ip : L Node :=
  extended (lit t!"IP" ≫≫ mapL Node.ip (convert (member imageValue [.positive, .negative]) (oneOf [t!"POS", t!"NEG"])))

/-- `ir`, grammar.py 1789-1797; the conversion to `int` happens in the parse action of the whole command. -/
def ir : L Node := extended (lit t!"IR" ≫≫ double) ~~> fun q => if q.den = 1 then ret (.ir q.num) else raise

/-- `mo`, grammar.py 1799-1807. -/
def mo : L Node :=
  extended (lit t!"MO" ≫≫ mapL Node.mo (convert (member unitValue [.imperial, .metric]) (oneOf [t!"IN", t!"MM"])))

/-- `of`, grammar.py 1809-1819. -/
def of_ : L Node :=
  extended (lit t!"OF" ≫≫ opt (lit ['A'] ≫≫ double) ~~> fun a => opt (lit ['B'] ≫≫ double) ~~> fun b => ret (.of_ a b))

/-- `as_`, grammar.py 1821-1830. -/
def as_ : L Node :=
  extended (lit t!"AS" ≫≫ mapL Node.as_ (convert (member axisValue [.axBy, .ayBx]) (oneOf [t!"AXBY", t!"AYBX"])))

/-- `boolean`, grammar.py 315-318. -/
def boolean : L Bool := mapL (fun t => t == ['1']) (oneOf [['0'], ['1']])

/-- `mi`, grammar.py 1832-1842; missing values default to 0 (nodes/properties/MI.py 20-21). -/
def mi : L Node :=
  extended (lit t!"MI" ≫≫ opt (lit ['A'] ≫≫ boolean) ~~> fun a => opt (lit ['B'] ≫≫ boolean) ~~> fun b =>
    ret (.mi (a.getD false) (b.getD false)))

/-- `in_`, grammar.py 1844-1852. -/
def in_ : L Node := extended (lit t!"IN" ≫≫ mapL Node.in_ string)

/-- `sf`, grammar.py 1854-1864; missing values default to 1 (nodes/properties/SF.py 21-22). -/
def sf : L Node :=
  extended (lit t!"SF" ≫≫ opt (lit ['A'] ≫≫ double) ~~> fun a => opt (lit ['B'] ≫≫ double) ~~> fun b =>
    ret (.sf (a.getD 1) (b.getD 1)))

/-- `properties`, grammar.py 1743-1758. -/
def properties : L Node := firstOf [fs, mo, ip, ir, of_, as_, mi, in_, sf]

/-! ## M codes -/

/-- `m_codes`, grammar.py 1364-1387. -/
def mCodes : L Node :=
  firstOf [command (codeRe 'M' ['2'] ≫≫ ret .m02), command (codeRe 'M' ['1'] ≫≫ ret .m01), command (mZeros ≫≫ ret .m00)]

/-! ## Blocks and files -/

/-- The commands allowed in the body of an aperture block and of a step and repeat block, grammar.py 370-383 and
452-465.  `self.step_repeat_forward` is created in `__init__` (185) and never assigned, so that alternative always
fails; `ab` is `self.aperture_block_forward`. -/
def bodyItem (readDate : Text → Option Text) (ab : L Node) : L (List Node) :=
  firstOf [one (dCodes true), gCodes, one load, one properties, one (attributes readDate), one addAperture, failing,
    one ab, one macro_, one mCodes]

/-- `ab_open`, grammar.py 393-400. -/
def abOpen : L Text := extended (lit t!"AB" ≫≫ apertureId)

/-- `ab_close`, grammar.py 402-409. -/
def abClose : L Unit := extended (lit t!"AB")

/-- `aperture_block`, grammar.py 360-391; `depth` bounds the nesting. -/
def apertureBlock (readDate : Text → Option Text) : Nat → L Node
  | 0 => failing
  | n + 1 => node (abOpen ~~> fun i => many (bodyItem readDate (apertureBlock readDate n)) ~~> fun ns =>
      abClose ≫≫ ret (.ab i ns.flatten))

/-- `sr_open`, grammar.py 475-488. -/
def srOpen : L (Option Text × Option Text × Option Text × Option Text) :=
  extended (lit t!"SR" ≫≫ opt (lit ['X'] ≫≫ doubleText) ~~> fun x => opt (lit ['Y'] ≫≫ doubleText) ~~> fun y =>
    opt (lit ['I'] ≫≫ doubleText) ~~> fun i => opt (lit ['J'] ≫≫ doubleText) ~~> fun j => ret (x, y, i, j))

/-- `sr_close`, grammar.py 490-497. -/
def srClose : L Unit := extended (lit t!"SR")

/-- `step_repeat`, grammar.py 442-473. -/
def stepRepeat (readDate : Text → Option Text) (depth : Nat) : L Node :=
  node (srOpen ~~> fun o => many (bodyItem readDate (apertureBlock readDate depth)) ~~> fun ns => srClose ≫≫
    ret (.sr o.1 o.2.1 o.2.2.1 o.2.2.2 ns.flatten))

/-- `aperture`, grammar.py 349-358. -/
def aperture (readDate : Text → Option Text) (depth : Nat) : L Node :=
  firstOf [apertureBlock readDate depth, macro_, stepRepeat readDate depth, addAperture]

/-- The alternatives at the top of a file, grammar.py 198-210. -/
def rootItem (readDate : Text → Option Text) (depth : Nat) : L (List Node) :=
  firstOf [one (dCodes true), gCodes, one load, one (aperture readDate depth), one (attributes readDate), one properties,
    one mCodes]

/-- `_invalid_token`, grammar.py 1866-1873. -/
def invalidToken : L (List Entry) := node (tok Grammar.invalidToken)

/-- An alternative that is shared with the strict grammar. -/
def valid (p : L (List Node)) : L (List Entry) := mapL (fun ns => ns.map .node) p

/-- The alternatives of the resilient grammar at the top of a file, grammar.py 233-247. -/
def resilientItem (readDate : Text → Option Text) (depth : Nat) : L (List Entry) :=
  firstOf [valid (one (dCodes true)), valid gCodes, valid (one load), valid (one (aperture readDate depth)),
    valid (one (attributes readDate)), valid (one properties), valid (one mCodes), invalidToken]

/-! ## `SourceInfo` -/

/-- A node of the syntax tree as far as its position is concerned: `source_info` (gerber/ast/nodes/base.py 18-23) and the
nodes it consists of: for `AM`, `AB` and `SR` the list `[open, *body, close]`. -/
inductive Info
  | mk (location length : Nat) (parts : List Info)

/-- `source_info.location`. -/
def Info.location : Info → Nat
  | .mk a _ _ => a
/-- `source_info.length`. -/
def Info.length : Info → Nat
  | .mk _ n _ => n
/-- `[open, *body, close]`. -/
def Info.parts : Info → List Info
  | .mk _ _ ps => ps
/-- base.py 54-57 (`end_location`). -/
def Info.endLocation (i : Info) : Nat := i.location + i.length

mutual
/-- Positions counted from the beginning of the text, which has `total` characters. -/
def info (total : Nat) : Span → Info
  | .mk left n ps => .mk (total - left) n (infos total ps)
/-- Several nodes. -/
def infos (total : Nat) : List Span → List Info
  | [] => []
  | x :: xs => info total x :: infos total xs
end

/-- base.py 25-30 (`line`): `pp.lineno(location, source)`, `source.count("\n", 0, location) + 1`. -/
def lineAt (source : Text) (location : Nat) : Nat := (source.take location).count '\n' + 1

/-- base.py 32-37 (`column`): `pp.col(location, source)`, which is `location - source.rfind("\n", 0, location)`
(`rfind` is -1 if there is none). -/
def columnAt (source : Text) (location : Nat) : Nat :=
  ((source.take location).reverse.takeWhile (fun c => c != '\n')).length + 1

/-- The nodes of a file with their positions. -/
structure Source (α : Type) where
  /-- `file.nodes`. -/
  nodes : List α
  /-- Their `source_info`. -/
  infos : List Info

/-- `parseString(code, parse_all=strict)`, parser.py 31, for a text that can be read. -/
def sourceOf {α : Type} (item : L (List α)) (strict : Bool) (s : Text) : Option (Source α) :=
  match many1 item s with
  | .ok o r => if strict && skip r != [] then none else some ⟨o.val.flatten, infos s.length o.spans⟩
  | _ => none

/-- The nodes and positions that the grammar yields for a text whose tabs are expanded; this is the text that
`source_info.source` holds. -/
def plainSource (readDate : Text → Option Text) (strict : Bool) (s : Text) : Option (Source Node) :=
  sourceOf (rootItem readDate s.length) strict s

/-- The nodes and positions that the resilient grammar yields for a text whose tabs are expanded. -/
def resilientSource (readDate : Text → Option Text) (strict : Bool) (s : Text) : Option (Source Entry) :=
  sourceOf (resilientItem readDate s.length) strict s

/-- `Parser().parse(code, strict=…)`, gerber/parser/pyparsing/parser.py 16-33: `parseString` of pyparsing expands tabs (the
grammar does not ask to keep them) before anything is read, and `source_info.source` is the expanded text. -/
def parseText (readDate : Text → Option Text) (strict : Bool) (code : Text) : Option (Source Node) :=
  plainSource readDate strict (Grammar.expandTabs code)

/-- `Parser(resilient=True).parse(code, strict=…)`, likewise. -/
def parseTextResilient (readDate : Text → Option Text) (strict : Bool) (code : Text) : Option (Source Entry) :=
  resilientSource readDate strict (Grammar.expandTabs code)

end Verif.Spans
