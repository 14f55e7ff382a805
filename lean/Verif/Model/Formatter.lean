import Verif.Model.Syntax

/-!
# The formatter (gerber/formatter/formatter.py)

`Formatter.formats` as a function from options and nodes to text.  The base indentation is a state of the formatter; it
is threaded through.
-/

namespace Verif.Formatter

open Verif.Text Verif.Fmt Verif.Math Verif.Peg Verif.Syntax
open Verif.Visitor (Polarity Mirroring UnitMode ImagePolarity AxisCorrespondence)
open Verif.Coord (Zeros Notation)

/-- `MacroSplitMode`, gerber/formatter/enums.py. -/
inductive Split | noSplit | onPrimitives | onParameters
  deriving DecidableEq, Repr

/-- The attributes of a `Formatter` after its constructor, formatter.py 231-333.  The defaults are those of `Options`
(gerber/formatter/options.py); `places = none` is a negative `float_decimal_places`. -/
structure Opts where
  macroBody : Text := []
  macroParam : Text := []
  split : Split := .onPrimitives
  macroEnd : Bool := false
  abIndent : Text := []
  srIndent : Text := []
  places : Option Nat := none
  trim : Bool := true
  d01Indent : Text := []
  d02Indent : Text := []
  d03Indent : Text := []
  lf : Text := ['\n']
  polarityLine : Text := []
  keep : Bool := true
  removeG54 : Bool := false
  removeG55 : Bool := false
  explicit : Bool := false

/-- An indentation option: a number of indentation characters or a text, gerber/formatter/options.py 30-43 and its
siblings.  A negative number is the same as 0. -/
inductive Indent | count (n : Nat) | text (t : Text)

/-- `Options`, gerber/formatter/options.py 22-197, with its defaults; switches are `true` for the non-default member of
`KeepNonStandaloneCodes` (`separate`), `RemoveG54`, `RemoveG55`, `ExplicitParenthesis`, `StripWhitespace`,
`MacroEndInNewLine`, `EmptyLineBeforePolaritySwitch` and `FloatTrimTrailingZeros` (`keepZeros`). -/
structure Options where
  indentChar : Char := ' '
  macroBody : Indent := .count 0
  macroParam : Indent := .count 0
  split : Split := .onPrimitives
  macroEnd : Bool := false
  abIndent : Indent := .count 0
  srIndent : Indent := .count 0
  places : Option Nat := none
  keepZeros : Bool := false
  d01Indent : Indent := .count 0
  d02Indent : Indent := .count 0
  d03Indent : Indent := .count 0
  lf : Text := ['\n']
  polarityLine : Bool := false
  separate : Bool := false
  removeG54 : Bool := false
  removeG55 : Bool := false
  explicit : Bool := false
  strip : Bool := false

/-- `options.indent_character * n` or the text itself, formatter.py 247-297. -/
def Indent.toText (c : Char) : Indent → Text
  | .count n => List.replicate n c
  | .text t => t

/-- `Formatter.__init__`, formatter.py 231-333.  `self.float_trim_trailing_zeros` is set to the member of the
enumeration `FloatTrimTrailingZeros`, and both members are true as a condition, so `keepZeros` has no effect. -/
def build (u : Options) : Opts where
  macroBody := if u.strip then [] else u.macroBody.toText u.indentChar
  macroParam := if u.strip then [] else u.macroParam.toText u.indentChar
  split := u.split
  macroEnd := u.macroEnd
  abIndent := if u.strip then [] else u.abIndent.toText u.indentChar
  srIndent := if u.strip then [] else u.srIndent.toText u.indentChar
  places := u.places
  trim := true
  d01Indent := if u.strip then [] else u.d01Indent.toText u.indentChar
  d02Indent := if u.strip then [] else u.d02Indent.toText u.indentChar
  d03Indent := if u.strip then [] else u.d03Indent.toText u.indentChar
  lf := if u.strip then [] else u.lf
  polarityLine := if u.strip then [] else if u.polarityLine then u.lf else []
  keep := !u.separate
  removeG54 := u.removeG54
  removeG55 := u.removeG55
  explicit := u.explicit

/-- `_fmt_double`, formatter.py 374-380. -/
def Opts.fd (o : Opts) (q : ℚ) : Text := fmtDouble o.places o.trim q

/-- `str(n)` of a Python `int`. -/
def intStr (n : ℤ) : Text := (if n < 0 then ['-'] else []) ++ natStr n.natAbs

/-- `_fmt_double` applied to an `int`, formatter.py 374-380 and 1478. -/
def Opts.fdInt (o : Opts) (n : ℤ) : Text :=
  match o.places with
  | none => intStr n
  | some d => fmtDouble (some d) o.trim (n : ℚ)

/-- `_extended_command`, formatter.py 399-403. -/
def ext (o : Opts) (inner : Text) : Text := '%' :: inner ++ '*' :: '%' :: o.lf

/-- `_command`, formatter.py 388-397. -/
def cmd (o : Opts) (inner : Text) : Text := inner ++ '*' :: o.lf

/-- A letter and an optional text. -/
def optText (letter : Char) : Option Text → Text
  | some t => letter :: t
  | none => []

/-- A letter and an optional number. -/
def optNum (letter : Char) (fd : ℚ → Text) : Option ℚ → Text
  | some q => letter :: fd q
  | none => []

/-- A comma and a text for every field. -/
def fieldsText : List Text → Text
  | [] => []
  | f :: fs => ',' :: f ++ fieldsText fs

/-- A comma and an optional text that may be missing. -/
def commaOpt (t : Option Text) : Text := ',' :: t.getD []

/-! ## Macros -/

/-- `_macro_primitive_lf`, formatter.py 1256-1268. -/
def primLf (o : Opts) : Text :=
  match o.split with
  | .noSplit => []
  | _ => o.lf ++ o.macroBody

/-- `_macro_param_lf`, formatter.py 1270-1282. -/
def paramLf (o : Opts) : Text :=
  match o.split with
  | .onParameters => o.lf ++ o.macroParam ++ o.macroBody
  | _ => []

/-- A comma, the parameter line feed and an expression, formatter.py 1240-1247 and its siblings. -/
def arg (o : Opts) (e : Expr) : Text := ',' :: paramLf o ++ print o.fd o.explicit e

/-- The loop over the points of an outline, formatter.py 1195-1200 and 1316-1318. -/
def pointsText (o : Opts) : List (Expr × Expr) → Text
  | [] => []
  | p :: ps => ',' :: paramLf o ++ print o.fd o.explicit p.1 ++ ',' :: print o.fd o.explicit p.2 ++ pointsText o ps

/-- `on_assignment`, `on_code_0` … `on_code_22`, formatter.py 1167-1176 and 1231-1440, without the base indentation. -/
def prim (o : Opts) : Prim → Text
  | .assign v e => primLf o ++ v ++ '=' :: print o.fd o.explicit e ++ ['*']
  | .code0 s => primLf o ++ '0' :: s ++ ['*']
  | .code1 a b c d r => primLf o ++ '1' :: arg o a ++ arg o b ++ arg o c ++ arg o d ++
      (match r with | some r => arg o r | none => []) ++ ['*']
  | .code2 a b c d e f r => primLf o ++ '2' :: arg o a ++ arg o b ++ arg o c ++ arg o d ++ arg o e ++ arg o f ++
      arg o r ++ ['*']
  | .code4 a b c d ps r => primLf o ++ '4' :: arg o a ++ arg o b ++ arg o c ++ arg o d ++ pointsText o ps ++ arg o r ++
      ['*']
  | .code5 a b c d e r => primLf o ++ '5' :: arg o a ++ arg o b ++ arg o c ++ arg o d ++ arg o e ++ arg o r ++ ['*']
  | .code6 a b c d e f g h r => primLf o ++ '6' :: arg o a ++ arg o b ++ arg o c ++ arg o d ++ arg o e ++ arg o f ++
      arg o g ++ arg o h ++ arg o r ++ ['*']
  | .code7 a b c d e r => primLf o ++ '7' :: arg o a ++ arg o b ++ arg o c ++ arg o d ++ arg o e ++ arg o r ++ ['*']
  | .code20 a b c d e f r => primLf o ++ '2' :: '0' :: arg o a ++ arg o b ++ arg o c ++ arg o d ++ arg o e ++ arg o f ++
      arg o r ++ ['*']
  | .code21 a b c d e r => primLf o ++ '2' :: '1' :: arg o a ++ arg o b ++ arg o c ++ arg o d ++ arg o e ++ arg o r ++
      ['*']
  | .code22 a b c d e r => primLf o ++ '2' :: '2' :: arg o a ++ arg o b ++ arg o c ++ arg o d ++ arg o e ++ arg o r ++
      ['*']

/-- The primitives of a macro, each after the base indentation, gerber/ast/ast_visitor.py 187-193. -/
def prims (o : Opts) (base : Text) : List Prim → Text
  | [] => []
  | p :: ps => base ++ prim o p ++ prims o base ps

/-! ## G codes -/

/-- `cls.__qualname__`, formatter.py 935-1023. -/
def gName : GCode → Text
  | .g01 => t!"G01"
  | .g02 => t!"G02"
  | .g03 => t!"G03"
  | .g36 => t!"G36"
  | .g37 => t!"G37"
  | .g54 => t!"G54"
  | .g55 => t!"G55"
  | .g70 => t!"G70"
  | .g71 => t!"G71"
  | .g74 => t!"G74"
  | .g75 => t!"G75"
  | .g90 => t!"G90"
  | .g91 => t!"G91"

/-- `_handle_g`, formatter.py 928-934, and the removal of G54 and G55, 972-987. -/
def gText (o : Opts) (c : GCode) (standalone : Bool) : Text :=
  if (c = .g54 ∧ o.removeG54) ∨ (c = .g55 ∧ o.removeG55) then []
  else if standalone ∨ !o.keep then cmd o (gName c) else gName c

/-- Names of the object attributes with one text field, formatter.py 756-862. -/
def toName : ToKind → Text
  | .c => t!"TO.C"
  | .cMfr => t!"TO.CMfr"
  | .cMpn => t!"TO.CMPN"
  | .cVal => t!"TO.CVal"
  | .cFtp => t!"TO.CFtp"
  | .cPgN => t!"TO.CPgN"
  | .cPgD => t!"TO.CPgD"
  | .cLbN => t!"TO.CLbn"
  | .cLbD => t!"TO.CLbD"

/-- `self._base_indent[: -len(delta)]` if the indentation ends with `delta`, formatter.py 178-187: with an empty `delta`
the slice `[:-0]` is empty. -/
def decrease (base delta : Text) : Text :=
  if delta.isSuffixOf base then base.take (if delta.length = 0 then 0 else base.length - delta.length) else base

/-- `on_sr_open`, formatter.py 505-522: all four tests look at `x`; a missing value is written as `None`. -/
def srOpenText (o : Opts) (x y i j : Option Text) : Text :=
  let none' := fun t : Option Text => t.getD t!"None"
  ext o (t!"SR" ++ (if x.isSome then 'X' :: none' x else []) ++ (if x.isSome then 'Y' :: none' y else []) ++
    (if x.isSome then 'I' :: none' i else []) ++ (if x.isSome then 'J' :: none' j else []))

/-- The arguments of `on_ad_macro`, formatter.py 473-478: the first parameter after a comma, the others after `X`, with
plain `str`.  An empty list makes the assignment `first, *rest = node.params` raise; the parser never builds it. -/
def macroParams : Option (List ℚ) → Text
  | none => []
  | some [] => []
  | some (p :: ps) => ',' :: strFloat p ++ (ps.map (fun q => 'X' :: strFloat q)).flatten

/-- Callbacks of the nodes that are not blocks, without the base indentation: formatter.py 424-496, 526-1082,
1443-1514. -/
def leaf (o : Opts) : Node → Text
  | .ab .. => []
  | .sr .. => []
  | .am .. => []
  | .adc i d h => ext o (t!"AD" ++ i ++ t!"C," ++ o.fd d ++ optNum 'X' o.fd h)
  | .adr i w h o' => ext o (t!"AD" ++ i ++ t!"R," ++ o.fd w ++ 'X' :: o.fd h ++ optNum 'X' o.fd o')
  | .ado i w h o' => ext o (t!"AD" ++ i ++ t!"O," ++ o.fd w ++ 'X' :: o.fd h ++ optNum 'X' o.fd o')
  | .adp i d v r h =>
    ext o (t!"AD" ++ i ++ t!"P," ++ o.fd d ++ 'X' :: intStr v ++ optNum 'X' o.fd r ++ optNum 'X' o.fd h)
  | .adMacro i n ps => ext o (t!"AD" ++ i ++ n ++ macroParams ps)
  | .taUser n fs => ext o (t!"TA" ++ n ++ fieldsText fs)
  | .taFunction f fs => ext o (t!"TA.AperFunction" ++ (f.map (',' :: ·)).getD [] ++ fieldsText fs)
  | .taDrill p m => ext o (t!"TA.DrillTolerance" ++ optNum ',' o.fd p ++ optNum ',' o.fd m)
  | .taFlash s m r f z cs => ext o (t!"TA.FlashText" ++ ',' :: s ++ ',' :: m ++ ',' :: r ++
      (if cs.length = 0 then (f.map (',' :: ·)).getD [] ++ (z.map (',' :: ·)).getD [] ++ fieldsText cs
        else commaOpt f ++ commaOpt z ++ fieldsText cs))
  | .td n => ext o (t!"TD" ++ n.getD [])
  | .tfUser n fs => ext o (t!"TF" ++ n ++ fieldsText fs)
  | .tfPart p fs => ext o (t!"TF.Part," ++ p ++ fieldsText fs)
  | .tfFunction p fs => ext o (t!"TF.FileFunction," ++ p ++ fieldsText fs)
  | .tfPolarity p => ext o (t!"TF.FilePolarity," ++ p)
  | .tfSame i => ext o (t!"TF.SameCoordinates" ++ (i.map (',' :: ·)).getD [])
  | .tfDate d => ext o (t!"TF.CreationDate" ++ ',' :: d)
  | .tfSoftware a b c => ext o (t!"TF.GenerationSoftware" ++ commaOpt a ++ commaOpt b ++ commaOpt c)
  | .tfProject a b c => ext o (t!"TF.ProjectId" ++ commaOpt a ++ commaOpt b ++ commaOpt c)
  | .tfMd5 t => ext o (t!"TF.MD5" ++ ',' :: t)
  | .toUser n fs => ext o (t!"TO" ++ n ++ fieldsText fs)
  | .toN fs => ext o (t!"TO.N" ++ fieldsText fs)
  | .toP r n f => ext o (t!"TO.P" ++ ',' :: r ++ ',' :: n ++ (f.map (',' :: ·)).getD [])
  | .toText k v => ext o (toName k ++ ',' :: v)
  | .toRot a => ext o (t!"TO.CRot" ++ ',' :: o.fd a)
  | .toHeight a => ext o (t!"TO.CHgt" ++ ',' :: o.fd a)
  | .toMount m => ext o (t!"TO.CMnt" ++ ',' :: m)
  | .toSup a b fs => ext o (t!"TO.CSup" ++ ',' :: a ++ ',' :: b ++ fieldsText fs)
  | .dnn i _ => cmd o i
  | .d01 x y i j _ => cmd o (optText 'X' x ++ optText 'Y' y ++ optText 'I' i ++ optText 'J' j ++ t!"D01")
  | .d02 x y _ => cmd o (optText 'X' x ++ optText 'Y' y ++ t!"D02")
  | .d03 x y _ => cmd o (optText 'X' x ++ optText 'Y' y ++ t!"D03")
  | .g c s => gText o c s
  | .g04 s => cmd o (t!"G04" ++ s.getD [])
  | .lm m => ext o (t!"LM" ++ mirroringValue m)
  | .ln n => ext o (t!"LN" ++ n)
  | .lp p => ext o (t!"LP" ++ polarityValue p)
  | .lr r => ext o (t!"LR" ++ o.fd r)
  | .ls r => ext o (t!"LS" ++ o.fd r)
  | .m00 => cmd o t!"M00"
  | .m01 => cmd o t!"M01"
  | .m02 => cmd o t!"M02"
  | .as_ a => ext o (t!"AS" ++ axisValue a)
  | .fs z m a b c d =>
    ext o (t!"FS" ++ zerosValue z ++ notationValue m ++ 'X' :: natStr a ++ natStr b ++ 'Y' :: natStr c ++ natStr d)
  | .in_ n => ext o (t!"IN" ++ n)
  | .ip p => ext o (t!"IP" ++ imageValue p)
  | .ir n => ext o (t!"IR" ++ o.fdInt n)
  | .mi a b => ext o (t!"MI" ++ 'A' :: (if a then '1' else '0') :: 'B' :: (if b then ['1'] else ['0']))
  | .mo u => ext o (t!"MO" ++ unitValue u)
  | .of_ a b => ext o (t!"OF" ++ optNum 'A' strFloat a ++ optNum 'B' strFloat b)
  | .sf a b => ext o (t!"SF" ++ 'A' :: o.fd a ++ 'B' :: o.fd b)

/-- Blanks written before a node that is not a block: the base indentation (`_decorator_insert_base_indent`,
formatter.py 192-203), not before a D code that follows its G code on the same line (880-923); the extra indentation of
D01, D02, D03; the empty line before a polarity switch (1041-1042). -/
def indent (o : Opts) (base : Text) : Node → Text
  | .dnn _ s => if s ∨ !o.keep then base else []
  | .d01 _ _ _ _ s => if s ∨ !o.keep then base ++ o.d01Indent else []
  | .d02 _ _ s => if s ∨ !o.keep then base ++ o.d02Indent else []
  | .d03 _ _ s => if s ∨ !o.keep then base ++ o.d03Indent else []
  | .lp _ => o.polarityLine ++ base
  | _ => base

mutual
/-- `node.visit(formatter)`: the text written and the new base indentation.  `AB`, `SR` and `AM` are visited by
gerber/ast/ast_visitor.py 142-149, 187-193, 203-209 with the callbacks formatter.py 408-422 and 480-522. -/
def node (o : Opts) (base : Text) : Node → Text × Text
  | .ab i ns =>
    let body := nodes o (base ++ o.abIndent) ns
    let base' := decrease body.2 o.abIndent
    (base ++ ext o (t!"AB" ++ i) ++ body.1 ++ base' ++ ext o t!"AB", base')
  | .sr x y i j ns =>
    let body := nodes o (base ++ o.srIndent) ns
    let base' := decrease body.2 o.srIndent
    (base ++ srOpenText o x y i j ++ body.1 ++ base' ++ ext o t!"SR", base')
  | .am n ps =>
    (base ++ t!"%AM" ++ n ++ '*' :: prims o base ps ++ base ++ (if o.macroEnd then o.lf else []) ++ '%' :: o.lf, base)
  | n => (indent o base n ++ leaf o n, base)
/-- The nodes of a block or of a file, one after the other. -/
def nodes (o : Opts) (base : Text) : List Node → Text × Text
  | [] => ([], base)
  | n :: ns =>
    let a := node o base n
    let b := nodes o a.2 ns
    (a.1 ++ b.1, b.2)
end

/-- `Formatter.formats`, formatter.py 344-348. -/
def formats (o : Opts) (ns : List Node) : Text := (nodes o [] ns).1

end Verif.Formatter
