import Verif.Model.Grammar
import Verif.Spec.Expr
import Verif.Spec.Words
import Mathlib.Computability.Language

/-!
# How commands are written

For every command the set of its spellings, token by token.  `*` is concatenation of languages, `1` is the language of the
empty text and `0` has no texts (`Mathlib.Computability.Language`).  Blanks may stand before every token.
-/

namespace Verif.Spec
open Verif.Peg (Text)
open Verif.Syntax (Node Prim GCode ToKind)
open Verif.Math (Expr Op)
open Verif.Visitor (Polarity Mirroring UnitMode ImagePolarity AxisCorrespondence)
open Verif.Coord (Zeros Notation)

/-! ## Tokens -/

/-- Blanks, then one of the texts. -/
def tok (S : Text → Prop) : Language Char := {t | ∃ b w, Blank b ∧ S w ∧ t = b ++ w}

/-- A fixed word. -/
def word (w : Text) : Language Char := tok (· = w)

/-- A fixed word in upper or lower case. -/
def anyCase (w : Text) : Language Char := tok fun t => t.map Char.toUpper = w.map Char.toUpper

/-- `12`, `12.5`, `.5`: a text and the number it denotes. -/
inductive UnsignedText : Text → ℚ → Prop
  | whole {i : Text} : Digits i → i ≠ [] → UnsignedText i (numeral i)
  | decimal {i f : Text} : Digits i → Digits f → f ≠ [] →
      UnsignedText (i ++ '.' :: f) (numeral i + numeral f / 10 ^ f.length)

/-- `12`, `-12.5`, `+.5`: a text and the number it denotes. -/
def NumberText (t : Text) (q : ℚ) : Prop := ∃ (s : Sign) (u : Text) (v : ℚ), UnsignedText u v ∧ t = s.text ++ u ∧ q = s.factor * v

/-- A number. -/
def numeric (q : ℚ) : Language Char := tok (NumberText · q)

/-- A number, kept as it is written. -/
def numberAs (t : Text) : Language Char := tok fun w => w = t ∧ ∃ q, NumberText w q

/-- A whole number with or without sign, kept as it is written. -/
def wholeAs (t : Text) : Language Char :=
  tok fun w => w = t ∧ ∃ (s : Sign) (ds : Text), Digits ds ∧ ds ≠ [] ∧ w = s.text ++ ds

/-- `G01`, `G1`, `D0002`: a letter and a number, with any number of leading zeros. -/
def code (letter : Char) (n : ℕ) : Language Char :=
  tok fun w => ∃ ds, Digits ds ∧ ds ≠ [] ∧ numeral ds = n ∧ w = letter :: ds

/-- `D10`, `D0123`: an aperture number is at least 10. -/
def apertureCode (t : Text) : Language Char :=
  tok fun w => w = t ∧ ∃ ds, Digits ds ∧ 10 ≤ numeral ds ∧ w = 'D' :: ds

/-- One decimal digit. -/
def oneDigit (n : ℕ) : Language Char := tok fun w => ∃ c, w = [c] ∧ Digits [c] ∧ numeral [c] = n

/-- A text without `%` and `*`, with the blanks it begins with. -/
def freeText (t : Text) : Language Char := {w | w = t ∧ t ≠ [] ∧ '%' ∉ t ∧ '*' ∉ t}

/-- A field ends at the next `%`, `*` or `,` (blanks before these belong to it); it may be empty. -/
def fieldText (t : Text) : Language Char :=
  tok fun w => w = t ∧ '%' ∉ t ∧ '*' ∉ t ∧ ',' ∉ t ∧ ∀ c r, t = c :: r → ¬Blank [c]

/-- The name of a macro. -/
def macroName (t : Text) : Language Char :=
  tok fun w => w = t ∧ ∃ c r, t = c :: r ∧ (c = '.' ∨ UserNameStart c) ∧ ∀ x ∈ r, NameChar x

/-- The name of an attribute that is not standard. -/
def userAttribute (t : Text) : Language Char :=
  tok fun w => w = t ∧ ∃ c r, t = c :: r ∧ UserNameStart c ∧ ∀ x ∈ r, NameChar x

/-- A part that may be missing. -/
def perhaps {α : Type} (f : α → Language Char) : Option α → Language Char
  | none => 1
  | some a => f a

/-- A part that stands for the value `d` if it is missing. -/
def orMissing {α : Type} (d : α) (f : α → Language Char) (a : α) : Language Char := {t | t ∈ f a ∨ (a = d ∧ t = [])}

/-- One after the other. -/
def listed {α : Type} (f : α → Language Char) : List α → Language Char
  | [] => 1
  | a :: as => f a * listed f as

/-- Only under a condition. -/
def provided (c : Prop) (l : Language Char) : Language Char := {t | c ∧ t ∈ l}

/-- A comma and a part. -/
def after (l : Language Char) : Language Char := word t!"," * l

/-- A text and the asterisk behind it. -/
def textEnd (t : Text) : Language Char := freeText t * {t!"*"}

/-- Fields, each after a comma, and the asterisk behind them. -/
def fieldsEnd (fs : List Text) : Language Char := listed (fun f => {t!","} * fieldText f) fs * {t!"*"}

/-- The same after blanks. -/
def closing (fs : List Text) : Language Char := tok (· ∈ fieldsEnd fs)

/-- An attribute command with fields. -/
def attribute_ (l : Language Char) (fs : List Text) : Language Char := word t!"%" * l * closing fs * word t!"%"

/-- A word command. -/
def starred (l : Language Char) : Language Char := l * word t!"*"

/-- An extended command. -/
def percented (l : Language Char) : Language Char := word t!"%" * l * word t!"*" * word t!"%"

/-! ## Expressions and macros -/

/-- The operators. -/
def opText : Op → Language Char
  | .add => word t!"+"
  | .sub => word t!"-"
  | .mul => tok fun w => w = t!"x" ∨ w = t!"X"
  | .div => word t!"/"

/-- How tightly the parts of an expression are bound together: signs bind tighter than `/`, then `x`, `-` and `+`. -/
def rank : Expr → ℕ
  | .const _ | .var _ | .paren _ => 0
  | .neg _ => 1
  | .pos _ => 2
  | .bin .div _ _ => 3
  | .bin .mul _ _ => 4
  | .bin .sub _ _ => 5
  | .bin .add _ _ => 6

/-- A constant with a plus sign of its own, as in `-+5`. -/
def plusConst : Expr → Language Char
  | .const q => tok fun w => ∃ u, UnsignedText u q ∧ w = '+' :: u
  | _ => 0

mutual
/-- Spellings of an expression. -/
def exprText : Expr → Language Char
  | .const q => tok (UnsignedText · q)
  | .var n => tok fun w => w = n ∧ ∃ ds, Digits ds ∧ ds ≠ [] ∧ n = '$' :: ds
  | .paren e => word t!"(" * exprText e * word t!")"
  | .neg e => provided (rank e ≤ 1) (word t!"-" * (exprText e + plusConst e))
  | .pos e => provided (rank e ≤ 2) (word t!"+" * exprText e)
  | .bin op h t => provided (rank h < rank (.bin op h t) ∧ t ≠ []) (exprText h * operandsText op t)
/-- Operators and operands. -/
def operandsText (op : Op) : List Expr → Language Char
  | [] => 1
  | e :: es => provided (rank e < rank (.bin op e es)) (opText op * exprText e) * operandsText op es
end

/-- Expressions, each after a comma. -/
def params (es : List Expr) : Language Char := listed (fun e => after (exprText e)) es

/-- Spellings of the parts of a macro. -/
def primText : Prim → Language Char
  | .assign v e => starred (exprText (.var v) * word t!"=" * exprText e)
  | .code0 s => word t!"0" * textEnd s
  | .code1 e d x y r => starred (word t!"1" * params ([e, d, x, y] ++ r.toList))
  | .code2 e w sx sy ex ey r => starred (word t!"2" * params [e, w, sx, sy, ex, ey, r])
  | .code4 e n sx sy ps r =>
    provided (ps ≠ []) (starred (word t!"4" * params ([e, n, sx, sy] ++ (ps.map fun p => [p.1, p.2]).flatten ++ [r])))
  | .code5 e n x y d r => starred (word t!"5" * params [e, n, x, y, d, r])
  | .code6 x y d t g n ct cl r => starred (word t!"6" * params [x, y, d, t, g, n, ct, cl, r])
  | .code7 x y o i g r => starred (word t!"7" * params [x, y, o, i, g, r])
  | .code20 e w sx sy ex ey r => starred (word t!"20" * params [e, w, sx, sy, ex, ey, r])
  | .code21 e w h x y r => starred (word t!"21" * params [e, w, h, x, y, r])
  | .code22 e w h x y r => starred (word t!"22" * params [e, w, h, x, y, r])

/-! ## Commands -/

/-- Number of a G code. -/
def gNumber : GCode → ℕ
  | .g01 => 1 | .g02 => 2 | .g03 => 3 | .g36 => 36 | .g37 => 37 | .g54 => 54 | .g55 => 55 | .g70 => 70 | .g71 => 71
  | .g74 => 74 | .g75 => 75 | .g90 => 90 | .g91 => 91

/-- A coordinate. -/
def axis (letter : Char) : Option Text → Language Char := perhaps fun t => anyCase [letter] * wholeAs t

/-- `X` and a number, as in aperture definitions. -/
def xNumber (q : ℚ) : Language Char := word t!"X" * numeric q

/-- A letter and a number. -/
def letterNumber (letter : Char) (q : ℚ) : Language Char := word [letter] * numeric q

/-- One of some words, as a field. -/
def choice (ws : List Text) (w : Text) : Language Char := provided (w ∈ ws) (word w)

/-- Names of the object attributes with one text field. -/
def objectName : ToKind → Text
  | .c => t!".C" | .cMfr => t!".CMfr" | .cMpn => t!".CMPN" | .cVal => t!".CVal" | .cFtp => t!".CFtp"
  | .cPgN => t!".CPgN" | .cPgD => t!".CPgD" | .cLbN => t!".CLbN" | .cLbD => t!".CLbD"

/-- `0` or `1`. -/
def bitText (b : Bool) : Language Char := word (if b then t!"1" else t!"0")

/-- Spellings of a single command.  `date` reads dates.  Blocks are not single commands. -/
def commandText (date : Text → Option Text) : Node → Language Char
  | .ab .. | .sr .. => 0
  | .am n ps => word t!"%" * word t!"AM" * macroName n * word t!"*" * listed primText ps * word t!"%"
  | .adc i d h => percented (word t!"AD" * apertureCode i * word t!"C," * numeric d * perhaps xNumber h)
  | .adr i w h o => percented (word t!"AD" * apertureCode i * word t!"R," * numeric w * xNumber h * perhaps xNumber o)
  | .ado i w h o => percented (word t!"AD" * apertureCode i * word t!"O," * numeric w * xNumber h * perhaps xNumber o)
  | .adp i d n r h => provided (r = none → h = none)
    (percented (word t!"AD" * apertureCode i * word t!"P," * numeric d * xNumber n * perhaps xNumber r * perhaps xNumber h))
  | .adMacro i n none => percented (word t!"AD" * apertureCode i * macroName n)
  | .adMacro _ _ (some []) => 0
  | .adMacro i n (some (p :: ps)) =>
    percented (word t!"AD" * apertureCode i * macroName n * after (numeric p) * listed xNumber ps)
  | .taUser n fs => attribute_ (word t!"TA" * userAttribute n) fs
  | .taFunction none fs => provided (∀ f ∈ fs.head?, ∀ w ∈ apertureFunctions, ¬w <+: f)
    (attribute_ (word t!"TA" * word t!".AperFunction") fs)
  | .taFunction (some w) fs =>
    attribute_ (word t!"TA" * word t!".AperFunction" * after (choice apertureFunctions w)) fs
  | .taDrill p m => provided (p = none → m = none)
    (percented (word t!"TA" * word t!".DrillTolerance" * perhaps (fun q => after (numeric q)) p *
      perhaps (fun q => after (numeric q)) m))
  | .taFlash s m r (some f) (some z) cs =>
    attribute_ (word t!"TA" * word t!".FlashText" * after (fieldText s) * {t!","} * choice [t!"B", t!"C"] m *
      after (orMissing t!"R" (choice [t!"R", t!"M"]) r)) (f :: z :: cs)
  | .taFlash .. => 0
  | .td none => word t!"%" * word t!"TD" * {t!"*"} * word t!"%"
  | .td (some t) => word t!"%" * word t!"TD" * textEnd t * word t!"%"
  | .tfUser n fs => attribute_ (word t!"TF" * userAttribute n) fs
  | .tfPart p fs => provided (p ∈ panelParts) (attribute_ (word t!"TF" * anyCase t!".Part") (p :: fs))
  | .tfFunction p fs => provided (p ∈ layerFunctions) (attribute_ (word t!"TF" * anyCase t!".FileFunction") (p :: fs))
  | .tfPolarity p => provided (p = t!"Positive" ∨ p = t!"Negative")
    (attribute_ (word t!"TF" * anyCase t!".FilePolarity") [p])
  | .tfSame i => attribute_ (word t!"TF" * anyCase t!".SameCoordinates") i.toList
  | .tfDate d => {t | ∃ w, date w = some d ∧ t ∈ attribute_ (word t!"TF" * anyCase t!".CreationDate") [w]}
  | .tfSoftware a b c => provided ((a = none → b = none) ∧ (b = none → c = none))
    (attribute_ (word t!"TF" * anyCase t!".GenerationSoftware") (a.toList ++ b.toList ++ c.toList))
  | .tfProject a b c => provided ((a = none → b = none) ∧ (b = none → c = none))
    (attribute_ (word t!"TF" * anyCase t!".ProjectId") (a.toList ++ b.toList ++ c.toList))
  | .tfMd5 h => provided (h.length = 32) (attribute_ (word t!"TF" * anyCase t!".MD5") [h])
  | .toUser n fs => attribute_ (word t!"TO" * userAttribute n) fs
  | .toN fs => attribute_ (word t!"TO" * anyCase t!".N") fs
  | .toP r n f => attribute_ (word t!"TO" * anyCase t!".P") ([r, n] ++ f.toList)
  | .toText k v => attribute_ (word t!"TO" * anyCase (objectName k)) [v]
  | .toRot q => {t | ∃ w, NumberText w q ∧ t ∈ attribute_ (word t!"TO" * anyCase t!".CRot") [w]}
  | .toHeight q => {t | ∃ w, NumberText w q ∧ t ∈ attribute_ (word t!"TO" * anyCase t!".CHgt") [w]}
  | .toMount m => provided (m ∈ mountTypes) (attribute_ (word t!"TO" * anyCase t!".CMnt") [m])
  | .toSup a b cs => attribute_ (word t!"TO" * anyCase t!".CSup") (a :: b :: cs)
  | .dnn i _ => starred (apertureCode i)
  | .d01 x y i j _ => starred (axis 'X' x * axis 'Y' y * axis 'I' i * axis 'J' j * (1 + code 'D' 1))
  | .d02 x y _ => starred (axis 'X' x * axis 'Y' y * code 'D' 2)
  | .d03 x y _ => starred (axis 'X' x * axis 'Y' y * code 'D' 3)
  | .g c _ => starred (code 'G' (gNumber c))
  | .g04 none => code 'G' 4 * {t!"*"}
  | .g04 (some t) => tok (fun w => ∃ zs : Text, (∀ c ∈ zs, c = '0') ∧ w = 'G' :: zs ++ t!"4") * textEnd t
  | .lm m => percented (word t!"LM" * word (match m with | .none => t!"N" | .x => t!"X" | .y => t!"Y" | .xy => t!"XY"))
  | .ln t => word t!"%" * word t!"LN" * textEnd t * word t!"%"
  | .lp p => percented (word t!"LP" * word (match p with | .clear => t!"C" | .dark => t!"D"))
  | .lr q => percented (word t!"LR" * numeric q)
  | .ls q => percented (word t!"LS" * numeric q)
  | .m00 => starred (code 'M' 0)
  | .m01 => starred (code 'M' 1)
  | .m02 => starred (code 'M' 2)
  | .as_ c => percented (word t!"AS" * word (match c with | .axBy => t!"AXBY" | .ayBx => t!"AYBX"))
  | .fs z m a b c d =>
    percented (word t!"FS" *
      word (match z with | .skipLeading => t!"L" | .skipTrailing => t!"T" | .skipLeadingImplied => t!"") *
      word (match m with | .absolute => t!"A" | .incremental => t!"I") *
      anyCase t!"X" * oneDigit a * oneDigit b * anyCase t!"Y" * oneDigit c * oneDigit d)
  | .in_ t => word t!"%" * word t!"IN" * textEnd t * word t!"%"
  | .ip p => percented (word t!"IP" * word (match p with | .positive => t!"POS" | .negative => t!"NEG"))
  | .ir n => percented (word t!"IR" * numeric n)
  | .mi a b => percented (word t!"MI" * orMissing false (fun v => word t!"A" * bitText v) a *
      orMissing false (fun v => word t!"B" * bitText v) b)
  | .mo m => percented (word t!"MO" * word (match m with | .imperial => t!"IN" | .metric => t!"MM"))
  | .of_ a b => percented (word t!"OF" * perhaps (letterNumber 'A') a * perhaps (letterNumber 'B') b)
  | .sf a b => percented (word t!"SF" * orMissing 1 (letterNumber 'A') a * orMissing 1 (letterNumber 'B') b)

/-! ## Files -/

/-- The command ends with an asterisk of its own: it is no G code before a D code and no D code behind a G code. -/
def OnItsOwn : Node → Prop
  | .g _ s | .dnn _ s | .d01 _ _ _ _ s | .d02 _ _ s | .d03 _ _ s => s = true
  | _ => True

/-- A D code that stands behind a G code, without an asterisk between. -/
def BehindG : Node → Prop
  | .dnn _ s | .d01 _ _ _ _ s | .d02 _ _ s | .d03 _ _ s => s = false
  | _ => False

/-- Apart from blanks, the text begins with one of the characters. -/
def BeginsWith (cs : List Char) (t : Text) : Prop := ∃ b c r, Blank b ∧ c ∈ cs ∧ t = b ++ c :: r

/-- The commands, in this order and with only blanks between them, are spelled by the text.  `top` says that step and
repeat blocks may occur. -/
inductive Spelled (date : Text → Option Text) : Bool → List Node → Text → Prop
  | none {top : Bool} : Spelled date top [] []
  | command {top : Bool} {n : Node} {ns : List Node} {t u : Text} (own : OnItsOwn n) (text : t ∈ commandText date n)
    (rest : Spelled date top ns u) : Spelled date top (n :: ns) (t ++ u)
  /-- `G01X10Y10D01*` is read as two commands. -/
  | together {top : Bool} {c : GCode} {d : Node} {ns : List Node} {t u v : Text} (g : t ∈ code 'G' (gNumber c))
    (behind : BehindG d) (text : u ∈ commandText date d) (begins : BeginsWith t!"DXYIJ" u)
    (rest : Spelled date top ns v) : Spelled date top (.g c false :: d :: ns) (t ++ u ++ v)
  | block {top : Bool} {i : Text} {body ns : List Node} {t u v w : Text}
    (opens : t ∈ percented (word t!"AB" * apertureCode i)) (inside : Spelled date false body u)
    (closes : v ∈ percented (word t!"AB")) (rest : Spelled date top ns w) :
    Spelled date top (.ab i body :: ns) (t ++ u ++ v ++ w)
  | repeated {x y i j : Option Text} {body ns : List Node} {t u v w : Text}
    (opens : t ∈ percented (word t!"SR" * perhaps (fun q => word t!"X" * numberAs q) x *
      perhaps (fun q => word t!"Y" * numberAs q) y * perhaps (fun q => word t!"I" * numberAs q) i *
      perhaps (fun q => word t!"J" * numberAs q) j))
    (inside : Spelled date false body u) (closes : v ∈ percented (word t!"SR")) (rest : Spelled date true ns w) :
    Spelled date true (.sr x y i j body :: ns) (t ++ u ++ v ++ w)

/-- The command is one of the commands, or inside one of their blocks. -/
inductive Occurs (n : Node) : List Node → Prop
  | here {ns : List Node} : n ∈ ns → Occurs n ns
  | block {ns body : List Node} {i : Text} : .ab i body ∈ ns → Occurs n body → Occurs n ns
  | repeated {ns body : List Node} {x y i j : Option Text} : .sr x y i j body ∈ ns → Occurs n body → Occurs n ns

/-- An aperture with parameters, made with a macro that has the name of a standard shape: it would be written like an
aperture with that shape. -/
def LooksStandard : Node → Prop
  | .adMacro _ n (some _) => n ∈ [t!"C", t!"R", t!"O", t!"P"]
  | _ => False

end Verif.Spec
