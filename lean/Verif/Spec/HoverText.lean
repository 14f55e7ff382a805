import Verif.Model.Syntax
import Verif.Model.Fmt
import Verif.Model.Formatter

/-!
# Reading hovers (C94)

How an editor reads the markdown: code spans as CommonMark defines them, and the lines of a list.
-/

namespace Verif.Spec.HoverText

open Verif.Peg Verif.Syntax

/-- A text is cut into runs of backticks and what is between them. -/
inductive Piece | ticks (n : ℕ) | text (t : Text)
  deriving DecidableEq

/-- The pieces of a text. -/
def pieces : Text → List Piece
  | [] => []
  | c :: t =>
    if c = '`' then
      match pieces t with
      | .ticks n :: ps => .ticks (n + 1) :: ps
      | ps => .ticks 1 :: ps
    else
      match pieces t with
      | .text s :: ps => .text (c :: s) :: ps
      | ps => .text [c] :: ps

/-- What is before the first run of `n` backticks, and what is behind it. -/
def closing (n : ℕ) : List Piece → Option (Text × List Piece)
  | [] => none
  | .ticks m :: ps => if m = n then some ([], ps) else (closing n ps).map fun r => (List.replicate m '`' ++ r.1, r.2)
  | .text t :: ps => (closing n ps).map fun r => (t ++ r.1, r.2)

/-- Line ends are shown as blanks; one blank at each end is removed if there is one at both ends and anything else. -/
def trimmed (t : Text) : Text :=
  let s := t.map fun c => if c = '\n' then ' ' else c
  if s.head? = some ' ' ∧ s.getLast? = some ' ' ∧ ∃ c ∈ s, c ≠ ' ' then s.tail.dropLast else s

/-- A run of backticks begins a code span that ends with the next run of the same length; without one, it is text. -/
def spansOf : ℕ → List Piece → List Text
  | 0, _ => []
  | _ + 1, [] => []
  | fuel + 1, .text _ :: ps => spansOf fuel ps
  | fuel + 1, .ticks n :: ps =>
    match closing n ps with
    | some (t, rest) => trimmed t :: spansOf fuel rest
    | none => spansOf fuel ps

/-- The code spans of a paragraph, in order. -/
def spans (t : Text) : List Text := spansOf (pieces t).length (pieces t)

/-- A text that can be shown in a code span as it is. -/
def Showable (t : Text) : Prop := t ≠ [] ∧ '`' ∉ t ∧ '\n' ∉ t ∧ t.head? ≠ some ' '

instance (t : Text) : Decidable (Showable t) := by unfold Showable; infer_instance

/-- The name and the values of an attribute, where nothing is left out; names are those of the Gerber format. -/
def attributeOf : Node → Option (Text × List Text)
  | .taUser n fs => some (n, fs)
  | .taFunction (some f) fs => some (t!".AperFunction", f :: fs)
  | .taDrill (some p) (some m) => some (t!".DrillTolerance", [Fmt.strFloat p, Fmt.strFloat m])
  | .taFlash s m r (some f) (some z) cs => some (t!".FlashText", s :: m :: r :: f :: z :: cs)
  | .toUser n fs => some (n, fs)
  | .toN fs => some (t!".N", fs)
  | .toP r n (some f) => some (t!".P", [r, n, f])
  | .toText .c v => some (t!".C", [v])
  | .toText .cMfr v => some (t!".CMfr", [v])
  | .toText .cMpn v => some (t!".CMPN", [v])
  | .toText .cVal v => some (t!".CVal", [v])
  | .toText .cFtp v => some (t!".CFtp", [v])
  | .toText .cPgN v => some (t!".CPgN", [v])
  | .toText .cPgD v => some (t!".CPgD", [v])
  | .toText .cLbN v => some (t!".CLbN", [v])
  | .toText .cLbD v => some (t!".CLbD", [v])
  | .toRot a => some (t!".CRot", [Fmt.strFloat a])
  | .toHeight a => some (t!".CHgt", [Fmt.strFloat a])
  | .toMount m => some (t!".CMnt", [m])
  | .toSup a b fs => some (t!".CSup", a :: b :: fs)
  | _ => none

/-- The attribute has a name and values that can all be shown. -/
def Plain (n : Node) : Prop := ∃ name values, attributeOf n = some (name, values) ∧ ∀ v ∈ name :: values, Showable v

/-- A span shows a value: as it is, as a positive tolerance or as an angle. -/
def Shows (value span : Text) : Prop := span = value ∨ span = '+' :: value ∨ span = value ++ ['°']

/-- The words that explain an attribute. -/
def labels : List Text := [t!"CAD net name", t!"Pin number", t!"Supplier"]

/-! ## Lists -/

/-- The lines of a text. -/
def lines : Text → List Text
  | [] => [[]]
  | c :: t =>
    if c = '\n' then [] :: lines t
    else
      match lines t with
      | l :: ls => (c :: l) :: ls
      | [] => [[c]]

/-- The lines of a list in a text, without their markers. -/
def listLines (t : Text) : List Text := ((lines t).filter fun l => t!"- ".isPrefixOf l).map (·.drop 2)

/-- The label and the value in a code span of a line of a list. -/
def fact (line : Text) : Text × Text :=
  let inside := line.drop 3
  (inside.takeWhile (· ≠ ':'), ((inside.dropWhile (· ≠ ':')).drop 3).takeWhile (· ≠ '`'))

/-- The lines of the list below the block of code at the beginning of a text. -/
def facts (t : Text) : List (Text × Text) :=
  match lines t with
  | [] => []
  | _ :: ls => ((((ls.dropWhile (· ≠ t!"```")).drop 2).takeWhile fun l => t!" - ".isPrefixOf l)).map fact

/-- What is said about an aperture. -/
inductive Fact | word (t : Text) | number (q : ℚ) | whole (n : ℤ) | angle (q : ℚ) | missing

/-- A text says it: numbers as the grammar reads them. -/
def Tells : Fact → Text → Prop
  | .word w, t => t = w
  | .number q, t => Fmt.pDouble t = some (q, [])
  | .whole n, t => t = Formatter.intStr n
  | .angle q, t => ∃ s, t = s ++ ['°'] ∧ Fmt.pDouble s = some (q, [])
  | .missing, t => t = t!"None"

/-- A diameter that may be left out. -/
def optional : Option ℚ → Fact
  | none => .missing
  | some q => .number q

/-- The facts about a definition, with their labels. -/
def factsOf : Node → List (Text × Fact)
  | .adc _ d h => [(t!"standard template", .word t!"Circle"), (t!"diameter", .number d), (t!"hole_diameter", optional h)]
  | .adr _ w h o => [(t!"standard template", .word t!"Rectangle"), (t!"width", .number w), (t!"height", .number h),
      (t!"hole_diameter", optional o)]
  | .ado _ w h o => [(t!"standard template", .word t!"Obround"), (t!"width", .number w), (t!"height", .number h),
      (t!"hole_diameter", optional o)]
  | .adp _ d v r h => [(t!"standard template", .word t!"Polygon"), (t!"outer diameter", .number d),
      (t!"vertex count", .whole v), (t!"rotation", .angle (r.getD 0)), (t!"hole_diameter", optional h)]
  | .adMacro _ name ps => (t!"macro name", .word name) ::
      (ps.getD []).zipIdx.map fun p => (t!"parameter `$" ++ Text.natStr (p.2 + 1) ++ t!"`", .number p.1)
  | _ => []

/-- The numbers of a definition. -/
def numbersOf : Node → List ℚ
  | .adc _ d h => d :: h.toList
  | .adr _ w h o => w :: h :: o.toList
  | .ado _ w h o => w :: h :: o.toList
  | .adp _ d _ r h => d :: r.toList ++ h.toList
  | .adMacro _ _ ps => ps.getD []
  | _ => []

/-- The names of a definition: the code of the aperture and the name of the macro. -/
def namesOf : Node → List Text
  | .adc i .. | .adr i .. | .ado i .. | .adp i .. => [i]
  | .adMacro i name _ => [i, name]
  | _ => []

/-- The node is a definition of an aperture. -/
def IsDefinition : Node → Prop
  | .adc .. | .adr .. | .ado .. | .adp .. | .adMacro .. => True
  | _ => False

end Verif.Spec.HoverText
