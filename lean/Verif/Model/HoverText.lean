import Verif.Model.Formatter
import Verif.Model.View
import Verif.Model.Hover

/-!
# The markdown of hovers (gerber/language_server/_server/hover/gerber.py)

The texts shown for attributes and for aperture definitions.  Which state they are made from is modelled in
`Verif.Hover`.
Simplifications: a dictionary of attributes is the list of its values; the picture of an aperture and the reference to the
specification are given texts.
-/

namespace Verif.HoverText

open Verif.Peg Verif.Syntax Verif.Text

/-- An f-string with a value between backticks. -/
def code (t : Text) : Text := '`' :: t ++ ['`']

/-- `", ".join(...)`. -/
def commas : List Text → Text
  | [] => []
  | [t] => t
  | t :: ts => t ++ ',' :: ' ' :: commas ts

/-- What an f-string writes for a value that may be `None`. -/
def orNone {α : Type} (text : α → Text) : Option α → Text
  | none => t!"None"
  | some a => text a

/-- hover/gerber.py 153: `string.replace`, a backtick becomes an apostrophe. -/
def unticked (t : Text) : Text := t.map fun c => if c = '`' then '\'' else c

/-- hover/gerber.py 175-247: what is written before the name of an object attribute with one text. -/
def heading : ToKind → Text
  | .c => t!"`Component reference designator(" ++ View.toName .c ++ t!"`): "
  | .cMfr => t!"`Supplier` (" ++ code (View.toName .cMfr) ++ t!"): "
  | k => code (View.toName k) ++ t!": "

/-- hover/gerber.py 113-257 (`ToMarkdown`).  Nodes that are not attributes of apertures or objects write nothing. -/
def toMarkdown : Node → Text
  | .taUser n fs => code n ++ t!": " ++ commas (fs.map code)
  | .taFunction f fs => code t!".AperFunction" ++ t!": " ++ code (f.getD t!"<missing>") ++
      (if fs.isEmpty then [] else t!", (" ++ commas (fs.map code) ++ t!")")
  | .taDrill p m => code t!".DrillTolerance" ++ t!": " ++ code ('+' :: orNone Fmt.strFloat p) ++ t!" / -" ++
      code (orNone Fmt.strFloat m)
  | .taFlash s _ _ _ _ _ => code t!".FlashText" ++ t!": " ++ code (unticked s)
  | .toUser n fs => code n ++ t!": " ++ commas (fs.map code)
  | .toN fs => t!"`CAD net name` (" ++ code t!".N" ++ t!"): " ++ commas (fs.map code)
  | .toP r n f => t!"`Pin number` (" ++ code t!".P" ++ t!"): " ++ code r ++ t!", " ++ code n ++ t!", " ++
      code (orNone id f)
  | .toText k v => heading k ++ code v
  | .toRot a => code t!".CRot" ++ t!": " ++ code (Fmt.strFloat a ++ ['°'])
  | .toMount m => code t!".CMnt" ++ t!": " ++ code m
  | .toHeight a => code t!".CHgt" ++ t!": " ++ code (Fmt.strFloat a)
  | .toSup a b fs => code t!".CSup" ++ t!": " ++ code a ++ t!", " ++ code b ++
      (if fs.isEmpty then [] else t!", " ++ commas (fs.map code))
  | _ => []

/-- hover/gerber.py 286-287 (`_sep`). -/
def sep : Text := t!"\n---\n"

/-- hover/gerber.py 383-387 and 400-404: one line for every attribute. -/
def attributeLines : List Node → Text
  | [] => []
  | n :: ns => t!"- " ++ toMarkdown n ++ '\n' :: attributeLines ns

/-- hover/gerber.py 374-389 (`_aperture_attributes`), given the attributes found. -/
def apertureAttributes (apertureId : Text) (attrs : List Node) : Text :=
  if attrs.isEmpty then []
  else sep ++ t!"### Aperture attributes (" ++ code apertureId ++ t!")\n" ++ attributeLines attrs ++ t!"\n"

/-- hover/gerber.py 391-406 (`_object_attributes`), given the attributes found. -/
def objectAttributes (attrs : List Node) : Text :=
  if attrs.isEmpty then [] else sep ++ t!"### Object attributes\n" ++ attributeLines attrs ++ t!"\n"

/-- hover/gerber.py 289-293 and 628-630: the node, formatted, in a block of code. -/
def codeBlock (n : Node) : Text := t!"```gerber\n" ++ Formatter.leaf (Formatter.build {}) n ++ t!"```\n"

/-- hover/gerber.py 295-296 (`_print`) with a line of a list. -/
def item (label value : Text) : Text := t!"\n - " ++ label ++ t!": " ++ code value ++ t!" "

/-- hover/gerber.py 721-722: the loop over the parameters, from number `i` on. -/
def paramItems : Nat → List ℚ → Text
  | _, [] => []
  | i, p :: ps => item (t!"parameter `$" ++ natStr i ++ t!"`") (Fmt.strFloat p) ++ paramItems (i + 1) ps

/-- hover/gerber.py 656-722: the lines that `on_adc`, `on_adr`, `on_ado`, `on_adp` and `on_ad_macro` write below the block of
code. -/
def definitionItems : Node → Text
  | .adc _ d h => item t!"standard template" t!"Circle" ++ item t!"diameter" (Fmt.strFloat d) ++
      item t!"hole_diameter" (orNone Fmt.strFloat h)
  | .adr _ w h o => item t!"standard template" t!"Rectangle" ++ item t!"width" (Fmt.strFloat w) ++
      item t!"height" (Fmt.strFloat h) ++ item t!"hole_diameter" (orNone Fmt.strFloat o)
  | .ado _ w h o => item t!"standard template" t!"Obround" ++ item t!"width" (Fmt.strFloat w) ++
      item t!"height" (Fmt.strFloat h) ++ item t!"hole_diameter" (orNone Fmt.strFloat o)
  | .adp _ d v r h => item t!"standard template" t!"Polygon" ++ item t!"outer diameter" (Fmt.strFloat d) ++
      item t!"vertex count" (Formatter.intStr v) ++ item t!"rotation" (Fmt.strFloat (r.getD 0) ++ ['°']) ++
      item t!"hole_diameter" (orNone Fmt.strFloat h)
  | .adMacro _ name ps => item t!"macro name" name ++ paramItems 1 (ps.getD [])
  | _ => []

/-- The code of an aperture definition. -/
def apertureOf : Node → Text
  | .adc i .. | .adr i .. | .ado i .. | .adp i .. | .adMacro i .. => i
  | _ => []

/-- hover/gerber.py 632-654 (`_visualize_aperture_definition`): nothing without a coordinate format, otherwise a separator
and the picture. -/
def visualization : Option Text → Text
  | none => []
  | some p => sep ++ t!"### Visualization\n" ++ p

/-- hover/gerber.py 656-729: the text shown for an aperture definition; `attrs` are the attributes found, `picture` is the
picture if there is one, `reference` the reference written by `_spec_ref` (481-486) below a separator. -/
def onDefinition (attrs : List Node) (picture : Option Text) (reference : Text) (n : Node) : Text :=
  codeBlock n ++ definitionItems n ++ apertureAttributes (apertureOf n) attrs ++ visualization picture ++ sep ++ reference

/-- hover/gerber.py 375: the attributes looked up for an aperture, in the state of the hover. -/
def foundAttributes (s : Visitor.VState) (apertureId : Text) : Dict Text Text := (s.perAperture.get? apertureId).getD []

end Verif.HoverText
