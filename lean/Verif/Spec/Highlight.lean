import Verif.Model.Lexer

/-!
# What highlighting a Gerber text means

A Gerber text is written in words: coordinates, codes, numbers, definitions of apertures and the marks between them.
-/

namespace Verif.Spec.Highlight
open Verif.Lexer

/-- Decimal digits, at least one. -/
def Digits (ds : List Char) : Prop := ds ≠ [] ∧ ∀ c ∈ ds, '0' ≤ c ∧ c ≤ '9'

/-- The number that digits stand for. -/
def valueOf (ds : List Char) : ℕ := ds.foldl (fun n c => 10 * n + (c.toNat - '0'.toNat)) 0

/-- A number as it is written: `26`, `-5`, `+0.25`. -/
structure Numeral where
  /-- `+` and `-`. -/
  sign : List Char
  /-- The digits before the point. -/
  whole : List Char
  /-- The digits after the point. -/
  fraction : Option (List Char)

/-- The text of a number. -/
def Numeral.text (n : Numeral) : List Char :=
  n.sign ++ n.whole ++ match n.fraction with
    | none => []
    | some f => '.' :: f

/-- A number that is written correctly. -/
def Numeral.Ok (n : Numeral) : Prop :=
  (∀ c ∈ n.sign, c = '+' ∨ c = '-') ∧ Digits n.whole ∧ ∀ f, n.fraction = some f → Digits f

/-- A letter of a name: `.`, `_`, `a` to `z`, `A` to `Z`. -/
def Letter (c : Char) : Prop := c = '.' ∨ c = '_' ∨ ('a' ≤ c ∧ c ≤ 'z') ∨ ('A' ≤ c ∧ c ≤ 'Z')

/-- The name of an aperture template: letters and digits, a letter or `$` first; not `X`, `Y`, `I` or `J` followed by
a digit, which reads like a coordinate. -/
def Name (s : List Char) : Prop :=
  ∃ c cs, s = c :: cs ∧ (Letter c ∨ c = '$') ∧ (∀ d ∈ cs, Letter d ∨ ('0' ≤ d ∧ d ≤ '9')) ∧
    (c ∈ ['X', 'Y', 'I', 'J'] → ∀ d ds, cs = d :: ds → ¬('0' ≤ d ∧ d ≤ '9'))

/-- The words of a text. -/
inductive Word
  /-- `X26`, `Y-5`, `I0`, `J1.5`: a coordinate, or a further parameter of an aperture. -/
  | axis (letter : Char) (n : Numeral)
  /-- `,0.5`. -/
  | comma (n : Numeral)
  /-- `G04`. -/
  | g (ds : List Char)
  /-- `M02`. -/
  | m (ds : List Char)
  /-- `D01`, `D10`. -/
  | d (ds : List Char)
  /-- `$1`. -/
  | param (ds : List Char)
  /-- `*`. -/
  | star
  /-- `%`. -/
  | percent
  /-- The end of a line. -/
  | newline
  /-- `%FSLA`: `zeros` is `L` or `T`, `mode` is `A` or `I`. -/
  | format (zeros mode : Char)
  /-- `%MOMM` or `%MOIN`. -/
  | unit (inches : Bool)
  /-- `%ADD10C,0.5` or `%ADD10Foo*`. -/
  | define (ds name : List Char) (first : Option Numeral)
  /-- `%AMFoo*`. -/
  | template (name : List Char)

/-- The words that are written correctly. -/
def Word.Ok : Word → Prop
  | .axis c n => c ∈ ['X', 'Y', 'I', 'J'] ∧ n.Ok
  | .comma n => n.Ok
  | .g ds | .m ds | .d ds | .param ds => Digits ds
  | .star | .percent | .newline => True
  | .format z a => (z = 'L' ∨ z = 'T') ∧ (a = 'A' ∨ a = 'I')
  | .unit _ => True
  | .define ds s n => Digits ds ∧ ds.length ≤ 3 ∧ Name s ∧ ∀ x, n = some x → x.Ok
  | .template s => Name s

/-- The text of a word. -/
def Word.text : Word → List Char
  | .axis c n => c :: n.text
  | .comma n => ',' :: n.text
  | .g ds => 'G' :: ds
  | .m ds => 'M' :: ds
  | .d ds => 'D' :: ds
  | .param ds => '$' :: ds
  | .star => ['*']
  | .percent => ['%']
  | .newline => ['\n']
  | .format z a => ['%', 'F', 'S', z, a]
  | .unit false => ['%', 'M', 'O', 'M', 'M']
  | .unit true => ['%', 'M', 'O', 'I', 'N']
  | .define ds s n => ['%', 'A', 'D', 'D'] ++ ds ++ s ++ match n with
    | none => ['*']
    | some x => ',' :: x.text
  | .template s => ['%', 'A', 'M'] ++ s ++ ['*']

/-- How a word is marked, given the words after it.  Codes and the letters of coordinates are keywords, numbers are
numbers, apertures and parameters are variables, names of templates are class names.  `*`, `%` and `,` are marked as
errors, and so is the letter of a coordinate with a sign. -/
def Word.marked (next : List Word) : Word → List (Kind × List Char)
  | .axis c n => [(if n.sign = [] then .keyword else .error, [c]), (.number, n.text)]
  | .comma n => [(.error, [',']), (.number, n.text)]
  | .g ds => [(.keyword, 'G' :: ds)]
  | .m ds => [(.keyword, 'M' :: ds)]
  | .d ds =>
    [(if (valueOf ds = 1 ∨ valueOf ds = 2 ∨ valueOf ds = 3) ∧ next.head?.map Word.text = some ['*'] then .keyword
      else .variable, 'D' :: ds)]
  | .param ds => [(.variable, '$' :: ds)]
  | .star => [(.error, ['*'])]
  | .percent => [(.error, ['%'])]
  | .newline => [(.whitespace, ['\n'])]
  | .format z a => [(.error, ['%']), (.keyword, ['F', 'S']), (.constant, [z, a])]
  | .unit i => [(.error, ['%']), (.keyword, ['M', 'O']), (.constant, if i then ['I', 'N'] else ['M', 'M'])]
  | .define ds s n =>
    [(.error, ['%']), (.keyword, ['A', 'D']), (.variable, 'D' :: ds), (.className, s)] ++ match n with
      | none => [(.error, ['*'])]
      | some x => [(.error, [',']), (.number, x.text)]
  | .template s => [(.error, ['%']), (.keyword, ['A', 'M']), (.className, s), (.error, ['*'])]

/-- How a text is marked. -/
def marked : List Word → List (Kind × List Char)
  | [] => []
  | w :: ws => w.marked ws ++ marked ws

/-- The text of words. -/
def textOf (ws : List Word) : List Char := (ws.map Word.text).flatten

/-- The classes of the API that the documentation shows. -/
def apiClasses : List String :=
  ["GerberX3Builder", "PadCreator", "CustomPadCreator", "Pad", "RegionCreator", "Draw", "PadDraw", "TraceDraw"] ++
    ["GerberFile", "Project", "FileTypeEnum", "ExamplesEnum"]

/-- The functions and methods of the API that the documentation shows: those of the builder, of the creators of pads,
custom pads and regions, and of files and projects. -/
def apiFunctions : List String :=
  ["new_pad", "add_pad", "add_cutout_pad", "add_line_trace", "add_clockwise_arc_trace", "add_counter_clockwise_arc_trace",
    "new_region", "get_code", "dump", "dumps"] ++
  ["circle", "rectangle", "rounded_rectangle", "regular_polygon", "custom"] ++
  ["set_standard_attributes", "set_aperture_function", "set_drill_tolerance", "set_custom_attribute"] ++
  ["create", "add_circle", "cut_circle", "add_vector_line", "cut_vector_line", "add_center_line", "cut_center_line",
    "add_outline", "cut_outline", "add_polygon", "cut_polygon", "add_thermal"] ++
  ["add_line", "add_clockwise_arc", "add_counter_clockwise_arc"] ++
  ["from_str", "from_file", "from_buffer", "render_with_pillow", "format", "formats", "get_image", "get_sub_images",
    "load_example"]

end Verif.Spec.Highlight
