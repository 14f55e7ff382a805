import Mathlib.Data.List.Basic
import Mathlib.Data.Nat.Basic

/-!
# Highlighting (gerber/pygments.py)

`GerberLexer` is a table of regular expressions for `pygments.lexer.RegexLexer`.  Pygments and Python's `re` are not
part of /repo; what they do with the table is modelled here from their documentation: `re` matches at a position and
tries the alternatives and the repetitions from the longest one on, looking behind the position where the expression
asks for it, and the lexer takes the first rule of the table that matches, marks a character where none does as an
error, except a newline, and goes on behind it.  Simplification: `Lexer.get_tokens` of pygments, which normalises
newlines before, is not modelled.
-/

namespace Verif.Lexer

/-- The regular expressions that occur in pygments.py 41-86. -/
inductive Re
  /-- A set of characters, such as `[0-9]`. -/
  | cls (p : Char → Bool)
  /-- A set of characters any number of times, such as `0*`. -/
  | star (p : Char → Bool)
  /-- One after another. -/
  | seq (a b : Re)
  /-- `a|b`. -/
  | alt (a b : Re)
  /-- `(?=…)`. -/
  | ahead (a : Re)
  /-- `(?<=…)`: the sets of the characters before the position, the nearest one first. -/
  | behind (ps : List (Char → Bool))

/-- A lookbehind: the text before the position is given from its end. -/
def lookBehind : List (Char → Bool) → List Char → Bool
  | [], _ => true
  | _ :: _, [] => false
  | p :: ps, c :: cs => p c && lookBehind ps cs

/-- A greedy repetition: as many characters as possible first, fewer of them when what follows does not match. -/
def runStar {α : Type} (p : Char → Bool) (k : List Char → List Char → Option α) :
    List Char → List Char → Option α
  | bef, [] => k bef []
  | bef, c :: cs =>
    if p c then
      match runStar p k (c :: bef) cs with
      | some x => some x
      | none => k bef (c :: cs)
    else k bef (c :: cs)

/-- Matching at a position, given by the text before it (from its end) and the text after it; `k` is what has to match
next. -/
def Re.run {α : Type} : Re → (List Char → List Char → Option α) → List Char → List Char → Option α
  | .cls p, k, bef, rest =>
    match rest with
    | [] => none
    | c :: cs => if p c then k (c :: bef) cs else none
  | .star p, k, bef, rest => runStar p k bef rest
  | .seq a b, k, bef, rest => a.run (b.run k) bef rest
  | .alt a b, k, bef, rest =>
    match a.run k bef rest with
    | some x => some x
    | none => b.run k bef rest
  | .ahead a, k, bef, rest =>
    match a.run (fun _ _ => some ()) bef rest with
    | some _ => k bef rest
    | none => none
  | .behind ps, k, bef, rest => if lookBehind ps bef then k bef rest else none

/-- The kinds of tokens: `Keyword`, `Keyword.Constant`, `Name.Class`, `Name.Variable`, `Number`, `Error` and
`Whitespace` of pygments. -/
inductive Kind
  | keyword | constant | className | variable | number | error | whitespace
  deriving DecidableEq, Repr

/-- What the lexer yields: the position, the kind and the text of a token. -/
structure Token where
  /-- Position. -/
  index : ℕ
  /-- Kind. -/
  kind : Kind
  /-- Text. -/
  value : List Char
  deriving DecidableEq, Repr

/-- A single character. -/
def ch (c : Char) : Re := .cls (· == c)

/-- `[0-9]`. -/
def isDigit (c : Char) : Bool := '0' ≤ c && c ≤ '9'

/-- `[._a-zA-Z]`. -/
def isLetter (c : Char) : Bool := c == '.' || c == '_' || ('a' ≤ c && c ≤ 'z') || ('A' ≤ c && c ≤ 'Z')

/-- `[._a-zA-Z$][._a-zA-Z0-9]*` (pygments.py 65-70). -/
def nameRe : Re := .seq (.cls fun c => isLetter c || c == '$') (.star fun c => isLetter c || isDigit c)

/-- `[0-9]+`. -/
def digitsRe : Re := .seq (.cls isDigit) (.star isDigit)

/-- `X(?=[0-9]+)` and the like (pygments.py 43-46). -/
def axisRe (c : Char) : Re := .seq (ch c) (.ahead digitsRe)

/-- `(?<=%)FS` and the like (pygments.py 48-72). -/
def codeRe (a b : Char) : Re := .seq (.behind [(· == '%')]) (.seq (ch a) (ch b))

/-- `D0*1(?=\*)` and the like (pygments.py 74-76). -/
def operationRe (c : Char) : Re := .seq (ch 'D') (.seq (.star (· == '0')) (.seq (ch c) (.ahead (ch '*'))))

/-- pygments.py 43-46. -/
def axisRules : List (Re × Kind) :=
  [(axisRe 'X', .keyword), (axisRe 'Y', .keyword), (axisRe 'I', .keyword), (axisRe 'J', .keyword)]

/-- pygments.py 48-63. -/
def propertyRules : List (Re × Kind) :=
  [(codeRe 'F' 'S', .keyword),
   (.seq (.behind [(· == 'S'), (· == 'F'), (· == '%')])
      (.seq (.cls fun c => c == 'L' || c == 'T') (.cls fun c => c == 'A' || c == 'I')), .constant),
   (codeRe 'I' 'P', .keyword), (codeRe 'I' 'R', .keyword),
   (.seq (codeRe 'M' 'O') (.ahead (.alt (.seq (ch 'M') (ch 'M')) (.seq (ch 'I') (ch 'N')))), .keyword),
   (.seq (.behind [(· == 'O'), (· == 'M'), (· == '%')])
      (.alt (.seq (ch 'M') (ch 'M')) (.seq (ch 'I') (ch 'N'))), .constant),
   (codeRe 'O' 'F', .keyword), (codeRe 'A' 'S', .keyword), (codeRe 'M' 'I', .keyword), (codeRe 'I' 'N', .keyword),
   (codeRe 'S' 'F', .keyword),
   (codeRe 'T' 'A', .keyword), (codeRe 'T' 'O', .keyword), (codeRe 'T' 'F', .keyword), (codeRe 'T' 'D', .keyword)]

/-- pygments.py 65-72. -/
def apertureRules : List (Re × Kind) :=
  [(.seq (.behind [isDigit, (· == 'D'), (· == 'D'), (· == 'A'), (· == '%')]) nameRe, .className),
   (.seq (.behind [isDigit, isDigit, (· == 'D'), (· == 'D'), (· == 'A'), (· == '%')]) nameRe, .className),
   (.seq (.behind [isDigit, isDigit, isDigit, (· == 'D'), (· == 'D'), (· == 'A'), (· == '%')]) nameRe, .className),
   (codeRe 'A' 'D', .keyword), (codeRe 'A' 'M', .keyword),
   (.seq (.behind [(· == 'M'), (· == 'A'), (· == '%')]) nameRe, .className),
   (codeRe 'A' 'B', .keyword), (codeRe 'S' 'R', .keyword)]

/-- pygments.py 74-84. -/
def codeRules : List (Re × Kind) :=
  [(operationRe '1', .keyword), (operationRe '2', .keyword), (operationRe '3', .keyword),
   (.seq (ch 'D') digitsRe, .variable), (.seq (ch 'G') digitsRe, .keyword), (.seq (ch 'M') digitsRe, .keyword),
   (.seq (ch '$') digitsRe, .variable),
   (.seq (.star fun c => c == '+' || c == '-') (.seq digitsRe (.seq (ch '.') digitsRe)), .number),
   (.seq (.star fun c => c == '+' || c == '-') digitsRe, .number)]

/-- pygments.py 41-86 (`tokens`). -/
def rules : List (Re × Kind) := axisRules ++ propertyRules ++ apertureRules ++ codeRules

/-- The first rule that matches, with the texts before and after the end of its match. -/
def firstMatch : List (Re × Kind) → List Char → List Char → Option (Kind × List Char × List Char)
  | [], _, _ => none
  | (r, kind) :: rs, bef, rest =>
    match r.run (fun b t => some (b, t)) bef rest with
    | some (b, t) => some (kind, b, t)
    | none => firstMatch rs bef rest

/-- `RegexLexer.get_tokens_unprocessed` of pygments; the result is `none` when the loop has not ended after `fuel`
tokens. -/
def lexLoop : ℕ → List Char → List Char → Option (List Token)
  | 0, _, _ => none
  | fuel + 1, bef, rest =>
    match firstMatch rules bef rest with
    | some (kind, b, t) =>
      (lexLoop fuel b t).map (⟨bef.length, kind, (b.take (b.length - bef.length)).reverse⟩ :: ·)
    | none =>
      match rest with
      | [] => some []
      | c :: cs =>
        (lexLoop fuel (c :: bef) cs).map
          (⟨bef.length, if c = '\n' then .whitespace else .error, [c]⟩ :: ·)

/-- `GerberLexer().get_tokens_unprocessed(text)`. -/
def lex (fuel : ℕ) (text : List Char) : Option (List Token) := lexLoop fuel [] text

/-! ### The lexer of the documentation -/

/-- The kinds of tokens that `PyGerberDocsLexer` (pygments.py 88-191) tells apart; `other` stands for those of
`PythonLexer`. -/
inductive DocKind
  | name | className | function | property | other (n : ℕ)
  deriving DecidableEq, Repr

/-- A token of `PythonLexer`. -/
structure DocToken where
  /-- Position. -/
  index : ℕ
  /-- Kind. -/
  kind : DocKind
  /-- Text. -/
  value : String
  deriving DecidableEq, Repr

/-- pygments.py 95-180 (`EXTRA_SYMBOLS`): the classes. -/
def extraClasses : List String :=
  ["GerberX3Builder", "PadCreator", "Pad", "CustomPadCreator", "RegionCreator", "Draw", "PadDraw", "TraceDraw",
   "GerberFile", "Project", "FileTypeEnum", "ExamplesEnum"]

/-- pygments.py 95-180 (`EXTRA_SYMBOLS`): the functions. -/
def extraFunctions : List String :=
  ["new_pad", "add_pad", "add_cutout_pad", "add_line_trace", "add_clockwise_arc_trace",
   "add_counter_clockwise_arc_trace", "get_code", "set_standard_attributes", "new_region", "dump", "dumps", "circle",
   "rectangle", "rounded_rectangle", "regular_polygon", "custom", "set_aperture_function", "set_drill_tolerance",
   "set_custom_attribute", "create", "add_circle", "cut_circle", "add_vector_line", "cut_vector_line",
   "add_center_line", "cut_center_line", "add_outline", "cut_outline", "add_polygon", "cut_polygon", "add_thermal",
   "add_line", "add_clockwise_arc", "add_counter_clockwise_arc", "from_str", "from_file", "from_buffer",
   "render_with_pillow", "format", "formats", "get_image", "get_sub_images", "load_example"]

/-- pygments.py 95-180 (`EXTRA_SYMBOLS`). -/
def extraSymbol (s : String) : Option DocKind :=
  if s ∈ extraClasses then some .className
  else if s ∈ extraFunctions then some .function
  else if s = "raw" then some .property
  else none

/-- pygments.py 182-191 (`PyGerberDocsLexer.get_tokens_unprocessed`): `mode` is the environment variable `MKDOCS_MODE`
and `tokens` what `PythonLexer` yields; `none` is the `KeyError`. -/
def docTokens (mode : Option String) (tokens : List DocToken) : Option (List DocToken) :=
  match mode with
  | none => none
  | some m =>
    if m = "1" then
      some (tokens.map fun t =>
        if t.kind = .name then
          match extraSymbol t.value with
          | some k => { t with kind := k }
          | none => t
        else t)
    else some tokens

end Verif.Lexer
