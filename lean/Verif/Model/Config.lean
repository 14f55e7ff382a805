import Verif.Model.FormatCommand

/-!
# The options of the command `pygerber gerber format` (console/gerber.py 433-501, gerber/formatter/options.py)

A configuration is a JSON text, given on the command line or in a file.  `json.loads` belongs to Python; it is the parameter
`loads` and gives the entries of an object in the order of the text.  The values are converted by pydantic in its usual lax
mode: booleans and floats without a fraction are taken for integers, texts are taken for integers where no text is expected
(the parameter `numeral`), and names that are not fields are ignored.
Simplification: a number of indentation characters that does not fit into the memory is not an error.
-/

namespace Verif.Config

open Verif.Peg (Text)
open Verif.Formatter (Options Indent Split)
open Verif.FormatCommand (Disk formatCommand)

/-- What `json.loads` gives; `float none` is an infinity or not a number. -/
inductive Json
  | null
  | bool (b : Bool)
  | int (n : ℤ)
  | float (q : Option ℚ)
  | str (t : Text)
  | arr (items : List Json)
  | obj (entries : List (Text × Json))

/-- The value of a key in the dictionary made of the entries of an object: the last entry counts. -/
def valueOf (entries : List (Text × Json)) (name : Text) : Option Json :=
  (entries.reverse.find? (fun e => e.1 = name)).map (·.2)

/-- A field of a pydantic model with a default: the default is used as it is, a value is converted. -/
def field {α : Type} (entries : List (Text × Json)) (name : Text) (default : α) (read : Json → Option α) : Option α :=
  match valueOf entries name with
  | none => some default
  | some v => read v

/-- A field of type `Literal[...]` or of an enumeration with texts as values (gerber/formatter/enums.py). -/
def word {α : Type} (table : List (Text × α)) : Json → Option α
  | .str t => (table.find? (fun e => e.1 = t)).map (·.2)
  | _ => none

/-- The conversion of numbers to `int`: booleans, integers and floats without a fraction. -/
def whole : Json → Option ℤ
  | .bool b => some (if b then 1 else 0)
  | .int n => some n
  | .float (some q) => if q.den = 1 then some q.num else none
  | _ => none

/-- A field of type `int`, options.py 115. -/
def number (numeral : Text → Option ℤ) : Json → Option ℤ
  | .str t => numeral t
  | v => whole v

/-- A field of type `Union[str, int]`, options.py 30: a text stays a text.  A negative number of characters is the same as
none (formatter.py 247-297). -/
def indent : Json → Option Indent
  | .str t => some (.text t)
  | v => (whole v).map (fun n => .count n.toNat)

/-- `MacroEndInNewLine`, `EmptyLineBeforePolaritySwitch`, enums.py 24-31 and 44-51. -/
def yesNo : List (Text × Bool) := [(t!"Yes", true), (t!"No", false)]

/-- `formatter.Options(**entries)`, options.py 22-197; `none` is a `ValidationError`.  A negative number of decimal places
is the same as -1 (formatter.py 375). -/
def readOptions (numeral : Text → Option ℤ) (o : List (Text × Json)) : Option Options := do
  let indentChar ← field o t!"indent_character" ' ' (word [(t!" ", ' '), (t!"\t", '\t')])
  let macroBody ← field o t!"macro_body_indent" (.count 0) indent
  let macroParam ← field o t!"macro_param_indent" (.count 0) indent
  let split ← field o t!"macro_split_mode" .onPrimitives
    (word [(t!"NoSplit", .noSplit), (t!"SplitOnPrimitives", .onPrimitives), (t!"SplitOnParameters", .onParameters)])
  let macroEnd ← field o t!"macro_end_in_new_line" false (word yesNo)
  let abIndent ← field o t!"block_aperture_body_indent" (.count 0) indent
  let srIndent ← field o t!"step_and_repeat_body_indent" (.count 0) indent
  let places ← field o t!"float_decimal_places" (-1) (number numeral)
  let keepZeros ← field o t!"float_trim_trailing_zeros" false (word [(t!"Yes", false), (t!"No", true)])
  let d01Indent ← field o t!"d01_indent" (.count 0) indent
  let d02Indent ← field o t!"d02_indent" (.count 0) indent
  let d03Indent ← field o t!"d03_indent" (.count 0) indent
  let lf ← field o t!"line_end" t!"\n" (word [(t!"\n", t!"\n"), (t!"\r\n", t!"\r\n")])
  let polarityLine ← field o t!"empty_line_before_polarity_switch" false (word yesNo)
  let separate ← field o t!"keep_non_standalone_codes" false (word [(t!"SeparateCodes", true), (t!"Keep", false)])
  let removeG54 ← field o t!"remove_g54" false (word [(t!"Remove", true), (t!"Keep", false)])
  let removeG55 ← field o t!"remove_g55" false (word [(t!"Remove", true), (t!"Keep", false)])
  let explicit ← field o t!"explicit_parenthesis" false (word [(t!"AddExplicit", true), (t!"KeepOriginal", false)])
  let strip ← field o t!"strip_whitespace" false (word [(t!"StripAll", true), (t!"Default", false)])
  pure { indentChar, macroBody, macroParam, split, macroEnd, abIndent, srIndent,
         places := if places < 0 then none else some places.toNat, keepZeros, d01Indent, d02Indent, d03Indent, lf,
         polarityLine, separate, removeG54, removeG55, explicit, strip }

/-- The configuration `extra_indent`, gerber/formatter/presets.py 17-37. -/
def extraIndent : Options :=
  { macroBody := .count 4, macroEnd := true, abIndent := .count 4, srIndent := .count 4, places := some 6,
    d01Indent := .count 2, d02Indent := .count 2, d03Indent := .count 2, polarityLine := true, separate := true,
    removeG54 := true, removeG55 := true }

/-- `balanced`, presets.py 39-58, and `small_indent`, 60-79, which is the same. -/
def balanced : Options :=
  { macroBody := .count 2, macroEnd := true, abIndent := .count 2, srIndent := .count 2, places := some 6,
    polarityLine := true, separate := true, removeG54 := true, removeG55 := true }

/-- `Path(path).suffix == ".json"`, console/gerber.py 484: the last component ends in `.json` and has more than that.
Simplification: paths that end in a slash are not taken apart. -/
def isJsonPath (path : Text) : Bool :=
  let name := (path.reverse.takeWhile (fun c => decide (c ≠ '/'))).reverse
  t!".json".isSuffixOf name && decide (5 < name.length)

/-- How the command ends. -/
inductive Ending
  /-- `click.BadOptionUsage`, with the option that is blamed. -/
  | badOption (option : Text)
  | configNotFound
  | notJson
  /-- `TypeError`: the argument after `**` is not a mapping. -/
  | notObject
  | badOptions
  | ran (ending : FormatCommand.Ending)
  deriving DecidableEq

/-- console/gerber.py 490-501: what happens when the text of the configuration, if any, is known. -/
def withConfig {File : Type} [DecidableEq File] (loads : Text → Option Json) (numeral : Text → Option ℤ)
    (readDate : Text → Option Text) (config : Option Text) (source output : File) (disk : Disk File) : Disk File × Ending :=
  match config with
  | none =>
    let r := formatCommand readDate {} source output disk
    (r.1, .ran r.2)
  | some text =>
    match loads text with
    | none => (disk, .notJson)
    | some (.obj entries) =>
      match readOptions numeral entries with
      | none => (disk, .badOptions)
      | some u =>
        let r := formatCommand readDate u source output disk
        (r.1, .ran r.2)
    | some _ => (disk, .notObject)

/-- `format_cmd`, console/gerber.py 461-501.  `file` is the file that a path names. -/
def format {File : Type} [DecidableEq File] (loads : Text → Option Json) (numeral : Text → Option ℤ)
    (readDate : Text → Option Text) (file : Text → File) (config inline : Option Text) (source output : File)
    (disk : Disk File) : Disk File × Ending :=
  match config with
  | some path =>
    if inline.isSome then (disk, .badOption t!"inline-config")
    else if isJsonPath path then
      match disk (file path) with
      | none => (disk, .configNotFound)
      | some text => withConfig loads numeral readDate (some text) source output disk
    else (disk, .badOption t!"config")
  | none => withConfig loads numeral readDate inline source output disk

end Verif.Config
