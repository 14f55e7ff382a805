import Verif.Model.Config
import Verif.Spec.Commands

/-!
# What a configuration of the formatter says

The options as they are documented (gerber/formatter/options.py and the documentation of the command line): their names, the
values each of them can have, and the defaults.
-/

namespace Verif.Spec

open Verif.Peg (Text)
open Verif.Config (Json)
open Verif.Formatter (Options Indent Split)

/-- What an option can be set to. -/
inductive Setting
  /-- One of some words. -/
  | oneOf (words : List Text)
  /-- An indentation: blanks, or how many of the indentation characters. -/
  | indentation
  /-- A number of decimal places, or -1. -/
  | decimals

/-- The name of an option, what it can be set to, and its default. -/
def formatterOptions : List (Text × Setting × Json) :=
  [(t!"indent_character", .oneOf [t!" ", t!"\t"], .str t!" "),
   (t!"macro_body_indent", .indentation, .int 0),
   (t!"macro_param_indent", .indentation, .int 0),
   (t!"macro_split_mode", .oneOf [t!"NoSplit", t!"SplitOnPrimitives", t!"SplitOnParameters"], .str t!"SplitOnPrimitives"),
   (t!"macro_end_in_new_line", .oneOf [t!"Yes", t!"No"], .str t!"No"),
   (t!"block_aperture_body_indent", .indentation, .int 0),
   (t!"step_and_repeat_body_indent", .indentation, .int 0),
   (t!"float_decimal_places", .decimals, .int (-1)),
   (t!"float_trim_trailing_zeros", .oneOf [t!"Yes", t!"No"], .str t!"Yes"),
   (t!"d01_indent", .indentation, .int 0),
   (t!"d02_indent", .indentation, .int 0),
   (t!"d03_indent", .indentation, .int 0),
   (t!"line_end", .oneOf [t!"\n", t!"\r\n"], .str t!"\n"),
   (t!"empty_line_before_polarity_switch", .oneOf [t!"Yes", t!"No"], .str t!"No"),
   (t!"keep_non_standalone_codes", .oneOf [t!"SeparateCodes", t!"Keep"], .str t!"Keep"),
   (t!"remove_g54", .oneOf [t!"Remove", t!"Keep"], .str t!"Keep"),
   (t!"remove_g55", .oneOf [t!"Remove", t!"Keep"], .str t!"Keep"),
   (t!"explicit_parenthesis", .oneOf [t!"AddExplicit", t!"KeepOriginal"], .str t!"KeepOriginal"),
   (t!"strip_whitespace", .oneOf [t!"StripAll", t!"Default"], .str t!"Default")]

/-- The value is one that the documentation allows. -/
def Setting.Allows : Setting → Json → Prop
  | .oneOf words, v => ∃ w ∈ words, v = .str w
  | .indentation, v => (∃ n : ℕ, v = .int n) ∨ ∃ t, v = .str t ∧ Blank t
  | .decimals, v => ∃ n : ℤ, -1 ≤ n ∧ v = .int n

/-- The configuration sets the option to the value: it is the last entry with that name. -/
def Sets (config : List (Text × Json)) (name : Text) (v : Json) : Prop :=
  ∃ before after, config = before ++ (name, v) :: after ∧ ∀ e ∈ after, e.1 ≠ name

/-- An indentation as it is written in a configuration. -/
def writtenIndent : Indent → Json
  | .count n => .int n
  | .text t => .str t

/-- A switch as it is written in a configuration. -/
def writtenSwitch (yes no : Text) (b : Bool) : Json := .str (if b then yes else no)

/-- The value of every option, as it is written in a configuration. -/
def written (u : Options) : List (Text × Json) :=
  [(t!"indent_character", .str [u.indentChar]),
   (t!"macro_body_indent", writtenIndent u.macroBody),
   (t!"macro_param_indent", writtenIndent u.macroParam),
   (t!"macro_split_mode", .str (match u.split with
      | .noSplit => t!"NoSplit" | .onPrimitives => t!"SplitOnPrimitives" | .onParameters => t!"SplitOnParameters")),
   (t!"macro_end_in_new_line", writtenSwitch t!"Yes" t!"No" u.macroEnd),
   (t!"block_aperture_body_indent", writtenIndent u.abIndent),
   (t!"step_and_repeat_body_indent", writtenIndent u.srIndent),
   (t!"float_decimal_places", .int (match u.places with | none => -1 | some d => d)),
   (t!"float_trim_trailing_zeros", writtenSwitch t!"No" t!"Yes" u.keepZeros),
   (t!"d01_indent", writtenIndent u.d01Indent),
   (t!"d02_indent", writtenIndent u.d02Indent),
   (t!"d03_indent", writtenIndent u.d03Indent),
   (t!"line_end", .str u.lf),
   (t!"empty_line_before_polarity_switch", writtenSwitch t!"Yes" t!"No" u.polarityLine),
   (t!"keep_non_standalone_codes", writtenSwitch t!"SeparateCodes" t!"Keep" u.separate),
   (t!"remove_g54", writtenSwitch t!"Remove" t!"Keep" u.removeG54),
   (t!"remove_g55", writtenSwitch t!"Remove" t!"Keep" u.removeG55),
   (t!"explicit_parenthesis", writtenSwitch t!"AddExplicit" t!"KeepOriginal" u.explicit),
   (t!"strip_whitespace", writtenSwitch t!"StripAll" t!"Default" u.strip)]

/-- The values that pydantic takes for an integer when no text is expected, and the integer. -/
inductive TakenForInt : Json → ℤ → Prop
  | int (n : ℤ) : TakenForInt (.int n) n
  | no : TakenForInt (.bool false) 0
  | yes : TakenForInt (.bool true) 1
  | float (n : ℤ) : TakenForInt (.float (some n)) n

/-- What is accepted for an option in place of the documented values, and which value is used. -/
inductive Taken (numeral : Text → Option ℤ) : Setting → Json → Json → Prop
  | word {words : List Text} {w : Text} (h : w ∈ words) : Taken numeral (.oneOf words) (.str w) (.str w)
  /-- Any text is accepted as an indentation. -/
  | text (t : Text) : Taken numeral .indentation (.str t) (.str t)
  /-- Negative numbers mean no indentation. -/
  | count {v : Json} {n : ℤ} (h : TakenForInt v n) : Taken numeral .indentation v (.int (max n 0))
  /-- Numbers below -1 mean -1. -/
  | decimals {v : Json} {n : ℤ} (h : TakenForInt v n) : Taken numeral .decimals v (.int (max n (-1)))
  | numeral {t : Text} {n : ℤ} (h : numeral t = some n) : Taken numeral .decimals (.str t) (.int (max n (-1)))

/-- The path of a file with the ending `.json`, in some directory. -/
def JsonFile (path : Text) : Prop :=
  ∃ directory name, path = directory ++ name ++ t!".json" ∧ name ≠ [] ∧ '/' ∉ name ∧
    (directory = [] ∨ ∃ d, directory = d ++ t!"/")

/-- The text of the configuration that a command line asks for: `config` is the argument of `--config`, `inline` that of
`--inline-config`. -/
inductive Asks {File : Type} (content : File → Option Text) (file : Text → File) : Option Text → Option Text → Option Text → Prop
  | nothing : Asks content file none none none
  | inline (text : Text) : Asks content file none (some text) (some text)
  | config {path text : Text} (ending : JsonFile path) (read : content (file path) = some text) :
    Asks content file (some path) none (some text)

/-- All options that the configuration mentions have values that the documentation allows. -/
def AllDocumented (config : List (Text × Json)) : Prop :=
  ∀ e ∈ formatterOptions, ∀ v, Sets config e.1 v → e.2.1.Allows v

/-- The options are those of the configuration, and the defaults where it mentions none. -/
def OptionsOf (config : List (Text × Json)) (u : Options) : Prop :=
  ∀ e ∈ formatterOptions, ∀ v, (e.1, v) ∈ written u ↔ Sets config e.1 v ∨ ((∀ v', ¬ Sets config e.1 v') ∧ v = e.2.2)

end Verif.Spec
