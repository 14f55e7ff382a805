import Verif.Model.Grammar

/-!
# The resilient parser

gerber/parser/pyparsing/grammar.py `build_resilient` and gerber/parser/pyparsing/parser.py with its option `strict`.  The
language server reads documents in this way.
-/

namespace Verif.Grammar

open Verif.Peg Verif.Syntax
open Verif.Math (skip)

/-- The nodes of a file that was read by the resilient parser: nodes as before, and `Invalid` with its text
(gerber/ast/nodes/invalid.py 15-18). -/
inductive Entry
  | node (n : Node)
  | invalid (text : Text)

/-- `_invalid_token`, grammar.py 1867-1873: `Combine(Regex(".+"))`, the rest of the line after the blanks. -/
def invalidToken : P (List Entry) := fun s =>
  if (skip s).isEmpty then .fail
  else .ok [.invalid ((skip s).takeWhile (fun c => c != '\n'))] ((skip s).dropWhile (fun c => c != '\n'))

/-- An alternative that is shared with the strict grammar. -/
def valid (p : P (List Node)) : P (List Entry) := mapP (fun ns => ns.map .node) p

/-- The alternatives at the top of a file, grammar.py 233-247. -/
def resilientItem (readDate : Text → Option Text) (depth : Nat) : P (List Entry) :=
  firstOf [valid (one (dCodes true)), valid gCodes, valid (one load), valid (one (aperture readDate depth)),
    valid (one (attributes readDate)), valid (one properties), valid (one mCodes), invalidToken]

/-- Result of `Parser.parse` for nodes of type `α`: `ParseException`, another exception, or the nodes of the file. -/
inductive Parsed (α : Type)
  | parseException
  | validationError
  | file (nodes : List α)

/-- `parseString(code, parse_all=strict)`, parser.py 31: with `strict` nothing but blanks may follow. -/
def parseAll {α : Type} (item : P (List α)) (strict : Bool) (s : Text) : Parsed α :=
  match many1 item s with
  | .fail => .parseException
  | .raised => .validationError
  | .ok ns r => if strict && skip r != [] then .parseException else .file ns.flatten

/-- The resilient grammar applied to a text whose tabs are expanded. -/
def parseResilient (readDate : Text → Option Text) (strict : Bool) (s : Text) : Parsed Entry :=
  parseAll (resilientItem readDate s.length) strict s

/-- The grammar applied to a text whose tabs are expanded. -/
def parsePlain (readDate : Text → Option Text) (strict : Bool) (s : Text) : Parsed Node :=
  parseAll (rootItem readDate s.length) strict s

/-- `Parser(resilient=True).parse(code, strict=…)`, parser.py 16-33: tabs are expanded first (`parseCode`). -/
def parseCodeResilient (readDate : Text → Option Text) (strict : Bool) (code : Text) : Parsed Entry :=
  parseResilient readDate strict (expandTabs code)

end Verif.Grammar
