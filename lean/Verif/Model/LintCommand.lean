import Verif.Model.Linter

/-!
# The commands `lint` and `list-lint-rules` (console/gerber.py)

Files are texts: `read` is what `path.read_text()` yields, `none` where it raises, and `resolve` is
`Path(file).expanduser().resolve()` followed by `as_posix`.  What a command prints is a list of lines.
-/

namespace Verif.LintCommand

open Verif.Text Verif.Linter
open Verif.Peg (Text)
open Verif.Spans (parseText)

/-- How a run of the command ends. -/
inductive End
  /-- Without an exception. -/
  | done
  /-- With a `click.UsageError`. -/
  | usage
  /-- With the exception of `read_text`. -/
  | unreadable
  /-- With the exception of the parser. -/
  | syntaxError
  /-- With a `KeyError` of `RULE_REGISTRY`. -/
  | unknownRule
  deriving DecidableEq, Repr

/-- console/gerber.py 614-617: the line of a violation. -/
def lineOf (path : Text) (v : Violation) : Text :=
  path ++ ':' :: natStr v.line ++ ':' :: natStr v.column ++ ' ' :: v.rule.id ++ ':' :: ' ' :: v.title

/-- console/gerber.py 607-617: the loop over files, with what it prints. -/
def lintFiles (resolve : Text → Text) (read : Text → Option Text) (readDate : Text → Option Text) (rules : List Text) :
    List Text → List Text × End
  | [] => ([], .done)
  | file :: files =>
    let path := resolve file
    match read path with
    | none => ([], .unreadable)
    | some code =>
      match parseText readDate true code with
      | none => ([], .syntaxError)
      | some ast =>
        match lint (some rules) (Grammar.expandTabs code) ast with
        | none => ([], .unknownRule)
        | some violations =>
          let later := lintFiles resolve read readDate rules files
          (violations.map (lineOf path) ++ later.1, later.2)

/-- console/gerber.py 592-617 (`lint`). -/
def lintMain (resolve : Text → Text) (read : Text → Option Text) (readDate : Text → Option Text) (options files : List Text) :
    List Text × End :=
  if files.length = 0 then ([], .usage)
  else lintFiles resolve read readDate (options.flatMap splitCommas) files

/-- console/gerber.py 624-633 (`list_lint_rules`). -/
def listRules (quiet : Bool) : List Text :=
  registry.map fun r => if quiet then r.id else r.id ++ ':' :: ' ' :: titleOf { rule := r }

end Verif.LintCommand
