import Verif.Spec.Linter
import Verif.Spec.Numeral

/-!
# What the lint command should print
-/

namespace Verif.Spec.LintCommand
open Verif.Text
open Verif.Peg (Text)
open Verif.Linter (Rule Violation)

/-- The names of the rules. -/
def named : Rule → Text
  | .dep001 => t!"DEP001"
  | .dep002 => t!"DEP002"
  | .grb001 => t!"GRB001"

/-- What the rules are about. -/
def topic : Rule → Text
  | .dep001 => t!"Use of deprecated G54 code."
  | .dep002 => t!"Use of deprecated G55 code."
  | .grb001 => t!"Redundant G01/G02/G03 command."

/-- The text is a numeral of the number. -/
def IsNumeral (t : Text) (n : ℕ) : Prop := t ≠ [] ∧ Digits t ∧ numeral t = n

/-- The line has the form `path:line:column RULE: message`, and the message has no colon. -/
def Says (text path : Text) (line column : ℕ) (rule : Rule) (message : Text) : Prop :=
  ∃ l c, IsNumeral l line ∧ IsNumeral c column ∧ ':' ∉ message ∧
    text = path ++ [':'] ++ l ++ [':'] ++ c ++ [' '] ++ named rule ++ [':', ' '] ++ message

/-- The line tells a report about a file. -/
def Tells (report : Text × Violation) (text : Text) : Prop :=
  Says text report.1 report.2.line report.2.column report.2.rule report.2.title

end Verif.Spec.LintCommand
