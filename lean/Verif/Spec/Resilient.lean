import Verif.Model.Resilient
import Verif.Spec.Expr

/-!
# Specification: texts with unreadable lines
-/

namespace Verif.Spec

open Verif.Peg Verif.Grammar

/-- What is read from two pieces of a text, one after the other; a blank second piece adds nothing. -/
def thenRead {α : Type} (first : List α) : Parsed α → Parsed α
  | .file es => .file (first ++ es)
  | .parseException => .file first
  | .validationError => .validationError

/-- The characters that a command may begin with. -/
def commandStarts : List Char := t!"%*DGMXYIJxyij"

/-- The two-letter codes of the commands in `%`. -/
def extendedCodes : List Text :=
  [t!"FS", t!"MO", t!"AD", t!"AM", t!"AB", t!"SR", t!"LP", t!"LM", t!"LR", t!"LS", t!"LN", t!"TA", t!"TD", t!"TF", t!"TO",
   t!"IP", t!"IR", t!"OF", t!"AS", t!"MI", t!"IN", t!"SF"]

/-- A line that is not the beginning of a command: it begins with a character that no command begins with, or with a `%`
and two characters that are not the code of a command. -/
def NoCommand (line : Text) : Prop :=
  '\n' ∉ line ∧ ((∃ c t, line = c :: t ∧ ¬ Blank [c] ∧ c ∉ commandStarts) ∨
    ∃ a b t, line = '%' :: a :: b :: t ∧ ¬ Blank [a] ∧ [a, b] ∉ extendedCodes)

end Verif.Spec
