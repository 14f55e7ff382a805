import Verif.Spec.Written
import Verif.Spec.Resilient

/-!
# Texts with unreadable lines
-/

namespace Verif.Spec

open Verif.Peg Verif.Syntax Verif.Grammar

/-- The text spells commands, with lines between them (or at the end) that cannot be taken for commands.  The entries are the
commands and these lines, in their order. -/
inductive Broken (date : Text → Option Text) : List Entry → Text → Prop
  | last {f : List Node} {w b : Text} (written : Spelled date true f w) (clear : ∀ n, Occurs n f → ¬LooksStandard n)
    (blanks : Blank b) : Broken date (f.map .node) (w ++ b)
  | line {f : List Node} {es : List Entry} {w b line rest : Text} (written : Spelled date true f w)
    (clear : ∀ n, Occurs n f → ¬LooksStandard n) (blanks : Blank b) (no : NoCommand line)
    (newline : rest = [] ∨ ∃ t, rest = '\n' :: t) (more : Broken date es rest) :
    Broken date (f.map .node ++ .invalid line :: es) (w ++ (b ++ line ++ rest))

end Verif.Spec
