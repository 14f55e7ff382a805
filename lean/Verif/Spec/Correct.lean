import Verif.Spec.Picture

/-!
# Commands that can be executed

What the commands of a file must be for the file to be executed at all, apart from describing a picture.
-/

namespace Verif.Spec
open Verif.Visitor Verif.Coord

/-- The text given for an arc offset by a `D01`. -/
def givesOffset : Axis → Atom → Option (List Char)
  | .x, .leaf (.d01 _ _ i _) => i
  | .y, .leaf (.d01 _ _ _ j) => j
  | _, _ => none

/-- Coordinates can be read, apertures exist when they are selected, and blocks are repeated at least once. -/
structure Executable (h : List Atom) : Prop where
  /-- Every coordinate and every offset is given when a format is in force, in which it can be read. -/
  readable : ∀ p a q axis t, h = p ++ a :: q → (gives axis a = some t ∨ givesOffset axis a = some t) →
    ∃ f v, FormatInForce p f ∧ f.unpack axis t = .ok v
  /-- Codes are defined when they are selected. -/
  defined : ∀ p id q, h = p ++ .leaf (.dnn id) :: q → ∃ a ∈ p, stores id a ≠ none
  /-- Step and repeat blocks are repeated. -/
  repeated : ∀ p r q, h = p ++ .srClose r :: q → r.xRepeats ≠ 0 ∧ r.yRepeats ≠ 0

end Verif.Spec
