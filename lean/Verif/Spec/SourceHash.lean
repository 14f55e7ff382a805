import Verif.Model.SourceHash

/-!
# What the MD5 attribute should certify
-/

namespace Verif.Spec
open Verif.Peg (Text)

/-- A line break. -/
def lineBreak (c : Char) : Prop := c = '\n' ∨ c = '\r'

instance (c : Char) : Decidable (lineBreak c) := by unfold lineBreak; infer_instance

/-- The characters that the MD5 of a command at the given location is about: everything before the command, without line
breaks. -/
def signed (source : Text) (location : Nat) : Text := (source.take location).filter fun c => ¬ lineBreak c

end Verif.Spec
