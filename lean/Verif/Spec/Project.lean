import Verif.Model.FileType
import Verif.Spec.Numeral

/-!
# The views of a project
-/

namespace Verif.Spec
open Verif.Api

/-- An entry of a job file: the loaded file, the text of its file function, and the comma separated parts of that text
in capital letters (see `HasParts`). -/
structure JobEntry (F : Type) where
  /-- The file. -/
  file : F
  /-- The text. -/
  text : List Char
  /-- The parts. -/
  parts : List (List Char)

/-- The text of a file function consists of these parts, up to capital letters. -/
def HasParts (text : List Char) (parts : List (List Char)) : Prop :=
  parts ≠ [] ∧ (∀ p ∈ parts, ',' ∉ p) ∧ text.map Char.toUpper = [','].intercalate parts

/-- The views. -/
inductive View
  | top
  | bottom
  | inner (layer : List Char)
  deriving DecidableEq, Repr

/-- The part names an inner layer: `L`, a number of at least one digit, and anything that does not go on with a
digit. -/
def NamesLayer (part layer : List Char) : Prop :=
  layer ≠ [] ∧ Digits layer ∧ ∃ rest, part = 'L' :: (layer ++ rest) ∧ ∀ c t, rest = c :: t → ¬ Digits [c]

variable {F : Type}

/-- The type of a file: its first part is the name of the type. -/
def typeIs (e : JobEntry F) (t : FileType) : Prop := ∃ p ps, e.parts = p :: ps ∧ FileType.ofValue p = t

/-- The view a file is meant for; the board profile has none of its own. -/
def meantFor (e : JobEntry F) : View → Prop
  | .top => ['T', 'O', 'P'] ∈ e.parts
  | .bottom => ['T', 'O', 'P'] ∉ e.parts ∧ ['B', 'O', 'T'] ∈ e.parts
  | .inner layer => ['T', 'O', 'P'] ∉ e.parts ∧ ['B', 'O', 'T'] ∉ e.parts ∧
      ∃ before p after, e.parts = before ++ p :: after ∧ NamesLayer p layer ∧ ∀ q ∈ before, ¬ ∃ l, NamesLayer q l

/-- The file belongs into a view: it is meant for it, or it is the board profile. -/
def belongs (e : JobEntry F) (v : View) : Prop := typeIs e .profile ∨ meantFor e v

/-- The last entry of the job with this type in this view is `f`. -/
def IsLatest (job : List (JobEntry F)) (v : View) (t : FileType) (f : F) : Prop :=
  ∃ before e after, job = before ++ e :: after ∧ e.file = f ∧ typeIs e t ∧ belongs e v ∧
    ∀ d ∈ after, ¬ (typeIs d t ∧ belongs d v)

/-- No entry of the job has this type in this view. -/
def HasNone (job : List (JobEntry F)) (v : View) (t : FileType) : Prop :=
  ∀ e ∈ job, ¬ (typeIs e t ∧ belongs e v)

/-- From the lowest to the topmost layer of a view. -/
def displayOrder : List FileType := [.copper, .mask, .soldermask, .paste, .silk, .legend, .profile]

/-- The files of a view: for each type in display order the latest file of that type in the view, if any. -/
inductive ViewOf (job : List (JobEntry F)) (v : View) : List FileType → List F → Prop
  | nil : ViewOf job v [] []
  | skip (t ts fs) : HasNone job v t → ViewOf job v ts fs → ViewOf job v (t :: ts) fs
  | take (t ts f fs) : IsLatest job v t f → ViewOf job v ts fs → ViewOf job v (t :: ts) (f :: fs)

end Verif.Spec
