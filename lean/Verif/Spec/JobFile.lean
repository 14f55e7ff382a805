import Verif.Model.JobFile
import Verif.Spec.Project

/-!
# Job files
-/

namespace Verif.Spec.JobFile
open Verif.Job Verif.Spec

/-- Following these names from the value `j` leads to `v`. -/
inductive At : Json → List Text → Json → Prop
  | here (j) : At j [] j
  | into (before name v after names w) : (∀ m ∈ after, m.1 ≠ name) → At v names w →
      At (.object (before ++ (name, v) :: after)) (name :: names) w

/-- There is a text at this place. -/
def IsText (j : Json) (names : List Text) : Prop := ∃ t, At j names (.string t)

/-- There is a number at this place. -/
def IsNumber (read : Json → Option α) (j : Json) (names : List Text) : Prop := ∃ v a, At j names v ∧ read v = some a

/-- There is nothing at this place, or `null`, or such a value. -/
def IsOptional (ok : Json → Prop) (j : Json) (name : Text) : Prop :=
  ∀ v, At j [name] v → v = .null ∨ ok v

/-- An entry of the list of files: a path and a function, and some polarity. -/
def IsEntry (j : Json) (file function : Text) : Prop :=
  At j ["Path".toList] (.string file) ∧ At j ["FileFunction".toList] (.string function) ∧
    IsText j ["FilePolarity".toList]

/-- A layer of the stackup. -/
def IsLayer (n : Numbers) (j : Json) : Prop :=
  IsText j ["Name".toList] ∧ IsText j ["Type".toList] ∧
    IsOptional (fun v => ∃ a, n.float v = some a) j "Thickness".toList ∧
    IsOptional (fun v => ∃ t, v = .string t) j "Material".toList ∧
    IsOptional (fun v => ∃ t, v = .string t) j "Notes".toList

/-- The value is a job with these files. -/
structure IsJob (n : Numbers) (j : Json) (files : List (Text × Text)) : Prop where
  date : IsText j ["Header".toList, "CreationDate".toList]
  vendor : IsText j ["Header".toList, "GenerationSoftware".toList, "Vendor".toList]
  application : IsText j ["Header".toList, "GenerationSoftware".toList, "Application".toList]
  version : IsText j ["Header".toList, "GenerationSoftware".toList, "Version".toList]
  name : IsText j ["GeneralSpecs".toList, "ProjectId".toList, "Name".toList]
  guid : IsText j ["GeneralSpecs".toList, "ProjectId".toList, "GUID".toList]
  revision : IsText j ["GeneralSpecs".toList, "ProjectId".toList, "Revision".toList]
  width : IsNumber n.float j ["GeneralSpecs".toList, "Size".toList, "X".toList]
  height : IsNumber n.float j ["GeneralSpecs".toList, "Size".toList, "Y".toList]
  layers : IsNumber n.int j ["GeneralSpecs".toList, "LayerNumber".toList]
  thickness : IsNumber n.float j ["GeneralSpecs".toList, "BoardThickness".toList]
  finish : ∀ g, At j ["GeneralSpecs".toList] g → IsOptional (fun v => ∃ t, v = .string t) g "Finish".toList
  files : ∃ es, At j ["FilesAttributes".toList] (.array es) ∧ List.Forall₂ (fun e f => IsEntry e f.1 f.2) es files
  stackup : ∃ ls, At j ["MaterialStackup".toList] (.array ls) ∧ ∀ l ∈ ls, IsLayer n l

/-- The text of the path of a file named in a job file: relative paths begin at the directory of the job file. -/
inductive Beside : Text → Text → Text → Prop
  | relative (dir name rel) : '/' ∉ name → name ≠ [] → name ≠ ['.'] → rel.head? ≠ some '/' →
      Beside (dir ++ '/' :: name) rel (dir ++ '/' :: rel)
  | here (name rel) : '/' ∉ name → name ≠ [] → name ≠ ['.'] → rel.head? ≠ some '/' → Beside name rel rel
  | absolute (job rel) : rel.head? = some '/' → Beside job rel rel

/-- `e` is the file that an entry of the job file `job` (its path and its function) names, as it is on the disk. -/
def ReadFrom (disk : Path → Option Text) (job : Text) (f : Text × Text) (e : JobEntry Loaded) : Prop :=
  (∃ t, Beside job f.1 t ∧ e.file.file = path t ∧ disk (path t) = some e.file.source) ∧
    e.text = f.2 ∧ HasParts e.text e.parts

end Verif.Spec.JobFile
