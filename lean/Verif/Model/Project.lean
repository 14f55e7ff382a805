import Verif.Model.FileType
import Verif.Model.Text

/-!
# Projects from job files (gerber/api/_gerber_job_file.py)

`F` is the type of loaded files (`GerberFile` objects).  Reading the files from disk is modelled in `JobFile`;
here a job file is the list of the loaded files, each with the text of its `FileFunction`.
-/

namespace Verif.Api

/-- `re.compile(r"L([0-9]+)").match(part)`, group 1 (_gerber_job_file.py 157, 184-186). -/
def layerOf (part : List Char) : Option (List Char) :=
  match part with
  | 'L' :: rest => if rest.takeWhile Text.isDigit = [] then none else some (rest.takeWhile Text.isDigit)
  | _ => none

variable {F : Type}

/-- The dictionaries and the list of _gerber_job_file.py 151-155. -/
structure Sorting (F : Type) where
  /-- `top`. -/
  top : Dict FileType F := []
  /-- `bottom`. -/
  bottom : Dict FileType F := []
  /-- `inner`. -/
  inner : Dict (List Char) (Dict FileType F) := []
  /-- `all_layers`. -/
  all : List F := []

/-- The body of the loop _gerber_job_file.py 159-195. -/
def place (s : Sorting F) (file : F × List Char) : Sorting F :=
  let parts := splitComma (upper file.2)
  let type := FileType.ofValue (parts.headD [])
  if type = .profile then { s with all := s.all ++ [file.1] }
  else if ['T', 'O', 'P'] ∈ parts then { s with top := s.top.set type file.1 }
  else if ['B', 'O', 'T'] ∈ parts then { s with bottom := s.bottom.set type file.1 }
  else
    match parts.findSome? layerOf with
    | some layer => { s with inner := s.inner.set layer (((s.inner.get? layer).getD []).set type file.1) }
    | none => s

/-- The body of the loop _gerber_job_file.py 193-198; the type of these files is `PROFILE`. -/
def placeEverywhere (s : Sorting F) (file : F) : Sorting F :=
  { s with
    top := s.top.set .profile file
    bottom := s.bottom.set .profile file
    inner := s.inner.map fun e => (e.1, e.2.set .profile file) }

/-- _gerber_job_file.py 200-226 (`extract_and_sort_files`). -/
def extract (d : Dict FileType F) : List F :=
  (d.get? .copper).toList ++ (d.get? .mask).toList ++ (d.get? .soldermask).toList ++ (d.get? .paste).toList ++
    (d.get? .silk).toList ++ (d.get? .legend).toList ++ (d.get? .profile).toList

/-- `sorted` on texts: by code points. -/
def insertText (x : List Char) : List (List Char) → List (List Char)
  | [] => [x]
  | y :: ys => if x ≤ y then x :: y :: ys else y :: insertText x ys
/-- `sorted` on texts: by code points. -/
def sortTexts : List (List Char) → List (List Char)
  | [] => []
  | x :: xs => insertText x (sortTexts xs)

/-- A project: the views, each the files of a `CompositeView` from the lowest to the topmost. -/
structure Project (F : Type) where
  /-- `top`. -/
  top : List F
  /-- `inner`. -/
  inner : List (List F)
  /-- `bottom`. -/
  bottom : List F
  deriving DecidableEq, Repr

/-- _gerber_job_file.py 128-235 (`to_project`). -/
def toProject (files : List (F × List Char)) : Project F :=
  let s := files.foldl place {}
  let s := s.all.foldl placeEverywhere s
  { top := extract s.top
    inner := (sortTexts s.inner.keys).map fun key => extract ((s.inner.get? key).getD [])
    bottom := extract s.bottom }

end Verif.Api
