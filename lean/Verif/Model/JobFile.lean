import Verif.Model.Project

/-!
# Reading job files (gerber/api/_gerber_job_file.py 19-126, 144-164)

JSON values are trees; turning a text into a tree (`jiter`) is a parameter of `fromFile`.  Pydantic converts numbers
leniently (`"1.6"` and `true` are accepted for a `float`), so the conversions are parameters too (`Numbers`).  Extra
members are ignored: `config` (line 22) is a class variable and not the `model_config` of Pydantic, whose default
ignores them.  Simplification: in paths `//` at the very beginning is read like `/`.
-/

namespace Verif.Job

/-- Texts. -/
abbrev Text := List Char

/-- JSON values as `model_validate_json` sees them. -/
inductive Json
  | null
  | bool (b : Bool)
  | number (t : Text)
  | string (t : Text)
  | array (items : List Json)
  | object (members : List (Text × Json))

/-- Pydantic's conversions of a JSON value for a field of type `float` and for a field of type `int`. -/
structure Numbers where
  /-- `float`. -/
  float : Json → Option Rat
  /-- `int`. -/
  int : Json → Option Int

/-- The value for an alias: of members with one name the last one counts. -/
def member (name : Text) : Json → Option Json
  | .object ms => (ms.reverse.find? fun m => m.1 == name).map (·.2)
  | _ => none

/-- A value for a field of type `str`. -/
def str : Json → Option Text
  | .string t => some t
  | _ => none

/-- A value for a field of type `List[...]`. -/
def list (item : Json → Option α) : Json → Option (List α)
  | .array js => js.mapM item
  | _ => none

/-- A required field. -/
def field (name : Text) (read : Json → Option α) (j : Json) : Option α := (member name j).bind read

/-- A field `Optional[...]` with the default `None`. -/
def optionally (name : Text) (read : Json → Option α) (j : Json) : Option (Option α) :=
  match member name j with
  | none => some none
  | some .null => some none
  | some v => (read v).map some

/-- `GenerationSoftware`, 25-30. -/
structure GenerationSoftware where
  vendor : Text
  application : Text
  version : Text

/-- `Header`, 33-37. -/
structure Header where
  creationDate : Text
  generationSoftware : GenerationSoftware

/-- `ProjectId`, 40-45. -/
structure ProjectId where
  name : Text
  guid : Text
  revision : Text

/-- `Size`, 48-52. -/
structure Size where
  x : Rat
  y : Rat

/-- `GeneralSpecs`, 55-62. -/
structure GeneralSpecs where
  projectId : ProjectId
  size : Size
  layerNumber : Int
  boardThickness : Rat
  finish : Option Text

/-- `FilesAttributes`, 76-81. -/
structure FilesAttributes where
  path : Text
  fileFunction : Text
  filePolarity : Text

/-- `MaterialStackup`, 84-91. -/
structure MaterialStackup where
  name : Text
  type : Text
  thickness : Option Rat
  material : Option Text
  notes : Option Text

/-- The fields of `GerberJobFile`, 94-100. -/
structure Fields where
  header : Header
  generalSpecs : GeneralSpecs
  filesAttributes : List FilesAttributes
  materialStackup : List MaterialStackup

/-- 25-30. -/
def generationSoftware (j : Json) : Option GenerationSoftware := do
  return { vendor := ← field "Vendor".toList str j
           application := ← field "Application".toList str j
           version := ← field "Version".toList str j }

/-- 33-37. -/
def header (j : Json) : Option Header := do
  return { creationDate := ← field "CreationDate".toList str j
           generationSoftware := ← field "GenerationSoftware".toList generationSoftware j }

/-- 40-45. -/
def projectId (j : Json) : Option ProjectId := do
  return { name := ← field "Name".toList str j
           guid := ← field "GUID".toList str j
           revision := ← field "Revision".toList str j }

/-- 48-52. -/
def size (n : Numbers) (j : Json) : Option Size := do
  return { x := ← field "X".toList n.float j
           y := ← field "Y".toList n.float j }

/-- 55-62. -/
def generalSpecs (n : Numbers) (j : Json) : Option GeneralSpecs := do
  return { projectId := ← field "ProjectId".toList projectId j
           size := ← field "Size".toList (size n) j
           layerNumber := ← field "LayerNumber".toList n.int j
           boardThickness := ← field "BoardThickness".toList n.float j
           finish := ← optionally "Finish".toList str j }

/-- 76-81. -/
def filesAttributes (j : Json) : Option FilesAttributes := do
  return { path := ← field "Path".toList str j
           fileFunction := ← field "FileFunction".toList str j
           filePolarity := ← field "FilePolarity".toList str j }

/-- 84-91. -/
def materialStackup (n : Numbers) (j : Json) : Option MaterialStackup := do
  return { name := ← field "Name".toList str j
           type := ← field "Type".toList str j
           thickness := ← optionally "Thickness".toList n.float j
           material := ← optionally "Material".toList str j
           notes := ← optionally "Notes".toList str j }

/-- 94-100. -/
def fields (n : Numbers) (j : Json) : Option Fields := do
  return { header := ← field "Header".toList header j
           generalSpecs := ← field "GeneralSpecs".toList (generalSpecs n) j
           filesAttributes := ← field "FilesAttributes".toList (list filesAttributes) j
           materialStackup := ← field "MaterialStackup".toList (list (materialStackup n)) j }

/-- `pathlib.PurePosixPath`. -/
structure Path where
  /-- `is_absolute()`. -/
  absolute : Bool
  /-- The components. -/
  parts : List Text
  deriving DecidableEq

/-- `Path(text)`: empty components and `.` are dropped. -/
def path (t : Text) : Path :=
  { absolute := t.head? = some '/'
    parts := (t.splitOn '/').filter fun p => p ≠ [] ∧ p ≠ ['.'] }

/-- `Path.parent`. -/
def Path.parent (p : Path) : Path := { p with parts := p.parts.dropLast }

/-- `p / q`. -/
def Path.join (p q : Path) : Path := if q.absolute then q else { p with parts := p.parts ++ q.parts }

/-- The exceptions. -/
inductive Failure
  /-- `FileNotFoundError`. -/
  | noFile (p : Path)
  /-- `pydantic.ValidationError`. -/
  | invalid
  /-- `TypeError`. -/
  | type
  /-- `PathToGerberJobProjectNotDefinedError`. -/
  | noPath
  deriving DecidableEq

/-- `GerberJobFile` with the attribute `__file_path__`, 94-102. -/
structure JobFile where
  fields : Fields
  filePath : Option Path

/-- Validation followed by `model_post_init` (104-106); `context` is the value of `"__file_path__"` in the context, or
`none` if there is no context, as in the constructor `GerberJobFile(...)`: then `None["__file_path__"]` raises. -/
def validate (n : Numbers) (context : Option Path) (j : Json) : Except Failure JobFile :=
  match fields n j with
  | none => .error .invalid
  | some f =>
    match context with
    | none => .error .type
    | some p => .ok { fields := f, filePath := some p }

/-- 108-126 (`from_file`). -/
def fromFile (n : Numbers) (parse : Text → Option Json) (disk : Path → Option Text) (file : Text) :
    Except Failure JobFile :=
  match disk (path file) with
  | none => .error (.noFile (path file))
  | some text =>
    match parse text with
    | none => .error .invalid
    | some j => validate n (some (path file)) j

/-- A `GerberFile` read from disk: its path and its source. -/
structure Loaded where
  file : Path
  source : Text
  deriving DecidableEq

/-- 163-167 with `GerberFile.from_file` (_gerber_file.py 445-454). -/
def load (disk : Path → Option Text) (root : Path) (f : FilesAttributes) : Except Failure (Loaded × Text) :=
  match disk (root.join (path f.path)) with
  | none => .error (.noFile (root.join (path f.path)))
  | some source => .ok ({ file := root.join (path f.path), source := source }, f.fileFunction)

/-- 128-235 (`to_project`). -/
def toProject (disk : Path → Option Text) (job : JobFile) (given : Option Path) : Except Failure (Api.Project Loaded) :=
  match job.filePath.or given with
  | none => .error .noPath
  | some p => do return Api.toProject (← job.fields.filesAttributes.mapM (load disk p.parent))

end Verif.Job
