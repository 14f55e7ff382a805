import Verif.Model.Rvmc
import Verif.Model.Peg

/-!
# Programs of the virtual machine as JSON (vm/rvmc.py, vm/types/model.py)

`RVMC.to_json` calls `model_dump_json(serialize_as_any=True)`: every object is written as an object of its fields in the order of
their definition, those of base classes first, followed by the computed field `__class_qualname__`.  The text is written by the
serializer of pydantic, without blanks between tokens; the text of a number, for which the shortest one that reads the same is
taken, is the parameter `float`.
Simplifications: numbers are finite (pydantic writes `null` for infinities and NaN); no keyword arguments are given to `to_json`; the
values in the metadata of a program are those of JSON.
-/

namespace Verif.RvmcJson
open Verif.Peg (Text)
open Verif.Geom Verif.Rvmc

mutual
/-- A value that JSON has, the number being given by its text. -/
inductive Value
  | null
  | bool (b : Bool)
  | num (t : Text)
  | str (t : Text)
  | arr (items : Items)
  | obj (entries : Entries)
/-- The values in an array. -/
inductive Items
  | nil
  | cons (v : Value) (rest : Items)
/-- The entries of an object. -/
inductive Entries
  | nil
  | cons (key : Text) (v : Value) (rest : Entries)
end

/-- A list of values. -/
def Items.of : List Value → Items
  | [] => .nil
  | v :: vs => .cons v (.of vs)

/-- A list of entries. -/
def Entries.of : List (Text × Value) → Entries
  | [] => .nil
  | e :: es => .cons e.1 e.2 (.of es)

/-- A hexadecimal digit. -/
def hexDigit (n : ℕ) : Char := if n < 10 then Char.ofNat (48 + n) else Char.ofNat (87 + n)

/-- How the serializer writes a character of a string. -/
def escape (c : Char) : Text :=
  if c = '"' then ['\\', '"'] else if c = '\\' then ['\\', '\\']
  else if c.toNat = 8 then ['\\', 'b'] else if c.toNat = 9 then ['\\', 't'] else if c.toNat = 10 then ['\\', 'n']
  else if c.toNat = 12 then ['\\', 'f'] else if c.toNat = 13 then ['\\', 'r']
  else if c.toNat < 32 then ['\\', 'u', '0', '0', hexDigit (c.toNat / 16), hexDigit (c.toNat % 16)]
  else [c]

/-- How the serializer writes a string. -/
def quoted (t : Text) : Text := '"' :: (t.flatMap escape ++ ['"'])

mutual
/-- How the serializer writes a value. -/
def Value.text : Value → Text
  | .null => ['n', 'u', 'l', 'l']
  | .bool true => ['t', 'r', 'u', 'e']
  | .bool false => ['f', 'a', 'l', 's', 'e']
  | .num t => t
  | .str t => quoted t
  | .arr items => '[' :: (items.text ++ [']'])
  | .obj entries => '{' :: (entries.text ++ ['}'])
/-- How the serializer writes the values of an array. -/
def Items.text : Items → Text
  | .nil => []
  | .cons v .nil => v.text
  | .cons v rest => v.text ++ ',' :: rest.text
/-- How the serializer writes the entries of an object. -/
def Entries.text : Entries → Text
  | .nil => []
  | .cons key v .nil => quoted key ++ ':' :: v.text
  | .cons key v rest => quoted key ++ ':' :: (v.text ++ ',' :: rest.text)
end

/-- A command with its metadata, commands/command.py 16-19. -/
structure Step where
  metadata : Option (List (Text × Text))
  command : Command Text

/-- rvmc.py 12-16 (`RVMC`). -/
structure Program where
  metadata : Option Entries
  steps : List Step

/-- The object that is made of an instance: its fields and the name of its class, types/model.py 20-24 and ast/nodes/model.py 20-24
(`__class_qualname__`). -/
def instanceOf (name : Text) (fields : List (Text × Value)) : Value :=
  .obj (.of (fields ++ [(t!"__class_qualname__", .str name)]))

section
variable (float : ℝ → Text)

/-- types/vector.py 17-21 (`Vector`). -/
def vectorValue (v : Vec ℝ) : Value := instanceOf t!"Vector" [(t!"x", .num (float v.x)), (t!"y", .num (float v.y))]

/-- types/box.py 18-24 (`Box`). -/
def boxValue (b : Box ℝ) : Value :=
  instanceOf t!"Box" [(t!"min_x", .num (float b.minX)), (t!"min_y", .num (float b.minY)), (t!"max_x", .num (float b.maxX)),
    (t!"max_y", .num (float b.maxY))]

/-- types/layer_id.py 10-13 (`LayerID`). -/
def layerValue (id : Text) : Value := instanceOf t!"LayerID" [(t!"id", .str id)]

/-- shape_segments/line.py 16-20 (`Line`), shape_segments/arc.py 18-29 (`Arc`). -/
def segmentValue : Segment → Value
  | .line l => instanceOf t!"Line" [(t!"start", vectorValue float l.start), (t!"end", vectorValue float l.stop)]
  | .arc a => instanceOf t!"Arc" [(t!"start", vectorValue float a.start), (t!"end", vectorValue float a.stop),
      (t!"center", vectorValue float a.center), (t!"clockwise", .bool a.clockwise)]

/-- commands/command.py 19 (`metadata`). -/
def metadataValue : Option (List (Text × Text)) → Value
  | none => .null
  | some m => .obj (.of (m.map fun e => (e.1, .str e.2)))

/-- commands/layer.py 16-21 (`StartLayer`), 28-33 (`EndLayer`), commands/paste.py 18-23 (`PasteLayer`), commands/shape.py 28-38
(`Shape`). -/
def stepValue (s : Step) : Value :=
  match s.command with
  | .start id box origin => instanceOf t!"StartLayer" [(t!"metadata", metadataValue s.metadata), (t!"id", layerValue id),
      (t!"box", (box.map (boxValue float)).getD .null), (t!"origin", vectorValue float origin)]
  | .stop => instanceOf t!"EndLayer" [(t!"metadata", metadataValue s.metadata)]
  | .draw (.paste src center neg) => instanceOf t!"PasteLayer" [(t!"metadata", metadataValue s.metadata),
      (t!"source_layer_id", layerValue src), (t!"center", vectorValue float center), (t!"is_negative", .bool neg)]
  | .draw (.shape g) => instanceOf t!"Shape" [(t!"metadata", metadataValue s.metadata),
      (t!"commands", .arr (.of (g.segments.map (segmentValue float)))), (t!"is_negative", .bool g.negative)]

/-- rvmc.py 18-20 (`to_json`): `RVMC` itself has no computed field. -/
def toJson (p : Program) : Text :=
  (Value.obj (.of [(t!"metadata", (p.metadata.map Value.obj).getD .null), (t!"commands", .arr (.of (p.steps.map (stepValue float))))])).text

end
end Verif.RvmcJson
