import Verif.Model.RvmcJson

/-!
# Reading programs of the virtual machine from JSON

A reader of JSON texts (RFC 8259), which does not know how they were written, and a reader of programs, which knows the names of
the classes and of their fields.
-/

namespace Verif.Spec.JsonText
open Verif.Peg (Text)
open Verif.Geom Verif.Rvmc Verif.RvmcJson

/-- Blanks of JSON. -/
def blank (c : Char) : Bool := c = ' ' || c = '\t' || c = '\n' || c = '\r'

/-- The text behind the blanks. -/
def skip (t : Text) : Text := t.dropWhile blank

/-- The value of a hexadecimal digit. -/
def hexValue (c : Char) : Option ℕ :=
  if '0' ≤ c ∧ c ≤ '9' then some (c.toNat - 48) else if 'a' ≤ c ∧ c ≤ 'f' then some (c.toNat - 87)
  else if 'A' ≤ c ∧ c ≤ 'F' then some (c.toNat - 55) else none

/-- What follows a backslash: the character that is meant and the rest of the text (escaped surrogates are not read). -/
def unescape : Text → Option (Char × Text)
  | 'u' :: a :: b :: c :: d :: rest => do
    let n := (((← hexValue a) * 16 + (← hexValue b)) * 16 + (← hexValue c)) * 16 + (← hexValue d)
    if n.isValidChar then some (Char.ofNat n, rest) else none
  | '"' :: rest => some ('"', rest)
  | '\\' :: rest => some ('\\', rest)
  | '/' :: rest => some ('/', rest)
  | 'b' :: rest => some (Char.ofNat 8, rest)
  | 'f' :: rest => some (Char.ofNat 12, rest)
  | 'n' :: rest => some ('\n', rest)
  | 'r' :: rest => some ('\r', rest)
  | 't' :: rest => some ('\t', rest)
  | _ => none

/-- The string up to the closing quote, and the rest of the text. -/
def readString : ℕ → Text → Option (Text × Text)
  | 0, _ => none
  | _, [] => none
  | n + 1, c :: t =>
    if c = '"' then some ([], t)
    else if c = '\\' then do
      let (x, rest) ← unescape t
      let (s, rest) ← readString n rest
      some (x :: s, rest)
    else if c.toNat < 32 then none
    else do
      let (s, rest) ← readString n t
      some (c :: s, rest)

/-- Digits. -/
def digit (c : Char) : Bool := decide ('0' ≤ c) && decide (c ≤ '9')

/-- Characters of numbers. -/
def numeric (c : Char) : Bool := digit c || c = '-' || c = '+' || c = '.' || c = 'e' || c = 'E'

/-- The exponent of a number, possibly none. -/
def isExponent : Text → Bool
  | [] => true
  | e :: t => (e = 'e' || e = 'E') &&
    let t := match t with
      | '+' :: t => t
      | '-' :: t => t
      | t => t
    !t.isEmpty && t.all digit

/-- The fraction and the exponent of a number, possibly none. -/
def isFraction : Text → Bool
  | '.' :: t => !(t.takeWhile digit).isEmpty && isExponent (t.dropWhile digit)
  | t => isExponent t

/-- A number without sign. -/
def isUnsigned : Text → Bool
  | '0' :: t => isFraction t
  | t => !(t.takeWhile digit).isEmpty && isFraction (t.dropWhile digit)

/-- The numbers of JSON. -/
def isNumber (t : Text) : Bool :=
  t.all numeric && match t with
    | '-' :: t => isUnsigned t
    | t => isUnsigned t

mutual
/-- The value at the beginning of the text, and the rest of the text. -/
def readValue : ℕ → Text → Option (Value × Text)
  | 0, _ => none
  | n + 1, t =>
    match skip t with
    | 'n' :: 'u' :: 'l' :: 'l' :: rest => some (.null, rest)
    | 't' :: 'r' :: 'u' :: 'e' :: rest => some (.bool true, rest)
    | 'f' :: 'a' :: 'l' :: 's' :: 'e' :: rest => some (.bool false, rest)
    | '"' :: rest => (readString (rest.length + 1) rest).map fun p => (.str p.1, p.2)
    | '[' :: rest =>
      match skip rest with
      | ']' :: rest => some (.arr .nil, rest)
      | _ => (readItems n rest).map fun p => (.arr p.1, p.2)
    | '{' :: rest =>
      match skip rest with
      | '}' :: rest => some (.obj .nil, rest)
      | _ => (readEntries n rest).map fun p => (.obj p.1, p.2)
    | t =>
      let number := t.takeWhile numeric
      if isNumber number then some (.num number, t.dropWhile numeric) else none
/-- The values up to the closing bracket, at least one. -/
def readItems : ℕ → Text → Option (Items × Text)
  | 0, _ => none
  | n + 1, t => do
    let (v, rest) ← readValue n t
    match skip rest with
    | ',' :: rest => (readItems n rest).map fun p => (.cons v p.1, p.2)
    | ']' :: rest => some (.cons v .nil, rest)
    | _ => none
/-- The entries up to the closing brace, at least one. -/
def readEntries : ℕ → Text → Option (Entries × Text)
  | 0, _ => none
  | n + 1, t =>
    match skip t with
    | '"' :: rest => do
      let (key, rest) ← readString (rest.length + 1) rest
      match skip rest with
      | ':' :: rest => do
        let (v, rest) ← readValue n rest
        match skip rest with
        | ',' :: rest => (readEntries n rest).map fun p => (.cons key v p.1, p.2)
        | '}' :: rest => some (.cons key v .nil, rest)
        | _ => none
      | _ => none
    | _ => none
end

/-- The value that a JSON text stands for. -/
def valueOf (t : Text) : Option Value :=
  match readValue (t.length + 1) t with
  | some (v, rest) => if skip rest = [] then some v else none
  | none => none

/-! ### Programs -/

/-- The values of an array. -/
def items : Items → List Value
  | .nil => []
  | .cons v rest => v :: items rest

/-- The entries of an object. -/
def entries : Entries → List (Text × Value)
  | .nil => []
  | .cons k v rest => (k, v) :: entries rest

/-- The value of a key. -/
def get (key : Text) : Value → Option Value
  | .obj es => ((entries es).find? fun e => e.1 = key).map Prod.snd
  | _ => none

/-- The name of the class of an object. -/
def className (v : Value) : Option Text :=
  match get t!"__class_qualname__" v with
  | some (.str name) => some name
  | _ => none

/-- A boolean. -/
def boolIn : Value → Option Bool
  | .bool b => some b
  | _ => none

/-- A string. -/
def textIn : Value → Option Text
  | .str t => some t
  | _ => none

/-- All of them. -/
def everyOne {α β : Type} (f : α → Option β) : List α → Option (List β)
  | [] => some []
  | a :: as => do
    let b ← f a
    let bs ← everyOne f as
    some (b :: bs)

section
variable (number : Text → Option ℝ)

/-- A number. -/
def numberIn : Value → Option ℝ
  | .num t => number t
  | _ => none

/-- A point. -/
def vectorIn (v : Value) : Option (Vec ℝ) := do
  let x ← get t!"x" v >>= numberIn number
  let y ← get t!"y" v >>= numberIn number
  some ⟨x, y⟩

/-- A box, if there is one. -/
def boxIn : Value → Option (Option (Box ℝ))
  | .null => some none
  | v => do
    let a ← get t!"min_x" v >>= numberIn number
    let b ← get t!"min_y" v >>= numberIn number
    let c ← get t!"max_x" v >>= numberIn number
    let d ← get t!"max_y" v >>= numberIn number
    some (some ⟨a, b, c, d⟩)

/-- The name of a layer. -/
def layerIn (v : Value) : Option Text := get t!"id" v >>= textIn

/-- A segment of an outline. -/
def segmentIn (v : Value) : Option Segment := do
  let start ← get t!"start" v >>= vectorIn number
  let stop ← get t!"end" v >>= vectorIn number
  let name ← className v
  if name = t!"Line" then some (.line ⟨start, stop⟩)
  else if name = t!"Arc" then do
    let center ← get t!"center" v >>= vectorIn number
    let clockwise ← get t!"clockwise" v >>= boolIn
    some (.arc ⟨start, stop, center, clockwise⟩)
  else none

/-- The segments of an outline, at least one. -/
def segmentsIn : Value → Option (Segment × List Segment)
  | .arr vs =>
    match everyOne (segmentIn number) (items vs) with
    | some (s :: ss) => some (s, ss)
    | _ => none
  | _ => none

/-- The metadata of a command. -/
def metadataIn : Value → Option (Option (List (Text × Text)))
  | .null => some none
  | .obj es => (everyOne (fun e => (textIn e.2).map fun t => (e.1, t)) (entries es)).map some
  | _ => none

/-- A command. -/
def commandIn (v : Value) : Option (Command Text) := do
  let name ← className v
  if name = t!"StartLayer" then do
    let id ← get t!"id" v >>= layerIn
    let box ← get t!"box" v >>= boxIn number
    let origin ← get t!"origin" v >>= vectorIn number
    some (.start id box origin)
  else if name = t!"EndLayer" then some .stop
  else if name = t!"PasteLayer" then do
    let src ← get t!"source_layer_id" v >>= layerIn
    let center ← get t!"center" v >>= vectorIn number
    let neg ← get t!"is_negative" v >>= boolIn
    some (.draw (.paste src center neg))
  else if name = t!"Shape" then do
    let (s, ss) ← get t!"commands" v >>= segmentsIn number
    let neg ← get t!"is_negative" v >>= boolIn
    some (.draw (.shape ⟨s, ss, neg⟩))
  else none

/-- A command with its metadata. -/
def stepIn (v : Value) : Option Step := do
  let metadata ← get t!"metadata" v >>= metadataIn
  let command ← commandIn number v
  some ⟨metadata, command⟩

/-- The program that a JSON value stands for. -/
def programIn (v : Value) : Option Program := do
  let metadata ← match get t!"metadata" v with
    | some .null => some none
    | some (.obj es) => some (some es)
    | _ => none
  match get t!"commands" v with
  | some (.arr vs) => do
    let steps ← everyOne (stepIn number) (items vs)
    some ⟨metadata, steps⟩
  | _ => none

/-- Numbers that are written as JSON numbers from which they are read again. -/
def Readable (float : ℝ → Text) (x : ℝ) : Prop := isNumber (float x) = true ∧ number (float x) = some x

end

/-- The numbers of a point. -/
def vectorNumbers (v : Vec ℝ) : List ℝ := [v.x, v.y]

/-- The numbers of a segment. -/
def segmentNumbers : Segment → List ℝ
  | .line l => vectorNumbers l.start ++ vectorNumbers l.stop
  | .arc a => vectorNumbers a.start ++ vectorNumbers a.stop ++ vectorNumbers a.center

/-- The numbers of a command. -/
def commandNumbers : Command Text → List ℝ
  | .start _ none o => vectorNumbers o
  | .start _ (some b) o => [b.minX, b.minY, b.maxX, b.maxY] ++ vectorNumbers o
  | .stop => []
  | .draw (.paste _ c _) => vectorNumbers c
  | .draw (.shape g) => g.segments.flatMap segmentNumbers

mutual
/-- The texts of numbers in the value are numbers. -/
def Proper : Value → Prop
  | .num t => isNumber t = true
  | .arr vs => ProperItems vs
  | .obj es => ProperEntries es
  | _ => True
/-- Likewise. -/
def ProperItems : Items → Prop
  | .nil => True
  | .cons v vs => Proper v ∧ ProperItems vs
/-- Likewise. -/
def ProperEntries : Entries → Prop
  | .nil => True
  | .cons _ v es => Proper v ∧ ProperEntries es
end

end Verif.Spec.JsonText
