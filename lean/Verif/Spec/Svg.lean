import Verif.Model.Svg
import Verif.Spec.Color

/-!
# Reading SVG

A reader for the part of XML and SVG that is needed: elements with attributes, paths made of `M`, `L` and `z` filled by
the even-odd rule, groups with a `matrix`, and the view box.  Everything else is refused.
-/

namespace Verif.Spec
open Verif.Geom Verif.Color

/-! ## XML -/

/-- An attribute: its name and its value. -/
abbrev Attribute := List Char × List Char

/-- An element with its attributes and the elements within it. -/
inductive Xml
  | element (name : List Char) (attributes : List Attribute) (children : List Xml)

/-- Characters of names. -/
def nameCharacter (c : Char) : Bool := c.isAlphanum || c == ':' || c == '-' || c == '_' || c == '.'

/-- The attributes of a tag: each after blanks, as `name="value"`. -/
def readAttributes : ℕ → List Char → Option (List Attribute × List Char)
  | 0, _ => none
  | fuel + 1, cs =>
    let rest := cs.dropWhile (· == ' ')
    match rest with
    | '>' :: _ => some ([], rest)
    | '/' :: _ => some ([], rest)
    | _ =>
      let name := rest.takeWhile nameCharacter
      if cs.head? = some ' ' ∧ name ≠ [] then
        match rest.dropWhile nameCharacter with
        | '=' :: '"' :: more =>
          let value := more.takeWhile (· != '"')
          if '<' ∈ value ∨ '&' ∈ value then none else
          match more.dropWhile (· != '"') with
          | _ :: more =>
            match readAttributes fuel more with
            | some (attributes, more) => some ((name, value) :: attributes, more)
            | none => none
          | [] => none
        | _ => none
      else none

mutual
/-- An element: `<name attributes/>` or `<name attributes>children</name>`. -/
def readElement : ℕ → List Char → Option (Xml × List Char)
  | fuel + 1, '<' :: cs =>
    let name := cs.takeWhile nameCharacter
    if name = [] then none else
    match readAttributes fuel (cs.dropWhile nameCharacter) with
    | some (attributes, '/' :: '>' :: more) => some (.element name attributes [], more)
    | some (attributes, '>' :: more) =>
      match readChildren fuel more with
      | some (children, more) =>
        let closing := '<' :: '/' :: (name ++ ['>'])
        if closing.isPrefixOf more then some (.element name attributes children, more.drop closing.length) else none
      | none => none
    | _ => none
  | _, _ => none
/-- Elements up to a closing tag. -/
def readChildren : ℕ → List Char → Option (List Xml × List Char)
  | 0, _ => none
  | fuel + 1, cs =>
    match cs with
    | '<' :: '/' :: _ => some ([], cs)
    | _ =>
      match readElement fuel cs with
      | some (child, more) =>
        match readChildren fuel more with
        | some (children, more) => some (child :: children, more)
        | none => none
      | none => none
end

/-- A document that is one element. -/
def readXml (cs : List Char) : Option Xml :=
  match readElement cs.length cs with
  | some (e, []) => some e
  | _ => none

/-! ## Numbers, colours, coordinates -/

/-- A text cut at a character. -/
def cut (separator : Char) : List Char → List (List Char)
  | [] => [[]]
  | c :: cs =>
    if c = separator then [] :: cut separator cs
    else match cut separator cs with
      | [] => [[c]]
      | piece :: pieces => (c :: piece) :: pieces

/-- A sign in front of a number. -/
def withSign : List Char → Bool × List Char
  | '-' :: cs => (true, cs)
  | '+' :: cs => (false, cs)
  | cs => (false, cs)

/-- The value of decimal digits; nothing if there are other characters. -/
def digits (cs : List Char) : Option ℕ :=
  if cs.all Char.isDigit then some (cs.foldl (fun n c => 10 * n + (c.toNat - 48)) 0) else none

/-- A whole number with a sign. -/
def wholeNumber (cs : List Char) : Option ℤ :=
  let (minus, ds) := withSign cs
  match ds, digits ds with
  | _ :: _, some n => some (if minus then -n else n)
  | _, _ => none

/-- Digits with a point. -/
def withPoint (cs : List Char) : Option ℚ :=
  match cut '.' cs with
  | [whole] => if whole = [] then none else (digits whole).map (fun n => (n : ℚ))
  | [whole, part] =>
    if whole ++ part = [] then none else (digits (whole ++ part)).map (fun n => (n : ℚ) / 10 ^ part.length)
  | _ => none

/-- A number such as `12`, `-0.5` or `1.5e-07`. -/
def number (cs : List Char) : Option ℚ :=
  let (minus, unsigned) := withSign cs
  match cut 'e' unsigned with
  | [mantissa] => (withPoint mantissa).map (fun q => if minus then -q else q)
  | [mantissa, exponent] =>
    match withPoint mantissa, wholeNumber exponent with
    | some q, some n => some ((if minus then -q else q) * 10 ^ n)
    | _, _ => none
  | _ => none

/-- A real number. -/
noncomputable def readNumber (cs : List Char) : Option ℝ := (number cs).map (fun q => (q : ℝ))

/-- A point `x,y`. -/
noncomputable def readPoint (cs : List Char) : Option (Vec ℝ) :=
  match (cut ',' cs).map readNumber with
  | [some x, some y] => some ⟨x, y⟩
  | _ => none

/-- The value of a hexadecimal digit. -/
def hexWorth (c : Char) : Option ℕ := (hexLower.findIdx? (· == c)).or (hexUpper.findIdx? (· == c))

/-- A colour `#RRGGBBAA`. -/
def readColour : List Char → Option Color
  | ['#', r, r', g, g', b, b', a, a'] =>
    match hexWorth r, hexWorth r', hexWorth g, hexWorth g', hexWorth b, hexWorth b', hexWorth a, hexWorth a' with
    | some r, some r', some g, some g', some b, some b', some a, some a' =>
      some ⟨Fin.ofNat 256 (16 * r + r'), Fin.ofNat 256 (16 * g + g'), Fin.ofNat 256 (16 * b + b'), Fin.ofNat 256 (16 * a + a')⟩
    | _, _, _, _, _, _, _, _ => none
  | _ => none

/-- The closed lines of path data: `M` begins a line, `L` goes on and `z` closes it. -/
noncomputable def readLines : List (List Char) → List (Vec ℝ) → Option (List (List (Vec ℝ)))
  | [], line => if line.isEmpty then some [] else none
  | ['M'] :: p :: words, line =>
    match line, readPoint p with
    | [], some p => readLines words [p]
    | _, _ => none
  | ['L'] :: p :: words, line =>
    match line, readPoint p with
    | q :: line, some p => readLines words (q :: line ++ [p])
    | _, _ => none
  | ['z'] :: words, line =>
    match line, readLines words [] with
    | q :: line, some lines => some ((q :: line) :: lines)
    | _, _ => none
  | _, _ => none

/-- A transformation `matrix(a,b,c,d,e,f)`: the place of the point (x, y) is (a x + c y + e, b x + d y + f). -/
noncomputable def readMatrix (cs : List Char) : Option (Vec ℝ → Vec ℝ) :=
  if ("matrix(".toList).isPrefixOf cs ∧ cs.getLast? = some ')' then
    match (cut ',' (cs.drop 7).dropLast).map readNumber with
    | [some a, some b, some c, some d, some e, some f] => some fun p => ⟨a * p.x + c * p.y + e, b * p.x + d * p.y + f⟩
    | _ => none
  else none

/-! ## Drawings -/

/-- The value of an attribute. -/
def valueOf (name : String) (attributes : List Attribute) : Option (List Char) :=
  (attributes.find? (fun a => a.1 == name.toList)).map (·.2)

/-- A filled path: where the points of its own coordinates are in the document, its lines, and how it is painted. -/
structure Fill where
  place : Vec ℝ → Vec ℝ
  lines : List (List (Vec ℝ))
  colour : Color
  opacity : ℝ
  outlineColour : Color
  outlineWidth : ℝ

/-- A path element. -/
noncomputable def readPath (place : Vec ℝ → Vec ℝ) (attributes : List Attribute) : Option Fill :=
  match valueOf "fill-rule" attributes, (valueOf "fill" attributes).bind readColour,
    (valueOf "opacity" attributes).bind readNumber, (valueOf "stroke" attributes).bind readColour,
    (valueOf "stroke-width" attributes).bind readNumber,
    (valueOf "d" attributes).bind (fun d => readLines (cut ' ' d) []) with
  | some rule, some colour, some opacity, some outlineColour, some outlineWidth, some lines =>
    if rule = "evenodd".toList then some ⟨place, lines, colour, opacity, outlineColour, outlineWidth⟩ else none
  | _, _, _, _, _, _ => none

mutual
/-- The filled paths of an element, in the order in which they are painted. -/
noncomputable def fillsOf (place : Vec ℝ → Vec ℝ) : Xml → Option (List Fill)
  | .element name attributes children =>
    if name = "g".toList then
      match valueOf "transform" attributes with
      | none => fillsOfAll place children
      | some m =>
        match readMatrix m with
        | some inner => fillsOfAll (place ∘ inner) children
        | none => none
    else if name = "path".toList ∧ children.isEmpty then (readPath place attributes).map (fun f => [f])
    else none
/-- The filled paths of elements. -/
noncomputable def fillsOfAll (place : Vec ℝ → Vec ℝ) : List Xml → Option (List Fill)
  | [] => some []
  | x :: xs =>
    match fillsOf place x, fillsOfAll place xs with
    | some fills, some more => some (fills ++ more)
    | _, _ => none
end

/-- A drawing: its size, the rectangle of the document that is shown (the lower numbers, and its extent), and what is
painted. -/
structure Drawing where
  width : ℝ
  height : ℝ
  left : ℝ
  top : ℝ
  across : ℝ
  down : ℝ
  fills : List Fill

/-- The drawing of an `svg` element that keeps the aspect ratio, centred. -/
noncomputable def svgDrawing : Xml → Option Drawing
  | .element name attributes children =>
    if name = "svg".toList ∧ valueOf "xmlns" attributes = some "http://www.w3.org/2000/svg".toList ∧
        valueOf "preserveAspectRatio" attributes = some "xMidYMid meet".toList then
      match (valueOf "width" attributes).bind readNumber, (valueOf "height" attributes).bind readNumber,
        ((valueOf "viewBox" attributes).map (cut ' ')).map (List.map readNumber), fillsOfAll id children with
      | some width, some height, some [some left, some top, some across, some down], some fills =>
        some ⟨width, height, left, top, across, down, fills⟩
      | _, _, _, _ => none
    else none

/-- The drawing in a text. -/
noncomputable def readDrawing (cs : List Char) : Option Drawing := (readXml cs).bind svgDrawing

/-! ## What is seen -/

/-- The sides of a closed line. -/
def sides (line : List (Vec ℝ)) : List (Vec ℝ × Vec ℝ) := line.zip (line.tail ++ line.head?.toList)

/-- The ray from `p` to the right crosses the edge: one end is above the ray, the other is not, and the edge is to the
right of `p` at its height. -/
def Crosses (p : Vec ℝ) (e : Vec ℝ × Vec ℝ) : Prop :=
  (p.y < e.1.y ↔ ¬ p.y < e.2.y) ∧ p.x < e.1.x + (p.y - e.1.y) * (e.2.x - e.1.x) / (e.2.y - e.1.y)

open Classical in
/-- How often a ray from the point crosses a line. -/
noncomputable def crossings (line : List (Vec ℝ)) (p : Vec ℝ) : ℕ := (sides line).countP (fun e => Crosses p e)

/-- The point is within a closed line. -/
def WithinLine (line : List (Vec ℝ)) (p : Vec ℝ) : Prop := Odd (crossings line p)

/-- The even-odd rule for lines. -/
def EvenOdd (lines : List (List (Vec ℝ))) (p : Vec ℝ) : Prop := Odd ((lines.map (fun l => crossings l p)).sum)

/-- The point of the document that is seen at a place of the drawing, given from its upper left corner, to the right and
downwards: the rectangle is scaled to the largest size that fits and centred. -/
noncomputable def Drawing.seenAt (d : Drawing) (q : Vec ℝ) : Vec ℝ :=
  let scale := min (d.width / d.across) (d.height / d.down)
  ⟨d.left + (q.x - (d.width - scale * d.across) / 2) / scale, d.top + (q.y - (d.height - scale * d.down) / 2) / scale⟩

open Classical in
/-- What is painted at a place of the drawing, one over the other: colours with opacities. -/
noncomputable def Drawing.paint (d : Drawing) (q : Vec ℝ) : List (Color × ℝ) :=
  (d.fills.filter (fun f => ∃ p, f.place p = d.seenAt q ∧ EvenOdd f.lines p)).map (fun f => (f.colour, f.opacity))

/-- No outline is visible. -/
def Fill.NoOutline (f : Fill) : Prop := f.outlineWidth = 0 ∧ f.outlineColour.alpha.1 = 0

/-! ## What is to be shown -/

open Verif.Svg

/-- The point belongs to the polygon: it is within its outer ring and in no hole. -/
def InPolygon (P : Poly) (p : Vec ℝ) : Prop := WithinLine P.exterior p ∧ ∀ hole ∈ P.interiors, ¬ WithinLine hole p

/-- The point belongs to the geometry. -/
def InGeometry (g : Geometry) (p : Vec ℝ) : Prop := ∃ P ∈ g.polygons, InPolygon P p

/-- The rings are closed; each hole is within the outer ring; holes of a polygon do not overlap, nor do polygons. -/
structure Proper (g : Geometry) : Prop where
  closed : ∀ P ∈ g.polygons, ∀ ring ∈ P.exterior :: P.interiors, 2 ≤ ring.length ∧ ring.head? = ring.getLast?
  holes : ∀ P ∈ g.polygons, ∀ hole ∈ P.interiors, ∀ p, WithinLine hole p → WithinLine P.exterior p
  apart : ∀ P ∈ g.polygons, P.interiors.Pairwise fun a b => ∀ p, ¬ (WithinLine a p ∧ WithinLine b p)
  disjoint : g.polygons.Pairwise fun P Q => ∀ p, ¬ (InPolygon P p ∧ InPolygon Q p)

/-- The smallest rectangle around the corners of the outer rings. -/
structure Frames (g : Geometry) (xmin ymin xmax ymax : ℝ) : Prop where
  left : IsLeast {x | ∃ P ∈ g.polygons, ∃ p ∈ P.exterior, p.x = x} xmin
  bottom : IsLeast {y | ∃ P ∈ g.polygons, ∃ p ∈ P.exterior, p.y = y} ymin
  right : IsGreatest {x | ∃ P ∈ g.polygons, ∃ p ∈ P.exterior, p.x = x} xmax
  top : IsGreatest {y | ∃ P ∈ g.polygons, ∃ p ∈ P.exterior, p.y = y} ymax

/-- The numbers that are printed for a geometry. -/
def Printed (g : Geometry) (xmin ymin xmax ymax x : ℝ) : Prop :=
  x = 0 ∨ x = xmin ∨ x = ymin ∨ x = xmax - xmin ∨ x = ymax - ymin ∨ x = ymax + ymin ∨
  ∃ P ∈ g.polygons, ∃ ring ∈ P.exterior :: P.interiors, ∃ p ∈ ring, x = p.x ∨ x = p.y

end Verif.Spec
