import Verif.Model.Render
import Verif.Model.Console
import Verif.Model.Peg

/-!
# Saving a result as SVG (vm/shapely/vm.py, gerber/api/_gerber_file.py)

`text` is the way Python prints a float (`str`).  Simplification: exact real arithmetic instead of IEEE doubles; the
geometry library is described by the properties and methods used of it (`bounds`, `is_empty`, `svg`).
-/

namespace Verif.Svg
open Verif.Geom Verif.Color Verif.Peg Verif.Console
noncomputable section

/-- A closed line: the first point is repeated at the end. -/
abbrev Ring := List (Vec ℝ)

/-- `shapely.Polygon`: the ring around it and the rings around its holes. -/
structure Poly where
  exterior : Ring
  interiors : List Ring

/-- What `unary_union` of polygons gives: a polygon, several, or (a collection of) none. -/
inductive Geometry
  | polygon (p : Poly)
  | several (ps : List Poly)

/-- The polygons of a geometry (`geoms`). -/
def Geometry.polygons : Geometry → List Poly
  | .polygon p => [p]
  | .several ps => ps

/-- `BaseGeometry.is_empty`. -/
def Geometry.isEmpty (g : Geometry) : Bool := g.polygons.isEmpty

/-- The points of the outer rings. -/
def Geometry.corners (g : Geometry) : List (Vec ℝ) := g.polygons.flatMap Poly.exterior

/-- The least of a list of numbers. -/
def least : List ℝ → ℝ
  | [] => 0
  | x :: xs => xs.foldl min x

/-- The greatest of a list of numbers. -/
def greatest : List ℝ → ℝ
  | [] => 0
  | x :: xs => xs.foldl max x

/-- `BaseGeometry.bounds`. -/
def Geometry.bounds (g : Geometry) : ℝ × ℝ × ℝ × ℝ :=
  (least (g.corners.map Vec.x), least (g.corners.map Vec.y), greatest (g.corners.map Vec.x), greatest (g.corners.map Vec.y))

variable (text : ℝ → Text)

/-- `str.join`. -/
def joined (separator : Text) : List Text → Text
  | [] => []
  | [t] => t
  | t :: ts => t ++ separator ++ joined separator ts

/-- `"{},{}".format(*c)` of shapely's `Polygon.svg`. -/
def pointText (p : Vec ℝ) : Text := text p.x ++ t!"," ++ text p.y

/-- `"M {} L {} z".format(coords[0], " L ".join(coords[1:]))` of shapely's `Polygon.svg`. -/
def ringText : Ring → Text
  | [] => []
  | p :: ps => t!"M " ++ pointText text p ++ t!" L " ++ joined t!" L " (ps.map (pointText text)) ++ t!" z"

/-- shapely's `Polygon.svg(scale_factor, fill_color)`: the opacity is 0.6 unless it is given. -/
def polygonSvg (scaleFactor : ℝ) (fillColor : Text) (p : Poly) : Text :=
  t!"<path fill-rule=\"evenodd\" fill=\"" ++ fillColor ++ t!"\" stroke=\"#555555\" stroke-width=\"" ++
  text (2 * scaleFactor) ++ t!"\" opacity=\"" ++ t!"0.6" ++ t!"\" d=\"" ++
  joined t!" " ((p.exterior :: p.interiors).map (ringText text)) ++ t!"\" />"

/-- `svg` of a polygon or of a collection of polygons, which is put into a group. -/
def Geometry.svg (scaleFactor : ℝ) (fillColor : Text) : Geometry → Text
  | .polygon p => polygonSvg text scaleFactor fillColor p
  | .several ps => t!"<g>" ++ (ps.map (polygonSvg text scaleFactor fillColor)).flatten ++ t!"</g>"

/-- `str.replace`: from left to right, what has been put in is not looked at again. -/
def replaced (old new : Text) : ℕ → Text → Text
  | 0, cs => cs
  | _ + 1, [] => []
  | fuel + 1, c :: cs =>
    if old.isPrefixOf (c :: cs) then new ++ replaced old new fuel ((c :: cs).drop old.length)
    else c :: replaced old new fuel cs

/-- `s.replace(old, new)`. -/
def replace (old new s : Text) : Text := replaced old new (s.length + 1) s

/-- shapely/vm.py 137-175 (`_dump_svg`): the pieces of text that are encoded and written one after the other. -/
def dumpSvg (g : Geometry) (color : Style) : List Text :=
  let opening := t!"<svg xmlns=\"http://www.w3.org/2000/svg\" xmlns:xlink=\"http://www.w3.org/1999/xlink\" "
  if g.isEmpty then [opening, t!"/>"] else
  let (xmin, ymin, xmax, ymax) := g.bounds
  let dx := xmax - xmin
  let dy := ymax - ymin
  let viewBox := text xmin ++ t!" " ++ text ymin ++ t!" " ++ text dx ++ t!" " ++ text dy
  let transform := t!"matrix(1,0,0,-1,0," ++ text (ymax + ymin) ++ t!")"
  [opening, t!"width=\"" ++ text dx ++ t!"\" ", t!"height=\"" ++ text dy ++ t!"\" ",
   t!"viewBox=\"" ++ viewBox ++ t!"\" ", t!"preserveAspectRatio=\"xMidYMid meet\" ", t!">",
   replace t!"stroke=\"#555555\"" t!"stroke=\"#00000000\""
     (t!"<g transform=\"" ++ transform ++ t!"\">" ++ g.svg text 0 color.foreground.toHex ++ t!"</g>"),
   t!"</svg>"]

/-- The objects that may be given as destination: a path (`str` or `Path`), a `BytesIO`, an open file (what the builtin
`open` returns in a binary mode), which is not an instance of `typing.BinaryIO`, or an instance of a subclass of
`typing.BinaryIO`. -/
inductive Destination | path | bytesIO | openFile | binaryIO
  deriving DecidableEq, Repr

/-- shapely/vm.py 124-135 (`save_svg`): the bytes that are written; `none` when `NotImplementedError` is raised.
`encode` is `str.encode` with the encoding asked for. -/
def saveSvg {Byte : Type} (encode : Text → List Byte) (destination : Destination) (g : Geometry) (color : Style) :
    Option (List Byte) :=
  match destination with
  | .path | .bytesIO | .binaryIO => some ((dumpSvg text g color).flatMap encode)
  | .openFile => none

/-- shapely/vm.py 92-95 (`save`): `fold` is `str.casefold`. -/
def save {Byte : Type} (fold : Text → Text) (encode : Text → List Byte) (destination : Destination) (fileFormat : Text)
    (g : Geometry) (color : Style) : Option (List Byte) :=
  if fold fileFormat = fold t!"svg" then saveSvg text encode destination g color else none

/-- gerber/api/_gerber_file.py 359-389 (`ShapelyImage.save`, `ShapelyImage.save_svg`): keyword arguments, such as the
encoding, are not passed on, so that it is UTF-8. -/
def imageSaveSvg {Byte : Type} (utf8 : Text → List Byte) (_encoding : Option (Text → List Byte))
    (destination : Destination) (g : Geometry) (color : Style) : Option (List Byte) :=
  saveSvg text utf8 destination g color

end
end Verif.Svg
