import Verif.Model.GerberFile
import Mathlib.Data.Rat.Floor
import Mathlib.Algebra.Order.Field.Basic

/-!
# Composite views (gerber/api/_composite_view.py) and the pixel coordinates they use

Simplification: numbers are exact rationals instead of binary floating point.
-/

namespace Verif.Api

/-- `int(x)`: truncation towards zero. -/
def trunc (x : ℚ) : Int := if 0 ≤ x then ⌊x⌋ else ⌈x⌉

/-- A rendered file: its image space (_gerber_file.py 45-54) and the size of its picture. -/
structure SubImage where
  /-- Unit of the file. -/
  unit : Unit'
  /-- `min_x`. -/
  minX : ℚ
  /-- `min_y`. -/
  minY : ℚ
  /-- `max_x`. -/
  maxX : ℚ
  /-- `max_y`. -/
  maxY : ℚ
  deriving DecidableEq, Repr

/-- _gerber_file.py 85-103 (`min_x_mm` and the others). -/
def toMm (u : Unit') (v : ℚ) : ℚ := if u = .mm then v else v * (254 / 10)

/-- _gerber_file.py 131-155 (`min_x_pixels` and the others). -/
def pixels (dpmm : Nat) (u : Unit') (v : ℚ) : Int := trunc (toMm u v * dpmm)

/-- vm/pillow/vm.py 267-286 (`pixel_size`), the width: the box is in the unit of the file. -/
def SubImage.width (dpmm : Nat) (i : SubImage) : Int := trunc ((i.maxX - i.minX) * dpmm)
/-- vm/pillow/vm.py 267-286 (`pixel_size`), the height. -/
def SubImage.height (dpmm : Nat) (i : SubImage) : Int := trunc ((i.maxY - i.minY) * dpmm)

/-- `max(images, key=...)`: the first largest. -/
def maxBy (key : SubImage → ℚ) : SubImage → List SubImage → SubImage
  | best, [] => best
  | best, i :: is => maxBy key (if key best < key i then i else best) is

/-- A composite image: its size, and each sub-image with its size and the offset it is pasted at. -/
structure Composite where
  /-- Width in pixels. -/
  width : Int
  /-- Height in pixels. -/
  height : Int
  /-- Sub-image, horizontal offset from the left, vertical offset from the top. -/
  pasted : List (SubImage × Int × Int)
  deriving DecidableEq, Repr

/-- _composite_view.py 61-102 (`render_with_pillow`) for the sub-images rendered at a resolution; `none` is the
`ValueError` of `max` for a view without files.  `min(images, key=...)` is the first largest of the opposite. -/
def composite (dpmm : Nat) (images : List SubImage) : Option Composite :=
  match images with
  | [] => none
  | i :: is =>
    let maxXImage := maxBy (·.maxX) i is
    let maxYImage := maxBy (·.maxY) i is
    let minXImage := maxBy (fun j => -j.minX) i is
    let minYImage := maxBy (fun j => -j.minY) i is
    some
      { width := pixels dpmm maxXImage.unit maxXImage.maxX - pixels dpmm minXImage.unit minXImage.minX
        height := pixels dpmm maxYImage.unit maxYImage.maxY - pixels dpmm minYImage.unit minYImage.minY
        pasted := (i :: is).map fun j =>
          (j, |pixels dpmm minXImage.unit minXImage.minX - pixels dpmm j.unit j.minX|,
            |pixels dpmm maxYImage.unit maxYImage.maxY - pixels dpmm j.unit j.maxY|) }

end Verif.Api
