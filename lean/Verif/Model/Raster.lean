import Verif.Model.Render
import Verif.Model.Composite
import Verif.Model.Console

/-!
# Coloured pictures (vm/pillow/vm.py 44-265 and 514-530, gerber/api/_gerber_file.py 185-345,
gerber/api/_composite_view.py 61-105)

What is used of the image library (Pillow) is described by the arithmetic it does on bytes.
-/

namespace Verif.Raster
open Verif.Color Verif.Console Verif.Render Verif.Vm Verif.Api

/-- A picture of mode "RGBA" (or "RGB", the alpha being 255).  Only pixels in the frame are looked at; the first row is the
top. -/
structure Picture where
  /-- Number of columns. -/
  width : ℤ
  /-- Number of rows. -/
  height : ℤ
  /-- Colour of the pixel in a column and a row. -/
  pixel : ℤ × ℤ → Color

/-- The pixels of a picture. -/
def Picture.frame (i : Picture) : Set (ℤ × ℤ) := {q | 0 ≤ q.1 ∧ q.1 < i.width ∧ 0 ≤ q.2 ∧ q.2 < i.height}

/-- Pillow, `ImagingUtils.h`: `DIV255(a, tmp)`. -/
def div255 (a : ℕ) : ℕ := (((a + 128) >>> 8) + (a + 128)) >>> 8

/-- Pillow, `ImagingUtils.h`: `BLEND(mask, in1, in2, tmp)`, stored in a byte. -/
def blendByte (mask old new : Fin 256) : Fin 256 := Fin.ofNat 256 (div255 (old.1 * (255 - mask.1) + new.1 * mask.1))

/-- Pillow, `Paste.c`: `paste_mask_L` for pixels of four bytes. -/
def blend (mask : Fin 256) (old new : Color) : Color :=
  ⟨blendByte mask old.red new.red, blendByte mask old.green new.green, blendByte mask old.blue new.blue,
    blendByte mask old.alpha new.alpha⟩

/-- `Image.new("RGBA", (width, height), color)`. -/
def Picture.new (width height : ℤ) (color : Color) : Picture := ⟨width, height, fun _ => color⟩

open Classical in
/-- `Image.paste(image, (x, y), mask)` with a mask of mode "L" as large as the image; what is outside of this picture is
cut off. -/
noncomputable def Picture.paste (i image : Picture) (at' : ℤ × ℤ) (mask : ℤ × ℤ → Fin 256) : Picture :=
  { i with pixel := fun q =>
      let r := (q.1 - at'.1, q.2 - at'.2)
      if r ∈ image.frame then blend (mask r) (i.pixel q) (image.pixel r) else i.pixel q }

/-- `Image.composite(image1, image2, mask)`: the first is pasted on a copy of the second. -/
noncomputable def compose (image1 image2 : Picture) (mask : ℤ × ℤ → Fin 256) : Picture := image2.paste image1 (0, 0) mask

open Classical in
/-- `Image.convert("L")` of an image of mode "1". -/
noncomputable def toMask (i : Bitmap) (q : ℤ × ℤ) : Fin 256 := if q ∈ i.lit then 255 else 0

/-- vm/pillow/vm.py 229-254 (`get_image`); `none` is the `ValueError` for a result without an image. -/
noncomputable def getImage (image : Option Bitmap) (style : Style) : Option Picture :=
  match image with
  | none => none
  | some i =>
    let mask := toMask i
    let backgroundImg := Picture.new i.width i.height style.background
    let foregroundImg := Picture.new i.width i.height style.foreground
    some (compose foregroundImg backgroundImg mask)

/-- vm/pillow/vm.py 514-530 (`run`): the image of the result; a single pixel when there is no main layer. -/
def resultImage : Option (Eager Bitmap) → Bitmap
  | none => ⟨1, 1, ∅⟩
  | some e => pillowResult e

/-- Names of formats of the image library. -/
inductive Codec | bmp | png | jpeg | tiff | webp
  deriving DecidableEq, Repr

/-- Whether the pixels given to the image library have a fourth channel. -/
inductive Mode | rgb | rgba
  deriving DecidableEq, Repr

/-- `Image.convert("RGB")` of a picture of mode "RGBA": the fourth channel is left out. -/
def Picture.toRgb (i : Picture) : Picture := { i with pixel := fun q => { i.pixel q with alpha := 255 } }

/-- vm/pillow/vm.py 96-227 (`save_bmp` to `save_webp`) and _gerber_file.py 227-326: what is given to the image library to
be written. -/
def saveAs (c : Codec) (i : Picture) : Codec × Mode × Picture :=
  match c with
  | .bmp => (.bmp, .rgba, i)
  | .png => (.png, .rgba, i)
  | .jpeg => (.jpeg, .rgb, i.toRgb)
  | .tiff => (.tiff, .rgba, i)
  | .webp => (.webp, .rgb, i.toRgb)

/-- vm/pillow/vm.py 83-94 and _gerber_file.py 213-224 (`save`); `fold` is `str.casefold`, `none` is
`NotImplementedError`. -/
def save (fold : List Char → List Char) (fileFormat : List Char) (i : Picture) : Option (Codec × Mode × Picture) :=
  if fold fileFormat = fold "bmp".toList then some (saveAs .bmp i)
  else if fold fileFormat = fold "png".toList then some (saveAs .png i)
  else if fold fileFormat = fold "jpeg".toList then some (saveAs .jpeg i)
  else if fold fileFormat = fold "tiff".toList then some (saveAs .tiff i)
  else if fold fileFormat = fold "webp".toList then some (saveAs .webp i)
  else none

/-- _composite_view.py 86-101: one picture after the other is pasted, its alpha channel being the mask. -/
noncomputable def pasteAll : List (Picture × ℤ × ℤ) → Picture → Picture
  | [], image => image
  | (p, x, y) :: ps, image => pasteAll ps (image.paste p (x, y) (fun q => (p.pixel q).alpha))

/-- _composite_view.py 61-105 (`render_with_pillow`): the picture of a view, given the pictures of its files. -/
noncomputable def viewPicture (dpmm : ℕ) (images : List (SubImage × Picture)) : Option Picture :=
  match composite dpmm (images.map (·.1)) with
  | none => none
  | some c => some (pasteAll ((images.zip c.pasted).map fun x => (x.1.2, x.2.2)) (Picture.new c.width c.height ⟨0, 0, 0, 0⟩))

end Verif.Raster
