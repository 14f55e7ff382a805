import Verif.Spec.Image
import Verif.Spec.Console
import Verif.Model.Raster

/-!
# The pixels described by layers that paste each other, and their colours
-/

namespace Verif.Spec
open Verif.Geom Verif.Rvmc Verif.Vm Verif.Color Verif.Console Verif.Raster

mutual
/-- `ShowsPixels … layers boxes id objects`: what is drawn on the image of the layer `id`, whose pixel (0, 0) is the lower
left corner of the box of the layer, are the `objects`, in order. -/
inductive ShowsPixels {ι : Type} (dpmm : ℤ) (outline : Shape → Except VErr (List (Vec ℝ)))
    (fill : List (ℤ × ℤ) → Set (ℤ × ℤ)) (layers : List (Layer ι)) (boxes : ι → Box ℝ) :
    ι → List (Painted (ℤ × ℤ)) → Prop
  | layer (l : Layer ι) (objects : List (Painted (ℤ × ℤ))) (mem : l ∈ layers)
      (drawn : ShowsAllPixels dpmm outline fill layers boxes (boxes l.id) l.cmds objects) :
      ShowsPixels dpmm outline fill layers boxes l.id objects
/-- The objects drawn by commands on the image of a box: for a shape the pixels in the polygon; for a pasted layer the pixels
covered on the image of that layer, moved so that its origin is at the given point. -/
inductive ShowsAllPixels {ι : Type} (dpmm : ℤ) (outline : Shape → Except VErr (List (Vec ℝ)))
    (fill : List (ℤ × ℤ) → Set (ℤ × ℤ)) (layers : List (Layer ι)) (boxes : ι → Box ℝ) :
    Box ℝ → List (Draw ι) → List (Painted (ℤ × ℤ)) → Prop
  | nil (box : Box ℝ) : ShowsAllPixels dpmm outline fill layers boxes box [] []
  | shape (box : Box ℝ) (s : Shape) (vertices : List (Vec ℝ)) (ds : List (Draw ι)) (os : List (Painted (ℤ × ℤ)))
      (inside : outline s = .ok vertices) (more : ShowsAllPixels dpmm outline fill layers boxes box ds os) :
      ShowsAllPixels dpmm outline fill layers boxes box (.shape s :: ds)
        (⟨!s.negative, fill (vertices.map fun p => pixel dpmm (p - lowerLeft box))⟩ :: os)
  | paste (box : Box ℝ) (source : ι) (center : Vec ℝ) (negative : Bool) (objects : List (Painted (ℤ × ℤ)))
      (ds : List (Draw ι)) (os : List (Painted (ℤ × ℤ))) (shift : ℤ × ℤ)
      (moved : shift = pixel dpmm (center + lowerLeft (boxes source) - lowerLeft box))
      (pasted : ShowsPixels dpmm outline fill layers boxes source objects)
      (more : ShowsAllPixels dpmm outline fill layers boxes box ds os) :
      ShowsAllPixels dpmm outline fill layers boxes box (.paste source center negative :: ds)
        (⟨!negative, {q | (q.1 - shift.1, q.2 - shift.2) ∈ imageOf dpmm (boxes source) ∧
          Covered objects (q.1 - shift.1, q.2 - shift.2)}⟩ :: os)
end

/-- The box of a drawing command lies in `X`. -/
def DrawIn {ι : Type} (boxes : ι → Box ℝ) (X : Box ℝ) : Draw ι → Prop
  | .shape s => BoxIn s.outerBox X
  | .paste source center _ => BoxIn ⟨(boxes source).minX + center.x, (boxes source).minY + center.y,
      (boxes source).maxX + center.x, (boxes source).maxY + center.y⟩ X

/-- The box of every layer that is drawn on is the smallest one around everything drawn on it. -/
def SmallestBoxes {ι : Type} (layers : List (Layer ι)) (boxes : ι → Box ℝ) : Prop :=
  ∀ l ∈ layers, l.cmds ≠ [] → ∀ X, BoxIn (boxes l.id) X ↔ ∀ d ∈ l.cmds, DrawIn boxes X d

/-- The names of the formats. -/
def codecName : Codec → String
  | .bmp => "bmp"
  | .png => "png"
  | .jpeg => "jpeg"
  | .tiff => "tiff"
  | .webp => "webp"

/-- Two colours that differ at most in transparency. -/
def SameHue (c d : Color) : Prop := c.red = d.red ∧ c.green = d.green ∧ c.blue = d.blue

/-- Nothing. -/
def clear : Color := ⟨0, 0, 0, 0⟩

/-- `x` is the natural number nearest to the mean of `old` and `new`, weighted with `255 - weight` and `weight`. -/
def NearestMean (weight old new x : ℕ) : Prop := |(old * (255 - weight) + new * weight : ℚ) / 255 - x| < 1 / 2

/-- The case folding of Python, of which only its effect on plain letters matters. -/
def FoldsAscii (fold : List Char → List Char) : Prop := ∀ w, (∀ c ∈ w, c.toNat < 128) → fold w = w.map Char.toLower

/-- A picture put at an offset has an opaque pixel at a place. -/
def OpaqueAt (x : Picture × ℤ × ℤ) (q : ℤ × ℤ) : Prop :=
  (q.1 - x.2.1, q.2 - x.2.2) ∈ x.1.frame ∧ (x.1.pixel (q.1 - x.2.1, q.2 - x.2.2)).alpha = 255

/-- Every pixel of a picture is opaque or fully transparent. -/
def Crisp (p : Picture) : Prop := ∀ q ∈ p.frame, (p.pixel q).alpha = 0 ∨ (p.pixel q).alpha = 255

/-- The pictures of a view with the offsets they are put at. -/
def putAt (images : List (Api.SubImage × Picture)) (c : Api.Composite) : List (Picture × ℤ × ℤ) :=
  List.zipWith (fun i x => (i.2, x.2)) images c.pasted

end Verif.Spec
