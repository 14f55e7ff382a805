import Verif.Model.Compiler
import Verif.Model.Raster

/-!
# Image space (gerber/api/_gerber_file.py 38-177 and 593-626)

`render_with_pillow` from the syntax tree to the picture, without the caches of `GerberFile` (those are in
Model/GerberFile) and with the style given.
-/

namespace Verif.ImageSpace
open Verif.Geom Verif.Rvmc Verif.Vm Verif.Render Verif.Raster Verif.Compiler Verif.Console

noncomputable section

/-- _gerber_file.py 45-80 (`ImageSpace`): the values it is made of. -/
structure Space where
  /-- `units`. -/
  units : Visitor.UnitMode
  /-- `min_x`. -/
  minX : ℝ
  /-- `min_y`. -/
  minY : ℝ
  /-- `max_x`. -/
  maxX : ℝ
  /-- `max_y`. -/
  maxY : ℝ
  /-- `dpmm`. -/
  dpmm : ℤ

/-- _gerber_file.py 48-54 (`__init__`). -/
def Space.ofBox (units : Visitor.UnitMode) (box : Box ℝ) (dpmm : ℤ) : Space :=
  ⟨units, box.minX, box.minY, box.maxX, box.maxY, dpmm⟩

namespace Space

/-- _gerber_file.py 86-89 (`min_x_mm`). -/
def minXmm (s : Space) : ℝ := if s.units = .metric then s.minX else s.minX * 25.4

/-- _gerber_file.py 91-94 (`min_y_mm`). -/
def minYmm (s : Space) : ℝ := if s.units = .metric then s.minY else s.minY * 25.4

/-- _gerber_file.py 96-99 (`max_x_mm`). -/
def maxXmm (s : Space) : ℝ := if s.units = .metric then s.maxX else s.maxX * 25.4

/-- _gerber_file.py 101-104 (`max_y_mm`). -/
def maxYmm (s : Space) : ℝ := if s.units = .metric then s.maxY else s.maxY * 25.4

/-- _gerber_file.py 106-109 (`width_mm`). -/
def widthMm (s : Space) : ℝ := s.maxXmm - s.minXmm

/-- _gerber_file.py 111-114 (`height_mm`). -/
def heightMm (s : Space) : ℝ := s.maxYmm - s.minYmm

/-- _gerber_file.py 116-122 (`center_x_mm`). -/
def centerXmm (s : Space) : ℝ := (s.minXmm + s.maxXmm) / 2

/-- _gerber_file.py 124-130 (`center_y_mm`). -/
def centerYmm (s : Space) : ℝ := (s.minYmm + s.maxYmm) / 2

/-- _gerber_file.py 132-138 (`min_x_pixels`). -/
def minXpixels (s : Space) : ℤ := truncate (s.minXmm * s.dpmm)

/-- _gerber_file.py 140-146 (`min_y_pixels`). -/
def minYpixels (s : Space) : ℤ := truncate (s.minYmm * s.dpmm)

/-- _gerber_file.py 148-151 (`max_x_pixels`). -/
def maxXpixels (s : Space) : ℤ := truncate (s.maxXmm * s.dpmm)

/-- _gerber_file.py 153-156 (`max_y_pixels`). -/
def maxYpixels (s : Space) : ℤ := truncate (s.maxYmm * s.dpmm)

end Space

/-- What can go wrong in `render_with_pillow`. -/
inductive RenderErr
  | compiling (e : CErr)
  | rendering (e : VErr)
  | state (e : Visitor.Exn)
  | noImage

/-- vm/pillow/vm.py 514-530 (`run`): `main_box` of the result. -/
def mainBox : Option (Eager Bitmap) → Box ℝ
  | none => ⟨0, 0, 0, 0⟩
  | some e => e.box

/-- gerber/ast/__init__.py 61-64 (`get_final_state`). -/
def finalState (file : List Visitor.Cmd) : Except RenderErr Visitor.VState :=
  let o := Visitor.processFile false file
  match o.exn with
  | some e => .error (.state e)
  | none => .ok o.st

/-- _gerber_file.py 593-626 (`render_with_pillow`) for the syntax tree of the file; `ignore` is the compiler option
`ignore_program_stop`. -/
def renderWithPillow (env : Env) (ignore : Bool) (Ra : Raster) (fuel : ℕ) (fail : Bool) (style : Style) (dpmm : ℤ)
    (file : List Visitor.Cmd) : Except RenderErr (Space × Picture) :=
  match compile env ignore file with
  | .error e => .error (.compiling e)
  | .ok rvmc =>
    match Vm.run (pillow Ra dpmm fuel) fail .main rvmc with
    | .error e => .error (.rendering e)
    | .ok result =>
      match finalState file with
      | .error e => .error e
      | .ok state =>
        match getImage (some (resultImage result)) style with
        | none => .error .noImage
        | some image => .ok (Space.ofBox state.unit (mainBox result) dpmm, image)

end
end Verif.ImageSpace
