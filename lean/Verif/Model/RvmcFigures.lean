import Verif.Model.RvmcBuilder
import Verif.Model.Compiler

/-!
# The figures of the RVMC builder (builder/rvmc.py)
-/

namespace Verif.RvmcBuilder
open Verif.Rvmc Verif.Geom
noncomputable section

/-- What a layer builder can draw: its methods with their arguments, up to `is_negative`. -/
inductive Mark
  /-- rvmc.py 197-204. -/
  | circle (center : Vec ℝ) (diameter : ℝ)
  /-- rvmc.py 211-225. -/
  | rectangle (center : Vec ℝ) (width height : ℝ)
  /-- rvmc.py 227-241. -/
  | obround (center : Vec ℝ) (width height : ℝ)
  /-- rvmc.py 243-284. -/
  | polygon (center : Vec ℝ) (outerDiameter : ℝ) (vertices : ℤ) (rotation : ℝ)
  /-- rvmc.py 286-300. -/
  | line (start stop : Vec ℝ) (thickness : ℝ)
  /-- rvmc.py 302-322. -/
  | cross (center : Vec ℝ) (width height thickness : ℝ)
  /-- rvmc.py 324-350. -/
  | x (center : Vec ℝ) (length thickness : ℝ)

/-- rvmc.py 197-350: the shapes appended; `new_polygon` has an assertion. -/
def Mark.shapes (negative : Bool) : Mark → Except Compiler.CErr (List Shape)
  | .circle c d => .ok [Shape.newCircle c d negative]
  | .rectangle c w h => .ok [Shape.newRectangle c w h negative]
  | .obround c w h => .ok [Shape.newObround c w h negative]
  | .polygon c d n r => do
    let s ← Compiler.polygon c d n r negative
    return [s]
  | .line a b t => .ok [Shape.newLine a b t negative]
  | .cross c w h t => .ok [Shape.newRectangle c w t negative, Shape.newRectangle c t h negative]
  | .x c l t =>
    let half := l / 2
    .ok [Shape.newLine ⟨c.x + half, c.y + half⟩ ⟨c.x - half, c.y - half⟩ t negative,
      Shape.newLine ⟨c.x - half, c.y + half⟩ ⟨c.x + half, c.y - half⟩ t negative]

/-- What a script does with the builder. -/
inductive Deed (ι : Type)
  /-- Enter `with builder.layer(box, origin)`. -/
  | layer (box : Option (Box ℝ)) (origin : Vec ℝ)
  /-- Enter `with layer.layer(id, box, origin)`. -/
  | nested (layer : ℕ) (id : ι) (box : Option (Box ℝ)) (origin : Vec ℝ)
  /-- Leave the innermost block. -/
  | leave
  /-- `layer.circle(…)` and the like. -/
  | mark (layer : ℕ) (figure : Mark) (negative : Bool)
  /-- `layer.paste(source, at)`. -/
  | paste (layer : ℕ) (source : ℕ) (center : Vec ℝ) (negative : Bool)
  /-- `builder.get_rvmc()`. -/
  | getRvmc

/-- What a script can fail with: an error of the builder, or the assertion of `new_polygon`. -/
inductive Mishap
  | builder (e : BErr) | shape (e : Compiler.CErr)

/-- The operation that a call amounts to. -/
def Deed.op {ι : Type} : Deed ι → Except Compiler.CErr (Op ι)
  | .layer b o => .ok (.enterMain b o)
  | .nested r id b o => .ok (.enter r id b o)
  | .leave => .ok .exit
  | .mark r m neg => do
    let ss ← m.shapes neg
    return .shapes r ss
  | .paste r src c neg => .ok (.paste r src c neg)
  | .getRvmc => .ok .getRvmc

/-- One call. Simplification: where a call fails for two reasons, the error of the shape is the one reported. -/
def perform {ι : Type} (main : ι) (c : Deed ι) (s : State ι) : Except Mishap (State ι) :=
  match c.op with
  | .error e => .error (.shape e)
  | .ok op =>
    match step main op s with
    | (s', none) => .ok s'
    | (_, some e) => .error (.builder e)

/-- The calls of a script, which ends with the first error. -/
def performAll {ι : Type} (main : ι) : List (Deed ι) → State ι → Except Mishap (State ι)
  | [], s => .ok s
  | c :: cs, s => do
    let s' ← perform main c s
    performAll main cs s'

end
end Verif.RvmcBuilder
