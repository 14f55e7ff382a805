import Verif.Spec.Inside
import Verif.Spec.MacroShape

/-!
# The picture that a Gerber file describes

A reading of the commands of a file that knows nothing of layers, buffers, copies or programs: what is drawn so far, what
the aperture codes stand for, and the contour of the region being drawn.  Points are points of the plane, and whether one
is covered is decided by the last object that contains it.
-/

namespace Verif.Spec
open Verif.Visitor Verif.Coord Verif.Geom Verif.Rvmc Verif.Compiler Verif.Math Verif.Macro Real
noncomputable section

/-! ## Macros with thermals -/

/-- The points of a thermal: the ring about `c` between the circles of diameters `k` and `d`, except two bars of the
width `g` across it. -/
def Thermal (c : Vec ℝ) (d k g : ℚ) (p : Vec ℝ) : Prop :=
  ((k : ℝ) / 2) ^ 2 ≤ (p.x - c.x) ^ 2 + (p.y - c.y) ^ 2 ∧ (p.x - c.x) ^ 2 + (p.y - c.y) ^ 2 ≤ ((d : ℝ) / 2) ^ 2 ∧
  (g : ℝ) / 2 < |p.x - c.x| ∧ (g : ℝ) / 2 < |p.y - c.y|

/-- The figures of a macro, thermals included. -/
inductive MacroPaints : (List Char → Option ℚ) → List Prim → List (Bool × Figure) → Prop
  | nil (ρ) : MacroPaints ρ [] []
  | assign {ρ name e v rest figures} : Value ρ e v →
      MacroPaints (fun n => if n = name then some v else ρ n) rest figures →
      MacroPaints ρ (.assign name e :: rest) figures
  | primitive {ρ p rest drawn figures} : Prescribed ρ p drawn → MacroPaints ρ rest figures →
      MacroPaints ρ (p :: rest) (drawn ++ figures)
  | thermal {ρ node centerX centerY outer inner gap rotation x y d k g r rest figures} :
      Values ρ [centerX, centerY, outer, inner, gap, rotation] [x, y, d, k, g, r] → 0 < k → k < d → 0 ≤ g →
      MacroPaints ρ rest figures →
      MacroPaints ρ (.code7 node centerX centerY outer inner gap rotation :: rest)
        ((true, Turned r (Thermal (point x y) d k g)) :: figures)

/-- The figures of an aperture about its origin; `macros` are the bodies of the macros. -/
inductive AperturePaints (macros : Name → Option (List Prim)) : ApDef → List (Bool × Figure) → Prop
  | standard {d figures} : (∀ name params, d ≠ .macro name params) → ApertureFigures macros d figures →
      AperturePaints macros d figures
  | «macro» {name params body figures} : macros name = some body → MacroPaints (parameter params) body figures →
      AperturePaints macros (.macro name params) figures

/-! ## Sheets -/

/-- What an aperture code stands for: an aperture, with its definition, or a block; and the objects it consists of. -/
inductive Tool
  | single (d : ApDef) (objects : List (Painted (Vec ℝ)))
  | block (objects : List (Painted (Vec ℝ)))

/-- The state of the drawing. -/
structure Sheet where
  /-- The objects drawn so far: in each of the open blocks, the innermost first, and at the end in the picture. -/
  drawn : List (List (Painted (Vec ℝ)))
  /-- What the codes stand for. -/
  tools : Name → Option Tool
  /-- The contour of the region being drawn. -/
  contour : List Segment

/-- Objects drawn in the innermost open block, or in the picture. -/
def Sheet.add (s : Sheet) (objects : List (Painted (Vec ℝ))) : Sheet :=
  match s.drawn with
  | [] => s
  | top :: rest => { s with drawn := (top ++ objects) :: rest }

/-- A code given a meaning. -/
def Sheet.define (s : Sheet) (id : Name) (t : Tool) : Sheet :=
  { s with tools := fun i => if i = id then some t else s.tools i }

/-- A figure as an object. -/
def asObject (f : Bool × Figure) : Painted (Vec ℝ) := ⟨f.1, {p | f.2 p}⟩

/-- The polarity in force is dark. -/
def inDark (h : List Atom) : Bool := decide (latest setsPolarity .dark h = .dark)

/-- A command is executed in a region. -/
def inRegion (h : List Atom) : Bool := latest setsRegion false h

/-- What a contour is filled with. -/
def filledContour (dark : Bool) : List Segment → List (Painted (Vec ℝ))
  | [] => []
  | g :: gs => [⟨dark, areaOf ⟨g, gs, false⟩⟩]

/-- The copies that a step and repeat block makes of what was drawn in it, column by column. -/
def repeated (p : SrParams) (body : List (Painted (Vec ℝ))) : List (Painted (Vec ℝ)) :=
  (List.range p.xRepeats).flatMap fun k : ℕ => (List.range p.yRepeats).flatMap fun l : ℕ =>
    body.map (Painted.image fun v => v + ⟨(k : ℝ) * p.xDelta, (l : ℝ) * p.yDelta⟩)

/-- `Pictured h s`: the commands `h` describe the drawing `s`. -/
inductive Pictured : List Atom → Sheet → Prop
  /-- At the start the picture is empty and no code has a meaning. -/
  | start : Pictured [] ⟨[[]], fun _ => none, []⟩
  /-- `AD` gives a code the figures of an aperture. -/
  | aperture {h s id d figures} : Pictured h s → inRegion h = false →
      AperturePaints (fun name => latest (givesMacro name) none h) d figures →
      Pictured (h ++ [.leaf (.ad id d)]) (s.define id (.single d (figures.map asObject)))
  /-- `AB` begins a block, in which nothing is drawn yet. -/
  | blockOpen {h s id} : Pictured h s → inRegion h = false →
      Pictured (h ++ [.abOpen id]) { s with drawn := [] :: s.drawn }
  /-- Its end gives the code the objects drawn in the block. -/
  | blockClose {h s id body rest} : Pictured h s → inRegion h = false → s.drawn = body :: rest →
      Pictured (h ++ [.abClose id]) (Sheet.define { s with drawn := rest } id (.block body))
  /-- `SR` begins a block. -/
  | repeatOpen {h s p} : Pictured h s → inRegion h = false →
      Pictured (h ++ [.srOpen p]) { s with drawn := [] :: s.drawn }
  /-- Its end draws copies of what was drawn in the block. -/
  | repeatClose {h s p body rest} : Pictured h s → inRegion h = false → s.drawn = body :: rest →
      Pictured (h ++ [.srClose p]) (Sheet.add { s with drawn := rest } (repeated p body))
  /-- A flash of an aperture is one object in the polarity in force: the points that the aperture covers, scaled, rotated
  and mirrored by the load commands, and moved to the point of the flash. -/
  | flash {h s id d objects x y p} : Pictured h s → inRegion h = false → selected h = some id →
      s.tools id = some (.single d objects) → At (h ++ [.leaf (.d03 x y)]) p →
      Pictured (h ++ [.leaf (.d03 x y)]) (s.add [⟨inDark h, {q | ∃ v, Covered objects v ∧ q = placedIn h v + p}⟩])
  /-- A flash of a block draws all its objects; in clear polarity those that are dark in the block are clear, and those
  that are clear in the block are dark. -/
  | flashBlock {h s id objects x y p} : Pictured h s → inRegion h = false → selected h = some id →
      s.tools id = some (.block objects) → At (h ++ [.leaf (.d03 x y)]) p →
      Pictured (h ++ [.leaf (.d03 x y)])
        (s.add (objects.map fun o => ⟨o.dark == inDark h, (fun v => placedIn h v + p) '' o.points⟩))
  /-- A straight draw with a solid circle is one object in the polarity in force: what the circle, scaled, touches on its
  way from the current point to the new one. -/
  | stroke {h s id d objects x y i j a b} : Pictured h s → inRegion h = false → selected h = some id →
      s.tools id = some (.single (.circle d none) objects) → 0 ≤ d → latest setsPlot .linear h = .linear →
      At h a → At (h ++ [.leaf (.d01 x y i j)]) b →
      Pictured (h ++ [.leaf (.d01 x y i j)]) (s.add [⟨inDark h, {q | Swept a b (d * latest setsScaling 1 h : ℚ) q}⟩])
  /-- A circular draw (in multi quadrant mode) with a solid circle likewise: what the circle, scaled, touches on its way
  along the arc about the point at the given offset from the current point, or around the whole circle. -/
  | strokeArc {h s id d objects x y ti tj i j a b} : Pictured h s → inRegion h = false → selected h = some id →
      s.tools id = some (.single (.circle d none) objects) → 0 ≤ d → latest setsPlot .linear h ≠ .linear →
      latest setsQuad .single h = .multi → Offset h .x ti i → Offset h .y tj j →
      At h a → At (h ++ [.leaf (.d01 x y (some ti) (some tj))]) b →
      a ≠ a + ⟨i, j⟩ → vlen (a - (a + ⟨i, j⟩)) = vlen (b - (a + ⟨i, j⟩)) →
      Pictured (h ++ [.leaf (.d01 x y (some ti) (some tj))])
        (s.add [⟨inDark h, {q | SweptAlong (decide (latest setsPlot .linear h = .arc)) a b (a + ⟨i, j⟩)
          (d * latest setsScaling 1 h : ℚ) q}⟩])
  /-- A region begins with an empty contour. -/
  | regionStart {h s} : Pictured h s → inRegion h = false →
      Pictured (h ++ [.leaf .g36]) { s with contour := [] }
  /-- A straight draw in a region continues the contour by a line. -/
  | regionLine {h s x y i j a b} : Pictured h s → inRegion h = true → latest setsPlot .linear h = .linear →
      At h a → At (h ++ [.leaf (.d01 x y i j)]) b →
      Pictured (h ++ [.leaf (.d01 x y i j)]) { s with contour := s.contour ++ [.line ⟨a, b⟩] }
  /-- A circular draw in a region (in multi quadrant mode) continues it by an arc about the point at the given offset from
  its start; -/
  | regionArc {h s x y ti tj i j a b} : Pictured h s → inRegion h = true → latest setsPlot .linear h ≠ .linear →
      latest setsQuad .single h = .multi → Offset h .x ti i → Offset h .y tj j →
      At h a → At (h ++ [.leaf (.d01 x y (some ti) (some tj))]) b → a ≠ b →
      Pictured (h ++ [.leaf (.d01 x y (some ti) (some tj))])
        { s with contour := s.contour ++ [.arc ⟨a, b, a + ⟨i, j⟩, decide (latest setsPlot .linear h = .arc)⟩] }
  /-- and by a circle, as two half circles, when it ends where it starts. -/
  | regionCircle {h s x y ti tj i j a} : Pictured h s → inRegion h = true → latest setsPlot .linear h ≠ .linear →
      latest setsQuad .single h = .multi → Offset h .x ti i → Offset h .y tj j →
      At h a → At (h ++ [.leaf (.d01 x y (some ti) (some tj))]) a →
      Pictured (h ++ [.leaf (.d01 x y (some ti) (some tj))])
        { s with contour := s.contour ++
          [.arc ⟨a, a + ⟨i, j⟩ + ⟨i, j⟩, a + ⟨i, j⟩, decide (latest setsPlot .linear h = .arc)⟩,
           .arc ⟨a + ⟨i, j⟩ + ⟨i, j⟩, a, a + ⟨i, j⟩, decide (latest setsPlot .linear h = .arc)⟩] }
  /-- A move in a region completes a contour, which is filled in the polarity in force; -/
  | regionMove {h s x y} : Pictured h s → inRegion h = true →
      Pictured (h ++ [.leaf (.d02 x y)]) (Sheet.add { s with contour := [] } (filledContour (inDark h) s.contour))
  /-- and so does the end of the region. -/
  | regionEnd {h s} : Pictured h s → inRegion h = true →
      Pictured (h ++ [.leaf .g37]) (Sheet.add { s with contour := [] } (filledContour (inDark h) s.contour))
  /-- A move outside of regions draws nothing, -/
  | move {h s x y} : Pictured h s → inRegion h = false → Pictured (h ++ [.leaf (.d02 x y)]) s
  /-- nor does any command of another kind. -/
  | other {h s l} : Pictured h s → isSilent (.leaf l) = true → Pictured (h ++ [.leaf l]) s

end
end Verif.Spec
