import Verif.Spec.Board
import Verif.Spec.Enclosed

/-!
# The picture of a board asked of the Gerber builder

Objects of a board as sets of points of the plane.
-/

namespace Verif.Spec.Board
open Verif.Visitor Verif.GerberBuilder Verif.Geom Verif.Spec
noncomputable section

/-- A location as a point of the plane. -/
def vec (l : Loc) : Vec ℝ := ⟨(l.1 : ℝ), (l.2 : ℝ)⟩

/-- The figures of a shape about its origin. -/
def ShapeFigures : Shape → List (Bool × Figure) → Prop
  | .standard d, figures => AperturePaints (fun _ => none) d figures
  | .custom body, figures => MacroPaints (parameter []) body figures

/-- The parts of a contour that an edge stands for: a line, an arc, or, for an arc that ends where it starts, two half
circles. -/
def contourPart (e : Edge) : List Geom.Segment :=
  match e.center with
  | none => [.line ⟨vec e.start, vec e.stop⟩]
  | some c =>
    if e.start = e.stop then
      [.arc ⟨vec e.start, vec e.start + vec c + vec c, vec e.start + vec c, decide (e.kind = .cwMq)⟩,
       .arc ⟨vec e.start + vec c + vec c, vec e.start, vec e.start + vec c, decide (e.kind = .cwMq)⟩]
    else [.arc ⟨vec e.start, vec e.stop, vec e.start + vec c, decide (e.kind = .cwMq)⟩]

/-- The points of an object asked for, and whether they are drawn or erased. -/
inductive Asked : Object → Painted (Vec ℝ) → Prop
  /-- A pad: the points covered by its shape, scaled, rotated and mirrored, and moved to its place. -/
  | pad {shape l t figures} : ShapeFigures shape figures →
      Asked (.pad shape l t) ⟨decide (t.polarity = .dark),
        {q | ∃ v, Covered (figures.map asObject) v ∧
          q = placed t.mirroring (t.rotation : ℚ) (t.scaling : ℚ) v + vec (onGrid l)}⟩
  /-- A line: what a disc as wide as the line touches on its way. -/
  | line {w b e} : Asked (.trace .line w b e none) ⟨true, {q | Swept (vec (onGrid b)) (vec (onGrid e)) (w : ℚ) q}⟩
  /-- An arc: what the disc touches on its way along the arc. -/
  | arc {k w b e c} : k = .cwMq ∨ k = .ccwMq →
      Asked (.trace k w b e (some c)) ⟨true, {q | SweptAlong (decide (k = .cwMq)) (vec (onGrid b)) (vec (onGrid e))
        (vec (onGrid b) + vec (onGrid (c.1 - b.1, c.2 - b.2))) (w : ℚ) q}⟩
  /-- A region: what its outline encloses. -/
  | region {o g gs} : (edges o.begin o.closed).flatMap contourPart = g :: gs →
      Asked (.region (some o)) ⟨true, areaOf ⟨g, gs, false⟩⟩

/-- An object that is drawn as prescribed: pads are not scaled by zero, traces have a width, arcs
have the same distance from their centre at both ends and are not outsized by the width, and regions go round once. -/
inductive PlainObject : Object → Prop
  | pad {shape l t} : t.scaling ≠ 0 → PlainObject (.pad shape l t)
  | line {w b e} : 0 < w → PlainObject (.trace .line w b e none)
  | arc {k b e} {w : ℚ} {c : Loc} : 0 < w → (w : ℝ) < 2 * vlen (vec (onGrid (c.1 - b.1, c.2 - b.2))) →
      vlen (vec (onGrid (c.1 - b.1, c.2 - b.2))) =
        vlen (vec (onGrid e) - (vec (onGrid b) + vec (onGrid (c.1 - b.1, c.2 - b.2)))) →
      PlainObject (.trace k w b e (some c))
  | region {o g gs} : (edges o.begin o.closed).flatMap contourPart = g :: gs → Sound ⟨g, gs, false⟩ →
      PlainObject (.region (some o))

end
end Verif.Spec.Board
