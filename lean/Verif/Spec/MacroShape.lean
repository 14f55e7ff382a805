import Verif.Spec.Stroke
import Verif.Spec.Expr

/-!
# The figures that the primitives of an aperture macro stand for

After the description of the aperture macro primitives in the Gerber format: the values of the parameters, the exposure
(zero: clear, otherwise dark), the figure before the rotation, and the rotation about the origin of the macro.
-/

namespace Verif.Spec
open Verif.Geom Verif.Rvmc Verif.Compiler Verif.Visitor Verif.Math Verif.Macro Real

/-! ## Values -/

mutual
/-- The value of an expression when the variables have the values given by `ρ`. -/
inductive Value (ρ : List Char → Option ℚ) : Expr → ℚ → Prop
  | const (c) : Value ρ (.const c) c
  | var {n v} : ρ n = some v → Value ρ (.var n) v
  | paren {e v} : Value ρ e v → Value ρ (.paren e) v
  | neg {e v} : Value ρ e v → Value ρ (.neg e) (-v)
  | pos {e v} : Value ρ e v → Value ρ (.pos e) v
  | bin {op h t a v} : Value ρ h a → Operated ρ op a t v → Value ρ (.bin op h t) v
/-- Operands applied from left to right to a first value. -/
inductive Operated (ρ : List Char → Option ℚ) : Op → ℚ → List Expr → ℚ → Prop
  | done (op a) : Operated ρ op a [] a
  | add {a e b es v} : Value ρ e b → Operated ρ .add (a + b) es v → Operated ρ .add a (e :: es) v
  | sub {a e b es v} : Value ρ e b → Operated ρ .sub (a - b) es v → Operated ρ .sub a (e :: es) v
  | mul {a e b es v} : Value ρ e b → Operated ρ .mul (a * b) es v → Operated ρ .mul a (e :: es) v
  | div {a e b es v} : Value ρ e b → b ≠ 0 → Operated ρ .div (a / b) es v → Operated ρ .div a (e :: es) v
end

/-- The values of several expressions. -/
abbrev Values (ρ : List Char → Option ℚ) : List Expr → List ℚ → Prop := List.Forall₂ (Value ρ)

/-! ## Figures -/

/-- A point with rational coordinates. -/
def point (x y : ℚ) : Vec ℝ := ⟨(x : ℝ), (y : ℝ)⟩

/-- The points of a disc of diameter `d`. -/
def Disc (c : Vec ℝ) (d : ℚ) (p : Vec ℝ) : Prop := (p.x - c.x) ^ 2 + (p.y - c.y) ^ 2 ≤ ((d : ℝ) / 2) ^ 2

/-- The points of the rectangle between two corners. -/
def Rectangle (a b p : Vec ℝ) : Prop := a.x ≤ p.x ∧ p.x ≤ b.x ∧ a.y ≤ p.y ∧ p.y ≤ b.y

/-- The points of the rectangle whose middle line leads from `s` to `e` and whose width is `w`: their foot on the
line is between `s` and `e`, their distance from the line is at most `w / 2`. -/
def Band (s e : Vec ℝ) (w : ℚ) (p : Vec ℝ) : Prop :=
  0 ≤ (p.x - s.x) * (e.x - s.x) + (p.y - s.y) * (e.y - s.y) ∧
  (p.x - s.x) * (e.x - s.x) + (p.y - s.y) * (e.y - s.y) ≤ (e.x - s.x) ^ 2 + (e.y - s.y) ^ 2 ∧
  |(e.x - s.x) * (p.y - s.y) - (e.y - s.y) * (p.x - s.x)| ≤ (w : ℝ) / 2 * vlen (e - s)

/-- The points of the ring between the circles of diameters `k` and `d` about `c` that are not above (not below) `c`. -/
def HalfRing (below : Bool) (c : Vec ℝ) (d k : ℚ) (p : Vec ℝ) : Prop :=
  ((k : ℝ) / 2) ^ 2 ≤ (p.x - c.x) ^ 2 + (p.y - c.y) ^ 2 ∧ (p.x - c.x) ^ 2 + (p.y - c.y) ^ 2 ≤ ((d : ℝ) / 2) ^ 2 ∧
  if below then p.y ≤ c.y else c.y ≤ p.y

/-- Points rotated counter-clockwise about the origin by `r` degrees. -/
def Turned (r : ℚ) (points : Vec ℝ → Prop) (p : Vec ℝ) : Prop := ∃ q, points q ∧ p = rotCcw ((r : ℝ) * π / 180) q

/-- The points of the polygon with the given corners: those on its sides and those that the sides enclose. -/
def Polygon (corners : List (Vec ℝ)) (p : Vec ℝ) : Prop :=
  p ∈ Surrounded fun q => ∃ side ∈ corners.zip (corners.tail ++ corners.take 1), OnSegment side.1 side.2 q

/-- A figure: a set of points. -/
abbrev Figure := Vec ℝ → Prop

/-- The shape has the polarity (`true`: dark) and covers the points of the figure. -/
def Depicts (figure : Bool × Figure) (d : Draw LayerId) : Prop :=
  ∃ s, d = .shape s ∧ s.negative = !figure.1 ∧ ∀ p, p ∈ areaOf s ↔ figure.2 p

/-- The two halves of a ring with the outer diameter `d` and the inner diameter `k`, turned by `r` degrees. -/
def ringHalves (c : Vec ℝ) (d k r : ℚ) : List (Bool × Figure) :=
  [(true, Turned r (HalfRing true c d k)), (true, Turned r (HalfRing false c d k))]

/-- The rings of a moiré: at most `n`, from the diameter `d` inwards, of thickness `t` and separated by `g`, as long as
there is room; a ring without room for a hole is a disc. -/
def moireRings (c : Vec ℝ) (t g r : ℚ) : ℕ → ℚ → List (Bool × Figure)
  | 0, _ => []
  | n + 1, d =>
    if d ≤ 0 then []
    else if d ≤ 2 * t then [(true, Turned r (Disc c d))]
    else ringHalves c d (d - 2 * t) r ++ moireRings c t g r n (d - 2 * (t + g))

/-- The crosshair of a moiré. -/
def moireCross (x y t l r : ℚ) : List (Bool × Figure) :=
  if 0 < t ∧ 0 < l then
    [(true, Turned r (Rectangle (point (x - t / 2) (y - l / 2)) (point (x + t / 2) (y + l / 2)))),
     (true, Turned r (Rectangle (point (x - l / 2) (y - t / 2)) (point (x + l / 2) (y + t / 2))))]
  else []

/-- The image of a figure under a map of points. -/
def imageFigure (f : Vec ℝ → Vec ℝ) (figure : Figure) : Figure := fun p => ∃ q, figure q ∧ p = f q

/-! ## Primitives -/

/-- The figures of a primitive (all but the thermal), with their polarities (`true`: dark). -/
inductive Prescribed (ρ : List Char → Option ℚ) : Prim → List (Bool × Figure) → Prop
  | comment : Prescribed ρ .code0 []
  | circle {exposure diameter centerX centerY e d x y} : Values ρ [exposure, diameter, centerX, centerY] [e, d, x, y] →
      0 ≤ d → Prescribed ρ (.code1 exposure diameter centerX centerY none) [(decide (e ≠ 0), Disc (point x y) d)]
  | circleTurned {exposure diameter centerX centerY rotation e d x y r} :
      Values ρ [exposure, diameter, centerX, centerY, rotation] [e, d, x, y, r] → 0 ≤ d →
      Prescribed ρ (.code1 exposure diameter centerX centerY (some rotation))
        [(decide (e ≠ 0), Turned r (Disc (point x y) d))]
  | vector2 {exposure width startX startY endX endY rotation e w sx sy ex ey r} :
      Values ρ [exposure, width, startX, startY, endX, endY, rotation] [e, w, sx, sy, ex, ey, r] →
      0 ≤ w → (sx, sy) ≠ (ex, ey) →
      Prescribed ρ (.code2 exposure width startX startY endX endY rotation)
        [(decide (e ≠ 0), Turned r (Band (point sx sy) (point ex ey) w))]
  | vector20 {exposure width startX startY endX endY rotation e w sx sy ex ey r} :
      Values ρ [exposure, width, startX, startY, endX, endY, rotation] [e, w, sx, sy, ex, ey, r] →
      0 ≤ w → (sx, sy) ≠ (ex, ey) →
      Prescribed ρ (.code20 exposure width startX startY endX endY rotation)
        [(decide (e ≠ 0), Turned r (Band (point sx sy) (point ex ey) w))]
  | centerLine {exposure width height centerX centerY rotation e w h x y r} :
      Values ρ [exposure, width, height, centerX, centerY, rotation] [e, w, h, x, y, r] → 0 ≤ w → 0 ≤ h →
      Prescribed ρ (.code21 exposure width height centerX centerY rotation)
        [(decide (e ≠ 0), Turned r (Rectangle (point (x - w / 2) (y - h / 2)) (point (x + w / 2) (y + h / 2))))]
  | lowerLeftLine {exposure width height left lower rotation e w h x y r} :
      Values ρ [exposure, width, height, left, lower, rotation] [e, w, h, x, y, r] → 0 ≤ w → 0 ≤ h →
      Prescribed ρ (.code22 exposure width height left lower rotation)
        [(decide (e ≠ 0), Turned r (Rectangle (point x y) (point (x + w) (y + h))))]
  | outline {exposure count startX startY points rotation e sx sy xs ys r} :
      Values ρ [exposure, startX, startY, rotation] [e, sx, sy, r] →
      Values ρ (points.map Prod.fst) xs → Values ρ (points.map Prod.snd) ys →
      Prescribed ρ (.code4 exposure count startX startY points rotation)
        [(decide (e ≠ 0), Polygon ((point sx sy :: List.zipWith point xs ys).map (rotCcw ((r : ℝ) * π / 180))))]
  | polygon {exposure vertices centerX centerY diameter rotation e} {n : ℕ} {x y d r} :
      Values ρ [exposure, vertices, centerX, centerY, diameter, rotation] [e, n, x, y, d, r] → 3 ≤ n → 0 ≤ d →
      Prescribed ρ (.code5 exposure vertices centerX centerY diameter rotation)
        [(decide (e ≠ 0), Polygon ((List.range n).map fun (k : ℕ) => rotCcw ((r : ℝ) * π / 180)
          (point x y + ⟨(d : ℝ) / 2 * cos (2 * π * k / n), (d : ℝ) / 2 * sin (2 * π * k / n)⟩)))]
  | moire {centerX centerY outer thickness gap rings crossThickness crossLength rotation x y d t g} {n : ℕ} {ct cl r} :
      Values ρ [centerX, centerY, outer, thickness, gap, rings, crossThickness, crossLength, rotation]
        [x, y, d, t, g, n, ct, cl, r] → 0 < t → 0 ≤ g →
      Prescribed ρ (.code6 centerX centerY outer thickness gap rings crossThickness crossLength rotation)
        (moireCross x y ct cl r ++ moireRings (point x y) t g r n d)

/-- The figures of a thermal about its centre: a ring, and two clear bars across it, at least as long as its diameter. -/
def thermalFigures (od k g r l : ℚ) : List (Bool × Figure) :=
  ringHalves (point 0 0) od k r ++
    [(false, Turned r (Rectangle (point (-l / 2) (-g / 2)) (point (l / 2) (g / 2)))),
     (false, Turned r (Rectangle (point (-g / 2) (-l / 2)) (point (g / 2) (l / 2))))]

/-- The figures of a macro: assignments change the values of the variables for what follows. -/
inductive MacroFigures : (List Char → Option ℚ) → List Prim → List (Bool × Figure) → Prop
  | nil (ρ) : MacroFigures ρ [] []
  | assign {ρ name e v rest figures} : Value ρ e v →
      MacroFigures (fun n => if n = name then some v else ρ n) rest figures →
      MacroFigures ρ (.assign name e :: rest) figures
  | primitive {ρ p rest drawn figures} : Prescribed ρ p drawn → MacroFigures ρ rest figures →
      MacroFigures ρ (p :: rest) (drawn ++ figures)

/-- The value of a macro variable at the start: `$1` is the first parameter, and so on. -/
def parameter (params : List ℚ) : List Char → Option ℚ
  | '$' :: digits => if Digits digits ∧ digits ≠ [] ∧ digits.head? ≠ some '0' then params[numeral digits - 1]? else none
  | _ => none

/-! ## Aperture definitions -/

/-- The hole of a standard aperture: a clear disc. -/
def holeFigure : Option ℚ → List (Bool × Figure)
  | none => []
  | some h => if 0 < h then [(false, Disc (point 0 0) h)] else []

/-- The figures of an aperture definition about the origin; `macros` are the bodies of the macros. -/
inductive ApertureFigures (macros : Name → Option (List Prim)) : ApDef → List (Bool × Figure) → Prop
  | circle {d hole} : 0 ≤ d → ApertureFigures macros (.circle d hole)
      ((true, Disc (point 0 0) d) :: holeFigure hole)
  | rect {w h hole} : 0 ≤ w → 0 ≤ h → ApertureFigures macros (.rect w h hole)
      ((true, Rectangle (point (-w / 2) (-h / 2)) (point (w / 2) (h / 2))) :: holeFigure hole)
  | obround {w h hole} : 0 ≤ w → 0 ≤ h → ApertureFigures macros (.obround w h hole)
      ((true, Swept (point (-(w - min w h) / 2) (-(h - min w h) / 2)) (point ((w - min w h) / 2) ((h - min w h) / 2))
        ((min w h : ℚ) : ℝ)) :: holeFigure hole)
  | polygon {d} {n : ℕ} {rotation hole} : 0 ≤ d → 3 ≤ n → ApertureFigures macros (.polygon d n rotation hole)
      ((true, Polygon ((List.range n).map fun (k : ℕ) => rotCcw (((rotation.getD 0 : ℚ) : ℝ) * π / 180)
        ⟨(d : ℝ) / 2 * cos (2 * π * k / n), (d : ℝ) / 2 * sin (2 * π * k / n)⟩)) :: holeFigure hole)
  | «macro» {name params body figures} : macros name = some body → MacroFigures (parameter params) body figures →
      ApertureFigures macros (.macro name params) figures

/-- The body that a command gives to a macro. -/
def givesMacro (name : Name) : Visitor.Atom → Option (Option (List Prim))
  | .leaf (.am n body) => if n = name then some (some body) else none
  | _ => none

end Verif.Spec
