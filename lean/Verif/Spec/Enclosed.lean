import Verif.Spec.Pixels
import Verif.Spec.Area
import Verif.Spec.Picture

/-!
# Pixels and the picture
-/

namespace Verif.Spec
open Verif.Geom Verif.Rvmc Verif.Vm Verif.Visitor Verif.Macro Verif.Math

/-- Two points are at most `ε` apart, horizontally and vertically. -/
def Close (ε : ℝ) (p q : Vec ℝ) : Prop := |p.x - q.x| ≤ ε ∧ |p.y - q.y| ≤ ε

/-- An outline goes round the points it encloses an odd number of times, as outlines do that neither cross nor repeat
themselves: such a point is within all polygons with corners close enough to each other along the outline. -/
def GoesRoundOnce (s : Shape) : Prop :=
  ∀ p ∈ areaOf s, ¬ OnRim s p → ∃ ε > 0, ∀ traces, List.Forall₂ (Along ε) s.segments traces → WithinLine traces.flatten p

/-- An outline without whole turns that goes round what it encloses once. -/
def Sound (s : Shape) : Prop := (∀ g ∈ s.segments, NotClosed g) ∧ GoesRoundOnce s

/-- The sides of a polygon go round the points it encloses an odd number of times. -/
def OnceAround (corners : List (Vec ℝ)) : Prop :=
  ∀ p, Polygon corners p → (∀ side ∈ corners.zip (corners.tail ++ corners.take 1), ¬ OnSegment side.1 side.2 p) →
    WithinLine corners p

/-- A macro primitive that draws outlines which go round once, with the values `ρ` of the variables: circles and polygons
have a size, and outlines do not go round twice. -/
def PlainPrim (ρ : List Char → Option ℚ) : Prim → Prop
  | .code1 _ diameter _ _ _ => ∀ d, Value ρ diameter d → 0 < d
  | .code4 _ _ startX startY points _ => ∀ x y xs ys, Value ρ startX x → Value ρ startY y → Values ρ (points.map Prod.fst) xs →
      Values ρ (points.map Prod.snd) ys → OnceAround (point x y :: List.zipWith point xs ys)
  | .code5 _ _ _ _ diameter _ => ∀ d, Value ρ diameter d → 0 < d
  | _ => True

/-- The same for the primitives of a macro, with the values that the variables have when they are reached. -/
def PlainMacro : (List Char → Option ℚ) → List Prim → Prop
  | _, [] => True
  | ρ, .assign name e :: rest => ∀ v, Value ρ e v → PlainMacro (fun n => if n = name then some v else ρ n) rest
  | ρ, p :: rest => PlainPrim ρ p ∧ PlainMacro ρ rest

/-- A circle, rectangle, obround or polygon with a size, solid or with a hole, or a macro of such primitives; `macros` are
the bodies of the macros. -/
inductive PlainAperture (macros : Name → Option (List Prim)) : ApDef → Prop
  | circle (d : ℚ) (hole : Option ℚ) (size : 0 < d) : PlainAperture macros (.circle d hole)
  | rect (w h : ℚ) (hole : Option ℚ) (width : 0 < w) (height : 0 < h) : PlainAperture macros (.rect w h hole)
  | obround (w h : ℚ) (hole : Option ℚ) (width : 0 < w) (height : 0 < h) : PlainAperture macros (.obround w h hole)
  | polygon (d : ℚ) (n : ℕ) (rotation hole : Option ℚ) (size : 0 < d) : PlainAperture macros (.polygon d n rotation hole)
  | «macro» (name : Name) (params : List ℚ) (plain : ∀ body, macros name = some body → PlainMacro (parameter params) body) :
      PlainAperture macros (.macro name params)

/-- What a file has to do with outlines. -/
structure PlainOutlines (h : List Atom) : Prop where
  /-- Its apertures have a size, and outlines in macros go round once. -/
  apertures : ∀ p id d q, h = p ++ .leaf (.ad id d) :: q → PlainAperture (fun name => latest (givesMacro name) none p) d
  /-- The circles that are moved along arcs are smaller than the circles of which the arcs are parts. -/
  arcs : ∀ p x y ti tj q i j id d objects s, h = p ++ .leaf (.d01 x y (some ti) (some tj)) :: q → inRegion p = false →
    latest setsPlot .linear p ≠ .linear → Offset p .x ti i → Offset p .y tj j → Pictured p s → selected p = some id →
    s.tools id = some (.single (.circle d none) objects) → (d : ℝ) < 2 * vlen ⟨i, j⟩
  /-- The contours of its regions, which moves and the end of the region complete, go round once. -/
  contours : ∀ p l q s g gs, h = p ++ .leaf l :: q → ((∃ x y, l = .d02 x y) ∨ l = .g37) → inRegion p = true → Pictured p s →
    s.contour = g :: gs → Sound ⟨g, gs, false⟩

/-- `ShapeAt layers id n s c`: the shape `s`, moved by `c`, is drawn on the layer `id`, by a command of this layer (`n = 0`) or
of a layer that is pasted, through `n` layers. -/
inductive ShapeAt {ι : Type} (layers : List (Layer ι)) : ι → ℕ → Shape → Vec ℝ → Prop
  | shape (l : Layer ι) (mem : l ∈ layers) (s : Shape) (drawn : .shape s ∈ l.cmds) : ShapeAt layers l.id 0 s ⟨0, 0⟩
  | paste (l : Layer ι) (mem : l ∈ layers) (source : ι) (center : Vec ℝ) (negative : Bool)
      (drawn : .paste source center negative ∈ l.cmds) (n : ℕ) (s : Shape) (c : Vec ℝ) (inner : ShapeAt layers source n s c) :
      ShapeAt layers l.id (n + 1) s (c + center)

/-- The point is more than `n + 2 + ρ` pixels away from every outline that is drawn on the layer through `n` layers. -/
def AwayFromOutlines {ι : Type} (layers : List (Layer ι)) (dpmm ρ : ℝ) (id : ι) (p : Vec ℝ) : Prop :=
  ∀ n s c, ShapeAt layers id n s c → ∀ v, OnRim s v → ¬ Close ((n + 2 + ρ) / dpmm) p (v + c)

end Verif.Spec
