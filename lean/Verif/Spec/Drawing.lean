import Verif.Model.Compiler
import Verif.Spec.History
import Verif.Spec.Geom

/-!
# What a command draws

Vocabulary for statements about the drawing commands that the compiler produces.
-/

namespace Verif.Spec
open Verif.Visitor Verif.Coord Verif.Geom Verif.Rvmc Verif.Compiler
noncomputable section

/-- The compiler after a history. -/
def compiled (env : Env) (h : List Atom) : Except CErr CState := feed env (run {} h).ev CState.init

/-- Executing the commands `as` after `h` appends the commands `new` to the layer being drawn, and changes no other
layer. -/
def DrawsAll (env : Env) (h as : List Atom) (new : List (Draw LayerId)) : Prop :=
  ∃ c c', compiled env h = .ok c ∧ compiled env (h ++ as) = .ok c' ∧ c'.stack = c.stack ∧
    (∀ id b, c.stack.head? = some id → c.buffers.get? id = some b → c'.buffers.get? id = some (b ++ new)) ∧
    (∀ id b, c.stack.head? ≠ some id → c.buffers.get? id = some b → c'.buffers.get? id = some b)

/-- The same for one command. -/
abbrev Draws (env : Env) (h : List Atom) (a : Atom) (new : List (Draw LayerId)) : Prop := DrawsAll env h [a] new

/-- The current point after a history (see C06). -/
def At (h : List Atom) (p : Vec ℝ) : Prop :=
  ∃ x y : ℚ, LastGiven .x h x ∧ LastGiven .y h y ∧ p = ⟨(x : ℝ), (y : ℝ)⟩

/-- Polarity of a drawing command. -/
def isClear : Draw LayerId → Bool
  | .shape s => s.negative
  | .paste _ _ n => n

/-- A point scaled by `k`, then rotated counter-clockwise by `r` degrees, then mirrored. -/
def placed (m : Mirroring) (r k : ℝ) (v : Vec ℝ) : Vec ℝ :=
  let w := rotCcw (r * Real.pi / 180) ⟨v.x * k, v.y * k⟩
  match m with
  | .none => w
  | .x => ⟨-w.x, w.y⟩
  | .y => ⟨w.x, -w.y⟩
  | .xy => ⟨-w.x, -w.y⟩

/-- A segment moved by a vector. -/
def shiftSegment (v : Vec ℝ) : Segment → Segment
  | .line l => .line ⟨⟨l.start.x + v.x, l.start.y + v.y⟩, ⟨l.stop.x + v.x, l.stop.y + v.y⟩⟩
  | .arc a => .arc ⟨⟨a.start.x + v.x, a.start.y + v.y⟩, ⟨a.stop.x + v.x, a.stop.y + v.y⟩,
      ⟨a.center.x + v.x, a.center.y + v.y⟩, a.clockwise⟩

/-- A drawing command moved by a vector. -/
def shift (v : Vec ℝ) : Draw LayerId → Draw LayerId
  | .shape s => .shape ⟨shiftSegment v s.head, s.tail.map (shiftSegment v), s.negative⟩
  | .paste src c n => .paste src ⟨c.x + v.x, c.y + v.y⟩ n

/-- The point `k` further out from `c` than `p`, on the ray from `c` through `p`. -/
def outward (c p : Vec ℝ) (k : ℝ) : Vec ℝ :=
  ⟨p.x + k * ((p.x - c.x) / vlen (p - c)), p.y + k * ((p.y - c.y) / vlen (p - c))⟩

/-- The outline of a stroke of width `t` along the clockwise arc from `s` to `e` about `c`: out along the outer edge,
back along the inner edge. -/
def strokeCw (s e c : Vec ℝ) (t : ℝ) (clear : Bool) : Draw LayerId :=
  .shape ⟨.arc ⟨outward c s (t / 2), outward c e (t / 2), c, true⟩,
    [.arc ⟨outward c e (-(t / 2)), outward c s (-(t / 2)), c, false⟩], clear⟩

/-- The stroke along the arc from `s` to `e` about `c` in the given sense. -/
def stroke (clockwise : Bool) (s e c : Vec ℝ) (t : ℝ) (clear : Bool) : Draw LayerId :=
  if clockwise then strokeCw s e c t clear else strokeCw e s c t clear

/-- A disc: two half circles. -/
def disc (c : Vec ℝ) (d : ℝ) (clear : Bool) : Draw LayerId :=
  .shape ⟨.arc ⟨⟨c.x - d / 2, c.y⟩, ⟨c.x + d / 2, c.y⟩, c, true⟩,
    [.arc ⟨⟨c.x + d / 2, c.y⟩, ⟨c.x - d / 2, c.y⟩, c, true⟩], clear⟩

/-- An arc offset written in a `D01`: the number written, in the format in force. -/
def Offset (h : List Atom) (a : Axis) (text : List Char) (v : ℚ) : Prop :=
  ∃ f, FormatInForce h f ∧ f.unpack a text = .ok v

/-! ## Regions -/

/-- Segments that lead from `s` to `e`, each starting where the previous one ended. -/
def Joins (s e : Vec ℝ) : List Segment → Prop
  | [] => False
  | [g] => g.start = s ∧ g.stop = e
  | g :: gs => g.start = s ∧ Joins g.stop e gs

/-- Each segment starts where the previous one ended. -/
def Chained : List Segment → Prop
  | [] => True
  | [_] => True
  | g :: g' :: gs => g.stop = g'.start ∧ Chained (g' :: gs)

/-- The part of a contour that a `D01` after `h` contributes: it leads from the current point to the new one; in
linear mode it is one line, otherwise arcs about one centre in the direction of the mode. -/
def Piece (h : List Atom) (a : Atom) (gs : List Segment) : Prop :=
  ∃ s e, At h s ∧ At (h ++ [a]) e ∧ Joins s e gs ∧
    (latest setsPlot .linear h = .linear → gs = [.line ⟨s, e⟩]) ∧
    (latest setsPlot .linear h ≠ .linear →
      ∃ c, ∀ g ∈ gs, ∃ p q, g = .arc ⟨p, q, c, decide (latest setsPlot .linear h = .arc)⟩)

/-- Commands inside a region other than draws and moves that have no part in it. -/
def isSilent : Atom → Bool
  | .leaf (.d01 ..) => false
  | .leaf (.d02 ..) => false
  | .leaf (.d03 ..) => false
  | .leaf .g36 => false
  | .leaf .g37 => false
  | .leaf (.ad ..) => false
  | .leaf _ => true
  | _ => false

/-- `Contours h g body out`: after `h`, with the contour `g` under construction, the commands `body` followed by the
end of the region complete the contours `out`, each with the polarity (clear or not) in force when it was completed.
A contour is a maximal non-empty run of draws: it is completed by a move or by the end of the region. -/
inductive Contours : List Atom → List Segment → List Atom → List (Bool × List Segment) → Prop
  | finishNone (h) : Contours h [] [] []
  | finish (h g) (hg : g ≠ []) : Contours h g [] [(decide (latest setsPolarity .dark h = .clear), g)]
  | draw (h g x y i j gs rest out) (piece : Piece h (.leaf (.d01 x y i j)) gs)
      (more : Contours (h ++ [.leaf (.d01 x y i j)]) (g ++ gs) rest out) :
      Contours h g (.leaf (.d01 x y i j) :: rest) out
  | moveNone (h x y rest out) (more : Contours (h ++ [.leaf (.d02 x y)]) [] rest out) :
      Contours h [] (.leaf (.d02 x y) :: rest) out
  | move (h g x y rest out) (hg : g ≠ []) (more : Contours (h ++ [.leaf (.d02 x y)]) [] rest out) :
      Contours h g (.leaf (.d02 x y) :: rest) ((decide (latest setsPolarity .dark h = .clear), g) :: out)
  | other (h g a rest out) (ha : isSilent a = true) (more : Contours (h ++ [a]) g rest out) :
      Contours h g (a :: rest) out

/-- The shape whose outline is the contour. -/
def IsContour (d : Draw LayerId) (p : Bool × List Segment) : Prop :=
  ∃ s, d = .shape s ∧ s.head :: s.tail = p.2 ∧ s.negative = p.1

/-! ## Apertures -/

/-- Commands that define the aperture code `id`: `AD`, and both ends of an `AB` block. -/
def definesCode (id : Name) : Atom → Bool
  | .leaf (.ad i _) => i == id
  | .abOpen i => i == id
  | .abClose i => i == id
  | _ => false

/-- The code selected last. -/
def selected (h : List Atom) : Option Name := latest (fun a => (selects a).map some) none h

/-- The map of points by the load commands in force: scaling, then rotation, then mirroring. -/
def placedIn (h : List Atom) : Vec ℝ → Vec ℝ :=
  placed (latest setsMirroring .none h) (latest setsRotation 0 h : ℚ) (latest setsScaling 1 h : ℚ)

/-- Exactly one axis is mirrored. -/
def reverses (h : List Atom) : Bool :=
  match latest setsMirroring .none h with
  | .none => false
  | .x => true
  | .y => true
  | .xy => false

/-- The image of a segment; arcs change their sense when `flip`. -/
def imageSegment (f : Vec ℝ → Vec ℝ) (flip : Bool) : Segment → Segment
  | .line l => .line ⟨f l.start, f l.stop⟩
  | .arc a => .arc ⟨f a.start, f a.stop, f a.center, if flip then !a.clockwise else a.clockwise⟩

/-- `d'` is the image of `d`: the image of the shape, or the paste of some layer at the image of the point. -/
def IsImage (f : Vec ℝ → Vec ℝ) (flip : Bool) (d d' : Draw LayerId) : Prop :=
  match d with
  | .shape s => d' = .shape ⟨imageSegment f flip s.head, s.tail.map (imageSegment f flip), s.negative⟩
  | .paste _ c n => ∃ src', d' = .paste src' (f c) n

/-- The hole of an aperture: a clear disc, cut down to the size of the aperture. -/
def holeDisc (hole : Option ℚ) (limit : ℚ) : List (Draw LayerId) :=
  match hole with
  | none => []
  | some h => if 0 < h then [disc ⟨0, 0⟩ ((min h limit : ℚ) : ℝ) true] else []

/-- What the definition of a standard aperture draws, about the origin. -/
def Nominal (d : ApDef) (drawn : List (Draw LayerId)) : Prop :=
  match d with
  | .circle diameter hole => drawn = disc ⟨0, 0⟩ (diameter : ℝ) false :: holeDisc hole diameter
  | .rect w h hole => drawn = .shape (Shape.newRectangle ⟨0, 0⟩ (w : ℝ) (h : ℝ) false) :: holeDisc hole (min w h)
  | .obround w h hole => drawn = .shape (Shape.newObround ⟨0, 0⟩ (w : ℝ) (h : ℝ) false) :: holeDisc hole (min w h)
  | .polygon diameter n rotation hole => ∃ s : Shape, drawn = .shape s :: holeDisc hole diameter ∧ s.negative = false ∧
      3 ≤ n ∧ s.segments = Shape.polygonSegments ⟨0, 0⟩ (diameter : ℝ) n ((rotation.getD 0 : ℚ) : ℝ)
  | .macro _ _ => True

/-- The macro primitive that draws a thermal. -/
def isThermal : Macro.Prim → Bool
  | .code7 .. => true
  | _ => false

end
end Verif.Spec
