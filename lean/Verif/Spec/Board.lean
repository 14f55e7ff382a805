import Verif.Model.GerberBuilder

/-!
# What a user of the Gerber builder asks for, and what a file draws

`Wish` is the board described by the calls, without any notion of commands.  `reading` is what the callbacks of the
state tracking visitor report while it processes a file.  From the model only the types of calls, of callbacks and of
their data are used.
-/

namespace Verif.Spec.Board
open Verif.Visitor Verif.GerberBuilder Verif.GerberBuilder.Builder

/-- The multiple of 10⁻⁶ nearest to `v`, the even one of two. -/
def grid (v : ℚ) : ℚ :=
  let q : ℚ := v * 10 ^ 6
  (if q - ⌊q⌋ < 1 / 2 then (⌊q⌋ : ℚ) else if 1 / 2 < q - ⌊q⌋ then ⌊q⌋ + 1
    else if Even ⌊q⌋ then ⌊q⌋ else ⌊q⌋ + 1) / 10 ^ 6

/-- A location as it can be written. -/
def onGrid (l : Loc) : Loc := (grid l.1, grid l.2)

/-! ## What is drawn -/

/-- A line or an arc: kind, start, end, and for an arc the centre relative to the start. -/
structure Edge where
  kind : DrawKind
  start : Loc
  stop : Loc
  center : Option Loc
  deriving DecidableEq

/-- The shape of an aperture: a standard one, or the primitives of a macro without parameters. -/
inductive Shape
  | standard (d : ApDef)
  | custom (body : List Macro.Prim)

/-- A drawn object. -/
inductive Drawn
  | flash (kind : FlashKind) (shape : Shape) (at_ : Loc) (t : Transform)
  | stroke (shape : Shape) (e : Edge) (t : Transform)
  | region (edges : List Edge) (p : Polarity)
  | unknown

/-- The shape that an aperture stands for in a state. -/
def shapeOf (s : VState) : Aperture → Option Shape
  | .ad _ (.macro name []) => (s.macros.get? name).map .custom
  | .ad _ (.macro _ (_ :: _)) => none
  | .ad _ d => some (.standard d)
  | .ab _ => none

/-- The line or arc reported by a drawing callback. -/
def edgeOf (k : DrawKind) (s : VState) : Edge :=
  ⟨k, (s.currentX, s.currentY), (s.coordinateX, s.coordinateY),
    if k = .line then none else some (s.coordinateI, s.coordinateJ)⟩

/-- The flash reported by a callback. -/
def flashOf (k : FlashKind) (ap : Aperture) (s : VState) : Drawn :=
  match shapeOf s ap with
  | some shape => .flash k shape (s.coordinateX, s.coordinateY) s.transform
  | none => .unknown

/-- The stroke reported by a callback outside of regions. -/
def strokeOf (k : DrawKind) (s : VState) : Drawn :=
  match s.currentAperture with
  | .ok ap => match shapeOf s ap with
    | some shape => .stroke shape (edgeOf k s) s.transform
    | none => .unknown
  | .error _ => .unknown

/-- What callbacks report, `contour` being the part of a region drawn so far. -/
def reading (contour : List Edge) : List Event → List Drawn
  | [] => []
  | .draw k true s :: es => reading (contour ++ [edgeOf k s]) es
  | .draw k false s :: es => strokeOf k s :: reading contour es
  | .flash k ap s :: es => flashOf k ap s :: reading contour es
  | .flushRegion s :: es =>
    if contour = [] then reading [] es else .region contour s.transform.polarity :: reading [] es
  | .startRegion :: es => reading contour es
  | .endRegion :: es => reading contour es
  | .define .. :: es => reading contour es
  | .abOpen _ :: es => reading contour es
  | .abClose _ :: es => reading contour es
  | .srOpen _ :: es => reading contour es
  | .srClose .. :: es => reading contour es

/-! ## What is asked for -/

/-- The outline of a region: where it begins, and its parts: kind, destination and centre. -/
structure Outline where
  begin : Loc
  parts : List (DrawKind × Loc × Option Loc)

/-- Where the parts drawn so far end. -/
def Outline.tip (o : Outline) : Loc := (o.parts.getLast?.map fun p => p.2.1).getD o.begin

/-- An outline ends where it begins: if need be, a line is added. -/
def Outline.closed (o : Outline) : List (DrawKind × Loc × Option Loc) :=
  if o.tip = o.begin then o.parts else o.parts ++ [(.line, o.begin, none)]

/-- An object asked for.  The outline of a region is `none` if the user went on drawing it after it was created, which
the documentation forbids. -/
inductive Object
  | pad (shape : Shape) (at_ : Loc) (t : Transform)
  | trace (kind : DrawKind) (width : ℚ) (begin end_ : Loc) (center : Option Loc)
  | region (o : Option Outline)

/-- The board asked for. -/
structure Wish where
  pads : List Shape := []
  customs : List (List Macro.Prim) := []
  regions : List (Option Outline) := []
  objects : List Object := []

/-- 1 adds, 0 cuts. -/
def sign (cut : Bool) : Math.Expr := .const (if cut then 0 else 1)

/-- The primitive for a shape of a custom pad.  An outline is given by its last point followed by all points. -/
def primitive : CustomShape → Macro.Prim
  | .circle cut d c r => .code1 (sign cut) (.const d) (.const c.1) (.const c.2) (some (.const r))
  | .vectorLine cut w s e r =>
    .code20 (sign cut) (.const w) (.const s.1) (.const s.2) (.const e.1) (.const e.2) (.const r)
  | .centerLine cut w h c r => .code21 (sign cut) (.const w) (.const h) (.const c.1) (.const c.2) (.const r)
  | .outline cut ps r =>
    .code4 (sign cut) (.const ps.length) (.const (ps.getLast?.getD (0, 0)).1) (.const (ps.getLast?.getD (0, 0)).2)
      (ps.map fun p => (.const p.1, .const p.2)) (.const r)
  | .polygon cut n c d r => .code5 (sign cut) (.const n) (.const c.1) (.const c.2) (.const d) (.const r)
  | .thermal node c o i g r => .code7 node (.const c.1) (.const c.2) (.const o) (.const i) (.const g) (.const r)

/-- Where a reference to an earlier object leads when something is to start there: the centre of a pad, the end of a
trace. -/
def Wish.from_ (w : Wish) : Ref → Loc
  | .loc l => l
  | .draw k => match w.objects[k]? with
    | some (.pad _ l _) => l
    | some (.trace _ _ _ e _) => e
    | _ => (0, 0)

/-- Where a reference leads when something is to end there: the centre of a pad, the beginning of a trace. -/
def Wish.to_ (w : Wish) : Ref → Loc
  | .loc l => l
  | .draw k => match w.objects[k]? with
    | some (.pad _ l _) => l
    | some (.trace _ _ b _ _) => b
    | _ => (0, 0)

/-- Mirroring along the axes asked for. -/
def mirror (x y : Bool) : Mirroring :=
  match x, y with
  | true, true => .xy
  | true, false => .x
  | false, true => .y
  | false, false => .none

/-- A flash of a pad is added. -/
def Wish.flash (w : Wish) (p : Polarity) (pad : Nat) (r : Ref) (rotation : ℚ) (mx my : Bool) (scale : ℚ) : Wish :=
  match w.pads[pad]? with
  | some shape => { w with objects := w.objects ++
      [.pad shape (w.from_ r) { polarity := p, mirroring := mirror mx my, rotation := rotation, scaling := scale }] }
  | none => w

/-- A trace is added. -/
def Wish.trace (w : Wish) (k : DrawKind) (width : ℚ) (b e : Ref) (c : Option Loc) : Wish :=
  { w with objects := w.objects ++ [.trace k width (w.from_ b) (w.to_ e) c] }

/-- A part is added to an outline. -/
def Wish.part (w : Wish) (k : Nat) (p : DrawKind × Loc × Option Loc) : Wish :=
  { w with regions := w.regions.modify k fun o => o.map fun o => { o with parts := o.parts ++ [p] } }

/-- The effect of a successful call on the board. -/
def Wish.step (w : Wish) : Call → Wish
  | .circle d h => { w with pads := w.pads ++ [.standard (.circle d h)] }
  | .rectangle a b h => { w with pads := w.pads ++ [.standard (.rect a b h)] }
  | .roundedRectangle a b h => { w with pads := w.pads ++ [.standard (.obround a b h)] }
  | .regularPolygon d n r h => { w with pads := w.pads ++ [.standard (.polygon d n (some r) h)] }
  | .custom => { w with customs := w.customs ++ [[]] }
  | .customShape k s => { w with customs := w.customs.modify k (· ++ [primitive s]) }
  | .customCreate k => { w with pads := w.pads ++ [.custom (w.customs[k]?.getD [])] }
  | .setFunction .. => w
  | .setTolerance .. => w
  | .setCustom .. => w
  | .addPad p a r mx my k => w.flash .dark p a r mx my k
  | .addCutoutPad p a r mx my k => w.flash .clear p a r mx my k
  | .lineTrace d b e => w.trace .line d b e none
  | .cwTrace d b e c => w.trace .cwMq d b e (some c)
  | .ccwTrace d b e c => w.trace .ccwMq d b e (some c)
  | .newRegion l => { w with regions := w.regions ++ [some ⟨l, []⟩] }
  | .regionLine k t => w.part k (.line, t, none)
  | .regionCw k t c => w.part k (.cwMq, t, some c)
  | .regionCcw k t c => w.part k (.ccwMq, t, some c)
  | .regionCreate k =>
    { w with objects := w.objects ++ [.region (w.regions[k]?.getD none)], regions := w.regions.set k none }

/-- The calls that raised nothing. -/
def succeeded : List Call → List (Option Err) → List Call
  | c :: cs, none :: es => c :: succeeded cs es
  | _ :: cs, some _ :: es => succeeded cs es
  | _, _ => []

/-- The board after calls. -/
def wishOf (cs : List Call) : Wish := cs.foldl Wish.step {}

/-! ## Drawing what was asked for -/

/-- The callback for a shape. -/
def kindOf : Shape → FlashKind
  | .standard (.circle ..) => .circle
  | .standard (.rect ..) => .rectangle
  | .standard (.obround ..) => .obround
  | .standard (.polygon ..) => .polygon
  | .standard (.macro ..) => .macro
  | .custom _ => .macro

/-- An edge in file coordinates.  The centre is written relative to the exact start. -/
def edge (k : DrawKind) (b e : Loc) (c : Option Loc) : Edge :=
  ⟨k, onGrid b, onGrid e, c.map fun c => onGrid (c.1 - b.1, c.2 - b.2)⟩

/-- The edges of an outline from a point on. -/
def edges : Loc → List (DrawKind × Loc × Option Loc) → List Edge
  | _, [] => []
  | b, (k, e, c) :: ps => edge k b e c :: edges e ps

/-- A drawn object is the one asked for. -/
def Fulfils : Object → Drawn → Prop
  | .pad shape l t, d => d = .flash (kindOf shape) shape (onGrid l) t
  | .trace k w b e c, d => d = .stroke (.standard (.circle w none)) (edge k b e c) {}
  | .region (some o), d => d = .region (edges o.begin o.closed) .dark
  | .region none, d => ∃ es p, d = .region es p

/-- A drawn object is the one asked for, except possibly for the interpolation of a trace.  When it is an arc and an arc
was asked for, the centre is the one asked for. -/
def FulfilsButMode : Object → Drawn → Prop
  | .trace _ w b e c, d => ∃ k c', d = .stroke (.standard (.circle w none)) ⟨k, onGrid b, onGrid e, c'⟩ {} ∧
      (k ≠ .line → c ≠ none → c' = (edge k b e c).center)
  | o, d => Fulfils o d

/-- Pads among the objects asked for. -/
def Object.isPad : Object → Bool
  | .pad .. => true
  | _ => false

/-- Traces among the objects asked for. -/
def Object.isTrace : Object → Bool
  | .trace .. => true
  | _ => false

/-- Regions among the objects asked for. -/
def Object.isRegion : Object → Bool
  | .region _ => true
  | _ => false

/-- Flashes among the drawn objects. -/
def Drawn.isFlash : Drawn → Bool
  | .flash .. => true
  | _ => false

/-- Strokes among the drawn objects. -/
def Drawn.isStroke : Drawn → Bool
  | .stroke .. => true
  | _ => false

/-- How the outline of a region ends, if it is known. -/
def Object.endsIn : Object → Option DrawKind
  | .region (some o) => o.closed.getLast?.map (·.1)
  | _ => none

/-- Whenever two traces of the same kind have only regions and pads between them, the last of these regions ends in a
part of that kind. -/
def Steady (objs : List Object) : Prop :=
  ∀ before between after k w b e c w' b' e' c',
    objs = before ++ .trace k w b e c :: between ++ .trace k w' b' e' c' :: after →
    (∀ o ∈ between, o.isTrace = false) →
    ∀ r, (between.filter Object.isRegion).getLast? = some r → r.endsIn = some k

/-! ## Attributes -/

/-- The value that a call gives to an attribute of a pad. -/
def setsAttribute (pad : Nat) (n : Name) : Call → Option Name
  | .setFunction p v => if p = pad ∧ n = ".AperFunction".toList then some v else none
  | .setTolerance p v => if p = pad ∧ n = ".DrillTolerance".toList then some v else none
  | .setCustom p m v => if p = pad ∧ n = m then some v else none
  | _ => none

/-- Custom attributes with the name of a standard one. -/
def reserved : Call → Bool
  | .setCustom _ n _ => n = ".AperFunction".toList ∨ n = ".DrillTolerance".toList
  | _ => false

end Verif.Spec.Board
