import Verif.Model.State

/-!
# Hover information of the language server (gerber/language_server/_server/hover/gerber.py)

The markdown is modelled by the values it shows (`DrawReport`); the preview image by the program that is compiled and
rendered for it (compiler and renderer are modelled elsewhere).
-/

namespace Verif.Hover
open Verif.Visitor Verif.Coord

/-- A top-level node with its `source_info`: `location` and `end_location`. -/
structure Located where
  start : Nat
  stop : Nat
  cmd : Cmd

/-- hover/gerber.py 82-110 (`LimitedStateTrackingVisitor.on_file`) with state_tracking_visitor.py 942-953: the
`ProgramStop` raised at the first node that ends after `max` is outside of the inner `try`, so it ends the loop; the one
raised by `M00`/`M02` is swallowed by `on_exception` (`ignore_program_stop` is `False`); other exceptions propagate. -/
def limited (max : Nat) (s : VState) : List Located → Out
  | [] => .ok s
  | c :: cs =>
    if c.stop > max then .ok s
    else
      let a := visit s c.cmd
      match a.exn with
      | none => ⟨(limited max a.st cs).st, a.ev ++ (limited max a.st cs).ev, (limited max a.st cs).exn⟩
      | some .programStop => ⟨(limited max a.st cs).st, a.ev ++ (limited max a.st cs).ev, (limited max a.st cs).exn⟩
      | some e => ⟨a.st, a.ev, some e⟩

/-- Why there is no preview: the assertion at hover/gerber.py 417, an error of packing, or an exception of the visitor. -/
inductive HErr
  | noFormat | pack (e : Coord.Err) | visitor (e : Exn)

/-- hover/gerber.py 270-284 (`create_hover_markdown`): `location` is that of the hovered node. -/
def hoverState (file : List Located) (location : Nat) : Except HErr VState :=
  match (limited location {} file).exn with
  | none => .ok (limited location {} file).st
  | some e => .error (.visitor e)

/-- hover/gerber.py 445-451: the plot mode of the preview. -/
def plotNode : Plot → Leaf
  | .linear => .g01
  | .arc => .g02
  | .ccwArc => .g02

/-- hover/gerber.py 452-457. -/
def quadNode : Quad → Leaf
  | .multi => .g75
  | .single => .g74

/-- hover/gerber.py 415-468 (`_visualize_draw_op`): the nodes of the file that is compiled. -/
def previewNodes (s : VState) (extra : List Leaf) : Except HErr (List Leaf) :=
  match s.format with
  | none => .error .noFormat
  | some f => match f.pack .x s.currentX with
    | .error e => .error (.pack e)
    | .ok x => match f.pack .y s.currentY with
      | .error e => .error (.pack e)
      | .ok y => .ok ([.fs f, .mo s.unit, .d02 (some x) (some y)] ++ s.macros.map (fun e => .am e.1 e.2)
          ++ s.apertures.map (fun e => .ad e.1 e.2) ++ s.macros.map (fun e => .am e.1 e.2)
          ++ [plotNode s.plot, quadNode s.quad, .lm s.transform.mirroring, .ls s.transform.scaling,
            .lr s.transform.rotation] ++ (s.apId.map Leaf.dnn).toList ++ extra)

/-- The visitor on the preview program (`compile(File(nodes=nodes))`, hover/gerber.py 470). -/
def preview (s : VState) (extra : List Leaf) : Except HErr Out :=
  match previewNodes s extra with
  | .error e => .error e
  | .ok ls => .ok (processFile false (ls.map Cmd.leaf))

/-- hover/gerber.py 325-326: a value shown, or its default. -/
def shownValue (f : CoordinateFormat) (a : Axis) (t : Option (List Char)) (d : ℚ) : Except Coord.Err ℚ :=
  match t with
  | none => .ok d
  | some t => f.unpack a t

/-- hover/gerber.py 314-332 (`_append_xy`): the two values shown; nothing is shown without a format. -/
def appendXY (s : VState) (x y : Option (List Char)) (dx dy : ℚ) : Except HErr (Option (ℚ × ℚ)) :=
  match s.format with
  | none => .ok none
  | some f =>
    match shownValue f .x x dx with
    | .error e => .error (.pack e)
    | .ok vx => match shownValue f .y y dy with
      | .error e => .error (.pack e)
      | .ok vy => .ok (some (vx, vy))

/-- The values in the text shown for a `D01`: hover/gerber.py 488-512 with the helpers 307-406. -/
structure DrawReport where
  startsAt : ℚ × ℚ
  endsAt : Option (ℚ × ℚ)
  centreAt : Option (ℚ × ℚ)
  aperture : Option Name
  quadrant : Option Quad
  plot : Plot
  polarity : Polarity
  mirroring : Mirroring
  rotation : ℚ
  scaling : ℚ
  apertureAttrs : Dict Name Name
  objectAttrs : Dict Name Name

/-- hover/gerber.py 488-512 (`on_d01`). -/
def drawReport (s : VState) (x y i j : Option (List Char)) : Except HErr DrawReport :=
  match appendXY s x y s.currentX s.currentY with
  | .error e => .error e
  | .ok stop => match (if s.plot = .linear then .ok none else appendXY s i j 0 0) with
    | .error e => .error e
    | .ok centre => .ok {
        startsAt := (s.currentX, s.currentY), endsAt := stop, centreAt := centre, aperture := s.apId,
        quadrant := if s.plot = .linear then none else some s.quad, plot := s.plot,
        polarity := s.transform.polarity, mirroring := s.transform.mirroring, rotation := s.transform.rotation,
        scaling := s.transform.scaling,
        apertureAttrs := ((s.apId.bind fun id => s.perAperture.get? id).getD []), objectAttrs := s.objectAttrs }

end Verif.Hover
