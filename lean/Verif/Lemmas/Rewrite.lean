import Verif.Model.View
import Verif.Model.Compiler

/-!
# Rewriting the expressions of macros

A rewriting of expressions that keeps their values changes neither what the visitor does nor what the compiler makes.
-/

namespace Verif.Rewrite

open Verif.Visitor
open Verif.Math (Expr)

/-! ## Rewriting -/

/-- A node of a macro body with every expression rewritten. -/
def prim (g : Expr → Expr) : Macro.Prim → Macro.Prim
  | .code0 => .code0
  | .code1 a b c d r => .code1 (g a) (g b) (g c) (g d) (r.map g)
  | .code2 a b c d e f r => .code2 (g a) (g b) (g c) (g d) (g e) (g f) (g r)
  | .code4 a b c d ps r => .code4 (g a) (g b) (g c) (g d) (ps.map fun p => (g p.1, g p.2)) (g r)
  | .code5 a b c d e r => .code5 (g a) (g b) (g c) (g d) (g e) (g r)
  | .code6 a b c d e f h i r => .code6 (g a) (g b) (g c) (g d) (g e) (g f) (g h) (g i) (g r)
  | .code7 n a b c d e r => .code7 n (g a) (g b) (g c) (g d) (g e) (g r)
  | .code20 a b c d e f r => .code20 (g a) (g b) (g c) (g d) (g e) (g f) (g r)
  | .code21 a b c d e r => .code21 (g a) (g b) (g c) (g d) (g e) (g r)
  | .code22 a b c d e r => .code22 (g a) (g b) (g c) (g d) (g e) (g r)
  | .assign v e => .assign v (g e)

/-- A command without a body. -/
def leaf (g : Expr → Expr) : Leaf → Leaf
  | .am n b => .am n (b.map (prim g))
  | l => l

mutual
/-- A command. -/
def cmd (g : Expr → Expr) : Cmd → Cmd
  | .leaf l => .leaf (leaf g l)
  | .ab i b => .ab i (cmds g b)
  | .sr p b => .sr p (cmds g b)
/-- Several commands. -/
def cmds (g : Expr → Expr) : List Cmd → List Cmd
  | [] => []
  | c :: cs => cmd g c :: cmds g cs
end

/-- A state. -/
def state (g : Expr → Expr) (s : VState) : VState := { s with macros := s.macros.map fun p => (p.1, p.2.map (prim g)) }

/-- A callback. -/
def event (g : Expr → Expr) : Event → Event
  | .draw k r s => .draw k r (state g s)
  | .flash k a s => .flash k a (state g s)
  | .startRegion => .startRegion
  | .flushRegion s => .flushRegion (state g s)
  | .endRegion => .endRegion
  | .define i d s => .define i d (state g s)
  | .abOpen i => .abOpen i
  | .abClose i => .abClose i
  | .srOpen p => .srOpen p
  | .srClose p s => .srClose p (state g s)

/-- An outcome. -/
def out (g : Expr → Expr) (o : Out) : Out := ⟨state g o.st, o.ev.map (event g), o.exn⟩

/-! ## The visitor -/

variable {g : Expr → Expr}

theorem set_map {κ α β : Type} [DecidableEq κ] (f : α → β) (d : Dict κ α) (k : κ) (v : α) :
    (d.set k v).map (fun p => (p.1, f p.2)) = Dict.set (d.map fun p => (p.1, f p.2)) k (f v) := by
  induction d with
  | nil => rfl
  | cons e d ih =>
    simp only [Dict.set, List.map_cons]
    split
    · rfl
    · rw [List.map_cons, ih]

theorem get?_map {κ α β : Type} [DecidableEq κ] (f : α → β) (d : Dict κ α) (k : κ) :
    Dict.get? (d.map fun p => (p.1, f p.2)) k = (d.get? k).map f := by
  induction d with
  | nil => rfl
  | cons e d ih =>
    simp only [Dict.get?, List.map_cons]
    split
    · rfl
    · exact ih

theorem out_ok (s : VState) (ev : List Event) : out g (.ok s ev) = .ok (state g s) (ev.map (event g)) := rfl
theorem out_fail (s : VState) (e : Exn) : out g (.fail s e) = .fail (state g s) e := rfl

theorem out_andThen (a : Out) (f f' : VState → Out) (h : ∀ s, f' (state g s) = out g (f s)) :
    (out g a).andThen f' = out g (a.andThen f) := by
  obtain ⟨s, ev, e⟩ := a
  cases e with
  | some e => rfl
  | none => simp only [Out.andThen, out, h, List.map_append]

theorem coordinate_map (a : Coord.Axis) (put : ℚ → VState → VState) (hp : ∀ v s, put v (state g s) = state g (put v s))
    (t : Option (List Char)) (s : VState) : coordinate a put t (state g s) = out g (coordinate a put t s) := by
  unfold coordinate
  cases t with
  | none => rfl
  | some t =>
    change (match s.format with | none => _ | some f => _) = _
    cases s.format with
    | none => rfl
    | some f =>
      simp only
      cases f.unpack a t with
      | error e => rfl
      | ok v => simp only [out_ok, hp, List.map_nil]

theorem visitXY_map (x y : Option (List Char)) (s : VState) : visitXY x y (state g s) = out g (visitXY x y s) := by
  unfold visitXY
  rw [coordinate_map .x (fun v s => s.putX v) (fun _ _ => rfl)]
  exact out_andThen _ _ _ fun s => coordinate_map .y (fun v s => s.putY v) (fun _ _ => rfl) _ s

theorem visitIJ_map (x y : Option (List Char)) (s : VState) : visitIJ x y (state g s) = out g (visitIJ x y s) := by
  unfold visitIJ
  rw [coordinate_map .x (fun v s => s.putI v) (fun _ _ => rfl)]
  exact out_andThen _ _ _ fun s => coordinate_map .y (fun v s => s.putJ v) (fun _ _ => rfl) _ s

theorem update_map (s : VState) : (state g s).updateCoordinates = state g s.updateCoordinates := by
  obtain ⟨unit, format, plot, quad, apId, cx, cy, x, y, i, j, t, aps, bl, ms, pa, aa, fa, oa, im, ir, dh, fh, dr⟩ := s
  cases x <;> cases y <;> rfl

theorem stepLeaf_map (s : VState) (l : Leaf) : stepLeaf (state g s) (leaf g l) = out g (stepLeaf s l) := by
  cases l with
  | am n b =>
    simp only [leaf, stepLeaf, out_ok, List.map_nil]
    simp only [state, set_map (fun b => List.map (prim g) b)]
  | d01 x y i j =>
    simp only [leaf, stepLeaf]
    rw [visitXY_map, out_andThen _ _ _ fun s => visitIJ_map i j s]
    refine out_andThen _ _ _ fun s => ?_
    simp only [out_ok, update_map, List.map_cons, List.map_nil]
    rfl
  | d02 x y =>
    simp only [leaf, stepLeaf]
    rw [visitXY_map]
    refine out_andThen _ _ _ fun s => ?_
    simp only [out_ok, update_map]
    congr 1
    change (if s.updateCoordinates.isRegion then _ else _) = _
    split <;> rfl
  | d03 x y =>
    simp only [leaf, stepLeaf]
    rw [visitXY_map]
    refine out_andThen _ _ _ fun s => ?_
    unfold flashCurrent
    change (match s.currentAperture with | .error e => _ | .ok ap => _) = _
    cases s.currentAperture with
    | error e => rfl
    | ok ap =>
      simp only
      change (match s.flashHandler with | none => _ | some k => _) = _
      cases s.flashHandler with
      | none => rfl
      | some k => simp only [out_ok, update_map, List.map_cons, List.map_nil]; rfl
  | dnn id =>
    simp only [leaf, stepLeaf]
    change (match ({ s with apId := some id } : VState).currentAperture with | .error e => _ | .ok ap => _) = _
    cases ({ s with apId := some id } : VState).currentAperture <;> rfl
  | td n => cases n <;> rfl
  | _ => rfl

mutual
theorem visit_map : ∀ (c : Cmd) (s : VState), visit (state g s) (cmd g c) = out g (visit s c)
  | .leaf l, s => by simp only [cmd, visit]; exact stepLeaf_map s l
  | .ab i b, s => by
    simp only [cmd, visit]
    have h1 : step (state g s) (.abOpen i) = out g (step s (.abOpen i)) := rfl
    rw [h1, out_andThen _ _ _ fun s => visitAll_map b s]
    exact out_andThen _ _ _ fun s => rfl
  | .sr p b, s => by
    simp only [cmd, visit]
    have h1 : step (state g s) (.srOpen p) = out g (step s (.srOpen p)) := rfl
    rw [h1, out_andThen _ _ _ fun s => visitAll_map b s]
    exact out_andThen _ _ _ fun s => rfl
theorem visitAll_map : ∀ (cs : List Cmd) (s : VState), visitAll (state g s) (cmds g cs) = out g (visitAll s cs)
  | [], s => rfl
  | c :: cs, s => by
    simp only [cmds, visitAll]
    rw [visit_map c s]
    exact out_andThen _ _ _ fun s => visitAll_map cs s
end

theorem onFile_map (ignore : Bool) : ∀ (cs : List Cmd) (s : VState),
    onFile ignore (state g s) (cmds g cs) = out g (onFile ignore s cs)
  | [], s => rfl
  | c :: cs, s => by
    simp only [cmds, onFile, visit_map]
    have e : (out g (visit s c)).exn = (visit s c).exn := rfl
    rw [e]
    cases (visit s c).exn with
    | none =>
      simp only [out]
      rw [onFile_map ignore cs]
      simp only [out, List.map_append]
    | some x =>
      cases x <;> simp only
      case programStop =>
        split
        · rfl
        · simp only [out]
          rw [onFile_map ignore cs]
          simp only [out, List.map_append]
      all_goals rfl

theorem processFile_map (ignore : Bool) (cs : List Cmd) : processFile ignore (cmds g cs) = out g (processFile ignore cs) :=
  onFile_map ignore cs {}

/-! ## The compiler -/

open Verif.Compiler

/-- Rewriting keeps the values of expressions. -/
def Keeps (g : Expr → Expr) : Prop := ∀ scope e, Math.eval scope (g e) = Math.eval scope e

theorem evalE_map (hg : Keeps g) (scope : Dict Name ℚ) (e : Expr) : evalE scope (g e) = evalE scope e := by
  unfold evalE; rw [hg]

theorem evalPoints_map (hg : Keeps g) (scope : Dict Name ℚ) (ps : List (Expr × Expr)) :
    evalPoints scope (ps.map fun p => (g p.1, g p.2)) = evalPoints scope ps := by
  induction ps with
  | nil => rfl
  | cons p ps ih => simp only [List.map_cons, evalPoints, evalE_map hg, ih]

theorem primitive_map (hg : Keeps g) (now : Nat) (scope : Dict Name ℚ) (p : Macro.Prim) :
    primitive now scope (prim g p) = primitive now scope p := by
  cases p with
  | code1 a b c d r => cases r <;> simp only [prim, primitive, Option.map_none, Option.map_some, evalE_map hg]
  | code4 a b c d ps r =>
    simp only [prim, primitive, evalE_map hg, evalPoints_map hg]
  | code0 => rfl
  | _ => simp only [prim, primitive, vectorLine, moire, thermal, evalE_map hg]

theorem runPrims_map (hg : Keeps g) (env : Env) (id : LayerId) (ps : List Macro.Prim) :
    ∀ scope cs c, runPrims env id (ps.map (prim g)) scope cs c = runPrims env id ps scope cs c := by
  induction ps with
  | nil => intro scope cs c; rfl
  | cons p ps ih => intro scope cs c; simp only [List.map_cons, runPrims, primitive_map hg, ih]

theorem step_map (hg : Keeps g) (env : Env) (e : Event) (c : CState) : Compiler.step env (event g e) c = Compiler.step env e c := by
  cases e with
  | define i d s =>
    cases d with
    | «macro» n ps =>
      simp only [event, Compiler.step, define]
      have : (state g s).macros.get? n = (s.macros.get? n).map (List.map (prim g)) := get?_map _ _ _
      rw [this]
      cases s.macros.get? n with
      | none => rfl
      | some b => simp only [Option.map_some, runPrims_map hg]
    | _ => rfl
  | _ => rfl

theorem feed_map (hg : Keeps g) (env : Env) (es : List Event) : ∀ c, feed env (es.map (event g)) c = feed env es c := by
  induction es with
  | nil => intro c; rfl
  | cons e es ih => intro c; simp only [List.map_cons, feed, step_map hg, ih]

/-- The compiler makes the same program, or raises the same exception. -/
theorem compile_map (hg : Keeps g) (env : Env) (ignore : Bool) (cs : List Visitor.Cmd) :
    compile env ignore (cmds g cs) = compile env ignore cs := by
  unfold compile finish
  rw [processFile_map]
  simp only [out, feed_map hg]

/-! ## Parsed files -/

/-- A node of a macro body. -/
def sprim (g : Expr → Expr) : Syntax.Prim → Syntax.Prim
  | .assign v e => .assign v (g e)
  | .code0 s => .code0 s
  | .code1 a b c d r => .code1 (g a) (g b) (g c) (g d) (r.map g)
  | .code2 a b c d e f r => .code2 (g a) (g b) (g c) (g d) (g e) (g f) (g r)
  | .code4 a b c d ps r => .code4 (g a) (g b) (g c) (g d) (ps.map fun p => (g p.1, g p.2)) (g r)
  | .code5 a b c d e r => .code5 (g a) (g b) (g c) (g d) (g e) (g r)
  | .code6 a b c d e f h i r => .code6 (g a) (g b) (g c) (g d) (g e) (g f) (g h) (g i) (g r)
  | .code7 a b c d e r => .code7 (g a) (g b) (g c) (g d) (g e) (g r)
  | .code20 a b c d e f r => .code20 (g a) (g b) (g c) (g d) (g e) (g f) (g r)
  | .code21 a b c d e r => .code21 (g a) (g b) (g c) (g d) (g e) (g r)
  | .code22 a b c d e r => .code22 (g a) (g b) (g c) (g d) (g e) (g r)

mutual
/-- A node. -/
def node (g : Expr → Expr) : Syntax.Node → Syntax.Node
  | .am n ps => .am n (ps.map (sprim g))
  | .ab i ns => .ab i (nodes g ns)
  | .sr x y i j ns => .sr x y i j (nodes g ns)
  | n => n
/-- Several nodes. -/
def nodes (g : Expr → Expr) : List Syntax.Node → List Syntax.Node
  | [] => []
  | n :: ns => node g n :: nodes g ns
end

theorem prim_view (n : Nat) (p : Syntax.Prim) : View.prim n (sprim g p) = (prim g (View.prim n p).1, (View.prim n p).2) := by
  cases p <;> rfl

theorem prims_view : ∀ (ps : List Syntax.Prim) (n : Nat),
    View.prims n (ps.map (sprim g)) = ((View.prims n ps).1.map (prim g), (View.prims n ps).2)
  | [], n => rfl
  | p :: ps, n => by simp only [List.map_cons, View.prims, prim_view, prims_view ps]

mutual
theorem cmd_view : ∀ (m : Syntax.Node) (n : Nat), View.cmd n (node g m) = (cmd g (View.cmd n m).1, (View.cmd n m).2)
  | .ab i ns, n => by simp only [node, View.cmd, cmd, cmds_view ns n]
  | .sr x y i j ns, n => by simp only [node, View.cmd, cmd, cmds_view ns (n + 1)]
  | .am name ps, n => by simp only [node, View.cmd, cmd, leaf, prims_view ps n]
  | .adc .., _ | .adr .., _ | .ado .., _ | .adp .., _ | .adMacro .., _ | .taUser .., _ | .taFunction .., _
  | .taDrill .., _ | .taFlash .., _ | .td .., _ | .tfUser .., _ | .tfPart .., _ | .tfFunction .., _ | .tfPolarity .., _
  | .tfSame .., _ | .tfDate .., _ | .tfSoftware .., _ | .tfProject .., _ | .tfMd5 .., _ | .toUser .., _ | .toN .., _
  | .toP .., _ | .toText .., _ | .toRot .., _ | .toHeight .., _ | .toMount .., _ | .toSup .., _ | .g04 .., _ | .lm .., _
  | .ln .., _ | .lp .., _ | .lr .., _ | .ls .., _ | .m00, _ | .m01, _ | .m02, _ | .as_ .., _ | .fs .., _ | .in_ .., _
  | .ip .., _ | .ir .., _ | .mi .., _ | .mo .., _ | .of_ .., _ | .sf .., _ | .dnn .., _ | .d01 .., _ | .d02 .., _
  | .d03 .., _ => rfl
  | .g c _, _ => by cases c <;> rfl
theorem cmds_view : ∀ (ms : List Syntax.Node) (n : Nat),
    View.cmds n (nodes g ms) = (cmds g (View.cmds n ms).1, (View.cmds n ms).2)
  | [], n => rfl
  | m :: ms, n => by simp only [nodes, View.cmds, cmds, cmd_view m n, cmds_view ms]
end

/-- The commands of a rewritten file are the rewritten commands of the file. -/
theorem commands_nodes (f : List Syntax.Node) : View.commands (nodes g f) = cmds g (View.commands f) := by
  simp only [View.commands, cmds_view]

/-- Rewriting a file keeps what the compiler makes of it. -/
theorem compile_nodes (hg : Keeps g) (env : Env) (ignore : Bool) (f : List Syntax.Node) :
    compile env ignore (View.commands (nodes g f)) = compile env ignore (View.commands f) := by
  rw [commands_nodes, compile_map hg]

end Verif.Rewrite
