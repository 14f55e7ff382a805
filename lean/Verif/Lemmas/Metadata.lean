import Verif.Model.Metadata
import Verif.Lemmas.Compiler

/-!
# Metadata does not change what is drawn
-/

namespace Verif.Lemmas.Metadata
open Verif.Visitor Verif.Geom Verif.Rvmc Verif.Metadata
open Verif.Compiler (LayerId CErr CState Env contourSegments drawShapes thermal transformMatrix endPoint)
noncomputable section

/-- The state without metadata. -/
def erase (c : MState) : CState :=
  { buffers := c.buffers.map fun e => (e.1, e.2.map Tagged.cmd), stack := c.stack, contour := c.contour,
    calls := c.calls }

variable {κ α β : Type} [DecidableEq κ]

theorem get?_map (f : α → β) (d : Dict κ α) (k : κ) :
    Dict.get? (d.map fun e => (e.1, f e.2)) k = (Dict.get? d k).map f := by
  induction d with
  | nil => rfl
  | cons e d ih =>
    simp only [List.map_cons, Dict.get?]
    split
    · rfl
    · exact ih

theorem set_map (f : α → β) (d : Dict κ α) (k : κ) (v : α) :
    (Dict.set d k v).map (fun e => (e.1, f e.2)) = Dict.set (d.map fun e => (e.1, f e.2)) k (f v) := by
  induction d with
  | nil => rfl
  | cons e d ih =>
    simp only [List.map_cons, Dict.set]
    split
    · rfl
    · rw [List.map_cons, ih]

theorem pop_map (f : α → β) (d : Dict κ α) (k : κ) :
    (Dict.pop d k).map (fun e => (e.1, f e.2)) = Dict.pop (d.map fun e => (e.1, f e.2)) k := by
  induction d with
  | nil => rfl
  | cons e d ih =>
    simp only [List.map_cons, Dict.pop]
    split
    · exact ih
    · rw [List.map_cons, ih]

@[simp] theorem erase_get? (c : MState) (k : LayerId) :
    (erase c).buffers.get? k = (c.buffers.get? k).map (List.map Tagged.cmd) := get?_map _ _ _

@[simp] theorem erase_stack (c : MState) : (erase c).stack = c.stack := rfl
@[simp] theorem erase_contour (c : MState) : (erase c).contour = c.contour := rfl
@[simp] theorem erase_calls (c : MState) : (erase c).calls = c.calls := rfl

theorem erase_create (id : LayerId) (cmds : List Tagged) (c : MState) :
    erase (create id cmds c) = Compiler.create id (cmds.map Tagged.cmd) (erase c) := by
  simp only [erase, create, Compiler.create, set_map]

@[simp] theorem tag_cmd (info : Info) (cmds : List Compiler.Cmd) : (tag info cmds).map Tagged.cmd = cmds := by
  simp [tag, Function.comp_def]

/-- The results agree, apart from metadata. -/
def SameOut {γ δ : Type} (f : γ → δ) (a : Except CErr γ) (b : Except CErr δ) : Prop := a.map f = b

theorem erase_append (cmds : List Tagged) (c : MState) :
    (append cmds c).map erase = Compiler.append (cmds.map Tagged.cmd) (erase c) := by
  cases cmds with
  | nil => rfl
  | cons t ts =>
    simp only [append, Compiler.append, List.map_cons, erase_stack]
    cases c.stack with
    | nil => rfl
    | cons id rest =>
      simp only [erase_get?]
      cases c.buffers.get? id with
      | none => rfl
      | some b => simp [Except.map, erase, set_map]

/-! ### Macros -/

theorem bind_map {γ δ ε : Type} (f : δ → ε) (a : Except CErr γ) (g : γ → Except CErr δ) :
    (a >>= g).map f = a >>= fun x => (g x).map f := by
  cases a <;> rfl

theorem pure_map {γ δ : Type} (f : γ → δ) (x : γ) : (pure x : Except CErr γ).map f = pure (f x) := rfl

theorem erase_moire (info : Info) (scope : Dict Name ℚ) (a b c d e f g h i : Math.Expr) :
    (moire info scope a b c d e f g h i).map (List.map Tagged.cmd) =
      (Compiler.moire scope a b c d e f g h i).map (List.map Draw.shape) := by
  simp only [moire, Compiler.moire, bind_map, List.map_append]
  repeat (congr 1; funext _)
  split <;> simp only [bind_map, pure_map, List.map_append, tag_cmd]

/-- The outcome of a primitive without metadata. -/
def erasePrim (o : Metadata.PrimOut) : Compiler.PrimOut :=
  ⟨o.scope, o.cmds.map Tagged.cmd, o.layer.map fun l => (l.1, l.2.map Tagged.cmd), o.ticks⟩

theorem erase_primitive (info : Info) (now : Nat) (scope : Dict Name ℚ) (p : Macro.Prim) :
    (primitive info now scope p).map erasePrim = Compiler.primitive now scope p := by
  cases p with
  | code6 a b c d e f g h i =>
    simp only [primitive, Compiler.primitive, bind_map, pure_map]
    have := erase_moire info scope a b c d e f g h i
    cases h1 : moire info scope a b c d e f g h i with
    | error x =>
      rw [h1] at this
      cases h2 : Compiler.moire scope a b c d e f g h i with
      | error y => rw [h2] at this; cases this; rfl
      | ok y => rw [h2] at this; cases this
    | ok x =>
      rw [h1] at this
      cases h2 : Compiler.moire scope a b c d e f g h i with
      | error y => rw [h2] at this; cases this
      | ok y =>
        rw [h2] at this
        have := Except.ok.inj this
        simp only [bind, Except.bind, pure, Except.pure, erasePrim, this, Compiler.PrimOut.shapes, Option.map]
  | code7 node a b c d e f =>
    simp only [primitive, bind_map, pure_map]
    show _ = thermal now scope node a b c d e f
    cases thermal now scope node a b c d e f with
    | error x => rfl
    | ok o =>
      simp only [bind, Except.bind, pure, Except.pure, erasePrim, tag_cmd, Option.map_map, Function.comp_def]
      cases o with | mk a b l t => cases l <;> rfl
  | _ =>
    simp only [primitive, bind_map, pure_map]
    generalize Compiler.primitive now scope _ = r
    cases r with
    | error x => rfl
    | ok o =>
      simp only [bind, Except.bind, pure, Except.pure, erasePrim, tag_cmd, Option.map_map, Function.comp_def]
      cases o with | mk a b l t => cases l <;> rfl

theorem erase_runPrims (env : Env) (info : Info) (id : LayerId) : ∀ (ps : List Macro.Prim) (scope : Dict Name ℚ)
    (cmds : List Tagged) (c : MState), (runPrims env info id ps scope cmds c).map erase =
      Compiler.runPrims env id ps scope (cmds.map Tagged.cmd) (erase c)
  | [], scope, cmds, c => by
    simp only [runPrims, Compiler.runPrims, Except.map, erase_create]
  | p :: ps, scope, cmds, c => by
    simp only [runPrims, Compiler.runPrims, bind_map, erase_calls]
    rw [← erase_primitive info]
    cases primitive info (env.time c.calls) scope p with
    | error x => rfl
    | ok o =>
      show (runPrims env info id ps o.scope (cmds ++ o.cmds) _).map erase = Compiler.runPrims _ _ _ _ _ _
      rw [erase_runPrims env info id ps o.scope (cmds ++ o.cmds)]
      simp only [erasePrim, List.map_append]
      cases o.layer with
      | none => rfl
      | some l => simp only [Option.map]; rw [erase_create]; rfl

theorem erase_define (env : Env) (inc : Bool) (id : Name) (d : ApDef) (s : VState) (c : MState) :
    (define env inc id d s c).map erase = Compiler.define env id d s (erase c) := by
  cases d with
  | «macro» name params =>
    simp only [define, Compiler.define]
    cases s.macros.get? name with
    | none => rfl
    | some body => simp only [erase_runPrims, erase_create]; rfl
  | polygon a n r h =>
    simp only [define, Compiler.define, bind_map, pure_map, erase_create, tag_cmd]
  | _ => simp only [define, Compiler.define, Except.map, erase_create, tag_cmd]

/-! ### Draws and flashes -/

theorem erase_draw (inc : Bool) (kind : DrawKind) (inRegion : Bool) (s : VState) (c : MState) :
    (draw inc kind inRegion s c).map erase = Compiler.draw kind inRegion s (erase c) := by
  cases inRegion with
  | false =>
    simp only [draw, Compiler.draw, Bool.false_eq_true, if_false, bind_map, erase_append, tag_cmd]
  | true =>
    simp only [draw, Compiler.draw, if_true, erase_contour]
    cases kind <;> try rfl
    all_goals cases c.contour <;> rfl

theorem erase_flushRegion (inc : Bool) (s : VState) (c : MState) :
    (flushRegion inc s c).map erase = Compiler.flushRegion s (erase c) := by
  simp only [flushRegion, Compiler.flushRegion, erase_contour]
  rcases c.contour with _ | _ | ⟨g, gs⟩
  · rfl
  · rfl
  · simp only [bind_map, pure_map]
    have := erase_append [⟨.shape ⟨g, gs, s.isNegative⟩, regionInfo inc s⟩] c
    simp only [List.map_cons, List.map_nil] at this
    rw [← this]
    cases append [⟨.shape ⟨g, gs, s.isNegative⟩, regionInfo inc s⟩] c <;> rfl

/-- A layer and a state without metadata. -/
def eraseGot (r : LayerId × MState) : LayerId × CState := (r.1, erase r.2)

/-- A list of commands and a state without metadata. -/
def eraseList (r : List Tagged × MState) : List Compiler.Cmd × CState := (r.1.map Tagged.cmd, erase r.2)

theorem erase_transformCmds (m : Mat ℝ) (get : LayerId → MState → Except CErr (LayerId × MState))
    (get' : LayerId → CState → Except CErr (LayerId × CState))
    (h : ∀ id c, (get id c).map eraseGot = get' id (erase c)) : ∀ (cmds : List Tagged) (c : MState),
    (transformCmds m get cmds c).map eraseList = Compiler.transformCmds m get' (cmds.map Tagged.cmd) (erase c)
  | [], c => rfl
  | ⟨.shape s, info⟩ :: cmds, c => by
    simp only [transformCmds, List.map_cons, Compiler.transformCmds, bind_map, pure_map,
      ← erase_transformCmds m get get' h cmds c]
    cases transformCmds m get cmds c <;> rfl
  | ⟨.paste src center neg, info⟩ :: cmds, c => by
    simp only [transformCmds, List.map_cons, Compiler.transformCmds, bind_map, pure_map, ← h]
    cases get src c with
    | error x => rfl
    | ok b =>
      simp only [bind, Except.bind, Except.map, eraseGot, pure, Except.pure]
      rw [← erase_transformCmds m get get' h cmds b.2]
      cases transformCmds m get cmds b.2 <;> rfl

theorem erase_bufferWithTransform (m : Mat ℝ) : ∀ (fuel : Nat) (base : LayerId) (c : MState),
    (bufferWithTransform m fuel base c).map eraseGot = Compiler.bufferWithTransform m fuel base (erase c)
  | 0, _, _ => rfl
  | fuel + 1, base, c => by
    simp only [bufferWithTransform, Compiler.bufferWithTransform, erase_get?]
    cases c.buffers.get? (.xform base m) with
    | some _ => rfl
    | none =>
      cases c.buffers.get? base with
      | none => rfl
      | some cmds =>
        simp only [Option.map, bind_map, pure_map]
        rw [← erase_transformCmds m (bufferWithTransform m fuel) _ (erase_bufferWithTransform m fuel)]
        cases transformCmds m (bufferWithTransform m fuel) cmds c with
        | error x => rfl
        | ok r => simp only [bind, Except.bind, Except.map, eraseGot, eraseList, erase_create, pure, Except.pure]

@[simp] theorem erase_moved (m : Mat ℝ) (cmds : List Tagged) :
    (moved m cmds).map Tagged.cmd = Compiler.moved m (cmds.map Tagged.cmd) := by
  simp only [moved, Compiler.moved, List.map_map]
  refine List.map_congr_left fun t _ => ?_
  rcases t with ⟨_ | _, info⟩ <;> rfl

theorem erase_flash (env : Env) (inc : Bool) (kind : FlashKind) (ap : Aperture) (s : VState) (c : MState) :
    (flash env inc kind ap s c).map erase = Compiler.flash env kind ap s (erase c) := by
  have ha : ∀ id, (flashAperture env inc id s c).map erase = Compiler.flashAperture env id s (erase c) := by
    intro id
    simp only [flashAperture, Compiler.flashAperture, bind_map, erase_append, ← erase_bufferWithTransform]
    cases bufferWithTransform (transformMatrix s.transform) env.depth (.ap id) c <;> rfl
  have hb : ∀ id, (flashBlock env id s c).map erase = Compiler.flashBlock env id s (erase c) := by
    intro id
    simp only [flashBlock, Compiler.flashBlock, bind_map, ← erase_bufferWithTransform]
    cases bufferWithTransform (transformMatrix s.transform) env.depth (.ap id) c with
    | error x => rfl
    | ok b =>
      simp only [bind, Except.bind, Except.map, eraseGot, erase_get?]
      cases h : b.2.buffers.get? b.1 with
      | none => rfl
      | some cmds =>
        have := erase_append (moved (Mat.newTranslate (s.coordinateX : ℝ) (s.coordinateY : ℝ)) cmds) b.2
        simp only [erase_moved] at this
        simp only [Option.map, ← this]
        rfl
  cases kind <;> cases ap <;> first | rfl | exact ha _ | exact hb _

@[simp] theorem erase_copies (p : SrParams) (s : VState) (body : List Tagged) :
    (copies p s body).map Tagged.cmd = Compiler.copies p s (body.map Tagged.cmd) := by
  simp only [copies, Compiler.copies, List.map_flatMap, erase_moved]

theorem erase_closeSr (p : SrParams) (s : VState) (c : MState) :
    (closeSr p s c).map erase = Compiler.closeSr p s (erase c) := by
  simp only [closeSr, Compiler.closeSr, erase_stack]
  cases c.stack with
  | nil => rfl
  | cons id rest =>
    simp only [erase_get?]
    cases c.buffers.get? id with
    | none => rfl
    | some body =>
      simp only [Option.map]
      split
      · rfl
      · simp only [bind_map, pure_map]
        have := erase_append (copies p s body) { c with stack := rest }
        rw [erase_copies] at this
        have e : ({ erase c with stack := rest } : CState) = erase { c with stack := rest } := rfl
        rw [e, ← this]
        cases append (copies p s body) { c with stack := rest } with
        | error x => rfl
        | ok c' => simp only [bind, Except.bind, Except.map, erase, pop_map, pure, Except.pure]

theorem erase_step (env : Env) (inc : Bool) (e : Event) (c : MState) :
    (step env inc e c).map erase = Compiler.step env e (erase c) := by
  cases e with
  | draw k r s => exact erase_draw ..
  | flash k ap s => exact erase_flash ..
  | flushRegion s => exact erase_flushRegion ..
  | define id d s => exact erase_define ..
  | srClose p s => exact erase_closeSr ..
  | startRegion => rfl
  | endRegion => rfl
  | abOpen id =>
    have := erase_create (.ap id) [] c
    simp only [Metadata.step, Compiler.step, Except.map, List.map_nil] at this ⊢
    rw [← this]; rfl
  | abClose id =>
    simp only [Metadata.step, Compiler.step, erase_stack]
    cases c.stack <;> rfl
  | srOpen p =>
    have := erase_create (LayerId.sr p.node (env.time c.calls)) [] c
    simp only [Metadata.step, Compiler.step, Except.map, List.map_nil, erase_calls] at this ⊢
    rw [← this]; rfl

theorem erase_feed (env : Env) (inc : Bool) : ∀ (es : List Event) (c : MState),
    (feed env inc es c).map erase = Compiler.feed env es (erase c)
  | [], _ => rfl
  | e :: es, c => by
    simp only [feed, Compiler.feed, bind_map, ← erase_step env inc]
    cases step env inc e c with
    | error x => rfl
    | ok c' => exact erase_feed env inc es c'

theorem erase_init : erase MState.init = CState.init := rfl

theorem erase_convert (env : Env) (inc : Bool) (s : VState) (c : MState) :
    (convert env inc s c).map (fun p => p.commands.map Prod.fst) = Compiler.convert env (erase c) := by
  have h : Compiler.dependsOn env (erase c).buffers = dependsOn env c.buffers := by
    funext id
    simp only [Compiler.dependsOn, dependsOn, erase_get?]
    cases c.buffers.get? id <;> rfl
  simp only [convert, Compiler.convert, bind_map, pure_map, h]
  congr 1
  funext order
  simp only [List.map_flatMap]
  congr 2
  funext id
  simp only [erase_get?]
  cases c.buffers.get? id <;>
    simp [layerCommands, Compiler.layerCommands, Function.comp_def]

theorem erase_finish (env : Env) (inc : Bool) (o : Out) :
    (finish env inc o).map (fun p => p.commands.map Prod.fst) = Compiler.finish env o := by
  simp only [finish, Compiler.finish, bind_map, ← erase_init, ← erase_feed env inc]
  cases feed env inc o.ev MState.init with
  | error x => rfl
  | ok c =>
    simp only [bind, Except.bind, Except.map]
    cases o.exn with
    | some e => rfl
    | none => exact erase_convert ..

end
end Verif.Lemmas.Metadata
