import Verif.Model.Vm
import Verif.Spec.Geom

/-!
# Structured programs for the virtual machine
-/

namespace Verif.Spec
open Verif.Rvmc Verif.Geom Verif.Vm

/-- A program with matched layer commands: drawing commands and complete layers. -/
inductive Node (ι : Type)
  | draw (d : Draw ι)
  | layer (id : ι) (box : Option (Box ℝ)) (origin : Vec ℝ) (body : List (Node ι))

mutual
/-- The commands of a node. -/
def Node.commands {ι : Type} : Node ι → List (Command ι)
  | .draw d => [.draw d]
  | .layer id box origin body => .start id box origin :: (Node.commandsAll body ++ [.stop])
/-- The commands of a list of nodes. -/
def Node.commandsAll {ι : Type} : List (Node ι) → List (Command ι)
  | [] => []
  | n :: ns => n.commands ++ Node.commandsAll ns
end

/-- The drawing commands of a body itself, without those of nested layers. -/
def Node.draws {ι : Type} : List (Node ι) → List (Draw ι)
  | [] => []
  | .draw d :: ns => d :: Node.draws ns
  | .layer _ _ _ _ :: ns => Node.draws ns

mutual
/-- No automatically sized layer is empty. -/
def Node.Drawn {ι : Type} : Node ι → Prop
  | .draw _ => True
  | .layer _ box _ body => (box = none → Node.draws body ≠ []) ∧ Node.DrawnAll body
/-- No automatically sized layer is empty. -/
def Node.DrawnAll {ι : Type} : List (Node ι) → Prop
  | [] => True
  | n :: ns => n.Drawn ∧ Node.DrawnAll ns
end

/-- An open layer: its name, whether it was started with a box, and the commands drawn directly on it so far. -/
structure Open (ι : Type) where
  id : ι
  fixed : Bool
  draws : List (Draw ι)

/-- The effect of one command on the open layers, innermost first. -/
def openStep {ι : Type} : List (Open ι) → Command ι → List (Open ι)
  | os, .start id box _ => ⟨id, box.isSome, []⟩ :: os
  | o :: os, .draw d => { o with draws := o.draws ++ [d] } :: os
  | [], .draw _ => []
  | os, .stop => os.tail

/-- The layers that are open after some commands, innermost first. -/
def openLayers {ι : Type} (cmds : List (Command ι)) : List (Open ι) := cmds.foldl openStep []

/-- No automatically sized layer ends without a drawing command on it. -/
def NoEmpty {ι : Type} (cmds : List (Command ι)) : Prop :=
  ∀ pre post, cmds = pre ++ .stop :: post → ∀ o, (openLayers pre).head? = some o → o.fixed = false → o.draws ≠ []

/-- Layer commands are matched and drawing commands are inside layers, `n` layers being open. -/
def Balanced {ι : Type} : ℕ → List (Command ι) → Prop
  | n, [] => n = 0
  | n, .start _ _ _ :: cs => Balanced (n + 1) cs
  | n, .draw _ :: cs => 0 < n ∧ Balanced n cs
  | n, .stop :: cs => 0 < n ∧ Balanced (n - 1) cs

/-- A command that starts or pastes the layer `id`. -/
def Mentions {ι : Type} (id : ι) : Command ι → Prop
  | .start id' _ _ => id' = id
  | .draw (.paste source _ _) => source = id
  | _ => False

/-- The box of a drawing command: the bounding box of a shape, or the box of the layer pasted, moved so that its origin
is at the given point. -/
def BoxOf {ι κ : Type} (layers : ι → Option (Layer ι κ)) (d : Draw ι) (b : Box ℝ) : Prop :=
  match d with
  | .shape s => b = s.outerBox
  | .paste source center _ => ∃ e, layers source = some (.eager e) ∧
      b = ⟨e.box.minX + center.x - e.origin.x, e.box.minY + center.y - e.origin.y,
        e.box.maxX + center.x - e.origin.x, e.box.maxY + center.y - e.origin.y⟩

/-! ## What structured programs mean -/

/-- What is known of layers: not started, started but of unknown size, or of known size with some content. -/
abbrev Store (ι κ : Type) := ι → Option (Option (Eager κ))

/-- One drawing command executed on a layer of known size. -/
def execute {ι κ : Type} [DecidableEq ι] (B : Backend κ) (id : ι) (V : Store ι κ) (d : Draw ι) :
    Except VErr (Store ι κ) :=
  match d with
  | .shape s =>
    match V id with
    | some (some e) => do
      let c ← B.shape e s
      return Function.update V id (some (some { e with content := c }))
    | some none => .error .attributeError
    | none => .error .keyError
  | .paste source center negative =>
    match V source with
    | none => .error .layerNotFound
    | some none => .error .pasteDeferredLayer
    | some (some src) =>
      match V id with
      | some (some e) => do
        let c ← B.paste e src center negative
        return Function.update V id (some (some { e with content := c }))
      | some none => .error .attributeError
      | none => .error .keyError

/-- Drawing commands executed one after the other. -/
def executeAll {ι κ : Type} [DecidableEq ι] (B : Backend κ) (id : ι) : List (Draw ι) → Store ι κ → Except VErr (Store ι κ)
  | [], V => .ok V
  | d :: ds, V => do
    let V ← execute B id V d
    executeAll B id ds V

/-- The box of a drawing command. -/
noncomputable def drawBox {ι κ : Type} (V : Store ι κ) : Draw ι → Except VErr (Box ℝ)
  | .shape s => .ok s.outerBox
  | .paste source center _ =>
    match V source with
    | none => .error .keyError
    | some none => .error .assertion
    | some (some e) => .ok ⟨e.box.minX + center.x - e.origin.x, e.box.minY + center.y - e.origin.y,
        e.box.maxX + center.x - e.origin.x, e.box.maxY + center.y - e.origin.y⟩

/-- The box of drawing commands, together with the box `b`. -/
noncomputable def drawBoxes {ι κ : Type} (V : Store ι κ) (b : Box ℝ) : List (Draw ι) → Except VErr (Box ℝ)
  | [] => .ok b
  | d :: ds => do
    let b' ← drawBox V d
    drawBoxes V (b.union b') ds

mutual
/-- A node: `now` is the layer of fixed size around it, on which drawing commands are executed at once; without such a
layer they are left to the end of the automatically sized layer around them. -/
noncomputable def Node.eval {ι κ : Type} [DecidableEq ι] (B : Backend κ) (now : Option ι) :
    Node ι → Store ι κ → Except VErr (Store ι κ)
  | .draw d, V =>
    match now with
    | some id => execute B id V d
    | none => .ok V
  | .layer id box origin body, V =>
    match V id with
    | some _ => .error .layerAlreadyExists
    | none =>
      match box with
      | some box => do
        let c ← B.create origin box
        Node.evalAll B (some id) body (Function.update V id (some (some ⟨origin, box, c⟩)))
      | none => do
        let V ← Node.evalAll B none body (Function.update V id (some none))
        match Node.draws body with
        | [] => .error .emptyAutoSizedLayer
        | d :: ds =>
          let b ← drawBox V d
          let box ← drawBoxes V b ds
          let c ← B.create origin box
          executeAll B id (d :: ds) (Function.update V id (some (some ⟨origin, box, c⟩)))
/-- Nodes one after the other. -/
noncomputable def Node.evalAll {ι κ : Type} [DecidableEq ι] (B : Backend κ) (now : Option ι) :
    List (Node ι) → Store ι κ → Except VErr (Store ι κ)
  | [], V => .ok V
  | n :: ns, V => do
    let V ← n.eval B now V
    Node.evalAll B now ns V
end

/-- What the machine knows of its layers. -/
def store {ι κ : Type} [DecidableEq ι] (layers : Dict ι (Layer ι κ)) : Store ι κ := fun id =>
  match layers.get? id with
  | none => none
  | some (.deferred _ _) => some none
  | some (.eager e) => some (some e)

end Verif.Spec
