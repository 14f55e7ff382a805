import Verif.Model.Rvmc
import Verif.Model.Dict

/-!
# The virtual machine (vm/vm.py)

`ι` is the type of layer identifiers, `κ` what a drawing backend keeps for a layer of known size (an image for
`PillowVirtualMachine`, a list of polygons for `ShapelyVirtualMachine`).

`_layers` and `_layer_stack` hold the same layer objects; the stack is modelled as a list of identifiers.  This is
faithful because an identifier that is in use is never started again (vm.py 198), and the only replacement of an object
(vm.py 267-272) happens while its layer is on top of the stack.

Simplification: the base class, whose eager handlers do nothing, is not modelled; the backends are its subclasses.
-/

namespace Verif.Vm
open Verif.Geom Verif.Rvmc
noncomputable section

/-- Exceptions (vm/types/errors.py) and the built-in ones the code runs into. -/
inductive VErr
  | layerAlreadyExists | layerNotFound | noLayerSet | emptyAutoSizedLayer | noMainLayer | pasteDeferredLayer
  | keyError | assertion | attributeError | backend
  deriving DecidableEq, Repr

/-- vm.py 95-103: a layer of known size, with what the backend keeps for it. -/
structure Eager (κ : Type) where
  /-- `origin`. -/
  origin : Vec ℝ
  /-- `box`. -/
  box : Box ℝ
  /-- Image or polygons. -/
  content : κ

/-- vm.py 74-120: the layer objects. -/
inductive Layer (ι κ : Type)
  | eager (e : Eager κ)
  | deferred (origin : Vec ℝ) (commands : List (Draw ι))

/-- What a subclass overrides: `create_eager_layer` (vm.py 156), `on_shape_eager` (vm.py 168) on the current layer and
`on_paste_layer_eager` (vm.py 181) on the current layer, given the source layer, the centre and the polarity. -/
structure Backend (κ : Type) where
  /-- `create_eager_layer`. -/
  create : Vec ℝ → Box ℝ → Except VErr κ
  /-- `on_shape_eager`. -/
  shape : Eager κ → Shape → Except VErr κ
  /-- `on_paste_layer_eager`. -/
  paste : Eager κ → Eager κ → Vec ℝ → Bool → Except VErr κ

/-- vm.py 128-133: the attributes of the machine. -/
structure Machine (ι κ : Type) where
  /-- Whether the deferred handlers are set (vm.py 146-154). -/
  deferring : Bool
  /-- `_layers`. -/
  layers : Dict ι (Layer ι κ)
  /-- `_layer_stack`, innermost first. -/
  stack : List ι

/-- vm.py 128-133 (`__init__`). -/
def Machine.init {ι κ : Type} : Machine ι κ := ⟨false, [], []⟩

variable {ι κ : Type} [DecidableEq ι] (B : Backend κ)

/-- The layer on top of the stack as an eager handler sees it: a deferred layer lacks the attributes it uses. -/
def target (layers : Dict ι (Layer ι κ)) (id : ι) : Except VErr (Eager κ) :=
  match layers.get? id with
  | some (.eager e) => .ok e
  | some (.deferred _ _) => .error .attributeError
  | none => .error .keyError

/-- The eager handlers on the layer `id`: vm/shapely/vm.py 236-296 and 373-410, vm/pillow/vm.py 334-360 and 466-504.
Both look the source layer up first (vm.py 220-225) and refuse deferred ones. -/
def paint (id : ι) (d : Draw ι) (layers : Dict ι (Layer ι κ)) : Except VErr (Dict ι (Layer ι κ)) :=
  match d with
  | .shape s => do
    let e ← target layers id
    let content ← B.shape e s
    return layers.set id (.eager { e with content := content })
  | .paste source center negative =>
    match layers.get? source with
    | none => .error .layerNotFound
    | some (.deferred _ _) => .error .pasteDeferredLayer
    | some (.eager src) => do
      let e ← target layers id
      let content ← B.paste e src center negative
      return layers.set id (.eager { e with content := content })

/-- vm.py 171-175 and 187-194: the deferred handlers on the layer `id`. -/
def record (id : ι) (d : Draw ι) (layers : Dict ι (Layer ι κ)) : Except VErr (Dict ι (Layer ι κ)) :=
  match layers.get? id with
  | some (.deferred origin commands) => .ok (layers.set id (.deferred origin (commands ++ [d])))
  | some (.eager _) => .error .assertion
  | none => .error .keyError

/-- vm.py 164-166 and 177-179 (`on_shape`, `on_paste_layer`) with the handlers set. -/
def onDraw (d : Draw ι) (m : Machine ι κ) : Except VErr (Machine ι κ) :=
  match m.stack with
  | [] =>
    match m.deferring, d with
    | false, .paste source _ _ =>
      match m.layers.get? source with
      | none => .error .layerNotFound
      | some (.deferred _ _) => .error .pasteDeferredLayer
      | some (.eager _) => .error .noLayerSet
    | _, _ => .error .noLayerSet
  | id :: _ => do
    let layers ← if m.deferring then record id d m.layers else paint B id d m.layers
    return { m with layers := layers }

/-- vm.py 196-211 (`on_start_layer`). -/
def onStart (id : ι) (box : Option (Box ℝ)) (origin : Vec ℝ) (m : Machine ι κ) : Except VErr (Machine ι κ) :=
  match m.layers.get? id with
  | some _ => .error .layerAlreadyExists
  | none =>
    match box with
    | none => .ok ⟨true, m.layers.set id (.deferred origin []), id :: m.stack⟩
    | some box => do
      let content ← B.create origin box
      return ⟨false, m.layers.set id (.eager ⟨origin, box, content⟩), id :: m.stack⟩

/-- vm.py 299-308: the box of one recorded command. -/
def commandBox (layers : Dict ι (Layer ι κ)) : Draw ι → Except VErr (Box ℝ)
  | .shape s => .ok s.outerBox
  | .paste source center _ =>
    match layers.get? source with
    | none => .error .keyError
    | some (.deferred _ _) => .error .assertion
    | some (.eager e) => .ok ((e.box.translate center).translateBack e.origin)

/-- vm.py 310-320: the loop over the remaining commands. -/
def boxLoop (layers : Dict ι (Layer ι κ)) : List (Draw ι) → Box ℝ → Except VErr (Box ℝ)
  | [], box => .ok box
  | d :: ds, box => do
    let b ← commandBox layers d
    boxLoop layers ds (box.union b)

/-- vm.py 288-322 (`_calculate_deferred_layer_box`). -/
def deferredBox (layers : Dict ι (Layer ι κ)) : List (Draw ι) → Except VErr (Option (Box ℝ))
  | [] => .ok none
  | d :: ds => do
    let b ← commandBox layers d
    let box ← boxLoop layers ds b
    return some box

/-- vm.py 324-326 (`_eval_deferred_commands`), with the eager handlers set and the layer `id` on top of the stack. -/
def replay (id : ι) : List (Draw ι) → Dict ι (Layer ι κ) → Except VErr (Dict ι (Layer ι κ))
  | [], layers => .ok layers
  | d :: ds, layers => do
    let layers ← paint B id d layers
    replay id ds layers

/-- vm.py 280-286: the handlers of the enclosing layer. -/
def settle (layers : Dict ι (Layer ι κ)) (stack : List ι) : Machine ι κ :=
  match stack with
  | [] => ⟨false, layers, []⟩
  | id :: rest =>
    match layers.get? id with
    | some (.deferred _ _) => ⟨true, layers, id :: rest⟩
    | _ => ⟨false, layers, id :: rest⟩

/-- vm.py 248-286 (`on_end_layer`); `fail` is `fail_on_empty_auto_sized_layer`. -/
def onEnd (fail : Bool) (m : Machine ι κ) : Except VErr (Machine ι κ) :=
  match m.stack with
  | [] => .error .noLayerSet
  | id :: rest =>
    match m.layers.get? id with
    | none => .error .keyError
    | some (.eager _) => .ok (settle m.layers rest)
    | some (.deferred origin commands) => do
      match ← deferredBox m.layers commands with
      | none => if fail then .error .emptyAutoSizedLayer else return { m with stack := rest }
      | some box =>
        let content ← B.create origin box
        let layers ← replay B id commands (m.layers.set id (.eager ⟨origin, box, content⟩))
        return settle layers rest

/-- `command.visit(self)`. -/
def step (fail : Bool) (c : Command ι) (m : Machine ι κ) : Except VErr (Machine ι κ) :=
  match c with
  | .start id box origin => onStart B id box origin m
  | .draw d => onDraw B d m
  | .stop => onEnd B fail m

/-- vm.py 330-331: the loop of `run`. -/
def exec (fail : Bool) : List (Command ι) → Machine ι κ → Except VErr (Machine ι κ)
  | [], m => .ok m
  | c :: cs, m => do
    let m ← step B fail c m
    exec fail cs m

/-- vm.py 328-340 (`run`), vm/shapely/vm.py 412-422 and vm/pillow/vm.py 514-530: the main layer.  Without a main layer
the base class returns an empty result and `ShapelyVirtualMachine` raises; `none` stands for both. -/
def run (fail : Bool) (main : ι) (prog : List (Command ι)) : Except VErr (Option (Eager κ)) := do
  let m ← exec B fail prog Machine.init
  match m.layers.get? main with
  | none => if fail then .error .noMainLayer else return none
  | some (.deferred _ _) => .error .assertion
  | some (.eager e) => return some e

end
end Verif.Vm
