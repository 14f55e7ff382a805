import Verif.Model.Rvmc

/-!
# The builder of RVMC programs (builder/rvmc.py)

`with` blocks nest, so the layer blocks that are open form a stack.  Layer builders are objects the user keeps
references to, also after their block has been left: they are modelled as positions in a list.

Simplification: blocks left by an exception are not modelled.
-/

namespace Verif.RvmcBuilder
open Verif.Rvmc Verif.Geom

/-- `LockedBuilderError` (rvmc.py 366) and `RuntimeError`. -/
inductive BErr
  | locked | runtime
  deriving DecidableEq, Repr

/-- rvmc.py 137-159 (`LayerBuilder.__init__`): the attributes of a layer builder. -/
structure LayerBuilder (ι : Type) where
  /-- `_layer_id`. -/
  id : ι
  /-- `_commands`. -/
  commands : List (Command ι)
  /-- `_active_layer_id`. -/
  active : Option ι
  /-- `_finalized`. -/
  finalized : Bool

/-- rvmc.py 72-74 (`RvmcBuilder.__init__`), the layer builders made so far, and the open blocks, innermost first: the
layer builder and the one that it will be added to (`none` for the builder itself). -/
structure State (ι : Type) where
  /-- `_commands`. -/
  commands : List (Command ι)
  /-- `_is_locked`. -/
  locked : Bool
  /-- Layer builders. -/
  objs : List (LayerBuilder ι)
  /-- Open blocks. -/
  blocks : List (ℕ × Option ℕ)

/-- rvmc.py 72-74. -/
def State.init {ι : Type} : State ι := ⟨[], false, [], []⟩

/-- rvmc.py 137-159. -/
def LayerBuilder.new {ι : Type} (id : ι) (box : Option (Box ℝ)) (origin : Vec ℝ) : LayerBuilder ι :=
  ⟨id, [.start id box origin], none, false⟩

/-- rvmc.py 161-164 (`finalize`). -/
def LayerBuilder.finalize {ι : Type} (l : LayerBuilder ι) : LayerBuilder ι :=
  { l with commands := l.commands ++ [.stop], finalized := true }

/-- What a user can do. -/
inductive Op (ι : Type)
  /-- Enter `with builder.layer(box, origin)`. -/
  | enterMain (box : Option (Box ℝ)) (origin : Vec ℝ)
  /-- Enter `with layer.layer(id, box, origin)`. -/
  | enter (layer : ℕ) (id : ι) (box : Option (Box ℝ)) (origin : Vec ℝ)
  /-- Leave the innermost block. -/
  | exit
  /-- `layer.circle` and the other methods that add shapes; `cross` and `x` add two (rvmc.py 302-350). -/
  | shapes (layer : ℕ) (shapes : List Shape)
  /-- `layer.paste(source, at)`. -/
  | paste (layer : ℕ) (source : ℕ) (center : Vec ℝ) (negative : Bool)
  /-- `builder.get_rvmc()`. -/
  | getRvmc

/-- rvmc.py 76-113 up to the `yield`. -/
def enterMain {ι : Type} (main : ι) (box : Option (Box ℝ)) (origin : Vec ℝ) (s : State ι) : State ι × Option BErr :=
  if s.locked then (s, some .locked)
  else ({ s with objs := s.objs ++ [.new main box origin], blocks := (s.objs.length, none) :: s.blocks }, none)

/-- rvmc.py 166-185 up to the `yield`. -/
def enter {ι : Type} (r : ℕ) (id : ι) (box : Option (Box ℝ)) (origin : Vec ℝ) (s : State ι) : State ι × Option BErr :=
  match s.objs[r]? with
  | none => (s, none)
  | some l =>
    if l.active.isSome then (s, some .runtime)
    else if l.finalized then (s, some .runtime)
    else ({ s with objs := s.objs.set r { l with active := some id } ++ [.new id box origin],
                   blocks := (s.objs.length, some r) :: s.blocks }, none)

/-- rvmc.py 115-126 and 187-189: what follows the `yield`. -/
def exit {ι : Type} (s : State ι) : State ι × Option BErr :=
  match s.blocks with
  | [] => (s, none)
  | (k, parent) :: blocks =>
    match s.objs[k]? with
    | none => (s, none)
    | some l =>
      let objs := s.objs.set k l.finalize
      match parent with
      | none =>
        if s.locked then ({ s with objs := objs, blocks := blocks }, some .locked)
        else ({ s with objs := objs, blocks := blocks, commands := s.commands ++ l.finalize.commands }, none)
      | some r =>
        match objs[r]? with
        | none => (s, none)
        | some p =>
          ({ s with objs := objs.set r { p with commands := p.commands ++ l.finalize.commands, active := none },
                    blocks := blocks }, none)

/-- rvmc.py 197-209 and the like: `_check_not_finalized_in_add` and appending. -/
def add {ι : Type} (r : ℕ) (cmds : List (Command ι)) (s : State ι) : State ι × Option BErr :=
  match s.objs[r]? with
  | none => (s, none)
  | some l =>
    if l.finalized then (s, some .runtime)
    else ({ s with objs := s.objs.set r { l with commands := l.commands ++ cmds } }, none)

/-- One operation. -/
def step {ι : Type} (main : ι) (op : Op ι) (s : State ι) : State ι × Option BErr :=
  match op with
  | .enterMain box origin => enterMain main box origin s
  | .enter r id box origin => enter r id box origin s
  | .exit => exit s
  | .shapes r ss => add r (ss.map fun x => .draw (.shape x)) s
  | .paste r src center negative =>
    match s.objs[src]? with
    | none => (s, none)
    | some source => add r [.draw (.paste source.id center negative)] s
  | .getRvmc => ({ s with locked := true }, none)

/-- Operations in order; a user may catch the exceptions. -/
def steps {ι : Type} (main : ι) : List (Op ι) → State ι → State ι
  | [], s => s
  | op :: ops, s => steps main ops (step main op s).1

end Verif.RvmcBuilder
