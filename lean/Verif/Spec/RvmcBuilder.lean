import Verif.Model.RvmcBuilder
import Verif.Spec.Vm

/-!
# What programs made with the builder are like
-/

namespace Verif.Spec
open Verif.Rvmc Verif.Geom Verif.RvmcBuilder

/-- The commands contain the complete layer `id`, from its start to its end. -/
def Complete {ι : Type} (id : ι) (cmds : List (Command ι)) : Prop :=
  ∃ a box origin body c, cmds = a ++ (Node.layer id box origin body).commands ++ c

/-- The layers that are started. -/
def starts {ι : Type} : List (Command ι) → List ι
  | [] => []
  | .start id _ _ :: cs => id :: starts cs
  | .draw _ :: cs => starts cs
  | .stop :: cs => starts cs

/-- Every layer pasted is complete before. -/
def PastesComplete {ι : Type} (cmds : List (Command ι)) : Prop :=
  ∀ pre source center negative post, cmds = pre ++ .draw (.paste source center negative) :: post → Complete source pre

/-- Names of layers are not used twice, there is one main layer, and layers are pasted on the innermost open layer after
they have been finished. -/
def CarefulStep {ι : Type} (s : State ι) : Op ι → Prop
  | .enterMain _ _ => s.objs = []
  | .enter _ id _ _ => ∀ l ∈ s.objs, l.id ≠ id
  | .paste r src _ _ => s.blocks.head?.map Prod.fst = some r ∧ ∀ l, s.objs[src]? = some l → l.finalized = true
  | _ => True

/-- All operations are careful. -/
def Careful {ι : Type} (main : ι) : List (Op ι) → State ι → Prop
  | [], _ => True
  | op :: ops, s => CarefulStep s op ∧ Careful main ops (step main op s).1

/-- Only finished layers are pasted. -/
def PastesFinished {ι : Type} (main : ι) : List (Op ι) → State ι → Prop
  | [], _ => True
  | op :: ops, s => (match op with
      | .paste _ src _ _ => ∀ l, s.objs[src]? = some l → l.finalized = true
      | _ => True) ∧ PastesFinished main ops (step main op s).1

/-- A backend that raises no errors of the machine. -/
def OwnErrors {κ : Type} (B : Vm.Backend κ) : Prop :=
  (∀ o b e, B.create o b = .error e → e = .backend) ∧ (∀ l s e, B.shape l s = .error e → e = .backend) ∧
    ∀ l m c n e, B.paste l m c n = .error e → e = .backend

end Verif.Spec
