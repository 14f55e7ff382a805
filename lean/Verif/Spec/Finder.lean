import Verif.Model.Finder

/-!
# What looking up a location should find
-/

namespace Verif.Spec
open Verif.Finder

/-- Position `(a, b)` is at or before `(line, column)`. -/
def AtOrBefore (a b line column : Nat) : Prop := a < line ∨ a = line ∧ b ≤ column

/-- The node starts at `(a, b)`. -/
def StartsAt (n : Node) (a b : Nat) : Prop := n.start = some (a, b)

/-- Nodes in source order: every start is known and strictly after the previous ones. -/
def InOrder (nodes : List Node) : Prop :=
  (∀ n ∈ nodes, ∃ a b, StartsAt n a b) ∧
  nodes.Pairwise fun m n => ∀ a b c d, StartsAt m a b → StartsAt n c d → a < c ∨ a = c ∧ b < d

/-- `InOrder` at every level. -/
inductive DeepInOrder : List Node → Prop
  | mk (nodes : List Node) (h : InOrder nodes) (sub : ∀ n ∈ nodes, n.parts ≠ [] → DeepInOrder n.parts) :
    DeepInOrder nodes

/-- `n` is the last node of the list that starts at or before the location. -/
def IsLastBefore (nodes : List Node) (line column : Nat) (n : Node) : Prop :=
  ∃ pre post, nodes = pre ++ n :: post ∧ (∃ a b, StartsAt n a b ∧ AtOrBefore a b line column) ∧
    ∀ m ∈ post, ∀ a b, StartsAt m a b → ¬ AtOrBefore a b line column

/-- All nodes start after the location. -/
def AllAfter (nodes : List Node) (line column : Nat) : Prop :=
  ∀ m ∈ nodes, ∀ a b, StartsAt m a b → ¬ AtOrBefore a b line column

end Verif.Spec
