import Verif.Model.Rvmc
import Mathlib.Logic.Relation

/-!
# What a well formed program is, and what dependency graphs are
-/

namespace Verif.Spec
open Verif.Rvmc Verif.Geom

/-- A complete layer: its name and what is drawn on it. -/
structure Layer (ι : Type) where
  id : ι
  cmds : List (Draw ι)

/-- The program made of complete, automatically sized layers one after the other. -/
def program {ι : Type} (ls : List (Layer ι)) : List (Command ι) :=
  ls.flatMap fun l => .start l.id none ⟨0, 0⟩ :: l.cmds.map .draw ++ [.stop]

/-- Complete layers, the main one last and only once, each layer pasted being completed before. -/
def WellFormed {ι : Type} (main : ι) (prog : List (Command ι)) : Prop :=
  ∃ (ls : List (Layer ι)) (last : Layer ι), prog = program (ls ++ [last]) ∧ last.id = main ∧
    (∀ l ∈ ls, l.id ≠ main) ∧
    ∀ pre l post, ls ++ [last] = pre ++ l :: post →
      ∀ src center negative, Draw.paste src center negative ∈ l.cmds → ∃ l' ∈ pre, l'.id = src

/-- The names of the layers a program starts, in order. -/
def started {ι : Type} (prog : List (Command ι)) : List ι :=
  prog.filterMap fun
    | .start id _ _ => some id
    | _ => none

/-- `a` directly depends on `b`. -/
def Needs {ι : Type} (deps : ι → Option (List ι)) (a b : ι) : Prop := ∃ ds, deps a = some ds ∧ b ∈ ds

/-- `b` is needed, directly or not, by `a`. -/
abbrev Reach {ι : Type} (deps : ι → Option (List ι)) : ι → ι → Prop := Relation.TransGen (Needs deps)

/-- `b` is `a` or is needed by it. -/
abbrev Within {ι : Type} (deps : ι → Option (List ι)) : ι → ι → Prop := Relation.ReflTransGen (Needs deps)

end Verif.Spec
