import Verif.Spec.History

/-!
# Deleting reported commands
-/

namespace Verif.Spec
open Verif.Visitor

mutual
/-- Deletes the flagged body-less commands of a node; one flag is used up per body-less command, in the order of the
text.  Returns what is left of the node and the unused flags. -/
def deleteIn (flags : List Bool) : Cmd → List Cmd × List Bool
  | .leaf l =>
    match flags with
    | true :: fs => ([], fs)
    | _ :: fs => ([.leaf l], fs)
    | [] => ([.leaf l], [])
  | .ab id body => ([.ab id (deleteAll flags body).1], (deleteAll flags body).2)
  | .sr p body => ([.sr p (deleteAll flags body).1], (deleteAll flags body).2)
/-- The same for a list of nodes. -/
def deleteAll (flags : List Bool) : List Cmd → List Cmd × List Bool
  | [] => ([], flags)
  | c :: cs => ((deleteIn flags c).1 ++ (deleteAll (deleteIn flags c).2 cs).1, (deleteAll (deleteIn flags c).2 cs).2)
end

/-- A file without the flagged commands. -/
def deleteFlagged (flags : List Bool) (file : List Cmd) : List Cmd := (deleteAll flags file).1

/-- The body-less commands of a history. -/
def leafOf : Atom → Option Leaf
  | .leaf l => some l
  | _ => none

/-- What matters for redundancy: an interpolation command (its mode), or the end of a block aperture. -/
def interpolationOrBlockEnd : Atom → Option (Option Plot)
  | .leaf .g01 => some (some .linear)
  | .leaf .g02 => some (some .arc)
  | .leaf .g03 => some (some .ccwArc)
  | .abClose _ => some none
  | _ => none

/-- An interpolation command is redundant after a history when the latest interpolation command or end of a block
aperture is an interpolation command of the same kind. -/
def redundant (before : List Atom) (l : Leaf) : Bool :=
  match setsPlot (.leaf l) with
  | some m => decide (latest interpolationOrBlockEnd none before = some m)
  | none => false

/-- The flags a list of commands deserves, one per body-less command, given the commands before it. -/
def deserved : List Atom → List Atom → List Bool
  | _, [] => []
  | before, .leaf l :: rest => redundant before l :: deserved (before ++ [.leaf l]) rest
  | before, a :: rest => deserved (before ++ [a]) rest

end Verif.Spec
