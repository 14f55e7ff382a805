import Verif.Model.State

/-!
# The linter rule GRB001 (gerber/linter)

`Linter.lint` (linter.py 26-36) visits the tree with an `EventAstVisitor`, which calls the rule for every node of a
trigger type in the order of ast_visitor.py; the result is reported here as one flag per body-less command, in that
order.  Simplification: source offsets and messages are dropped.
-/

namespace Verif.Lint
open Verif.Visitor

/-- GRB001.py 37-39 (`get_trigger_nodes`). -/
inductive Trigger | g01 | g02 | g03 | abClose
  deriving DecidableEq, Repr

/-- The trigger a body-less command is. -/
def trigger : Leaf → Option Trigger
  | .g01 => some .g01
  | .g02 => some .g02
  | .g03 => some .g03
  | _ => none

/-- GRB001.py 41-46 (`node_callback`), called for trigger nodes only: the new `last_node` and whether a violation is
reported. -/
def callback (last : Option Trigger) (t : Trigger) : Option Trigger × Bool :=
  (some t, (t == .g01 || t == .g02 || t == .g03) && last == some t)

/-- event_ast_visitor.py 371-381 and the other leaf methods. -/
def lintLeaf (last : Option Trigger) (l : Leaf) : Option Trigger × Bool :=
  match trigger l with
  | some t => callback last t
  | none => (last, false)

mutual
/-- event_ast_visitor.py 149-159, 197-207: the body and the end of a block, in order. -/
def lintCmd (last : Option Trigger) : Cmd → Option Trigger × List Bool
  | .leaf l => ((lintLeaf last l).1, [(lintLeaf last l).2])
  | .ab _ body => ((callback (lintAll last body).1 .abClose).1, (lintAll last body).2)
  | .sr _ body => lintAll last body
/-- The loop over nodes. -/
def lintAll (last : Option Trigger) : List Cmd → Option Trigger × List Bool
  | [] => (last, [])
  | c :: cs => ((lintAll (lintCmd last c).1 cs).1, (lintCmd last c).2 ++ (lintAll (lintCmd last c).1 cs).2)
end

/-- linter.py 26-36 (`lint`) with the rule GRB001, after `reset` (GRB001.py 48-50). -/
def lint (file : List Cmd) : List Bool := (lintAll none file).2

end Verif.Lint
