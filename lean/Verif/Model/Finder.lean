import Mathlib.Tactic.Common

/-!
# Text positions (common/position.py) and the node finder (gerber/ast/node_finder.py)
-/

namespace Verif.Finder

/-- common/position.py 20-27: both counts start at 1. -/
structure Position where
  line : Int
  column : Int
  deriving DecidableEq, Repr

namespace Position

/-- position.py 49-52 (`__eq__`). -/
def eq (a b : Position) : Bool := a.line == b.line && a.column == b.column
/-- position.py 54-57 (`__ne__`). -/
def ne (a b : Position) : Bool := a.line != b.line && a.column != b.column
/-- position.py 59-64 (`__gt__`). -/
def gt (a b : Position) : Bool := a.line > b.line || (a.line == b.line && a.column > b.column)
/-- position.py 66-71 (`__ge__`). -/
def ge (a b : Position) : Bool := a.line ≥ b.line || (a.line == b.line && a.column ≥ b.column)
/-- position.py 73-78 (`__lt__`). -/
def lt (a b : Position) : Bool := a.line < b.line || (a.line == b.line && a.column < b.column)
/-- position.py 80-85 (`__le__`). -/
def le (a b : Position) : Bool := a.line ≤ b.line || (a.line == b.line && a.column ≤ b.column)

/-- position.py 29-34 (`from_vscode_position`). -/
def fromVscode (line character : Int) : Position := ⟨line + 1, character + 1⟩
/-- position.py 36-40 (`to_lspt`): line and character of the result. -/
def toLspt (p : Position) : Int × Int := (p.line - 1, p.column - 1)
/-- position.py 42-44 (`offset`). -/
def offset (p : Position) (line column : Int) : Position := ⟨p.line + line, p.column + column⟩

end Position

/-- A node as the finder sees it: an identity, `source_info` (line and column of its start) if known, and for `AM`,
`AB` and `SR` nodes the list `[open, *body, close]`; nodes of other types have no parts the finder looks at. -/
inductive Node
  | mk (id : Nat) (start : Option (Nat × Nat)) (parts : List Node)

/-- The identity of a node. -/
def Node.id : Node → Nat
  | .mk id _ _ => id
/-- `node.source_info`. -/
def Node.start : Node → Option (Nat × Nat)
  | .mk _ s _ => s
/-- `[node.open, *node.nodes, node.close]`. -/
def Node.parts : Node → List Node
  | .mk _ _ ps => ps

mutual
/-- Number of nodes in a tree, used as fuel. -/
def Node.size : Node → Nat
  | .mk _ _ ps => 1 + sizes ps
/-- Number of nodes in a list of trees. -/
def sizes : List Node → Nat
  | [] => 0
  | n :: ns => n.size + sizes ns
end

/-- Result of the search: a node, `None`, or the whole file. -/
inductive Found | node (id : Nat) | nothing | file
  deriving DecidableEq, Repr

/-- node_finder.py 76-106 (`_bin_search`), with the assignments to `return_node` turned into the result: for a single
node the search goes on in its parts (`visit`, 61-74) and the node found there is what `return_node` holds
afterwards, except that a nested search that gives up (`return self.ast`) leaves `return_node` unchanged.  `line` and
`column` are the location, `fuel` bounds the number of recursive calls (the number
of nodes is enough, `Verif.Props.Finder.binSearch_finds`).  The empty list (`IndexError` at
`nodes[center_index]`) cannot occur. -/
def binSearch (line column : Nat) : Nat → List Node → Found
  | 0, _ => .file
  | _ + 1, [] => .file
  | fuel + 1, [n] =>
    let rejected := match n.start with
      | some s => decide (column < s.2)
      | none => false
    if rejected then .nothing
    else if n.parts.isEmpty then .node n.id
    else match binSearch line column fuel n.parts with
      | .file => .node n.id
      | r => r
  | fuel + 1, nodes =>
    let center := nodes.length / 2
    match nodes[center]? with
    | none => .file
    | some c => match c.start with
      | none => .file
      | some s =>
        if line = s.1 then
          if column = s.2 then binSearch line column fuel [c]
          else if column < s.2 then binSearch line column fuel (nodes.take center)
          else binSearch line column fuel (nodes.drop center)
        else if line < s.1 then binSearch line column fuel (nodes.take center)
        else binSearch line column fuel (nodes.drop center)

/-- node_finder.py 41-59 (`find_node`, `on_file`). -/
def findNode (line column : Nat) (nodes : List Node) : Found :=
  match nodes with
  | [] => .file
  | [n] => .node n.id
  | _ => binSearch line column (sizes nodes + 1) nodes

end Verif.Finder
