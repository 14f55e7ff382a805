import Verif.Model.Spans

/-!
# The linter (gerber/linter)

`lint` visits the tree in the order of ast_visitor.py with an `EventAstVisitor`, which calls the rules that listen to the
type of the node.  `Verif.Lint` models the rule GRB001 alone, on the commands of the interpreter; here are all rules, on
the tree and with the positions that the parser made.
Simplification: the descriptions of violations are dropped, their titles are kept.
-/

namespace Verif.Linter

open Verif.Text Verif.Syntax
open Verif.Peg (Text)
open Verif.Spans (Info lineAt columnAt Source)

/-- The rules in `RULE_REGISTRY` (rule.py 75, filled by rules/__init__.py 5-7 in this order). -/
inductive Rule
  | dep001 | dep002 | grb001
  deriving DecidableEq, Repr

/-- `rule_id` (DEP001.py 14, DEP002.py 14, GRB001.py 13). -/
def Rule.id : Rule → Text
  | .dep001 => t!"DEP001"
  | .dep002 => t!"DEP002"
  | .grb001 => t!"GRB001"

/-- `RULE_REGISTRY.values()`. -/
def registry : List Rule := [.dep001, .dep002, .grb001]

/-- The type of a visited node, as far as rules listen to it. -/
inductive Kind
  | g01 | g02 | g03 | g54 | g55 | abClose | other
  deriving DecidableEq, Repr

/-- The class name of a node type that GRB001 listens to. -/
def Kind.name : Kind → Text
  | .g01 => t!"G01"
  | .g02 => t!"G02"
  | .g03 => t!"G03"
  | .g54 => t!"G54"
  | .g55 => t!"G55"
  | .abClose => t!"ABclose"
  | .other => []

/-- A visited node and its `source_info`. -/
structure Visit where
  /-- `type(node)`. -/
  kind : Kind
  /-- `node.source_info`. -/
  info : Option Info

/-- The type of a node without a body. -/
def kindOf : Node → Kind
  | .g .g01 _ => .g01
  | .g .g02 _ => .g02
  | .g .g03 _ => .g03
  | .g .g54 _ => .g54
  | .g .g55 _ => .g55
  | _ => .other

mutual
/-- ast_visitor.py 142-149 (`on_ab`), 203-209 (`on_sr`) and the methods for commands without a body, which the methods
of event_ast_visitor.py call after `_trigger_listeners`.  Nodes inside macros, coordinates and expressions have types no
rule listens to and are left out. -/
def visits : Node → Option Info → List Visit
  | .ab _ ns, i =>
    let body := visitsAll ns ((i.map Info.parts).getD [] |>.drop 1)
    [⟨.other, i⟩, ⟨.other, (i.map Info.parts).getD [] |>.head?⟩] ++ body.1 ++ [⟨.abClose, body.2.head?⟩]
  | .sr _ _ _ _ ns, i =>
    let body := visitsAll ns ((i.map Info.parts).getD [] |>.drop 1)
    [⟨.other, i⟩, ⟨.other, (i.map Info.parts).getD [] |>.head?⟩] ++ body.1 ++ [⟨.other, body.2.head?⟩]
  | n, i => [⟨kindOf n, i⟩]
/-- ast_visitor.py 773-784 (`on_file`): the loop over nodes.  Also yields the positions that are left. -/
def visitsAll : List Node → List Info → List Visit × List Info
  | [], is => ([], is)
  | n :: ns, is => (visits n is.head? ++ (visitsAll ns is.tail).1, (visitsAll ns is.tail).2)
end

/-- rule_violation.py 8-17 (`RuleViolation`). -/
structure Violation where
  /-- `rule_id`. -/
  rule : Rule
  /-- `title`. -/
  title : Text
  /-- `start_offset`. -/
  start : Nat
  /-- `end_offset`. -/
  stop : Nat
  /-- `line`. -/
  line : Nat
  /-- `column`. -/
  column : Nat
  deriving DecidableEq, Repr

/-- A rule object: GRB001 keeps `last_node`. -/
structure Instance where
  /-- Its class. -/
  rule : Rule
  /-- GRB001.py 14 (`last_node`). -/
  last : Option Kind := none
  deriving DecidableEq, Repr

/-- `get_trigger_nodes` (DEP001.py 21, DEP002.py 20, GRB001.py 37-39). -/
def triggers : Rule → List Kind
  | .dep001 => [.g54]
  | .dep002 => [.g55]
  | .grb001 => [.g01, .g02, .g03, .abClose]

/-- `get_violation_title` (DEP001.py 15, DEP002.py 15, GRB001.py 16-22). -/
def titleOf (x : Instance) : Text :=
  match x.rule with
  | .dep001 => t!"Use of deprecated G54 code."
  | .dep002 => t!"Use of deprecated G55 code."
  | .grb001 => t!"Redundant " ++ (match x.last with | some k => k.name | none => t!"G01/G02/G03") ++ t!" command."

/-- rule.py 45-61 (`report_violation`). -/
def reportViolation (source : Text) (x : Instance) (i : Option Info) : Violation :=
  match i with
  | some i => ⟨x.rule, titleOf x, i.location, i.location + i.length, lineAt source i.location, columnAt source i.location⟩
  | none => ⟨x.rule, titleOf x, 0, 0, 0, 0⟩

/-- `node_callback` (static_rule.py 31-33, GRB001.py 41-46): the rule object afterwards and what it reports. -/
def nodeCallback (source : Text) (x : Instance) (v : Visit) : Instance × List Violation :=
  match x.rule with
  | .grb001 =>
    ({ x with last := some v.kind },
      if (v.kind = .g01 ∨ v.kind = .g02 ∨ v.kind = .g03) ∧ x.last = some v.kind then [reportViolation source x v.info] else [])
  | _ => (x, [reportViolation source x v.info])

/-- event_ast_visitor.py 143-147 (`_trigger_listeners`): the listeners of the type of the node, in the order in which
linter.py 31-33 registers the rules (rule.py 32-35). -/
def triggerListeners (source : Text) : List Instance → Visit → List Instance × List Violation
  | [], _ => ([], [])
  | x :: xs, v =>
    if v.kind ∈ triggers x.rule then
      ((nodeCallback source x v).1 :: (triggerListeners source xs v).1, (nodeCallback source x v).2 ++ (triggerListeners source xs v).2)
    else (x :: (triggerListeners source xs v).1, (triggerListeners source xs v).2)

/-- The visit of all nodes with a `ViolationCollector`. -/
def lintVisits (source : Text) : List Instance → List Visit → List Violation
  | _, [] => []
  | xs, v :: vs => (triggerListeners source xs v).2 ++ lintVisits source (triggerListeners source xs v).1 vs

/-- linter.py 26-36 (`Linter.lint`), after `reset` of all rules. -/
def lintWith (rules : List Rule) (source : Text) (nodes : List Node) (infos : List Info) : List Violation :=
  lintVisits source (rules.map fun r => { rule := r }) (visitsAll nodes infos).1

/-- `RULE_REGISTRY[rule_id]`; `none` is a `KeyError`. -/
def lookup (id : Text) : Option Rule := registry.find? fun r => r.id == id

/-- linter/__init__.py 22-45 (`lint`) for a file read from a text; `none` is a `KeyError`. -/
def lint (rules : Option (List Text)) (source : Text) (file : Source Node) : Option (List Violation) :=
  match rules with
  | some (id :: ids) => ((id :: ids).mapM lookup).map fun rs => lintWith rs source file.nodes file.infos
  | _ => some (lintWith registry source file.nodes file.infos)

/-- `rule.split(",")`. -/
def splitCommas : Text → List Text
  | [] => [[]]
  | c :: t => if c = ',' then [] :: splitCommas t else
    match splitCommas t with
    | w :: ws => (c :: w) :: ws
    | [] => [[c]]

/-- console/gerber.py 601-611: `-r` may be given several times, each time with several rules. -/
def lintCommand (options : List Text) (source : Text) (file : Source Node) : Option (List Violation) :=
  lint (some (options.flatMap splitCommas)) source file

end Verif.Linter
