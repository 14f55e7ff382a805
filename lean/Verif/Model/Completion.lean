import Verif.Model.Spans
import Verif.Model.View
import Verif.Model.Finder
import Verif.Model.Server

/-!
# Completion in the language server (gerber/language_server/_server/documents/gerber.py)

What a completion request computes from the text of a document.  `Verif.Server` models when and on which text this
happens; `language` plugs the computations of this file into it.
Simplifications: `kind`, `detail`, `documentation` and `deprecated` of items are dropped (`detail` of an aperture is its
formatted definition); positions count characters, not UTF-16 units.
-/

namespace Verif.Completion

open Verif.Text Verif.Syntax
open Verif.Peg (Text)
open Verif.Spans (Info Source lineAt columnAt parseTextResilient)
open Verif.Grammar (Entry expandTabs)
open Verif.Visitor (VState)

/-- `lspt.CompletionItem`. -/
structure Item where
  /-- `label`. -/
  label : Text
  /-- `insert_text`. -/
  insertText : Option Text := none
  /-- `insert_text_format` is `Snippet`. -/
  snippet : Bool := false
  deriving DecidableEq, Repr

/-! ## The node under the cursor -/

mutual
/-- A part of a macro or block as the finder sees it.  The finder returns it as a node that is not `Invalid`, because the
grammar of bodies has no `Invalid` nodes; the identity 0 stands for all such nodes. -/
def part (source : Text) : Info → Finder.Node
  | .mk location _ ps => .mk 0 (some (lineAt source location, columnAt source location)) (partList source ps)
/-- Several parts. -/
def partList (source : Text) : List Info → List Finder.Node
  | [] => []
  | i :: is => part source i :: partList source is
end

/-- `file.nodes` as the finder sees them (node_finder.py 41-59); node `k` has the identity `k + 1`. -/
def tree (source : Text) : Nat → List Info → List Finder.Node
  | _, [] => []
  | k, .mk location _ ps :: is =>
    .mk (k + 1) (some (lineAt source location, columnAt source location)) (partList source ps) :: tree source (k + 1) is

/-- documents/gerber.py 109-116: the text of the `Invalid` node at a position that counts from 0 (node_finder.py 14-22,
`to_one_based`). -/
def invalidAt (source : Text) (src : Source Entry) (line character : Nat) : Option Text :=
  match Finder.findNode (line + 1) (character + 1) (tree source 0 src.infos) with
  | .node (k + 1) => (match src.nodes[k]? with
      | some (.invalid t) => some t
      | _ => none)
  | _ => none

/-- documents/gerber.py 115-128: `re.match` looks at the first character only, the rest of the patterns matches nothing
too. -/
def kindAt (source : Text) (src : Source Entry) (line character : Nat) : Option Server.Kind :=
  match invalidAt source src line character with
  | none => none
  | some [] => none
  | some (c :: _) =>
    if c = 'G' then some .gCode
    else if c = 'D' then some .aperture
    else if c = '%' then some .extended
    else some .unknown

/-! ## Items -/

/-- documents/gerber.py 185-258 (`get_completion_g_codes`). -/
def gCodes : List Item :=
  [{ label := t!"G01*" }, { label := t!"G02*" }, { label := t!"G03*" },
   { label := t!"G04${1:comment}*", insertText := some t!"G04${1:comment}*", snippet := true },
   { label := t!"G36*" }, { label := t!"G37*" }, { label := t!"G54" }, { label := t!"G55" }, { label := t!"G74" },
   { label := t!"G75" }, { label := t!"G90" }, { label := t!"G91" }]

/-- documents/gerber.py 139-171 (`get_completion_apertures`). -/
def apertureItems (s : VState) : List Item :=
  s.apertures.keys.map (fun name => { label := name }) ++ s.blocks.keys.map (fun name => { label := name })

/-- One item of `_get_completion_ad_commands`, documents/gerber.py 306-313. -/
def adItem (string : Text) : Item := { label := string, insertText := some string, snippet := true }

/-- documents/gerber.py 296-347 (`_get_completion_ad_commands`). -/
def adItems (next : Nat) : List Item :=
  let code := t!"ADD" ++ natStr next
  [adItem (code ++ t!"C,${1:diameter}*"), adItem (code ++ t!"C,${1:diameter}X${2:hole_diameter}*"),
   adItem (code ++ t!"R,${1:width}X${2:height}*"), adItem (code ++ t!"R,${1:width}X${2:height}X${3:hole_diameter}*"),
   adItem (code ++ t!"O,${1:width}X${2:height}*"), adItem (code ++ t!"O,${1:width}X${2:height}X${3:hole_diameter}*"),
   adItem (code ++ t!"P,${1:outer_diameter}X${2:vertices}X${3:rotation}*"),
   adItem (code ++ t!"P,${1:outer_diameter}X${2:vertices}X${3:rotation}X${4:hole_diameter}*")]

/-- documents/gerber.py 260-294 (`get_completion_extended_command`). -/
def extendedItems (next : Nat) : List Item :=
  adItems next ++
  [{ label := t!"FSLAX46Y46*", insertText := some t!"FSLAX${1:4}${2:6}Y${1:4}${2:6}*", snippet := true },
   { label := t!"MOMM*", insertText := some t!"MO${1:MM}*", snippet := true },
   { label := t!"LPD*", insertText := some t!"LP${1:D}*", snippet := true },
   { label := t!"LPC*", insertText := some t!"LP${1:C}*", snippet := true }]

/-! ## Requests -/

/-- The nodes that the visitor handles; ast_visitor.py 796-798 (`on_invalid`) does nothing. -/
def readable : Entry → Option Node
  | .node n => some n
  | .invalid _ => none

/-- Names of the exceptions of the visitor. -/
def exnName : Visitor.Exn → Text
  | .programStop => t!"ProgramStop"
  | .formatNotSet => t!"CoordinateFormatNotSetError"
  | .unpack _ => t!"unpack"
  | .apertureNotSelected => t!"ApertureNotSelectedError"
  | .apertureNotFound _ => t!"ApertureNotFoundError"

/-- documents/gerber.py 173-183 (`get_gerber_state`). -/
def track (src : Source Entry) : Except Server.Exn VState :=
  let o := Visitor.processFile true (View.commands (src.nodes.filterMap readable))
  match o.exn with
  | none => .ok o.st
  | some e => .error (.computation (exnName e))

/-- documents/gerber.py 260-304: the items for the next free code, or the `ValueError` of
`get_next_free_aperture_code`. -/
def extended (s : VState) : Except Server.Exn (List Item) :=
  match Visitor.nextFreeApertureCode s with
  | some n => .ok (extendedItems n)
  | none => .error (.computation t!"ValueError")

/-- documents/gerber.py 102-128 (`on_completion`) for a document with the given text: the list of items, `None`, or an
exception.  A text that cannot be parsed leaves `ast` at `None`.  The positions of nodes are those in the text with tabs
expanded, the position of the cursor is taken as one in that text too. -/
def complete (readDate : Text → Option Text) (source : Text) (line character : Nat) :
    Except Server.Exn (Option (List Item)) :=
  match parseTextResilient readDate true source with
  | none => .ok none
  | some src => match kindAt (expandTabs source) src line character with
    | none => .ok none
    | some .gCode => .ok (some gCodes)
    | some .aperture => (track src).map fun s => some (apertureItems s)
    | some .extended => (match track src with
        | .ok s => (extended s).map some
        | .error e => .error e)
    | some .unknown => .ok (some [])

/-- The computations of this file as those of the language server; hashes, hovers and the disk remain arbitrary. -/
def language (readDate : Text → Option Text) {Hash Hover : Type} [DecidableEq Hash] (sha256 : Text → Hash)
    (hover : Text × Source Entry → Nat × Nat → Except Server.Exn (Option Hover))
    (disk : Server.Uri → Except Server.Exn Text) : Server.Lang where
  Ast := Text × Source Entry
  State := VState
  Hash := Hash
  Position := Nat × Nat
  Hover := Hover
  Items := List Item
  parse s := match parseTextResilient readDate true s with
    | some src => .ok (expandTabs s, src)
    | none => .error (.computation t!"ParseException")
  sha256 := sha256
  hover := hover
  kindAt a p := .ok (kindAt a.1 a.2 p.1 p.2)
  track a := track a.2
  gCodes := gCodes
  apertures s := .ok (apertureItems s)
  extended := extended
  nothing := []
  disk := disk

end Verif.Completion
