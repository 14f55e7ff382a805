import Verif.Model.Completion
import Verif.Spec.History
import Verif.Spec.Spans
import Verif.Spec.Numeral

/-!
# What a completion request should offer

Snippets and the commands of a text with unreadable lines.
-/

namespace Verif.Spec
open Verif.Peg (Text)
open Verif.Syntax (Node)
open Verif.Grammar (Entry)
open Verif.Visitor (Atom Name)

/-- The commands that can be read in a text with unreadable lines. -/
def readableNodes : List Entry → List Node
  | [] => []
  | .node n :: es => n :: readableNodes es
  | .invalid _ :: es => readableNodes es

/-- The commands of such a text in the order of their execution, up to the end of the program. -/
def executedIn (es : List Entry) : List Atom := executed false (View.commands (readableNodes es))

/-- The aperture codes that these commands define, by an `AD` command or a block. -/
def DefinedIn (es : List Entry) (code : Name) : Prop := ∃ a ∈ executedIn es, stores code a ≠ none

/-- What an editor inserts for a snippet: `${k:…}` is replaced by what the user types there; `inside` says that the rest of
a placeholder is skipped. -/
def filled (values : List Text) : Bool → Text → Text
  | _, [] => []
  | true, c :: r => if c = '}' then filled values false r else filled values true r
  | false, '$' :: '{' :: k :: ':' :: r => (values[k.toNat - '1'.toNat]?).getD [] ++ filled values true r
  | false, c :: r => c :: filled values false r

/-- What an editor inserts for an item. -/
def inserted (i : Completion.Item) (values : List Text) : Text :=
  if i.snippet then filled values false (i.insertText.getD i.label) else i.insertText.getD i.label

/-- A number as a user types it, and its value. -/
inductive Typed : Text → ℚ → Prop
  | whole {i : Text} : Digits i → i ≠ [] → Typed i (numeral i)
  | decimal {i f : Text} : Digits i → i ≠ [] → Digits f → f ≠ [] →
      Typed (i ++ '.' :: f) (numeral i + numeral f / 10 ^ f.length)

/-- The definitions that are offered for circles, rectangles and obrounds, without and with a hole. -/
def offeredShapes (code : Text) (a b c : ℚ) : List Node :=
  [.adc code a none, .adc code a (some b), .adr code a b none, .adr code a b (some c), .ado code a b none, .ado code a b (some c)]

/-- The definitions that are offered for polygons, without and with a hole. -/
def offeredPolygons (code : Text) (a : ℚ) (vertices : ℕ) (rotation hole : ℚ) : List Node :=
  [.adp code a vertices (some rotation) none, .adp code a vertices (some rotation) (some hole)]

end Verif.Spec
