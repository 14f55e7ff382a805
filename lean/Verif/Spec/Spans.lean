import Verif.Model.Spans
import Verif.Spec.Finder

/-!
# What source positions should be

A file is a text; a node stands for the part of the text that it was read from.  Positions count the characters before.
-/

namespace Verif.Spec
open Verif.Peg (Text)
open Verif.Syntax (Node)
open Verif.Spans (Info)
open Verif.Grammar (Entry)

/-- `source[a:b]`. -/
def slice (source : Text) (a b : Nat) : Text := (source.drop a).take (b - a)

/-- A cursor, counted from 0 in lines and in characters of the line, stands after the first `offset` characters of the
text. -/
def CursorAt (source : Text) (line character offset : Nat) : Prop :=
  ∃ before last after, source = before ++ last ++ after ∧ offset = before.length + last.length ∧ '\n' ∉ last ∧
    (before = [] ∨ ∃ b, before = b ++ ['\n']) ∧ before.count '\n' = line ∧ last.length = character

/-- Number of characters behind the last line break. -/
def lastLine (t : Text) : Nat := (t.reverse.takeWhile fun c => decide (c ≠ '\n' ∧ c ≠ '\r')).length

/-- A text and the same text with tabs replaced by spaces up to the next column that is a multiple of 8. -/
inductive Expanded : Text → Text → Prop
  | nil : Expanded [] []
  | char {a t : Text} {c : Char} : Expanded a t → c ≠ '\t' → Expanded (a ++ [c]) (t ++ [c])
  | tab {a t : Text} {k : Nat} : Expanded a t → 0 < k → k ≤ 8 → 8 ∣ lastLine t + k →
      Expanded (a ++ ['\t']) (t ++ List.replicate k ' ')

/-- Blanks: space, line feed, tab and carriage return. -/
def isSpace (c : Char) : Bool := c == ' ' || c == '\n' || c == '\t' || c == '\r'

/-- Number of characters that are not blanks. -/
def inked (t : Text) : Nat := (t.filter fun c => !isSpace c).length

/-- A node that was read from `source[location:stop]` and claims the given length: its text begins with a character that
is no blank, and the claimed length is at most the length of the text and at least the length without blanks. -/
def ReadFrom (source : Text) (location stop length : Nat) : Prop :=
  stop ≤ source.length ∧ 0 < length ∧ location + length ≤ stop ∧ inked (slice source location stop) ≤ length ∧
    ∃ c, source[location]? = some c ∧ isSpace c = false

/-- The nodes cover `source[a:b]`: before every node there are only blanks, and the parts of a node, if it has parts,
cover the text of that node in the same way. -/
inductive Tiles (source : Text) : Nat → List Info → Nat → Prop
  | nil (a : Nat) : Tiles source a [] a
  | leaf {a b location stop length : Nat} {rest : List Info}
    (before : a ≤ location) (blanks : ∀ c ∈ slice source a location, isSpace c = true)
    (text : ReadFrom source location stop length) (after : Tiles source stop rest b) :
    Tiles source a (.mk location length [] :: rest) b
  | block {a b location stop length : Nat} {parts rest : List Info}
    (before : a ≤ location) (blanks : ∀ c ∈ slice source a location, isSpace c = true)
    (text : ReadFrom source location stop length) (inside : Tiles source location parts stop)
    (after : Tiles source stop rest b) :
    Tiles source a (.mk location length parts :: rest) b

mutual
/-- The positions have the shape of the node: a macro and a block consist of their first command, the nodes of the body
and their last command; no other node has parts. -/
def Fits : Node → Info → Prop
  | .ab _ ns, i => ∃ o body c, i.parts = o :: (body ++ [c]) ∧ o.parts = [] ∧ c.parts = [] ∧ FitsAll ns body
  | .sr _ _ _ _ ns, i => ∃ o body c, i.parts = o :: (body ++ [c]) ∧ o.parts = [] ∧ c.parts = [] ∧ FitsAll ns body
  | .am _ ps, i => i.parts.length = ps.length + 2 ∧ ∀ j ∈ i.parts, j.parts = []
  | _, i => i.parts = []
/-- `Fits` for several nodes. -/
def FitsAll : List Node → List Info → Prop
  | [], is => is = []
  | n :: ns, is => ∃ i js, is = i :: js ∧ Fits n i ∧ FitsAll ns js
end

/-- An entry of a file read by the resilient parser; an unreadable line has no parts. -/
def FitsEntry : Entry → Info → Prop
  | .node n, i => Fits n i
  | .invalid _, i => i.parts = []

/-- A `G` code that was read together with the following coordinates or `D` code, as in `G01X1Y1D01*`. -/
def joined : Node → Bool
  | .g _ false => true
  | _ => false

/-- `joined` for entries of a file read by the resilient parser. -/
def joinedEntry : Entry → Bool
  | .node n => joined n
  | .invalid _ => false

mutual
/-- The node of the finder stands where the position says, and so do its parts. -/
def StandsAt (source : Text) : Info → Finder.Node → Prop
  | .mk location _ parts, n =>
    StartsAt n (Spans.lineAt source location) (Spans.columnAt source location) ∧ StandAt source parts n.parts
/-- `StandsAt` for several nodes. -/
def StandAt (source : Text) : List Info → List Finder.Node → Prop
  | [], ns => ns = []
  | i :: is, ns => ∃ m ms, ns = m :: ms ∧ StandsAt source i m ∧ StandAt source is ms
end

end Verif.Spec
