import Verif.Model.GerberBuilder
import Verif.Model.View
import Verif.Spec.Commands
import Verif.Spec.Words

/-!
# Specification: calls of the Gerber builder that can be written to a file
-/

namespace Verif.Spec

open Verif.Peg Verif.GerberBuilder

/-- A number that is written as an ordinary decimal: a finite decimal, 0 or between 0.0001 and 10000000000000000. -/
def Written (q : ℚ) : Prop := Decimal |q| ∧ PlainNumber q

/-- A number that may be left out. -/
def WrittenOpt (o : Option ℚ) : Prop := ∀ q, o = some q → Written q

/-- A text without tabs and the characters that end a field, and without blanks at its beginning. -/
def PlainField (f : Text) : Prop := (∀ c ∈ f, c ≠ '%' ∧ c ≠ '*' ∧ c ≠ ',' ∧ c ≠ '\t') ∧ ∀ c t, f = c :: t → ¬ Blank [c]

/-- A name of a user attribute. -/
def UserName (n : Text) : Prop :=
  ∃ c t, n = c :: t ∧ UserNameStart c ∧ ∀ x ∈ t, NameChar x

/-- A point. -/
def WrittenAt (p : ℚ × ℚ) : Prop := Written p.1 ∧ Written p.2

/-- A shape of a custom pad. -/
def WritableShape : CustomShape → Prop
  | .circle _ d c r => Written d ∧ WrittenAt c ∧ Written r
  | .vectorLine _ w s e r => Written w ∧ WrittenAt s ∧ WrittenAt e ∧ Written r
  | .centerLine _ w h c r => Written w ∧ Written h ∧ WrittenAt c ∧ Written r
  | .outline _ ps r => ps.length < 10 ^ 16 ∧ (∀ p ∈ ps, WrittenAt p) ∧ Written r
  | .polygon _ n c d r => n < 10 ^ 16 ∧ WrittenAt c ∧ Written d ∧ Written r
  | .thermal _ c o i g r => WrittenAt c ∧ Written o ∧ Written i ∧ Written g ∧ Written r

/-- A call whose effect can be written to a file.  Coordinates of pads, traces and regions need no condition: they are
written as integers.  The values of an attribute are written one after the other, every value after a comma. -/
def Writable : Call → Prop
  | .circle d h => Written d ∧ WrittenOpt h
  | .rectangle w h o => Written w ∧ Written h ∧ WrittenOpt o
  | .roundedRectangle w h o => Written w ∧ Written h ∧ WrittenOpt o
  | .regularPolygon d _ r h => Written d ∧ Written r ∧ WrittenOpt h
  | .customShape _ s => WritableShape s
  | .setFunction _ v => ∃ f ∈ apertureFunctions, v = View.fieldsOf [f]
  | .setTolerance _ v => ∃ a b, Written a ∧ Written b ∧ v = View.fieldsOf [Fmt.strFloat a, Fmt.strFloat b]
  | .setCustom _ n v => UserName n ∧ ∃ fs, (∀ f ∈ fs, PlainField f) ∧ v = View.fieldsOf fs
  | .addPad _ _ r _ _ k => Written r ∧ Written k
  | .addCutoutPad _ _ r _ _ k => Written r ∧ Written k
  | .lineTrace w _ _ => Written w
  | .cwTrace w _ _ _ => Written w
  | .ccwTrace w _ _ _ => Written w
  | _ => True

/-- The call adds a thermal to a custom pad. -/
def IsThermal : Call → Prop
  | .customShape _ (.thermal ..) => True
  | _ => False

end Verif.Spec
