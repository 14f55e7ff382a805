import Verif.Model.Linter

/-!
# What the linter should report
-/

namespace Verif.Spec
open Verif.Text
open Verif.Peg (Text)
open Verif.Syntax (Node GCode)
open Verif.Spans (Info lineAt columnAt)
open Verif.Linter (Rule Kind Visit Violation)

/-- The number of a `G` code in words of the format: `G54` is `G`, any number of zeros, `54`. -/
def codeNumber : GCode → Text
  | .g01 => ['1'] | .g02 => ['2'] | .g03 => ['3'] | .g36 => ['3', '6'] | .g37 => ['3', '7'] | .g54 => ['5', '4'] | .g55 => ['5', '5']
  | .g70 => ['7', '0'] | .g71 => ['7', '1'] | .g74 => ['7', '4'] | .g75 => ['7', '5'] | .g90 => ['9', '0'] | .g91 => ['9', '1']

/-- The text begins with this `G` code. -/
def BeginsWithCode (c : GCode) (t : Text) : Prop :=
  ∃ zeros rest, t = 'G' :: (List.replicate zeros '0' ++ codeNumber c ++ rest)

mutual
/-- All `G` codes of the node, at every depth, begin at their locations. -/
def CodesAt (source : Text) : Node → Info → Prop
  | .g c _, i => BeginsWithCode c (source.drop i.location)
  | .ab _ ns, i => CodesIn source ns (i.parts.drop 1)
  | .sr _ _ _ _ ns, i => CodesIn source ns (i.parts.drop 1)
  | _, _ => True
/-- `CodesAt` for several nodes. -/
def CodesIn (source : Text) : List Node → List Info → Prop
  | [], _ => True
  | n :: ns, is => ∃ i js, is = i :: js ∧ CodesAt source n i ∧ CodesIn source ns js
end

/-- Commands that GRB001 remembers: interpolation commands and the ends of block apertures. -/
def remembers (v : Visit) : Bool :=
  v.kind == .g01 || v.kind == .g02 || v.kind == .g03 || v.kind == .abClose

/-- The rule has something to say about a command after the commands `before`: DEP001 about every `G54`, DEP002 about
every `G55`, GRB001 about an interpolation command that repeats the latest one, unless a block aperture ended since. -/
def Objects (before : List Visit) (v : Visit) : Rule → Prop
  | .dep001 => v.kind = .g54
  | .dep002 => v.kind = .g55
  | .grb001 => (v.kind = .g01 ∨ v.kind = .g02 ∨ v.kind = .g03) ∧
    ∃ w, (before.filter remembers).getLast? = some w ∧ w.kind = v.kind

instance (before : List Visit) (v : Visit) : DecidablePred (Objects before v)
  | .dep001 => inferInstanceAs (Decidable (v.kind = .g54))
  | .dep002 => inferInstanceAs (Decidable (v.kind = .g55))
  | .grb001 => by
    unfold Objects
    refine @instDecidableAnd _ _ _ ?_
    cases (before.filter remembers).getLast? with
    | none => exact isFalse (by simp)
    | some w => exact decidable_of_iff (w.kind = v.kind) (by simp)

/-- What messages call a command. -/
def called : Kind → Text
  | .g01 => t!"G01"
  | .g02 => t!"G02"
  | .g03 => t!"G03"
  | .g54 => t!"G54"
  | .g55 => t!"G55"
  | .abClose => t!"ABclose"
  | .other => []

/-- The message of a rule. -/
def message (v : Visit) : Rule → Text
  | .dep001 => t!"Use of deprecated G54 code."
  | .dep002 => t!"Use of deprecated G55 code."
  | .grb001 => t!"Redundant " ++ called v.kind ++ t!" command."

/-- The report of a rule about a command with a position: offsets, line and column of the command. -/
def reportAt (source : Text) (r : Rule) (v : Visit) (i : Info) : Violation :=
  ⟨r, message v r, i.location, i.endLocation, lineAt source i.location, columnAt source i.location⟩

/-- All reports about the commands `vs`, which come after `before`: command by command, and for each command in the order
of the rules. -/
def reports (source : Text) (rules : List Rule) (before : List Visit) : List Visit → List Violation
  | [] => []
  | v :: vs => ((rules.filter fun r => decide (Objects before v r)).filterMap fun r => v.info.map (reportAt source r v)) ++
    reports source rules (before ++ [v]) vs

end Verif.Spec
