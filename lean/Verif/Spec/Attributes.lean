import Verif.Model.Syntax

/-!
# Names of attributes (Gerber format specification, 5.5 and 5.6)
-/

namespace Verif.Spec

open Verif.Peg Verif.Syntax

/-- The name of the aperture or object attribute that a node sets, as it is written in the file. -/
def attributeName : Node → Option Text
  | .taUser n _ => some n
  | .taFunction .. => some t!".AperFunction"
  | .taDrill .. => some t!".DrillTolerance"
  | .taFlash .. => some t!".FlashText"
  | .toUser n _ => some n
  | .toN .. => some t!".N"
  | .toP .. => some t!".P"
  | .toText .c _ => some t!".C"
  | .toText .cMfr _ => some t!".CMfr"
  | .toText .cMpn _ => some t!".CMPN"
  | .toText .cVal _ => some t!".CVal"
  | .toText .cFtp _ => some t!".CFtp"
  | .toText .cPgN _ => some t!".CPgN"
  | .toText .cPgD _ => some t!".CPgD"
  | .toText .cLbN _ => some t!".CLbN"
  | .toText .cLbD _ => some t!".CLbD"
  | .toRot .. => some t!".CRot"
  | .toHeight .. => some t!".CHgt"
  | .toMount .. => some t!".CMnt"
  | .toSup .. => some t!".CSup"
  | _ => none

end Verif.Spec
