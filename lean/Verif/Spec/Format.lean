import Verif.Model.Coord

/-!
# Digits of a coordinate format

`FSLAX26Y35*` has two integer and six decimal digits for X, three and five for Y.
-/

namespace Verif.Spec
open Verif.Coord

/-- Integer digits declared for an axis. -/
def intDigits (f : CoordinateFormat) (a : Axis) : Nat := if a = .x then f.xIntegral else f.yIntegral

/-- Decimal digits declared for an axis. -/
def decDigits (f : CoordinateFormat) (a : Axis) : Nat := if a = .x then f.xDecimal else f.yDecimal

end Verif.Spec
