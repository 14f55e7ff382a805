import Mathlib.Algebra.Order.Floor.Ring
import Mathlib.Data.Rat.Floor

/-!
# Hexadecimal digits and the HSV formula
-/

namespace Verif.Spec

/-- The sixteen digits, lower case. -/
def hexLower : List Char := ['0', '1', '2', '3', '4', '5', '6', '7', '8', '9', 'a', 'b', 'c', 'd', 'e', 'f']
/-- The sixteen digits, upper case. -/
def hexUpper : List Char := ['0', '1', '2', '3', '4', '5', '6', '7', '8', '9', 'A', 'B', 'C', 'D', 'E', 'F']

/-- `c` is a hexadecimal digit worth `n`. -/
def HexDigit (c : Char) (n : Nat) : Prop := hexLower[n]? = some c ∨ hexUpper[n]? = some c

/-- `a b` is a two digit hexadecimal number worth `n`. -/
def HexByte (a b : Char) (n : Nat) : Prop := ∃ x y, HexDigit a x ∧ HexDigit b y ∧ n = 16 * x + y

/-- The closed HSV to RGB formula `f(n) = v - v s max(0, min(k, 4 - k, 1))`, `k = (n + h/60) mod 6`, with red `f(5)`,
green `f(3)`, blue `f(1)`; `h` in degrees, `s` and `v` between 0 and 1. -/
def hsvChannel (n : ℚ) (h s v : ℚ) : ℚ :=
  let k := n + h / 60 - 6 * ⌊(n + h / 60) / 6⌋
  v - v * s * max 0 (min k (min (4 - k) 1))

end Verif.Spec
