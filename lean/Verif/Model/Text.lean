import Mathlib.Data.Rat.Floor
import Mathlib.Algebra.Order.Field.Basic

/-!
# Python text and number primitives used by the modelled code

These are models of Python built-ins (`str.ljust`, `str.rjust`, `str.lstrip`, `str.rstrip`, `str(int)`,
`f"{x:.{n}f}"`, `float(text)`), restricted to the ASCII texts the library feeds them.  Text is a `List Char`.
-/

namespace Verif.Text

/-- Character of a decimal digit. -/
def digitChar (d : Nat) : Char := Char.ofNat (48 + d)

/-- Value of a decimal digit character. -/
def digitVal (c : Char) : Nat := c.toNat - 48

/-- ASCII decimal digit test. -/
def isDigit (c : Char) : Bool := decide (48 ≤ c.toNat ∧ c.toNat ≤ 57)

/-- `str(n)` for a non-negative Python `int`. -/
def natStr (n : Nat) : List Char :=
  if n < 10 then [digitChar n] else natStr (n / 10) ++ [digitChar (n % 10)]
termination_by n
decreasing_by omega

/-- `int(text)` on a text of ASCII digits (Horner evaluation). -/
def natVal (s : List Char) : Nat := s.foldl (fun a c => a * 10 + digitVal c) 0

/-- `s.rjust(w, "0")`. -/
def rjust0 (w : Nat) (s : List Char) : List Char := List.replicate (w - s.length) '0' ++ s

/-- `s.ljust(w, "0")`. -/
def ljust0 (w : Nat) (s : List Char) : List Char := s ++ List.replicate (w - s.length) '0'

/-- `s.lstrip("0")`. -/
def lstrip0 (s : List Char) : List Char := s.dropWhile (· == '0')

/-- `s.rstrip("0")`. -/
def rstrip0 (s : List Char) : List Char := (s.reverse.dropWhile (· == '0')).reverse

/-- `s or "0"`. -/
def orZero (s : List Char) : List Char := if s.isEmpty then ['0'] else s

/-- Correct rounding of a non-negative rational to an integer, ties to even: the rounding used by Python's
float formatting (which is exact on the binary value of the float). -/
def roundHalfEven (q : ℚ) : Nat :=
  let f := ⌊q⌋₊
  let r := q - (f : ℚ)
  if r < 1 / 2 then f
  else if 1 / 2 < r then f + 1
  else if f % 2 = 0 then f else f + 1

/-- The integer that `f"{v:.{d}f}"` prints (without sign and point): `|v| * 10^d` rounded. -/
def scaled (d : Nat) (v : ℚ) : Nat := roundHalfEven (|v| * (10 : ℚ) ^ d)

/-- `f"{v:.{d}f}".split(".")` for `d > 0`: sign and integer part, decimal part.
Simplification: a rational has no negative zero, so `-0.0` is printed like `0.0`; a negative number that rounds to
zero keeps its sign as in Python. -/
def fixedParts (d : Nat) (v : ℚ) : List Char × List Char :=
  let n := scaled d v
  ((if v < 0 then ['-'] else []) ++ natStr (n / 10 ^ d), rjust0 d (natStr (n % 10 ^ d)))

/-- `float(f"{sign}{ints}.{decs}")` on digit texts: exact decimal value.
Simplification: the result is not rounded to the nearest double. -/
def floatOf (neg : Bool) (ints decs : List Char) : ℚ :=
  (if neg then -1 else 1) * ((natVal ints : ℚ) + (natVal decs : ℚ) / (10 : ℚ) ^ decs.length)

end Verif.Text
