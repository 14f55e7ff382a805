import Verif.Model.Text

/-!
# Printing floats (`Formatter._fmt_double`) and reading them back (the grammar's `double`)

Paths are relative to `/repo/src/pygerber/`.
-/

namespace Verif.Fmt

open Verif.Text

/-- `s.rstrip(".")`. -/
def rstripDot (s : List Char) : List Char := (s.reverse.dropWhile (· == '.')).reverse

/-- Number of decimals needed to write `q` exactly: the least `k` with `q * 10^k` an integer, searched up to the
denominator (every finite decimal has one there). -/
def decPlaces (q : ℚ) : Nat := ((List.range (q.den + 1)).find? (fun k => q.den ∣ 10 ^ k)).getD 0

/-- Python's `str(x)` of a non-negative finite float (`float.__repr__`, format code `r`): shortest digits, in
positional notation with at least one decimal when the decimal exponent `e` of the leading digit satisfies
`-4 ≤ e < 16`, otherwise `d.ddde±XX` with at least two exponent digits.
Simplification: the digits are those of the exact decimal, i.e. the number has at most 15 significant digits so
that its shortest round-trip representation is the number itself. -/
def strNonneg (q : ℚ) : List Char :=
  let k := decPlaces q
  let m := scaled k q
  let s := natStr m
  let e : ℤ := (s.length : ℤ) - 1 - (k : ℤ)
  if m = 0 then ['0', '.', '0']
  else if -4 ≤ e ∧ e < 16 then
    natStr (m / 10 ^ k) ++ '.' :: (if k = 0 then ['0'] else rjust0 k (natStr (m % 10 ^ k)))
  else
    let ds := rstrip0 s
    ds.take 1 ++ (if ds.length ≤ 1 then [] else '.' :: ds.drop 1) ++ 'e' ::
      (if e < 0 then '-' else '+') :: rjust0 2 (natStr e.natAbs)

/-- Python's `str(x)` of a finite float. -/
def strFloat (q : ℚ) : List Char := (if q < 0 then ['-'] else []) ++ strNonneg |q|

/-- Python's `f"{v:.{d}f}"`. -/
def fixed (d : Nat) (v : ℚ) : List Char :=
  if d = 0 then (if v < 0 then ['-'] else []) ++ natStr (scaled 0 v)
  else (fixedParts d v).1 ++ '.' :: (fixedParts d v).2

/-- `Formatter._fmt_double`, gerber/formatter/formatter.py 374-380.  `places = none` stands for a negative
`float_decimal_places` (the default, -1). -/
def fmtDouble (places : Option Nat) (trim : Bool) (v : ℚ) : List Char :=
  match places with
  | none => strFloat v
  | some d => if trim then rstripDot (rstrip0 (fixed d v)) else fixed d v

/-- Longest prefix of decimal digits and the rest (the regex `[0-9]*`). -/
def digits (s : List Char) : List Char × List Char := (s.takeWhile isDigit, s.dropWhile isDigit)

/-- Unsigned part of the regex of `double`, gerber/parser/pyparsing/grammar.py 303-308:
`([0-9]+(\.[0-9]+)?)|(\.[0-9]+)`. -/
def pUnsigned (s : List Char) : Option (ℚ × List Char) :=
  let i := (digits s).1
  let r := (digits s).2
  match r with
  | '.' :: r' =>
    if (digits r').1.isEmpty then (if i.isEmpty then none else some (floatOf false i [], r))
    else some (floatOf false i (digits r').1, (digits r').2)
  | _ => if i.isEmpty then none else some (floatOf false i [], r)

/-- `double`, gerber/parser/pyparsing/grammar.py 303-308: `[+-]?(…)` converted with `float`
(gerber/ast/nodes/types.py, `Double`). -/
def pDouble (s : List Char) : Option (ℚ × List Char) :=
  match s with
  | '+' :: r => pUnsigned r
  | '-' :: r => (pUnsigned r).map (fun p => (-p.1, p.2))
  | _ => pUnsigned s

end Verif.Fmt
