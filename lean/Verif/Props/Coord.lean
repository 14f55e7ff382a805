import Verif.Lemmas.CoordProps
import Verif.Spec.Format

/-!
# C01-C04: packed coordinates

`CoordinateFormat.pack f axis v` and `CoordinateFormat.unpack f axis text` model `pack_x`, `pack_y`, `unpack_x`
and `unpack_y`.
-/

namespace Verif.Props.Coord
open Verif.Text Verif.Spec Verif.Coord Verif.Lemmas.Coord

theorem decimal_eq (f : CoordinateFormat) (a : Axis) : f.decimal a = decDigits f a := by cases a <;> rfl
theorem integral_eq (f : CoordinateFormat) (a : Axis) : f.integral a = intDigits f a := by cases a <;> rfl

/-- **C01.** Whenever packing succeeds, the packed text unpacks to `v` rounded correctly (nearest multiple of
`10^-decimal`, ties to even) with the sign of `v`. -/
theorem c01_unpack_pack (f : CoordinateFormat) (a : Axis) (v : ℚ) (s : List Char)
    (h : f.pack a v = .ok s) :
    ∃ n : ℤ, RoundsTo (|v| * 10 ^ decDigits f a) n ∧
      f.unpack a s = .ok (((if v < 0 then -n else n : ℤ) : ℚ) / 10 ^ decDigits f a) := by
  simp only [← decimal_eq, ← integral_eq] at *
  exact unpack_pack_core f a v s h

/-- **C01** (error bound). The round trip is off by at most half of the last decimal place. -/
theorem c01_error_bound (f : CoordinateFormat) (a : Axis) (v : ℚ) (s : List Char)
    (h : f.pack a v = .ok s) :
    ∃ w : ℚ, f.unpack a s = .ok w ∧ (∃ k : ℤ, w = k / 10 ^ decDigits f a) ∧
      |w - v| ≤ 1 / 2 / 10 ^ decDigits f a := by
  simp only [← decimal_eq, ← integral_eq] at *
  exact error_bound_core f a v s h

/-- **C01** (exactness). A multiple of the resolution comes back unchanged. -/
theorem c01_exact (f : CoordinateFormat) (a : Axis) (k : ℤ) (s : List Char)
    (h : f.pack a ((k : ℚ) / 10 ^ decDigits f a) = .ok s) :
    f.unpack a s = .ok ((k : ℚ) / 10 ^ decDigits f a) := by
  simp only [← decimal_eq, ← integral_eq] at *
  exact exact_core f a k s h

/-- Non-vacuity of C01: the default 2.6 format packs `-0.5` in both modes. -/
example : (CoordinateFormat.pack {} .x (-1 / 2)).toOption = some "-500000".toList := by decide +kernel
example : (CoordinateFormat.pack { zeros := .skipTrailing } .y (-1 / 2)).toOption = some "-005".toList := by
  decide +kernel

/-! ### C03 -/

/-- **C03** (leading zeros omitted). -/
theorem c03_unpack_leading (f : CoordinateFormat) (hz : f.zeros ≠ .skipTrailing) (a : Axis) (sg : Sign)
    (ds : List Char) (hd : Digits ds) :
    f.unpack a (sg.text ++ ds) =
      if ds.length = 0 then .error .tooShort
      else if intDigits f a + decDigits f a < ds.length then .error .tooLong
      else .ok (sg.factor * numeral ds / 10 ^ decDigits f a) := by
  simp only [← decimal_eq, ← integral_eq] at *
  exact unpack_leading_core f hz a sg ds hd

/-- **C03** (trailing zeros omitted). -/
theorem c03_unpack_trailing (f : CoordinateFormat) (hz : f.zeros = .skipTrailing) (a : Axis) (sg : Sign)
    (ds : List Char) (hd : Digits ds) :
    f.unpack a (sg.text ++ ds) =
      if ds.length = 0 then .error .tooShort
      else if intDigits f a + decDigits f a < ds.length then .error .tooLong
      else .ok (sg.factor * numeral ds * (10 : ℚ) ^ ((intDigits f a : ℤ) - ds.length)) := by
  simp only [← decimal_eq, ← integral_eq] at *
  exact unpack_trailing_core f hz a sg ds hd

/-- **C03** (redundant zeros). Leading zeros that still fit do not change the value when leading zeros are omitted. -/
theorem c03_redundant_leading (f : CoordinateFormat) (hz : f.zeros ≠ .skipTrailing) (a : Axis) (sg : Sign)
    (ds : List Char) (hd : Digits ds) (hne : ds ≠ []) (k : Nat)
    (hfit : k + ds.length ≤ intDigits f a + decDigits f a) :
    f.unpack a (sg.text ++ (List.replicate k '0' ++ ds)) = f.unpack a (sg.text ++ ds) := by
  simp only [← decimal_eq, ← integral_eq] at *
  exact redundant_leading_core f hz a sg ds hd hne k hfit

/-- **C03** (redundant zeros). Trailing zeros that still fit do not change the value when trailing zeros are omitted. -/
theorem c03_redundant_trailing (f : CoordinateFormat) (hz : f.zeros = .skipTrailing) (a : Axis) (sg : Sign)
    (ds : List Char) (hd : Digits ds) (hne : ds ≠ []) (k : Nat)
    (hfit : k + ds.length ≤ intDigits f a + decDigits f a) :
    f.unpack a (sg.text ++ (ds ++ List.replicate k '0')) = f.unpack a (sg.text ++ ds) := by
  simp only [← decimal_eq, ← integral_eq] at *
  exact redundant_trailing_core f hz a sg ds hd hne k hfit

example : Digits "0150".toList ∧ "0150".toList.length ≤ 2 + 6 := by decide
example : (CoordinateFormat.unpack {} .x "-0150".toList).toOption = some (-150 / 1000000) := by decide +kernel

/-! ### C04 -/

/-- **C04.** With at least one decimal digit, packing `v` raises "too long" exactly when `v` rounded to the decimals
of the format has an integer part that does not fit in the integer digits (with no integer digit nothing fits), and
otherwise produces a sign (exactly for negative numbers) and between one and integral + decimal digits. -/
theorem c04_pack (f : CoordinateFormat) (a : Axis) (hd : 0 < decDigits f a) (v : ℚ) (n : ℤ)
    (hn : RoundsTo (|v| * 10 ^ decDigits f a) n) :
    (f.pack a v = .error .tooLong ↔
      intDigits f a = 0 ∨ (10 : ℚ) ^ intDigits f a ≤ n / 10 ^ decDigits f a) ∧
    (f.pack a v ≠ .error .tooLong →
      ∃ ds, f.pack a v = .ok ((if v < 0 then ['-'] else []) ++ ds) ∧ Digits ds ∧ 0 < ds.length ∧
        ds.length ≤ intDigits f a + decDigits f a) := by
  simp only [← decimal_eq, ← integral_eq] at *
  exact pack_core f a hd v n hn

/-- Rounding can carry into a new integer digit: 99.9999996 does not fit format 2.6. -/
example : CoordinateFormat.pack {} .x (999999996 / 10000000) = .error .tooLong := by decide +kernel
example : RoundsTo (|(999999996 / 10000000 : ℚ)| * 10 ^ 6) 100000000 := by
  left; rw [abs_lt]; norm_num

/-- **C04** (limit of the code). With no decimal digit packing always fails with a `ValueError`, whatever the
number: such a format can be read but not written. -/
theorem c04_no_decimals_never_packs (f : CoordinateFormat) (a : Axis) (hd : decDigits f a = 0) (v : ℚ) :
    f.pack a v = .error .valueError := by
  simp only [← decimal_eq, ← integral_eq] at *
  exact no_decimals_never_packs_core f a hd v

/-! ### C02 -/

/-- **C02** (partial). For every format with at least one integer and one decimal digit, every accepted text denotes
a number that can be packed again, and the new text denotes the same number.
Missing: formats with no integer or no decimal digit, for which the property is false (`c02_false_*`). -/
theorem c02_repack_partial (f : CoordinateFormat) (a : Axis) (hi : 0 < intDigits f a) (hd : 0 < decDigits f a)
    (sg : Sign) (ds : List Char) (hds : Digits ds) (w : ℚ) (h : f.unpack a (sg.text ++ ds) = .ok w) :
    ∃ s, f.pack a w = .ok s ∧ f.unpack a s = .ok w := by
  simp only [← decimal_eq, ← integral_eq] at *
  exact repack_partial_core f a hi hd sg ds hds w h

example : (CoordinateFormat.unpack { zeros := .skipTrailing } .x "+0150".toList).toOption = some (15 / 10) := by
  decide +kernel

/-- **C02** is false without decimal digits: format 3.0 reads `12` but cannot write it back. -/
theorem c02_false_no_decimals :
    ∃ (f : CoordinateFormat) (w : ℚ), f.unpack .x "12".toList = .ok w ∧ ∀ s, f.pack .x w ≠ .ok s := by
  refine ⟨{ xIntegral := 3, xDecimal := 0 }, 12, ?_, fun s => ?_⟩
  · have := c03_unpack_leading { xIntegral := 3, xDecimal := 0 } (by decide) .x .none "12".toList (by decide)
    simpa [Sign.text, intDigits, decDigits, numeral, Sign.factor] using this
  · rw [c04_no_decimals_never_packs _ _ rfl]; simp

/-- **C02** is false without integer digits: format 0.6 reads `5` (0.000005) but cannot write it back. -/
theorem c02_false_no_integers :
    ∃ (f : CoordinateFormat) (w : ℚ), f.unpack .x "5".toList = .ok w ∧ f.pack .x w = .error .tooLong := by
  refine ⟨{ xIntegral := 0, xDecimal := 6 }, 5 / 10 ^ 6, ?_, ?_⟩
  · have := c03_unpack_leading { xIntegral := 0, xDecimal := 6 } (by decide) .x .none "5".toList (by decide)
    simpa [Sign.text, intDigits, decDigits, numeral, Sign.factor] using this
  · decide +kernel

end Verif.Props.Coord
