import Verif.Lemmas.Coord

/-!
# Packed coordinates: the proofs behind C01-C04

`CoordinateFormat.pack f axis v` and `CoordinateFormat.unpack f axis text` model `pack_x`, `pack_y`, `unpack_x`
and `unpack_y`.
-/

namespace Verif.Lemmas.Coord
open Verif.Text Verif.Spec Verif.Coord

/-- **C01.** Whenever packing succeeds, the packed text unpacks to `v` rounded correctly (nearest multiple of
`10^-decimal`, ties to even) with the sign of `v`. -/
theorem unpack_pack_core (f : CoordinateFormat) (a : Axis) (v : ℚ) (s : List Char)
    (h : f.pack a v = .ok s) :
    ∃ n : ℤ, RoundsTo (|v| * 10 ^ f.decimal a) n ∧
      f.unpack a s = .ok (((if v < 0 then -n else n : ℤ) : ℚ) / 10 ^ f.decimal a) := by
  have hd : 0 < f.decimal a := by
    rcases Nat.eq_zero_or_pos (f.decimal a) with h0 | h0
    · exfalso
      unfold CoordinateFormat.pack at h
      cases hz : f.zeros <;> rw [hz] at h <;>
        simp [packSkipLeading, packSkipTrailing, packHead, h0] at h
    · exact h0
  refine ⟨scaled (f.decimal a) v, scaled_spec _ _, ?_⟩
  have e : packedValue (f.decimal a) v
      = (((if v < 0 then -(scaled (f.decimal a) v : ℤ) else (scaled (f.decimal a) v : ℤ) : ℤ) : ℚ) /
        10 ^ f.decimal a) := by
    unfold packedValue packSign; split_ifs <;> simp [Sign.factor]
  rw [← e]
  unfold CoordinateFormat.pack at h
  unfold CoordinateFormat.unpack
  cases hz : f.zeros <;> rw [hz] at h <;> simp only at h ⊢
  · exact unpack_pack_leading _ _ hd _ _ h
  · exact unpack_pack_trailing _ _ hd _ _ h
  · exact unpack_pack_leading _ _ hd _ _ h

theorem unpack_pack_value (f : CoordinateFormat) (a : Axis) (v : ℚ) (s : List Char)
    (h : f.pack a v = .ok s) : f.unpack a s = .ok (packedValue (f.decimal a) v) := by
  obtain ⟨n, hn, hu⟩ := unpack_pack_core f a v s h
  rw [hu]
  have := roundsTo_unique hn (scaled_spec _ _)
  subst this
  unfold packedValue packSign; split_ifs <;> simp [Sign.factor]

/-- **C01** (error bound). The round trip is off by at most half of the last decimal place. -/
theorem error_bound_core (f : CoordinateFormat) (a : Axis) (v : ℚ) (s : List Char)
    (h : f.pack a v = .ok s) :
    ∃ w : ℚ, f.unpack a s = .ok w ∧ (∃ k : ℤ, w = k / 10 ^ f.decimal a) ∧
      |w - v| ≤ 1 / 2 / 10 ^ f.decimal a := by
  obtain ⟨k, hk, hb⟩ := packedValue_spec (f.decimal a) v
  exact ⟨_, unpack_pack_value f a v s h, ⟨k, hk⟩, hb⟩

/-- **C01** (exactness). A multiple of the resolution comes back unchanged. -/
theorem exact_core (f : CoordinateFormat) (a : Axis) (k : ℤ) (s : List Char)
    (h : f.pack a ((k : ℚ) / 10 ^ f.decimal a) = .ok s) :
    f.unpack a s = .ok ((k : ℚ) / 10 ^ f.decimal a) := by
  rw [unpack_pack_value f a _ s h, packedValue_exact]




/-! ### C03 -/

/-- **C03** (leading zeros omitted). -/
theorem unpack_leading_core (f : CoordinateFormat) (hz : f.zeros ≠ .skipTrailing) (a : Axis) (sg : Sign)
    (ds : List Char) (hd : Digits ds) :
    f.unpack a (sg.text ++ ds) =
      if ds.length = 0 then .error .tooShort
      else if f.integral a + f.decimal a < ds.length then .error .tooLong
      else .ok (sg.factor * numeral ds / 10 ^ f.decimal a) := by
  have e : f.unpack a (sg.text ++ ds) = unpackSkipLeading (f.integral a) (f.decimal a) (sg.text ++ ds) := by
    unfold CoordinateFormat.unpack
    cases h : f.zeros <;> simp_all
  rw [e, unpackSkipLeading_eq _ _ ((all_isDigit_iff ds).mpr hd), natVal_eq_numeral]
  simp only [List.length_eq_zero_iff]

/-- **C03** (trailing zeros omitted). -/
theorem unpack_trailing_core (f : CoordinateFormat) (hz : f.zeros = .skipTrailing) (a : Axis) (sg : Sign)
    (ds : List Char) (hd : Digits ds) :
    f.unpack a (sg.text ++ ds) =
      if ds.length = 0 then .error .tooShort
      else if f.integral a + f.decimal a < ds.length then .error .tooLong
      else .ok (sg.factor * numeral ds * (10 : ℚ) ^ ((f.integral a : ℤ) - ds.length)) := by
  have e : f.unpack a (sg.text ++ ds) = unpackSkipTrailing (f.integral a) (f.decimal a) (sg.text ++ ds) := by
    unfold CoordinateFormat.unpack
    simp [hz]
  rw [e, unpackSkipTrailing_eq _ _ ((all_isDigit_iff ds).mpr hd), natVal_eq_numeral]
  simp only [List.length_eq_zero_iff]
  rw [zpow_sub₀ (by norm_num), zpow_natCast, zpow_natCast, mul_div_assoc]

/-- **C03** (redundant zeros). Leading zeros that still fit do not change the value when leading zeros are omitted. -/
theorem redundant_leading_core (f : CoordinateFormat) (hz : f.zeros ≠ .skipTrailing) (a : Axis) (sg : Sign)
    (ds : List Char) (hd : Digits ds) (hne : ds ≠ []) (k : Nat)
    (hfit : k + ds.length ≤ f.integral a + f.decimal a) :
    f.unpack a (sg.text ++ (List.replicate k '0' ++ ds)) = f.unpack a (sg.text ++ ds) := by
  have hd2 : Digits (List.replicate k '0' ++ ds) := by
    intro c hc
    rcases List.mem_append.mp hc with h | h
    · rw [List.eq_of_mem_replicate h]; decide
    · exact hd c h
  rw [unpack_leading_core f hz a sg _ hd2, unpack_leading_core f hz a sg _ hd]
  have h0 : ds.length ≠ 0 := by simpa using hne
  have hn : numeral (List.replicate k '0' ++ ds) = numeral ds := by
    rw [← natVal_eq_numeral, natVal_append, natVal_replicate, natVal_eq_numeral]; omega
  simp only [hn, List.length_append, List.length_replicate]
  rw [if_neg (by omega), if_neg (by omega), if_neg (by omega), if_neg (by omega)]

/-- **C03** (redundant zeros). Trailing zeros that still fit do not change the value when trailing zeros are omitted. -/
theorem redundant_trailing_core (f : CoordinateFormat) (hz : f.zeros = .skipTrailing) (a : Axis) (sg : Sign)
    (ds : List Char) (hd : Digits ds) (hne : ds ≠ []) (k : Nat)
    (hfit : k + ds.length ≤ f.integral a + f.decimal a) :
    f.unpack a (sg.text ++ (ds ++ List.replicate k '0')) = f.unpack a (sg.text ++ ds) := by
  have hd2 : Digits (ds ++ List.replicate k '0') := by
    intro c hc
    rcases List.mem_append.mp hc with h | h
    · exact hd c h
    · rw [List.eq_of_mem_replicate h]; decide
  rw [unpack_trailing_core f hz a sg _ hd2, unpack_trailing_core f hz a sg _ hd]
  have h0 : ds.length ≠ 0 := by simpa using hne
  have hn : numeral (ds ++ List.replicate k '0') = numeral ds * 10 ^ k := by
    rw [← natVal_eq_numeral, natVal_append, natVal_replicate, natVal_eq_numeral]; simp
  simp only [hn, List.length_append, List.length_replicate]
  rw [if_neg (by omega), if_neg (by omega), if_neg (by omega), if_neg (by omega)]
  congr 1
  push_cast
  have : (10 : ℚ) ^ ((f.integral a : ℤ) - ds.length)
      = 10 ^ k * (10 : ℚ) ^ ((f.integral a : ℤ) - (ds.length + k)) := by
    rw [← zpow_natCast, ← zpow_add₀ (by norm_num)]; congr 1; ring
  rw [this]; ring




/-! ### C04 -/

/-- **C04.** With at least one decimal digit, packing `v` raises "too long" exactly when `v` rounded to the decimals
of the format has an integer part that does not fit in the integer digits (with no integer digit nothing fits), and
otherwise produces a sign (exactly for negative numbers) and between one and integral + decimal digits. -/
theorem pack_core (f : CoordinateFormat) (a : Axis) (hd : 0 < f.decimal a) (v : ℚ) (n : ℤ)
    (hn : RoundsTo (|v| * 10 ^ f.decimal a) n) :
    (f.pack a v = .error .tooLong ↔
      f.integral a = 0 ∨ (10 : ℚ) ^ f.integral a ≤ n / 10 ^ f.decimal a) ∧
    (f.pack a v ≠ .error .tooLong →
      ∃ ds, f.pack a v = .ok ((if v < 0 then ['-'] else []) ++ ds) ∧ Digits ds ∧ 0 < ds.length ∧
        ds.length ≤ f.integral a + f.decimal a) := by
  have hn2 : n = scaled (f.decimal a) v := roundsTo_unique hn (scaled_spec _ _)
  subst hn2
  generalize hi : f.integral a = i at *
  generalize hde : f.decimal a = d at *
  have hfit : (i < (natStr (scaled d v / 10 ^ d)).length ↔
      i = 0 ∨ (10 : ℚ) ^ i ≤ ((scaled d v : ℤ) : ℚ) / 10 ^ d) := by
    rcases Nat.eq_zero_or_pos i with h0 | h0
    · subst h0; simp [length_natStr_pos]
    · have h1 := length_natStr_le (scaled d v / 10 ^ d) i h0
      have h2 : (10 : ℚ) ^ i ≤ ((scaled d v : ℤ) : ℚ) / 10 ^ d ↔ 10 ^ i ≤ scaled d v / 10 ^ d := by
        rw [le_div_iff₀ (by positivity), Nat.le_div_iff_mul_le (by positivity)]
        push_cast
        exact_mod_cast Iff.rfl
      rw [h2]
      omega
  have hsg : (packSign v).text = if v < 0 then ['-'] else [] := by
    unfold packSign; split_ifs <;> rfl
  have hlead : (packSkipLeading i d v = .error .tooLong ↔ i < (natStr (scaled d v / 10 ^ d)).length) ∧
      (packSkipLeading i d v ≠ .error .tooLong → ∃ ds, packSkipLeading i d v =
        .ok ((if v < 0 then ['-'] else []) ++ ds) ∧ Digits ds ∧ 0 < ds.length ∧ ds.length ≤ i + d) := by
    rw [packSkipLeading_eq i d hd]
    by_cases hl : i < (natStr (scaled d v / 10 ^ d)).length
    · simp [hl]
    · rw [if_neg hl]
      refine ⟨by simp [hl], fun _ => ⟨_, by rw [hsg], ?_, ?_, ?_⟩⟩
      · exact (all_isDigit_iff _).mp (all_orZero (all_lstrip0 (all_parts _ _ _)))
      · exact List.length_pos_iff.mpr (orZero_ne_nil _)
      · refine length_orZero_le ((length_lstrip0_le _).trans ?_) (by omega)
        rw [List.length_append, length_dec _ _ hd]; omega
  have htrail : (packSkipTrailing i d v = .error .tooLong ↔ i < (natStr (scaled d v / 10 ^ d)).length) ∧
      (packSkipTrailing i d v ≠ .error .tooLong → ∃ ds, packSkipTrailing i d v =
        .ok ((if v < 0 then ['-'] else []) ++ ds) ∧ Digits ds ∧ 0 < ds.length ∧ ds.length ≤ i + d) := by
    rw [packSkipTrailing_eq i d hd]
    by_cases hl : i < (natStr (scaled d v / 10 ^ d)).length
    · simp [hl]
    · rw [if_neg hl]
      refine ⟨by simp [hl], fun _ => ⟨_, by rw [hsg], ?_, ?_, ?_⟩⟩
      · refine (all_isDigit_iff _).mp (all_orZero (all_rstrip0 ?_))
        rw [List.all_append, all_rjust0, all_rjust0, all_natStr, all_natStr]; rfl
      · exact List.length_pos_iff.mpr (orZero_ne_nil _)
      · refine length_orZero_le ((length_rstrip0_le _).trans ?_) (by omega)
        rw [List.length_append, length_dec _ _ hd, length_rjust0]; omega
  unfold CoordinateFormat.pack
  rw [hi, hde, ← hfit]
  cases f.zeros
  · exact hlead
  · exact htrail
  · exact hlead




/-- **C04** (limit of the code). With no decimal digit packing always fails with a `ValueError`, whatever the
number: such a format can be read but not written. -/
theorem no_decimals_never_packs_core (f : CoordinateFormat) (a : Axis) (hd : f.decimal a = 0) (v : ℚ) :
    f.pack a v = .error .valueError := by
  unfold CoordinateFormat.pack
  cases f.zeros <;> simp [packSkipLeading, packSkipTrailing, packHead, hd]

/-! ### C02 -/

/-- **C02** (partial). For every format with at least one integer and one decimal digit, every accepted text denotes
a number that can be packed again, and the new text denotes the same number.
Missing: formats with no integer or no decimal digit, for which the property is false (`c02_false_*`). -/
theorem repack_partial_core (f : CoordinateFormat) (a : Axis) (hi : 0 < f.integral a) (hd : 0 < f.decimal a)
    (sg : Sign) (ds : List Char) (hds : Digits ds) (w : ℚ) (h : f.unpack a (sg.text ++ ds) = .ok w) :
    ∃ s, f.pack a w = .ok s ∧ f.unpack a s = .ok w := by
  -- `w` is `± N / 10^d` with `N < 10^(i+d)`
  have key : ∃ N : ℕ, w = ((if sg = .minus then -(N : ℤ) else N : ℤ) : ℚ) / 10 ^ f.decimal a ∧
      N < 10 ^ (f.integral a + f.decimal a) := by
    have hall := (all_isDigit_iff ds).mpr hds
    by_cases hz : f.zeros = .skipTrailing
    · rw [unpack_trailing_core f hz a sg ds hds] at h
      split_ifs at h with h1 h2
      injection h with h
      refine ⟨numeral ds * 10 ^ (f.integral a + f.decimal a - ds.length), ?_, ?_⟩
      · rw [← h, zpow_sub₀ (by norm_num), zpow_natCast, zpow_natCast]
        have e : (10 : ℚ) ^ (f.integral a + f.decimal a - ds.length) * 10 ^ ds.length
            = 10 ^ f.integral a * 10 ^ f.decimal a := by
          rw [← pow_add, ← pow_add]; congr 1; omega
        rw [← mul_div_assoc, div_eq_div_iff (by positivity) (by positivity)]
        cases sg <;> simp only [Sign.factor] <;> push_cast <;> simp <;>
          linear_combination (-(numeral ds : ℚ)) * e
      · have h3 := natVal_lt hall
        rw [natVal_eq_numeral] at h3
        calc numeral ds * 10 ^ (f.integral a + f.decimal a - ds.length)
            < 10 ^ ds.length * 10 ^ (f.integral a + f.decimal a - ds.length) :=
              Nat.mul_lt_mul_of_pos_right h3 (by positivity)
          _ = 10 ^ (f.integral a + f.decimal a) := by rw [← pow_add]; congr 1; omega
    · rw [unpack_leading_core f hz a sg ds hds] at h
      split_ifs at h with h1 h2
      injection h with h
      refine ⟨numeral ds, ?_, ?_⟩
      · rw [← h]; cases sg <;> simp [Sign.factor]
      · have h3 := natVal_lt hall
        rw [natVal_eq_numeral] at h3
        exact h3.trans_le (Nat.pow_le_pow_right (by omega) (by omega))
  obtain ⟨N, hw, hN⟩ := key
  have habs : |w| * 10 ^ f.decimal a = ((N : ℤ) : ℚ) := by
    have hp : (0 : ℚ) < 10 ^ f.decimal a := by positivity
    rw [hw, abs_div, abs_of_pos hp, div_mul_cancel₀ _ hp.ne']
    split_ifs <;> simp
  have hr : RoundsTo (|w| * 10 ^ f.decimal a) (N : ℤ) := by
    left; rw [habs]; simp
  have hnot : f.pack a w ≠ .error .tooLong := by
    intro hc
    rcases (pack_core f a hd w N hr).1.mp hc with h0 | h0
    · omega
    · rw [le_div_iff₀ (by positivity), ← pow_add] at h0
      have : (10 : ℕ) ^ (f.integral a + f.decimal a) ≤ N := by exact_mod_cast h0
      omega
  obtain ⟨t, ht, -⟩ := (pack_core f a hd w N hr).2 hnot
  refine ⟨_, ht, ?_⟩
  have := exact_core f a (if sg = .minus then -(N : ℤ) else N) _ (by rw [← hw]; exact ht)
  rw [← hw] at this
  exact this

end Verif.Lemmas.Coord
