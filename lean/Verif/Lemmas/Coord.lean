import Verif.Model.Coord
import Verif.Lemmas.Text
import Mathlib.Tactic.LinearCombination

/-! Lemmas about packing and unpacking. -/

namespace Verif.Coord
open Verif.Text Verif.Spec

theorem preprocess_eq (sg : Sign) (ds : List Char) (hd : ds.all isDigit = true) (i d : Nat) :
    unpackPreprocess (sg.text ++ ds) i d =
      if ds = [] then .error .tooShort
      else if i + d < ds.length then .error .tooLong
      else .ok (decide (sg = .minus), ds) := by
  cases sg with
  | none =>
    cases ds with
    | nil => rfl
    | cons c t =>
      obtain ⟨h1, h2⟩ := head_not_sign hd c t rfl
      simp [Sign.text, unpackPreprocess, h1, h2]
  | plus =>
    cases ds with
    | nil => simp [Sign.text, unpackPreprocess]
    | cons c t => simp [Sign.text, unpackPreprocess]
  | minus =>
    cases ds with
    | nil => simp [Sign.text, unpackPreprocess]
    | cons c t => simp [Sign.text, unpackPreprocess]

theorem floatOf_take_drop (neg : Bool) (i : Nat) (s : List Char) :
    floatOf neg (s.take i) (s.drop i) = (if neg then -1 else 1) * ((natVal s : ℚ) / 10 ^ (s.length - i)) := by
  have h := natVal_append (s.take i) (s.drop i)
  rw [List.take_append_drop] at h
  unfold floatOf
  rw [h, List.length_drop]
  push_cast
  congr 1
  field_simp

theorem factor_eq (sg : Sign) : (if decide (sg = .minus) = true then (-1 : ℚ) else 1) = sg.factor := by
  cases sg <;> rfl

theorem unpackSkipLeading_eq (sg : Sign) (ds : List Char) (hd : ds.all isDigit = true) (i d : Nat) :
    unpackSkipLeading i d (sg.text ++ ds) =
      if ds = [] then .error .tooShort
      else if i + d < ds.length then .error .tooLong
      else .ok (sg.factor * natVal ds / 10 ^ d) := by
  unfold unpackSkipLeading
  rw [preprocess_eq sg ds hd]
  split_ifs with h1 h2
  · rfl
  · rfl
  · have hl : (rjust0 (i + d) ds).length = i + d := by rw [length_rjust0]; omega
    simp only [floatPadded, all_rjust0, hd, if_true]
    rw [floatOf_take_drop _ _ _, hl, natVal_rjust0, factor_eq]
    simp [mul_div_assoc]

theorem unpackSkipTrailing_eq (sg : Sign) (ds : List Char) (hd : ds.all isDigit = true) (i d : Nat) :
    unpackSkipTrailing i d (sg.text ++ ds) =
      if ds = [] then .error .tooShort
      else if i + d < ds.length then .error .tooLong
      else .ok (sg.factor * natVal ds * 10 ^ i / 10 ^ ds.length) := by
  unfold unpackSkipTrailing
  rw [preprocess_eq sg ds hd]
  split_ifs with h1 h2
  · rfl
  · rfl
  · have hl : (ljust0 (i + d) ds).length = i + d := by rw [length_ljust0]; omega
    simp only [floatPadded, all_ljust0, hd, if_true]
    rw [floatOf_take_drop _ _ _, hl, natVal_ljust0, factor_eq]
    congr 1
    have e : (10 : ℚ) ^ (i + d - ds.length) * 10 ^ ds.length = 10 ^ i * 10 ^ d := by
      rw [← pow_add, ← pow_add]; congr 1; omega
    have e2 : i + d - i = d := by omega
    rw [e2]
    push_cast
    rw [← mul_div_assoc, div_eq_div_iff (by positivity) (by positivity)]
    linear_combination (sg.factor * natVal ds) * e

/-- The sign a packed number is written with. -/
def packSign (v : ℚ) : Sign := if v < 0 then .minus else .none

theorem packHead_eq (i d : Nat) (hd : 0 < d) (v : ℚ) :
    packHead i d v =
      if i < (natStr (scaled d v / 10 ^ d)).length then .error .tooLong
      else .ok ((packSign v).text, natStr (scaled d v / 10 ^ d), rjust0 d (natStr (scaled d v % 10 ^ d))) := by
  unfold packHead fixedParts packSign
  simp only [Nat.pos_iff_ne_zero.mp hd, if_false]
  have hh := all_natStr (scaled d v / 10 ^ d)
  have hn := natStr_ne_nil (scaled d v / 10 ^ d)
  generalize natStr (scaled d v / 10 ^ d) = s at *
  by_cases hv : v < 0
  · simp [hv, Sign.text]
  · cases s with
    | nil => exact absurd rfl hn
    | cons c t =>
      obtain ⟨h1, h2⟩ := head_not_sign hh c t rfl
      simp only [hv, if_false, List.nil_append]
      split
      · rename_i heq; simp only [List.cons.injEq] at heq; exact absurd heq.1 h1
      · rename_i heq; simp only [List.cons.injEq] at heq; exact absurd heq.1 h2
      · simp [Sign.text]

theorem length_dec (d n : Nat) (hd : 0 < d) : (rjust0 d (natStr (n % 10 ^ d))).length = d := by
  rw [length_rjust0]
  have := (length_natStr_le (n % 10 ^ d) d hd).mpr (Nat.mod_lt _ (by positivity))
  omega

theorem natVal_parts (d n : Nat) (hd : 0 < d) :
    natVal (natStr (n / 10 ^ d) ++ rjust0 d (natStr (n % 10 ^ d))) = n := by
  rw [natVal_append, length_dec d n hd, natVal_rjust0, natVal_natStr, natVal_natStr]
  exact Nat.div_add_mod' n (10 ^ d)

theorem all_parts (d n m : Nat) :
    (natStr m ++ rjust0 d (natStr (n % 10 ^ d))).all isDigit = true := by
  rw [List.all_append, all_rjust0, all_natStr, all_natStr]; rfl

/-- Packing with leading zeros omitted, in normal form. -/
theorem packSkipLeading_eq (i d : Nat) (hd : 0 < d) (v : ℚ) :
    packSkipLeading i d v =
      if i < (natStr (scaled d v / 10 ^ d)).length then .error .tooLong
      else .ok ((packSign v).text ++ orZero (lstrip0
        (natStr (scaled d v / 10 ^ d) ++ rjust0 d (natStr (scaled d v % 10 ^ d))))) := by
  unfold packSkipLeading
  rw [packHead_eq i d hd]
  split_ifs <;> rfl

/-- Packing with trailing zeros omitted, in normal form. -/
theorem packSkipTrailing_eq (i d : Nat) (hd : 0 < d) (v : ℚ) :
    packSkipTrailing i d v =
      if i < (natStr (scaled d v / 10 ^ d)).length then .error .tooLong
      else .ok ((packSign v).text ++ orZero (rstrip0
        (rjust0 i (natStr (scaled d v / 10 ^ d)) ++ rjust0 d (natStr (scaled d v % 10 ^ d))))) := by
  unfold packSkipTrailing
  rw [packHead_eq i d hd]
  split_ifs <;> rfl

/-- The number denoted by a packed text: the rounded number. -/
def packedValue (d : Nat) (v : ℚ) : ℚ := (packSign v).factor * scaled d v / 10 ^ d

theorem unpack_pack_leading (i d : Nat) (hd : 0 < d) (v : ℚ) (s : List Char)
    (h : packSkipLeading i d v = .ok s) : unpackSkipLeading i d s = .ok (packedValue d v) := by
  rw [packSkipLeading_eq i d hd] at h
  split_ifs at h with hl
  injection h with h; subst h
  have ha := all_parts d (scaled d v) (scaled d v / 10 ^ d)
  rw [unpackSkipLeading_eq _ _ (all_orZero (all_lstrip0 ha)), if_neg (orZero_ne_nil _), if_neg,
    natVal_orZero, natVal_lstrip0, natVal_parts _ _ hd, packedValue]
  have h1 := length_lstrip0_le (natStr (scaled d v / 10 ^ d) ++ rjust0 d (natStr (scaled d v % 10 ^ d)))
  rw [List.length_append, length_dec _ _ hd] at h1
  have := length_orZero_le (n := i + d) (h1.trans (by omega)) (by omega)
  omega

theorem unpack_pack_trailing (i d : Nat) (hd : 0 < d) (v : ℚ) (s : List Char)
    (h : packSkipTrailing i d v = .ok s) : unpackSkipTrailing i d s = .ok (packedValue d v) := by
  rw [packSkipTrailing_eq i d hd] at h
  split_ifs at h with hl
  injection h with h; subst h
  have ha : (rjust0 i (natStr (scaled d v / 10 ^ d)) ++ rjust0 d (natStr (scaled d v % 10 ^ d))).all isDigit
      = true := by
    rw [List.all_append, all_rjust0, all_rjust0, all_natStr, all_natStr]; rfl
  have hv : natVal (rjust0 i (natStr (scaled d v / 10 ^ d)) ++ rjust0 d (natStr (scaled d v % 10 ^ d)))
      = scaled d v := by
    rw [natVal_append, natVal_rjust0, ← natVal_append, natVal_parts _ _ hd]
  have hlen : (rjust0 i (natStr (scaled d v / 10 ^ d)) ++ rjust0 d (natStr (scaled d v % 10 ^ d))).length
      = i + d := by
    rw [List.length_append, length_dec _ _ hd, length_rjust0]; omega
  generalize rjust0 i (natStr (scaled d v / 10 ^ d)) ++ rjust0 d (natStr (scaled d v % 10 ^ d)) = t at *
  rw [unpackSkipTrailing_eq _ _ (all_orZero (all_rstrip0 ha)), if_neg (orZero_ne_nil _), if_neg,
    natVal_orZero, packedValue]
  · obtain ⟨k, hk⟩ := rstrip0_split t
    have hlen2 : (rstrip0 t).length + k = i + d := by
      have := congrArg List.length hk; simp at this; omega
    rw [hk, natVal_append] at hv
    simp only [List.length_replicate, natVal_replicate, Nat.add_zero] at hv
    rw [← hv]
    by_cases hz : rstrip0 t = []
    · simp [hz]
    · have : orZero (rstrip0 t) = rstrip0 t := by
        unfold orZero; rw [if_neg (by simpa using hz)]
      rw [this]
      congr 1
      have e : (10 : ℚ) ^ (rstrip0 t).length * 10 ^ k = 10 ^ i * 10 ^ d := by
        rw [← pow_add, ← pow_add, hlen2]
      push_cast
      rw [div_eq_div_iff (by positivity) (by positivity)]
      linear_combination (-(packSign v).factor * natVal (rstrip0 t)) * e
  · have := length_orZero_le (n := i + d) ((length_rstrip0_le t).trans hlen.le) (by omega)
    omega

theorem packedValue_spec (d : Nat) (v : ℚ) :
    ∃ k : ℤ, packedValue d v = k / 10 ^ d ∧ |packedValue d v - v| ≤ 1 / 2 / 10 ^ d := by
  have hr := scaled_spec d v
  have hle : |(|v| * 10 ^ d - (scaled d v : ℤ))| ≤ 1 / 2 := by
    rcases hr with h | h; exacts [h.le, h.1.le]
  have hp : (0 : ℚ) < 10 ^ d := by positivity
  have e : |packedValue d v - v| = |(|v| * 10 ^ d - (scaled d v : ℤ))| / 10 ^ d := by
    rw [← abs_of_pos hp, ← abs_div, abs_of_pos hp]
    unfold packedValue packSign
    by_cases hv : v < 0
    · rw [if_pos hv, abs_of_neg hv]
      congr 1
      simp only [Sign.factor]; push_cast; field_simp; ring
    · rw [if_neg hv, abs_of_nonneg (not_lt.mp hv), ← abs_neg]
      congr 1
      simp only [Sign.factor]; push_cast; field_simp; ring
  refine ⟨(if v < 0 then -1 else 1) * (scaled d v : ℤ), ?_, ?_⟩
  · unfold packedValue packSign
    split_ifs <;> simp [Sign.factor]
  · rw [e]; gcongr

theorem packedValue_exact (d : Nat) (k : ℤ) : packedValue d (k / 10 ^ d) = k / 10 ^ d := by
  have hp : (0 : ℚ) < 10 ^ d := by positivity
  have hs : scaled d ((k : ℚ) / 10 ^ d) = k.natAbs := by
    apply scaled_of_natCast_div
    rw [abs_div, abs_of_pos hp, Nat.cast_natAbs, Int.cast_abs]
  unfold packedValue packSign
  rw [hs]
  have hneg : ((k : ℚ) / 10 ^ d < 0) ↔ k < 0 := by
    rw [div_lt_iff₀ hp, zero_mul]; exact_mod_cast Iff.rfl
  by_cases hk : k < 0
  · rw [if_pos (hneg.mpr hk)]
    have : (k.natAbs : ℚ) = -k := by
      rw [Nat.cast_natAbs, abs_of_neg hk]; push_cast; rfl
    rw [this]; simp [Sign.factor]
  · rw [if_neg (fun h => hk (hneg.mp h))]
    have : (k.natAbs : ℚ) = k := by
      rw [Nat.cast_natAbs, abs_of_nonneg (not_lt.mp hk)]
    rw [this]; simp [Sign.factor]

end Verif.Coord
