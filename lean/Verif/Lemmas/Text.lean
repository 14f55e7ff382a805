import Verif.Model.Text
import Verif.Spec.Numeral
import Mathlib.Tactic.Ring
import Mathlib.Tactic.Linarith
import Mathlib.Tactic.FieldSimp
import Mathlib.Tactic.IntervalCases
import Mathlib.Tactic.Push

/-! Lemmas about the text primitives. -/

namespace Verif.Text
open Verif.Spec

theorem digitVal_digitChar {d : Nat} (h : d < 10) : digitVal (digitChar d) = d := by
  interval_cases d <;> rfl

theorem isDigit_digitChar {d : Nat} (h : d < 10) : isDigit (digitChar d) = true := by
  interval_cases d <;> rfl

theorem isDigit_iff (c : Char) : isDigit c = true ↔ '0' ≤ c ∧ c ≤ '9' := by
  simp only [isDigit, decide_eq_true_eq, Char.le_def, UInt32.le_iff_toNat_le]
  exact Iff.rfl

theorem all_isDigit_iff (s : List Char) : s.all isDigit = true ↔ Digits s := by
  simp only [List.all_eq_true, isDigit_iff, Digits]

theorem digitVal_lt {c : Char} (h : isDigit c = true) : digitVal c < 10 := by
  simp only [isDigit, decide_eq_true_eq] at h
  simp only [digitVal]; omega

theorem foldl_horner (s : List Char) (a : Nat) :
    s.foldl (fun a c => a * 10 + digitVal c) a = a * 10 ^ s.length + natVal s := by
  induction s generalizing a with
  | nil => simp [natVal]
  | cons c cs ih =>
    simp only [natVal, List.foldl_cons, List.length_cons]
    rw [ih, ih (0 * 10 + digitVal c)]
    ring

theorem natVal_append (s t : List Char) : natVal (s ++ t) = natVal s * 10 ^ t.length + natVal t := by
  conv_lhs => rw [natVal, List.foldl_append, foldl_horner]
  rfl

theorem natVal_cons (c : Char) (s : List Char) : natVal (c :: s) = digitVal c * 10 ^ s.length + natVal s := by
  have := natVal_append [c] s
  simpa [natVal] using this

@[simp] theorem natVal_nil : natVal [] = 0 := rfl

theorem natVal_eq_numeral (s : List Char) : natVal s = numeral s := by
  induction s with
  | nil => rfl
  | cons c cs ih => rw [natVal_cons, numeral, ih]; rfl

@[simp] theorem natVal_replicate (k : Nat) : natVal (List.replicate k '0') = 0 := by
  induction k with
  | zero => rfl
  | succ k ih => rw [List.replicate_succ, natVal_cons, ih]; simp [digitVal]

theorem natVal_rjust0 (w : Nat) (s : List Char) : natVal (rjust0 w s) = natVal s := by
  simp [rjust0, natVal_append]

theorem natVal_ljust0 (w : Nat) (s : List Char) :
    natVal (ljust0 w s) = natVal s * 10 ^ (w - s.length) := by
  simp [ljust0, natVal_append]

theorem length_rjust0 (w : Nat) (s : List Char) : (rjust0 w s).length = max w s.length := by
  simp [rjust0]; omega

theorem length_ljust0 (w : Nat) (s : List Char) : (ljust0 w s).length = max w s.length := by
  simp [ljust0]; omega

theorem isDigit_zero : isDigit '0' = true := by decide

theorem all_rjust0 (w : Nat) (s : List Char) : (rjust0 w s).all isDigit = s.all isDigit := by
  simp only [rjust0, List.all_append]
  have : (List.replicate (w - s.length) '0').all isDigit = true := by
    simp only [List.all_eq_true]; intro c hc; rw [List.eq_of_mem_replicate hc]; exact isDigit_zero
  rw [this]; simp

theorem all_ljust0 (w : Nat) (s : List Char) : (ljust0 w s).all isDigit = s.all isDigit := by
  simp only [ljust0, List.all_append]
  have : (List.replicate (w - s.length) '0').all isDigit = true := by
    simp only [List.all_eq_true]; intro c hc; rw [List.eq_of_mem_replicate hc]; exact isDigit_zero
  rw [this]; simp

theorem lstrip0_split (s : List Char) : ∃ k, s = List.replicate k '0' ++ lstrip0 s := by
  induction s with
  | nil => exact ⟨0, rfl⟩
  | cons c cs ih =>
    by_cases h : c = '0'
    · subst h
      obtain ⟨k, hk⟩ := ih
      refine ⟨k + 1, ?_⟩
      have : lstrip0 ('0' :: cs) = lstrip0 cs := by simp [lstrip0]
      rw [this, List.replicate_succ, List.cons_append, ← hk]
    · exact ⟨0, by simp [lstrip0, h]⟩

theorem rstrip0_split (s : List Char) : ∃ k, s = rstrip0 s ++ List.replicate k '0' := by
  obtain ⟨k, hk⟩ := lstrip0_split s.reverse
  refine ⟨k, ?_⟩
  have h2 := congrArg List.reverse hk
  simpa [rstrip0, lstrip0] using h2

theorem natVal_lstrip0 (s : List Char) : natVal (lstrip0 s) = natVal s := by
  obtain ⟨k, hk⟩ := lstrip0_split s
  conv_rhs => rw [hk]
  simp [natVal_append]

theorem natVal_orZero (s : List Char) : natVal (orZero s) = natVal s := by
  unfold orZero
  cases s with
  | nil => simp [natVal, digitVal]
  | cons => simp

theorem orZero_ne_nil (s : List Char) : orZero s ≠ [] := by
  unfold orZero; cases s <;> simp

theorem length_lstrip0_le (s : List Char) : (lstrip0 s).length ≤ s.length := by
  obtain ⟨k, hk⟩ := lstrip0_split s
  have := congrArg List.length hk
  simp at this; omega

theorem length_rstrip0_le (s : List Char) : (rstrip0 s).length ≤ s.length := by
  obtain ⟨k, hk⟩ := rstrip0_split s
  have := congrArg List.length hk
  simp at this; omega

theorem length_orZero_le {s : List Char} {n : Nat} (h : s.length ≤ n) (hn : 1 ≤ n) :
    (orZero s).length ≤ n := by
  unfold orZero; cases s <;> simp_all

theorem all_lstrip0 {s : List Char} (h : s.all isDigit = true) : (lstrip0 s).all isDigit = true := by
  obtain ⟨k, hk⟩ := lstrip0_split s
  rw [hk, List.all_append] at h
  simp only [Bool.and_eq_true] at h
  exact h.2

theorem all_rstrip0 {s : List Char} (h : s.all isDigit = true) : (rstrip0 s).all isDigit = true := by
  obtain ⟨k, hk⟩ := rstrip0_split s
  rw [hk, List.all_append] at h
  simp only [Bool.and_eq_true] at h
  exact h.1

theorem all_orZero {s : List Char} (h : s.all isDigit = true) : (orZero s).all isDigit = true := by
  unfold orZero; cases s
  · decide
  · simpa using h

/-! ### `natStr` -/

theorem natStr_lt {n : Nat} (h : n < 10) : natStr n = [digitChar n] := by
  rw [natStr]; simp [h]

theorem natStr_ge {n : Nat} (h : ¬ n < 10) : natStr n = natStr (n / 10) ++ [digitChar (n % 10)] := by
  conv_lhs => rw [natStr]
  simp [h]

theorem all_natStr (n : Nat) : (natStr n).all isDigit = true := by
  induction n using Nat.strongRecOn with
  | _ n ih =>
    by_cases h : n < 10
    · rw [natStr_lt h]; simp [isDigit_digitChar h]
    · rw [natStr_ge h, List.all_append, ih _ (by omega)]
      simp [isDigit_digitChar (Nat.mod_lt n (by omega : 10 > 0))]

theorem natVal_natStr (n : Nat) : natVal (natStr n) = n := by
  induction n using Nat.strongRecOn with
  | _ n ih =>
    by_cases h : n < 10
    · rw [natStr_lt h, natVal_cons]; simp [digitVal_digitChar h]
    · rw [natStr_ge h, natVal_append, ih _ (by omega), natVal_cons]
      simp [digitVal_digitChar (Nat.mod_lt n (by omega : 10 > 0))]
      omega

theorem natStr_ne_nil (n : Nat) : natStr n ≠ [] := by
  by_cases h : n < 10
  · rw [natStr_lt h]; simp
  · rw [natStr_ge h]; simp

theorem length_natStr_pos (n : Nat) : 0 < (natStr n).length :=
  List.length_pos_iff.mpr (natStr_ne_nil n)

theorem length_natStr_le (n k : Nat) (hk : 0 < k) : (natStr n).length ≤ k ↔ n < 10 ^ k := by
  induction n using Nat.strongRecOn generalizing k with
  | _ n ih =>
    by_cases h : n < 10
    · rw [natStr_lt h]
      have : 10 ^ 1 ≤ 10 ^ k := Nat.pow_le_pow_right (by omega) hk
      simp; omega
    · rw [natStr_ge h]
      obtain ⟨k, rfl⟩ : ∃ j, k = j + 1 := ⟨k - 1, by omega⟩
      simp only [List.length_append, List.length_singleton, Nat.add_le_add_iff_right]
      by_cases hk0 : k = 0
      · subst hk0
        have := length_natStr_pos (n / 10)
        have h3 : (natStr (n / 10)).length ≠ 0 := by omega
        simp only [pow_succ, pow_zero, one_mul, Nat.le_zero_eq, h3, zero_add, h]
      · rw [ih _ (by omega) k (by omega), pow_succ]
        omega

theorem natVal_lt {s : List Char} (h : s.all isDigit = true) : natVal s < 10 ^ s.length := by
  induction s with
  | nil => simp
  | cons c cs ih =>
    simp only [List.all_cons, Bool.and_eq_true] at h
    rw [natVal_cons, List.length_cons, pow_succ]
    have h1 := digitVal_lt h.1
    have h2 := ih h.2
    nlinarith [Nat.zero_le (10 ^ cs.length)]

theorem head_not_sign {s : List Char} (h : s.all isDigit = true) (c : Char) (t : List Char)
    (e : s = c :: t) : c ≠ '-' ∧ c ≠ '+' := by
  subst e
  simp only [List.all_cons, Bool.and_eq_true] at h
  constructor <;> (rintro rfl; revert h; simp [isDigit])

/-! ### Rounding -/

theorem roundHalfEven_spec {q : ℚ} (hq : 0 ≤ q) : RoundsTo q (roundHalfEven q) := by
  have h1 : ((⌊q⌋₊ : ℕ) : ℚ) ≤ q := Nat.floor_le hq
  have h2 : q < (⌊q⌋₊ : ℕ) + 1 := Nat.lt_floor_add_one q
  unfold RoundsTo roundHalfEven
  simp only
  generalize ⌊q⌋₊ = f at *
  split_ifs with ha hb hc
  · left
    rw [abs_lt]; push_cast; constructor <;> linarith
  · left
    rw [abs_lt]; push_cast; constructor <;> linarith
  · right
    have he : q - f = 1 / 2 := le_antisymm (not_lt.mp hb) (not_lt.mp ha)
    refine ⟨?_, ?_⟩
    · push_cast; rw [he]; norm_num
    · rw [Int.even_coe_nat, Nat.even_iff]; exact hc
  · right
    have he : q - f = 1 / 2 := le_antisymm (not_lt.mp hb) (not_lt.mp ha)
    refine ⟨?_, ?_⟩
    · push_cast
      have : q - (f + 1) = -(1 / 2) := by linarith
      rw [this]; norm_num
    · rw [Int.even_coe_nat, Nat.even_iff]; omega

theorem roundsTo_unique {q : ℚ} {m n : ℤ} (hm : RoundsTo q m) (hn : RoundsTo q n) : m = n := by
  have key : ∀ a b : ℤ, RoundsTo q a → RoundsTo q b → a < b → False := by
    intro a b ha hb hab
    have hab' : (a : ℚ) + 1 ≤ b := by exact_mod_cast hab
    have ha1 : |q - a| ≤ 1 / 2 := by rcases ha with h | h; exacts [h.le, h.1.le]
    have hb1 : |q - b| ≤ 1 / 2 := by rcases hb with h | h; exacts [h.le, h.1.le]
    have h1 := (abs_le.mp ha1).2
    have h2 := (abs_le.mp hb1).1
    have hq : q = a + 1 / 2 := by linarith
    have hb2 : (b : ℚ) = a + 1 := by linarith
    have hbe : b = a + 1 := by exact_mod_cast hb2
    have e1 : |q - a| = 1 / 2 := by rw [hq, add_sub_cancel_left]; norm_num
    have e2 : |q - b| = 1 / 2 := by
      rw [hq, hb2, show (a : ℚ) + 1 / 2 - (a + 1) = -(1 / 2) by ring]; norm_num
    have ev1 : Even a := by rcases ha with h | h; exacts [absurd e1 h.ne, h.2]
    have ev2 : Even b := by rcases hb with h | h; exacts [absurd e2 h.ne, h.2]
    rw [hbe] at ev2
    rw [Int.even_iff] at ev1 ev2; omega
  rcases lt_trichotomy m n with h | h | h
  · exact (key m n hm hn h).elim
  · exact h
  · exact (key n m hn hm h).elim

theorem roundHalfEven_natCast (n : ℕ) : roundHalfEven (n : ℚ) = n := by
  have h := roundHalfEven_spec (q := (n : ℚ)) (by positivity)
  have h2 : RoundsTo (n : ℚ) (n : ℤ) := Or.inl (by simp)
  exact_mod_cast roundsTo_unique h h2

theorem scaled_spec (d : ℕ) (v : ℚ) : RoundsTo (|v| * 10 ^ d) (scaled d v) :=
  roundHalfEven_spec (by positivity)

theorem scaled_of_natCast_div {d n : ℕ} {v : ℚ} (h : |v| = n / 10 ^ d) : scaled d v = n := by
  unfold scaled
  rw [h, div_mul_cancel₀ _ (by positivity), roundHalfEven_natCast]

end Verif.Text
