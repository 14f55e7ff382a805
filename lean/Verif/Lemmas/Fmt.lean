import Verif.Lemmas.ExprPrint
import Mathlib.Data.Nat.Factorization.Basic
import Mathlib.Tactic.Linarith
import Mathlib.Tactic.Positivity

/-!
# Reading printed numbers back
-/

namespace Verif.Fmt

open Verif.Text Verif.Spec Verif.Math

/-- The rest does not continue a number. -/
def NumEnd (rest : List Char) : Prop := ∀ x t, rest = x :: t → isDigit x = false ∧ x ≠ '.'

theorem pUnsigned_int {i rest : List Char} (hi : i.all isDigit = true) (hne : i ≠ []) (hr : NumEnd rest) :
    pUnsigned (i ++ rest) = some (floatOf false i [], rest) := by
  have hd : digits (i ++ rest) = (i, rest) := digits_append hi (fun c t h => (hr c t h).1)
  unfold pUnsigned
  rw [hd]
  have he : i.isEmpty = false := by simpa using hne
  simp only [he]
  split
  · exact absurd rfl (hr '.' _ rfl).2
  · simp

theorem pUnsigned_dec {i f rest : List Char} (hi : i.all isDigit = true) (hf : f.all isDigit = true)
    (hne : f ≠ []) (hr : ∀ x t, rest = x :: t → isDigit x = false) :
    pUnsigned (i ++ '.' :: f ++ rest) = some (floatOf false i f, rest) := by
  have hd : digits (i ++ ('.' :: (f ++ rest))) = (i, '.' :: (f ++ rest)) :=
    digits_append hi (by intro c t h; simp at h; rw [← h.1]; decide)
  have hd2 : digits (f ++ rest) = (f, rest) := digits_append hf hr
  have he : f.isEmpty = false := by simpa using hne
  simp only [List.append_assoc, List.cons_append, pUnsigned]
  simp [hd, hd2, he]

theorem pDouble_pos {s : List Char} {c : Char} {t : List Char} (h : s = c :: t) (hc : isDigit c = true) :
    pDouble s = pUnsigned s := by
  obtain ⟨_, hp, hm, _⟩ := isDigit_facts hc
  subst h
  unfold pDouble
  split
  · rename_i heq; simp at heq; exact absurd heq.1 hp
  · rename_i heq; simp at heq; exact absurd heq.1 hm
  · rfl

theorem natStr_head (n : Nat) : ∃ c t, natStr n = c :: t ∧ isDigit c = true := by
  cases h : natStr n with
  | nil => exact absurd h (natStr_ne_nil n)
  | cons c t =>
    have := all_natStr n
    rw [h] at this; simp at this
    exact ⟨c, t, rfl, this.1⟩

/-- Reading a sign followed by an unsigned number that starts with a digit. -/
theorem pDouble_signed {neg : Prop} [Decidable neg] {s rest : List Char} {v : ℚ}
    (hs : ∃ c t, s = c :: t ∧ isDigit c = true) (h : pUnsigned (s ++ rest) = some (v, rest)) :
    pDouble ((if neg then ['-'] else []) ++ s ++ rest) = some ((if neg then -v else v), rest) := by
  obtain ⟨c, t, hs, hc⟩ := hs
  by_cases hn : neg
  · simp [hn, pDouble, h]
  · simp only [hn, if_false, List.nil_append]
    rw [pDouble_pos (c := c) (t := t ++ rest) (by simp [hs]) hc, h]

theorem rstripDot_digits {s : List Char} (h : s.all isDigit = true) : rstripDot s = s := by
  unfold rstripDot
  have : s.reverse.dropWhile (· == '.') = s.reverse := by
    cases hr : s.reverse with
    | nil => rfl
    | cons c t =>
      have hc : isDigit c = true := by
        rw [List.all_eq_true] at h
        exact h c (by rw [← List.mem_reverse, hr]; simp)
      have := (isDigit_facts hc).2.2.2.2.2
      simp [this]
  rw [this, List.reverse_reverse]

theorem rstripDot_append_digits {s t : List Char} (h : t.all isDigit = true) (hne : t ≠ []) :
    rstripDot (s ++ t) = s ++ t := by
  unfold rstripDot
  have : (s ++ t).reverse.dropWhile (· == '.') = (s ++ t).reverse := by
    rw [List.reverse_append]
    cases hr : t.reverse with
    | nil => simp at hr; exact absurd hr hne
    | cons c u =>
      have hc : isDigit c = true := by
        rw [List.all_eq_true] at h
        exact h c (by rw [← List.mem_reverse, hr]; simp)
      have := (isDigit_facts hc).2.2.2.2.2
      simp [this]
  rw [this, List.reverse_reverse]

theorem rstrip0_append {s t : List Char} : rstrip0 (s ++ t) = if rstrip0 t = [] then rstrip0 s else s ++ rstrip0 t := by
  unfold rstrip0
  rw [List.reverse_append]
  by_cases h : t.reverse.dropWhile (· == '0') = []
  · simp only [h, List.reverse_nil, if_true]
    rw [List.dropWhile_append, h]; simp
  · rw [if_neg (by simpa using h)]
    rw [List.dropWhile_append]
    simp only [List.isEmpty_iff, h, if_false]
    simp

theorem floatOf_trim {i f f' : List Char} {k : Nat} (h : f = f' ++ List.replicate k '0') :
    floatOf false i f = floatOf false i f' := by
  subst h
  simp only [floatOf, natVal_append, natVal_replicate, List.length_append, List.length_replicate, pow_add]
  push_cast
  field_simp
  ring

theorem fixedParts_value (d : Nat) (v : ℚ) :
    floatOf false (natStr (scaled d v / 10 ^ d)) (rjust0 d (natStr (scaled d v % 10 ^ d))) =
      (scaled d v : ℚ) / 10 ^ d ∨ d = 0 := by
  by_cases hd : d = 0
  · exact .inr hd
  left
  have hlt : scaled d v % 10 ^ d < 10 ^ d := Nat.mod_lt _ (by positivity)
  have hlen : (rjust0 d (natStr (scaled d v % 10 ^ d))).length = d := by
    rw [length_rjust0]
    have := (length_natStr_le (scaled d v % 10 ^ d) d (by omega)).2 hlt
    omega
  simp only [floatOf, natVal_natStr, natVal_rjust0, hlen]
  have := Nat.div_add_mod (scaled d v) (10 ^ d)
  have h2 : ((scaled d v : ℕ) : ℚ) = 10 ^ d * ((scaled d v / 10 ^ d : ℕ) : ℚ) + ((scaled d v % 10 ^ d : ℕ) : ℚ) := by
    exact_mod_cast this.symm
  have hp : (10 : ℚ) ^ d ≠ 0 := by positivity
  rw [h2]
  field_simp
  simp

theorem pUnsigned_fixed {d : Nat} (hd : d ≠ 0) (v : ℚ) {rest : List Char} (hr : NumEnd rest) :
    pUnsigned (natStr (scaled d v / 10 ^ d) ++ '.' :: rjust0 d (natStr (scaled d v % 10 ^ d)) ++ rest) =
      some ((scaled d v : ℚ) / 10 ^ d, rest) := by
  have h := (fixedParts_value d v).resolve_right hd
  rw [← h]
  refine pUnsigned_dec (all_natStr _) ?_ ?_ (fun x t hx => (hr x t hx).1)
  · rw [all_rjust0]; exact all_natStr _
  · intro h0
    have := congrArg List.length h0
    rw [length_rjust0] at this; simp at this; omega

theorem pUnsigned_trim {d : Nat} (hd : d ≠ 0) (v : ℚ) {rest : List Char} (hr : NumEnd rest) :
    ∃ s, (∀ p : List Char, rstripDot (rstrip0 (p ++ natStr (scaled d v / 10 ^ d) ++ '.' ::
      rjust0 d (natStr (scaled d v % 10 ^ d)))) = p ++ s) ∧
      (∃ c t, s = c :: t ∧ isDigit c = true) ∧
      pUnsigned (s ++ rest) = some ((scaled d v : ℚ) / 10 ^ d, rest) := by
  have h := (fixedParts_value d v).resolve_right hd
  rw [← h]
  generalize hi : natStr (scaled d v / 10 ^ d) = i
  have hia : i.all isDigit = true := hi ▸ all_natStr _
  have hih : ∃ c t, i = c :: t ∧ isDigit c = true := hi ▸ natStr_head _
  have hfa : (rjust0 d (natStr (scaled d v % 10 ^ d))).all isDigit = true := by
    rw [all_rjust0]; exact all_natStr _
  generalize rjust0 d (natStr (scaled d v % 10 ^ d)) = f at *
  obtain ⟨k, hk⟩ := rstrip0_split f
  have hdot : rstrip0 ('.' :: f) = if rstrip0 f = [] then ['.'] else '.' :: rstrip0 f := by
    have := rstrip0_append (s := ['.']) (t := f)
    simpa [rstrip0] using this
  by_cases h0 : rstrip0 f = []
  · refine ⟨i, ?_, hih, ?_⟩
    · intro p
      rw [rstrip0_append, hdot]
      simp only [h0, if_true]
      rw [if_neg (by simp)]
      obtain ⟨c, t, hct, hc⟩ := hih
      have hne : i ≠ [] := by simp [hct]
      have e1 : rstripDot (p ++ i ++ ['.']) = rstripDot (p ++ i) := by
        simp [rstripDot]
      rw [e1, rstripDot_append_digits hia hne]
    · rw [floatOf_trim (f' := []) (k := k) (by rw [h0] at hk; simpa using hk)]
      obtain ⟨c, t, hct, hc⟩ := hih
      exact pUnsigned_int hia (by simp [hct]) hr
  · refine ⟨i ++ '.' :: rstrip0 f, ?_, ?_, ?_⟩
    · intro p
      rw [rstrip0_append, hdot]
      simp only [h0, if_false]
      rw [if_neg (by simp)]
      have := rstripDot_append_digits (s := p ++ i ++ ['.']) (all_rstrip0 hfa) h0
      simpa [List.append_assoc] using this
    · obtain ⟨c, t, hct, hc⟩ := hih
      exact ⟨c, t ++ '.' :: rstrip0 f, by simp [hct], hc⟩
    · rw [floatOf_trim hk]
      exact pUnsigned_dec hia (all_rstrip0 hfa) h0 (fun x t hx => (hr x t hx).1)

/-! ## `str` of a float -/

theorem den_dvd_pow {n k : ℕ} (h : n ∣ 10 ^ k) : n ∣ 10 ^ n := by
  have hn : n ≠ 0 := by
    rintro rfl
    rw [zero_dvd_iff] at h
    exact absurd h (by positivity)
  rw [← Nat.factorization_le_iff_dvd hn (by positivity)]
  intro p
  rw [Nat.factorization_pow]
  simp only [Finsupp.smul_apply, smul_eq_mul]
  by_cases hp : n.factorization p = 0
  · rw [hp]; exact Nat.zero_le _
  · have hpp : p.Prime := by
      by_contra hnp; exact hp (Nat.factorization_eq_zero_of_not_prime n hnp)
    have hpn : p ∣ n := Nat.dvd_of_factorization_pos hp
    have hp10 : p ∣ 10 := hpp.dvd_of_dvd_pow (hpn.trans h)
    have h1 : 1 ≤ (10 : ℕ).factorization p := (hpp.dvd_iff_one_le_factorization (by norm_num)).1 hp10
    have h2 : n.factorization p < n := Nat.factorization_lt p hn
    nlinarith

theorem decPlaces_dvd {q : ℚ} (h : ∃ k, q.den ∣ 10 ^ k) : q.den ∣ 10 ^ decPlaces q := by
  obtain ⟨k, hk⟩ := h
  have hd := den_dvd_pow hk
  unfold decPlaces
  cases hf : (List.range (q.den + 1)).find? (fun k => q.den ∣ 10 ^ k) with
  | none =>
    rw [List.find?_eq_none] at hf
    have := hf q.den (by simp)
    simp at this
    exact absurd hd this
  | some j =>
    have := List.find?_some hf
    simpa using this

theorem den_of_decimal {q : ℚ} (h : Decimal q) : ∃ k, q.den ∣ 10 ^ k := by
  obtain ⟨n, k, rfl⟩ := h
  refine ⟨k, ?_⟩
  have := Rat.den_dvd (n : ℤ) (10 ^ k : ℤ)
  have e : (Rat.divInt (n : ℤ) (10 ^ k : ℤ)) = (n : ℚ) / 10 ^ k := by
    rw [Rat.divInt_eq_div]; push_cast; rfl
  rw [e] at this
  exact_mod_cast this

theorem scaled_decPlaces {q : ℚ} (h : Decimal q) : q = (scaled (decPlaces q) q : ℚ) / 10 ^ decPlaces q := by
  have h0 := decimal_nonneg h
  obtain ⟨m, hm⟩ := decPlaces_dvd (den_of_decimal h)
  set k := decPlaces q
  have hnum : q = (q.num : ℚ) / q.den := (Rat.num_div_den q).symm
  have hnn : 0 ≤ q.num := Rat.num_nonneg.2 h0
  have hq : q * 10 ^ k = ((q.num.toNat * m : ℕ) : ℚ) := by
    have hden : (q.den : ℚ) ≠ 0 := by exact_mod_cast q.den_nz
    have h10 : (10 : ℚ) ^ k = q.den * m := by exact_mod_cast hm
    have hn : ((q.num.toNat : ℕ) : ℚ) = (q.num : ℚ) := by
      have : ((q.num.toNat : ℕ) : ℤ) = q.num := Int.toNat_of_nonneg hnn
      exact_mod_cast this
    push_cast
    rw [h10, hn]
    nth_rewrite 1 [hnum]
    field_simp
  have hp : (10 : ℚ) ^ k ≠ 0 := by positivity
  have : scaled k q = q.num.toNat * m := by
    apply scaled_of_natCast_div
    rw [abs_of_nonneg h0, ← hq]; field_simp
  rw [this, ← hq]; field_simp

/-- Numbers Python's `str` writes positionally. -/
def Positional (q : ℚ) : Prop := q = 0 ∨ (1 / 10000 ≤ q ∧ q < 10 ^ 16)

theorem strNonneg_eq {q : ℚ} (h : Decimal q) (hp : Positional q) :
    (q = 0 ∧ strNonneg q = ['0', '.', '0']) ∨
    strNonneg q = natStr (scaled (decPlaces q) q / 10 ^ decPlaces q) ++ '.' ::
      (if decPlaces q = 0 then ['0'] else rjust0 (decPlaces q) (natStr (scaled (decPlaces q) q % 10 ^ decPlaces q))) := by
  have hq := scaled_decPlaces h
  unfold strNonneg
  simp only
  generalize scaled (decPlaces q) q = m at *
  generalize decPlaces q = k at *
  have hp10 : (0 : ℚ) < 10 ^ k := by positivity
  by_cases hm : m = 0
  · left; subst hm; simp at hq; exact ⟨hq, by simp⟩
  · right
    rw [if_neg hm]
    have hne : q ≠ 0 := by
      rw [hq]; positivity
    obtain ⟨h1, h2⟩ := hp.resolve_left hne
    have hlt : m < 10 ^ (16 + k) := by
      have : (m : ℚ) < 10 ^ (16 + k) := by
        rw [hq, div_lt_iff₀ hp10] at h2; rw [pow_add]; exact h2
      exact_mod_cast this
    have hle := (length_natStr_le m (16 + k) (by omega)).2 hlt
    have hpos := length_natStr_pos m
    have hge : k ≤ 4 ∨ ¬ ((natStr m).length ≤ k - 4) := by
      by_cases hk : k ≤ 4
      · exact .inl hk
      · right
        rw [length_natStr_le m (k - 4) (by omega)]
        have : (10 : ℚ) ^ (k - 4) ≤ m := by
          rw [hq, le_div_iff₀ hp10] at h1
          have e : (10 : ℚ) ^ k = 10 ^ (k - 4) * 10 ^ 4 := by rw [← pow_add]; congr 1; omega
          rw [e] at h1
          norm_num at h1
          linarith
        have : 10 ^ (k - 4) ≤ m := by exact_mod_cast this
        omega
    rw [if_pos]
    constructor <;> omega

theorem pUnsigned_strNonneg {q : ℚ} (h : Decimal q) (hp : Positional q) {rest : List Char} (hr : NumEnd rest) :
    (∃ c t, strNonneg q = c :: t ∧ isDigit c = true) ∧ pUnsigned (strNonneg q ++ rest) = some (q, rest) := by
  rcases strNonneg_eq h hp with ⟨h0, h1⟩ | h1
  · rw [h1]
    refine ⟨⟨'0', _, rfl, by decide⟩, ?_⟩
    have := pUnsigned_dec (i := ['0']) (f := ['0']) (rest := rest) (by decide) (by decide) (by simp)
      (fun x t hx => (hr x t hx).1)
    simp only [List.cons_append, List.nil_append] at this ⊢
    rw [this, h0]
    simp [floatOf, natVal, digitVal]
  · rw [h1]
    have hq := scaled_decPlaces h
    obtain ⟨c, t, hct, hc⟩ := natStr_head (scaled (decPlaces q) q / 10 ^ decPlaces q)
    refine ⟨⟨c, _, by rw [hct]; rfl, hc⟩, ?_⟩
    by_cases hk : decPlaces q = 0
    · rw [if_pos hk]
      rw [pUnsigned_dec (all_natStr _) (by decide) (by simp) (fun x t hx => (hr x t hx).1)]
      congr 2
      have h2 : q = (scaled (decPlaces q) q : ℚ) := by
        rw [hk] at hq ⊢; simpa using hq
      conv_rhs => rw [h2]
      simp [floatOf, natVal_natStr, hk, show natVal ['0'] = 0 by decide]
    · rw [if_neg hk]
      have := pUnsigned_fixed hk q hr
      rw [this, ← hq]

end Verif.Fmt
