import Verif.Model.Render
import Verif.Lemmas.Geom
import Mathlib.Tactic.LinearCombination
import Mathlib.Tactic.FieldSimp

/-!
# Lemmas about the points generated on arcs
-/

namespace Verif.Render
open Verif.Geom Verif.Spec Real

/-- The sign of the direction. -/
noncomputable def sgn (increase : Bool) : ℝ := if increase then 1 else -1

theorem sgn_sq (b : Bool) : sgn b * sgn b = 1 := by cases b <;> norm_num [sgn]

theorem compare_iff (b : Bool) (cur stop : ℝ) :
    (if b then cur < stop else cur > stop) ↔ 0 < sgn b * (stop - cur) := by
  cases b
  · simp only [Bool.false_eq_true, if_false, sgn]; constructor <;> intro h <;> linarith
  · simp only [if_true, sgn]; constructor <;> intro h <;> linarith

theorem apply_delta (b : Bool) (cur delta : ℝ) :
    (if b then cur + delta else cur - delta) = cur + sgn b * delta := by
  cases b <;> simp [sgn]; ring

/-- The angles generated over a total of `T`: multiples of `delta` below `T`, and the final one. -/
theorem arcAngles_eq (b : Bool) {delta : ℝ} (n : ℕ) (stop cur T : ℝ) (hT : T = sgn b * (stop - cur)) (h0 : 0 ≤ T)
    (hn : T ≤ n * delta) (hn' : n ≠ 0 → (n - 1 : ℝ) * delta < T) (hd : 0 < delta) (fuel : ℕ) (hf : n < fuel) :
    arcAngles b stop delta fuel cur =
      .ok ((List.range n).map (fun k : ℕ => cur + sgn b * (k * delta)) ++ [stop]) := by
  induction n generalizing cur T fuel with
  | zero =>
    obtain ⟨fuel, rfl⟩ : ∃ f, fuel = f + 1 := ⟨fuel - 1, by omega⟩
    have : ¬ (if b then cur < stop else cur > stop) := by
      rw [compare_iff, ← hT]; push_cast at hn; linarith
    rw [arcAngles, if_neg this]; rfl
  | succ n ih =>
    obtain ⟨fuel, rfl⟩ : ∃ f, fuel = f + 1 := ⟨fuel - 1, by omega⟩
    have hn1 := hn' (by omega)
    push_cast at hn hn1
    have hTpos : 0 < T := by
      have : (0 : ℝ) ≤ n * delta := by positivity
      linarith
    have hc : (if b then cur < stop else cur > stop) := by rw [compare_iff, ← hT]; exact hTpos
    have hle : 0 ≤ T - delta ∨ n = 0 := by
      rcases Nat.eq_zero_or_pos n with h | h
      · exact .inr h
      · left
        have : (1 : ℝ) ≤ n := by exact_mod_cast h
        nlinarith
    rw [arcAngles, if_pos hc, apply_delta]
    rcases hle with hle | hz
    · rw [ih (cur + sgn b * delta) (T - delta)
        (by rw [hT]; linear_combination (delta) * sgn_sq b) hle (by linarith)
        (by intro _; linarith) fuel (by omega)]
      simp only [bind, Except.bind, pure, Except.pure]
      rw [List.range_succ_eq_map]
      simp only [List.map_cons, List.map_map, List.cons_append, Nat.cast_zero, zero_mul, mul_zero, add_zero]
      congr 3
      apply List.map_congr_left
      intro k _
      simp only [Function.comp_apply, Nat.cast_succ]
      ring
    · subst hz
      obtain ⟨fuel, rfl⟩ : ∃ f, fuel = f + 1 := ⟨fuel - 1, by omega⟩
      have hc' : ¬ (if b then cur + sgn b * delta < stop else cur + sgn b * delta > stop) := by
        rw [compare_iff]
        have : sgn b * (stop - (cur + sgn b * delta)) = T - delta := by
          rw [hT]; linear_combination (-delta) * sgn_sq b
        rw [this]; push_cast at hn; linarith
      rw [arcAngles, if_neg hc']
      simp [bind, Except.bind, pure, Except.pure]

/-- Without an increment, a generator that has started never ends. -/
theorem arcAngles_loops (b : Bool) (stop cur : ℝ) (h : 0 < sgn b * (stop - cur)) (fuel : ℕ) :
    arcAngles b stop 0 fuel cur = .error .outOfFuel := by
  induction fuel with
  | zero => rfl
  | succ fuel ih =>
    have hc : (if b then cur < stop else cur > stop) := (compare_iff b cur stop).mpr h
    rw [arcAngles, if_pos hc, apply_delta, mul_zero, add_zero, ih]; rfl

/-! ## Angles of points -/

theorem radians_degrees (t : ℝ) : radians (degrees t) = t := by
  unfold radians degrees; have := pi_pos; field_simp

theorem pointAngle_range (v : Vec ℝ) : 0 ≤ pointAngle v ∧ pointAngle v < 360 := pyMod_range (by norm_num)

theorem rot_periodic (n : ℤ) (t : ℝ) (v : Vec ℝ) : rotCcw (t - n * (2 * π)) v = rotCcw t v := by
  unfold rotCcw; rw [cos_sub_int_mul_two_pi, sin_sub_int_mul_two_pi]

theorem normalized_unitX : Vec.unitX.normalized = Vec.unitX := by
  unfold Vec.normalized Vec.unitX Vec.divBy Vec.length
  norm_num

/-- The direction of a vector is the first axis turned by its angle. -/
theorem pointAngle_spec (v : Vec ℝ) : v.normalized = rotCcw (radians (pointAngle v)) Vec.unitX := by
  obtain ⟨t, -, -, h2, h3⟩ := angleBetween_spec v Vec.unitX
  have h4 : rotCcw t (rotCcw (-t) v.normalized) = rotCcw t Vec.unitX := by rw [h3, normalized_unitX]
  rw [rotCcw_add, add_neg_cancel] at h4
  have h5 : rotCcw 0 v.normalized = v.normalized := by unfold rotCcw; ext <;> simp
  rw [h5] at h4
  rw [h4]
  unfold pointAngle pyMod
  rw [h2]
  have : radians (degrees t - 360 * ↑⌊degrees t / 360⌋) = t - ⌊degrees t / 360⌋ * (2 * π) := by
    have h := radians_degrees t
    unfold radians at h ⊢
    linear_combination h
  rw [this, rot_periodic]

/-- A vector from its length and its angle. -/
theorem vec_polar {v : Vec ℝ} (h : ¬ (v.x = 0 ∧ v.y = 0)) :
    v = ⟨vlen v * cos (radians (pointAngle v)), vlen v * sin (radians (pointAngle v))⟩ := by
  obtain ⟨hx, hy⟩ := scale_norm h
  have hs := pointAngle_spec v
  have h1 := congrArg Vec.x hs
  have h2 := congrArg Vec.y hs
  simp only [rotCcw, Vec.unitX, mul_one, mul_zero, sub_zero, add_zero] at h1 h2
  ext
  · rw [hx, h1]; ring
  · rw [hy, h2]; ring

end Verif.Render
