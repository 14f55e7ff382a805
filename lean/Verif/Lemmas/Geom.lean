import Verif.Model.Shape
import Verif.Spec.Geom
import Mathlib.Tactic.Ring
import Mathlib.Tactic.Linarith
import Mathlib.Tactic.FieldSimp
import Mathlib.Tactic.LinearCombination
import Mathlib.Tactic.Positivity
import Mathlib.Tactic.FinCases

/-! Lemmas about vectors, angles and boxes. -/

namespace Verif.Geom
open Verif.Spec Real

theorem vlen_sq (v : Vec ℝ) : vlen v ^ 2 = v.x ^ 2 + v.y ^ 2 := by
  unfold vlen; rw [sq_sqrt]; positivity

theorem vlen_nonneg (v : Vec ℝ) : 0 ≤ vlen v := sqrt_nonneg _

theorem length_eq_norm (v : Vec ℝ) : v.length = vlen v := by
  unfold Vec.length vlen; congr 1; ring

theorem vlen_pos {v : Vec ℝ} (h : ¬ (v.x = 0 ∧ v.y = 0)) : 0 < vlen v := by
  unfold vlen
  apply sqrt_pos.mpr
  by_cases hx : v.x = 0
  · have hy : v.y ≠ 0 := fun hy => h ⟨hx, hy⟩
    positivity
  · positivity

theorem vlen_eq_zero {v : Vec ℝ} (h : vlen v = 0) : v.x = 0 ∧ v.y = 0 := by
  by_contra hc; exact absurd h (vlen_pos hc).ne'

theorem vlen_turn (cw : Bool) (t : ℝ) (v : Vec ℝ) : vlen (turn cw t v) = vlen v := by
  unfold vlen turn rotCcw
  congr 1
  simp only
  generalize (if cw then -t else t) = u
  have := sin_sq_add_cos_sq u
  linear_combination (v.x ^ 2 + v.y ^ 2) * this

theorem normalized_x {v : Vec ℝ} (h : ¬ (v.x = 0 ∧ v.y = 0)) : v.normalized.x = v.x / vlen v := by
  unfold Vec.normalized; rw [if_neg h, length_eq_norm]; rfl

theorem normalized_y {v : Vec ℝ} (h : ¬ (v.x = 0 ∧ v.y = 0)) : v.normalized.y = v.y / vlen v := by
  unfold Vec.normalized; rw [if_neg h, length_eq_norm]; rfl

theorem normalized_unit (v : Vec ℝ) : v.normalized.x ^ 2 + v.normalized.y ^ 2 = 1 := by
  by_cases h : v.x = 0 ∧ v.y = 0
  · unfold Vec.normalized; rw [if_pos h]; norm_num
  · rw [normalized_x h, normalized_y h, div_pow, div_pow, ← add_div, ← vlen_sq]
    exact div_self (pow_ne_zero 2 (vlen_pos h).ne')

/-- The counter-clockwise angle is in `[0, 360)` and turns the first direction into the second. -/
theorem angleBetweenCc_spec (u v : Vec ℝ) :
    ∃ t, 0 ≤ t ∧ t < 2 * π ∧ u.angleBetweenCc v = degrees t ∧
      rotCcw t u.normalized = v.normalized := by
  set z : ℂ := ⟨u.normalized.x * v.normalized.x + u.normalized.y * v.normalized.y,
    u.normalized.x * v.normalized.y - v.normalized.x * u.normalized.y⟩ with hz
  have hu := normalized_unit u
  have hv := normalized_unit v
  have hn : ‖z‖ = 1 := by
    rw [Complex.norm_def, Complex.normSq_apply, hz]
    simp only
    rw [sqrt_eq_one]
    linear_combination v.normalized.x ^ 2 * hu + v.normalized.y ^ 2 * hu + hv
  have hz0 : z ≠ 0 := by intro h; rw [h] at hn; simp at hn
  have hc : cos z.arg = z.re := by rw [Complex.cos_arg hz0, hn, div_one]
  have hs : sin z.arg = z.im := by rw [Complex.sin_arg, hn, div_one]
  have hrot : ∀ t, cos t = z.re → sin t = z.im → rotCcw t u.normalized = v.normalized := by
    intro t h1 h2
    unfold rotCcw
    rw [h1, h2, hz]
    ext
    · simp only; linear_combination v.normalized.x * hu
    · simp only; linear_combination v.normalized.y * hu
  have h1 := Complex.neg_pi_lt_arg z
  have h2 := Complex.arg_le_pi z
  have hp := pi_pos
  have hdef : u.angleBetweenCc v = degrees z.arg + 360 * (if degrees z.arg < 0 then 1 else 0) := rfl
  have hneg : degrees z.arg < 0 ↔ z.arg < 0 := by
    unfold degrees
    rw [div_lt_iff₀ hp]
    constructor <;> intro h <;> linarith
  by_cases hlt : z.arg < 0
  · refine ⟨z.arg + 2 * π, by linarith, by linarith, ?_, ?_⟩
    · rw [hdef, if_pos (hneg.mpr hlt)]
      unfold degrees; field_simp; ring
    · apply hrot
      · rw [cos_add_two_pi, hc]
      · rw [sin_add_two_pi, hs]
  · refine ⟨z.arg, by linarith, by linarith, ?_, hrot _ hc hs⟩
    rw [hdef, if_neg (fun h => hlt (hneg.mp h))]; ring

theorem degrees_lt {a b : ℝ} : degrees a < degrees b ↔ a < b := by
  unfold degrees
  have hp := pi_pos
  rw [div_lt_div_iff_of_pos_right hp]
  constructor <;> intro h <;> linarith

theorem degrees_two_pi : degrees (2 * π) = 360 := by
  unfold degrees; have := pi_pos; field_simp; ring

theorem degrees_sub (a b : ℝ) : degrees (a - b) = degrees a - degrees b := by
  unfold degrees; ring

theorem degrees_nonneg {a : ℝ} : 0 ≤ degrees a ↔ 0 ≤ a := by
  have := @degrees_lt a 0
  have h0 : degrees 0 = 0 := by unfold degrees; simp
  rw [h0] at this
  exact not_iff_not.mp (by rw [not_le, not_le]; exact this)

theorem pyMod_of_mem {a b : ℝ} (_hb : 0 < b) (h0 : 0 ≤ a) (h1 : a < b) : pyMod a b = a := by
  unfold pyMod
  have : ⌊a / b⌋ = 0 := by
    rw [Int.floor_eq_zero_iff]
    exact ⟨by positivity, by rw [div_lt_one (by linarith)]; exact h1⟩
  rw [this]; simp

theorem pyMod_self {b : ℝ} (hb : 0 < b) : pyMod b b = 0 := by
  unfold pyMod; rw [div_self hb.ne']; simp

theorem pyMod_range {a b : ℝ} (hb : 0 < b) : 0 ≤ pyMod a b ∧ pyMod a b < b := by
  unfold pyMod
  have h1 := Int.floor_le (a / b)
  have h2 := Int.lt_floor_add_one (a / b)
  rw [le_div_iff₀ hb] at h1
  rw [div_lt_iff₀ hb] at h2
  constructor
  · nlinarith
  · nlinarith

theorem rotCcw_add (a b : ℝ) (v : Vec ℝ) : rotCcw a (rotCcw b v) = rotCcw (a + b) v := by
  unfold rotCcw
  ext <;> simp only [cos_add, sin_add] <;> ring

theorem rotCcw_neg_two_pi (t : ℝ) (v : Vec ℝ) : rotCcw (t - 2 * π) v = rotCcw t v := by
  unfold rotCcw; rw [cos_sub_two_pi, sin_sub_two_pi]

/-- The clockwise angle is in `(0, 360]` and turns the first direction into the second. -/
theorem angleBetween_spec (u v : Vec ℝ) :
    ∃ t, 0 < t ∧ t ≤ 2 * π ∧ u.angleBetween v = degrees t ∧
      rotCcw (-t) u.normalized = v.normalized := by
  obtain ⟨t, h0, h1, h2, h3⟩ := angleBetweenCc_spec u v
  refine ⟨2 * π - t, by linarith, by linarith, ?_, ?_⟩
  · unfold Vec.angleBetween; rw [h2, degrees_sub, degrees_two_pi]
  · rw [neg_sub, rotCcw_neg_two_pi, h3]

/-- On `[0, 2π]` the cosine has no interior maximum. -/
theorem cos_le_max {a b w : ℝ} (h0 : 0 ≤ a) (h1 : b ≤ 2 * π) (haw : a ≤ w) (hwb : w ≤ b) :
    cos w ≤ max (cos a) (cos b) := by
  by_cases hw : w ≤ π
  · exact le_max_of_le_left (cos_le_cos_of_nonneg_of_le_pi h0 hw haw)
  · push Not at hw
    apply le_max_of_le_right
    have e1 : cos w = cos (2 * π - w) := by rw [cos_two_pi_sub]
    have e2 : cos b = cos (2 * π - b) := by rw [cos_two_pi_sub]
    rw [e1, e2]
    exact cos_le_cos_of_nonneg_of_le_pi (by linarith) (by linarith) (by linarith)

/-! ### Boxes -/

section box
variable {K : Type*} [LinearOrder K]

theorem inBox_extend_self (b : Box K) (v : Vec K) : InBox v (b.extend v) := by
  simp [InBox, Box.extend]

theorem inBox_extend_of (b : Box K) (v p : Vec K) (h : InBox p b) : InBox p (b.extend v) := by
  obtain ⟨h1, h2, h3, h4⟩ := h
  exact ⟨min_le_of_left_le h1, le_max_of_le_left h2, min_le_of_left_le h3, le_max_of_le_left h4⟩

theorem inBox_foldl (vs : List (Vec K)) (b : Box K) (p : Vec K) (h : InBox p b ∨ p ∈ vs) :
    InBox p (vs.foldl Box.extend b) := by
  induction vs generalizing b with
  | nil => simpa using h
  | cons v vs ih =>
    rw [List.foldl_cons]
    apply ih
    rcases h with h | h
    · exact Or.inl (inBox_extend_of b v p h)
    · rcases List.mem_cons.mp h with h | h
      · subst h; exact Or.inl (inBox_extend_self b p)
      · exact Or.inr h

theorem inBox_fromVectors (v : Vec K) (vs : List (Vec K)) (p : Vec K) (h : p = v ∨ p ∈ vs) :
    InBox p (Box.fromVectors v vs) := by
  apply inBox_foldl
  rcases h with h | h
  · left; subst h; simp [InBox]
  · exact Or.inr h

theorem foldl_extend_le (vs : List (Vec K)) (b c : Box K) (hb : BoxIn b c) (h : ∀ v ∈ vs, InBox v c) :
    BoxIn (vs.foldl Box.extend b) c := by
  induction vs generalizing b with
  | nil => simpa using hb
  | cons v vs ih =>
    rw [List.foldl_cons]
    apply ih
    · obtain ⟨h1, h2, h3, h4⟩ := hb
      obtain ⟨g1, g2, g3, g4⟩ := h v (by simp)
      exact ⟨le_min h1 g1, le_min h2 g3, max_le h3 g2, max_le h4 g4⟩
    · exact fun w hw => h w (by simp [hw])

theorem fromVectors_le (v : Vec K) (vs : List (Vec K)) (c : Box K) (h : ∀ p, p = v ∨ p ∈ vs → InBox p c) :
    BoxIn (Box.fromVectors v vs) c := by
  apply foldl_extend_le
  · obtain ⟨g1, g2, g3, g4⟩ := h v (Or.inl rfl)
    exact ⟨g1, g3, g2, g4⟩
  · exact fun w hw => h w (Or.inr hw)

end box

/-! ### Arcs -/

theorem scale_norm {v : Vec ℝ} (h : ¬ (v.x = 0 ∧ v.y = 0)) :
    v.x = v.normalized.x * vlen v ∧ v.y = v.normalized.y * vlen v := by
  have := (vlen_pos h).ne'
  rw [normalized_x h, normalized_y h]
  constructor <;> field_simp

theorem turn_scale (cw : Bool) (t k : ℝ) (v w : Vec ℝ) (hx : w.x = v.x * k) (hy : w.y = v.y * k) :
    (turn cw t w).x = (turn cw t v).x * k ∧ (turn cw t w).y = (turn cw t v).y * k := by
  unfold turn rotCcw
  simp only [hx, hy]
  constructor <;> ring

/-- Two angles in `(0, 2π]` turning the same unit vector to the same place are equal. -/
theorem sweep_unique {n : Vec ℝ} (hn : n.x ^ 2 + n.y ^ 2 = 1) {s t : ℝ} {cw : Bool}
    (hs0 : 0 < s) (hs1 : s ≤ 2 * π) (ht0 : 0 < t) (ht1 : t ≤ 2 * π)
    (h : turn cw s n = turn cw t n) : s = t := by
  have hcs : cos s = cos t ∧ sin s = sin t := by
    have hx := congrArg Vec.x h
    have hy := congrArg Vec.y h
    unfold turn rotCcw at hx hy
    cases cw
    · simp only [Bool.false_eq_true, if_false] at hx hy
      exact ⟨by linear_combination (-(cos s) + cos t) * hn + n.x * hx + n.y * hy,
        by linear_combination (-(sin s) + sin t) * hn + n.x * hy - n.y * hx⟩
    · simp only [if_true, cos_neg, sin_neg] at hx hy
      exact ⟨by linear_combination (-(cos s) + cos t) * hn + n.x * hx + n.y * hy,
        by linear_combination (-(sin s) + sin t) * hn - n.x * hy + n.y * hx⟩
  have key : ∀ s t : ℝ, 0 < s → s ≤ 2 * π → 0 < t → t ≤ 2 * π → cos s = cos t → sin s = sin t → s < t → False := by
    intro s t hs0 hs1 ht0 ht1 hc hs hlt
    have h1 : cos (t - s) = 1 := by
      rw [cos_sub, hc, hs]; have := sin_sq_add_cos_sq t; linear_combination this
    have := (cos_eq_one_iff_of_lt_of_lt (x := t - s) (by linarith [pi_pos]) (by linarith)).mp h1
    linarith
  rcases lt_trichotomy s t with hlt | he | hgt
  · exact (key s t hs0 hs1 ht0 ht1 hcs.1 hcs.2 hlt).elim
  · exact he
  · exact (key t s ht0 ht1 hs0 hs1 hcs.1.symm hcs.2.symm hgt).elim

/-- The sweep angle of the specification is the total angle of the code. -/
theorem sweep_normalized {cw : Bool} {u v : Vec ℝ} {t : ℝ} (hu : ¬ (u.x = 0 ∧ u.y = 0))
    (hv : ¬ (v.x = 0 ∧ v.y = 0)) (h : Sweep cw u v t) : turn cw t u.normalized = v.normalized := by
  obtain ⟨-, -, hx, hy⟩ := h
  obtain ⟨ux, uy⟩ := scale_norm hu
  obtain ⟨vx, vy⟩ := scale_norm hv
  obtain ⟨tx, ty⟩ := turn_scale cw t _ _ _ ux uy
  have pu := vlen_pos hu
  have pv := vlen_pos hv
  rw [tx, vx] at hx
  rw [ty, vy] at hy
  have hp : vlen u * vlen v ≠ 0 := (mul_pos pu pv).ne'
  ext
  · exact mul_right_cancel₀ hp (by linear_combination hx)
  · exact mul_right_cancel₀ hp (by linear_combination hy)

end Verif.Geom
