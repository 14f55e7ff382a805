import Verif.Lemmas.Render
import Verif.Spec.Render
import Mathlib.Analysis.SpecialFunctions.Trigonometric.Bounds
import Verif.Props.Geom

/-!
# C54: the points generated on arcs
-/

namespace Verif.Props.Arcs
open Verif.Geom Verif.Spec Verif.Render Real

theorem ne_center {u c : Vec ℝ} (h : u ≠ c) : ¬ ((u - c).x = 0 ∧ (u - c).y = 0) := by
  intro ⟨hx, hy⟩
  apply h
  simp only [Vec.sub_x, Vec.sub_y] at hx hy
  ext <;> linarith

theorem radians_add (a b : ℝ) : radians (a + b) = radians a + radians b := by unfold radians; ring

/-- The point reached from the start after turning by `x` degrees. -/
theorem arcPoint_turn (a : Arc) (h : a.start ≠ a.center) (x : ℝ) :
    arcPoint a (pointAngle a.relStart + sgn (!a.clockwise) * x) =
      a.center + turn a.clockwise (radians x) (a.start - a.center) := by
  have hv := vec_polar (ne_center h)
  unfold arcPoint
  have hr : a.radius = vlen (a.start - a.center) := length_eq_norm _
  rw [hr]
  have hx := congrArg Vec.x hv
  have hy := congrArg Vec.y hv
  simp only at hx hy
  have hrel : a.relStart = a.start - a.center := rfl
  rw [hrel]
  unfold turn rotCcw
  cases hcw : a.clockwise
  · simp only [Bool.not_false, sgn, if_true, one_mul, Bool.false_eq_true, if_false]
    rw [radians_add, cos_add, sin_add]
    ext
    · simp only [Vec.add_x]; rw [hx, hy]; ring
    · simp only [Vec.add_y]; rw [hx, hy]; ring
  · simp only [Bool.not_true, sgn, Bool.false_eq_true, if_false, if_true]
    have hneg : radians (-1 * x) = -radians x := by unfold radians; ring
    rw [radians_add, hneg, cos_add, sin_add, cos_neg, sin_neg]
    ext
    · simp only [Vec.add_x]; rw [hx, hy]; ring
    · simp only [Vec.add_y]; rw [hx, hy]; ring

/-- The final angle and the direction chosen by the code. -/
theorem arcSweep_eq (A B delta : ℝ) (cw : Bool) (hA : 0 ≤ A ∧ A < 360) (hB : 0 ≤ B ∧ B < 360) (hne : A ≠ B) :
    ∃ T, 0 < T ∧ T < 360 ∧ (∃ k : ℤ, A + sgn (!cw) * T = B - k * 360) ∧
      ∀ fuel, arcSweep fuel A B delta cw = arcAngles (!cw) (A + sgn (!cw) * T) delta fuel A := by
  unfold arcSweep
  by_cases hle : A ≤ B
  · have hlt : A < B := lt_of_le_of_ne hle hne
    cases cw
    · refine ⟨B - A, by linarith, by linarith, ⟨0, by simp [sgn]⟩, fun fuel => ?_⟩
      rw [if_pos hle]; simp [sgn]
    · refine ⟨A - B + 360, by linarith, by linarith, ⟨1, by simp [sgn]; ring⟩, fun fuel => ?_⟩
      rw [if_pos hle]; simp only [if_true, Bool.not_true, sgn, Bool.false_eq_true, if_false]
      congr 1; ring
  · push Not at hle
    cases cw
    · refine ⟨B - A + 360, by linarith, by linarith, ⟨-1, by simp [sgn]; ring⟩, fun fuel => ?_⟩
      rw [if_neg (not_le.mpr hle)]; simp only [Bool.false_eq_true, if_false, Bool.not_false, sgn, if_true]
      congr 1; ring
    · refine ⟨A - B, by linarith, by linarith, ⟨0, by simp [sgn]⟩, fun fuel => ?_⟩
      rw [if_neg (not_le.mpr hle)]; simp [sgn]

/-- Arcs that turn by the same angle modulo a full turn, with the angle of the code. -/
theorem sweep_of_angles (a : Arc) (hs : a.start ≠ a.center) (he : a.stop ≠ a.center) (T : ℝ) (h0 : 0 < T)
    (h1 : T < 360) (k : ℤ) (hk : pointAngle a.relStart + sgn (!a.clockwise) * T = pointAngle a.relStop - k * 360) :
    turn a.clockwise (radians T) a.relStart.normalized = a.relStop.normalized := by
  rw [pointAngle_spec a.relStart, pointAngle_spec a.relStop]
  have hB : radians (pointAngle a.relStop) = radians (pointAngle a.relStart + sgn (!a.clockwise) * T) + k * (2 * π) := by
    rw [hk]; unfold radians; ring
  unfold turn
  rw [rotCcw_add, hB]
  have := rot_periodic k (radians (pointAngle a.relStart + sgn (!a.clockwise) * T) + k * (2 * π)) Vec.unitX
  rw [add_sub_cancel_right] at this
  rw [← this]
  congr 1
  cases a.clockwise <;> simp only [Bool.not_false, Bool.not_true, sgn, Bool.false_eq_true, if_false, if_true] <;>
    unfold radians <;> ring

/-- Same direction, same angle. -/
theorem full_of_same_angle (a : Arc) (h : pointAngle a.relStart = pointAngle a.relStop) :
    a.relStart.normalized = a.relStop.normalized := by
  rw [pointAngle_spec a.relStart, pointAngle_spec a.relStop, h]

/-- The angle the code turns by is the sweep. -/
theorem sweep_total (a : Arc) (hs : a.start ≠ a.center) (he : a.stop ≠ a.center) (t : ℝ)
    (ht : Sweep a.clockwise (a.start - a.center) (a.stop - a.center) t) (hlt : t < 2 * π) :
    pointAngle a.relStart ≠ pointAngle a.relStop ∧
    ∀ T, 0 < T → T < 360 → (∃ k : ℤ, pointAngle a.relStart + sgn (!a.clockwise) * T = pointAngle a.relStop - k * 360) →
      radians T = t := by
  have hn := sweep_normalized (ne_center hs) (ne_center he) ht
  have hp := pi_pos
  constructor
  · intro h
    have h1 : turn a.clockwise t a.relStart.normalized = turn a.clockwise (2 * π) a.relStart.normalized := by
      rw [Geom.turn_two_pi]
      exact hn.trans (full_of_same_angle a h).symm
    have := sweep_unique (normalized_unit _) ht.1 ht.2.1 (by positivity) le_rfl h1
    linarith
  · intro T h0 h1 ⟨k, hk⟩
    have h2 := sweep_of_angles a hs he T h0 h1 k hk
    refine sweep_unique (normalized_unit a.relStart) (cw := a.clockwise) ?_ ?_ ht.1 ht.2.1 (h2.trans hn.symm)
    · unfold radians; positivity
    · unfold radians; nlinarith

/-- The offsets at which points are generated. -/
noncomputable def offsets (n : ℕ) (delta T : ℝ) : List ℝ :=
  (List.range n).map (fun k : ℕ => radians (k * delta)) ++ [radians T]

theorem offsets_spec (n : ℕ) (delta T step : ℝ) (hn0 : n ≠ 0) (hd : 0 < delta) (hn : T ≤ n * delta)
    (hn' : (n - 1 : ℝ) * delta < T) (hstep : radians delta ≤ step) : Discretises (radians T) step (offsets n delta T) := by
  obtain ⟨m, rfl⟩ : ∃ m, n = m + 1 := ⟨n - 1, by omega⟩
  push_cast at hn hn'
  refine ⟨?_, ?_, ?_⟩
  · unfold offsets; rw [List.range_succ_eq_map]; simp [radians]
  · unfold offsets; simp
  · unfold offsets
    rw [List.isChain_append]
    have hp := pi_pos
    refine ⟨?_, by simp, ?_⟩
    · rw [List.isChain_map]
      rw [List.isChain_iff_getElem]
      intro i hi
      simp only [List.getElem_range]
      push_cast
      constructor
      · unfold radians
        have : (i : ℝ) * delta < (i + 1) * delta := by linarith
        have : (i : ℝ) * delta * π < (i + 1) * delta * π := mul_lt_mul_of_pos_right this hp
        linarith
      · refine le_trans (le_of_eq ?_) hstep
        unfold radians; ring
    · intro x hx y hy
      rw [List.getLast?_map, List.range_succ] at hx
      simp only [List.getLast?_append, List.getLast?_singleton, Option.some_or,
        Option.map_some, Option.mem_def, Option.some.injEq, Option.getD_some] at hx
      simp only [List.head?_cons, Option.mem_def, Option.some.injEq] at hy
      subst hx hy
      constructor
      · unfold radians
        have : (m : ℝ) * delta * π < T * π := mul_lt_mul_of_pos_right (by linarith) hp
        linarith
      · refine le_trans ?_ hstep
        unfold radians
        have : (T - m * delta) * π ≤ delta * π := mul_le_mul_of_nonneg_right (by linarith) hp.le
        linarith

/-- The angles of the code, as offsets from the start. -/
theorem sweep_offsets (a : Arc) (hs : a.start ≠ a.center) (he : a.stop ≠ a.center) (t : ℝ)
    (ht : Sweep a.clockwise (a.start - a.center) (a.stop - a.center) t) (hlt : t < 2 * π) (delta step : ℝ)
    (hd : 0 < delta) (hstep : radians delta ≤ step) :
    ∃ fuel offs, Discretises t step offs ∧ ∀ more, fuel ≤ more →
      ∃ angles, arcSweep more (pointAngle a.relStart) (pointAngle a.relStop) delta a.clockwise = .ok angles ∧
        angles.map (arcPoint a) = offs.map (fun τ => a.center + turn a.clockwise τ (a.start - a.center)) := by
  obtain ⟨hne, huniq⟩ := sweep_total a hs he t ht hlt
  obtain ⟨T, h0, h1, hk, heq⟩ := arcSweep_eq _ _ delta a.clockwise (pointAngle_range a.relStart)
    (pointAngle_range a.relStop) hne
  have hT := huniq T h0 h1 hk
  have hn : T ≤ (⌈T / delta⌉₊ : ℝ) * delta := by
    rw [← div_le_iff₀ hd]; exact Nat.le_ceil _
  have hpos : 0 < T / delta := div_pos h0 hd
  have hn0 : ⌈T / delta⌉₊ ≠ 0 := (Nat.ceil_pos.mpr hpos).ne'
  have hn' : ((⌈T / delta⌉₊ : ℝ) - 1) * delta < T := by
    rw [← lt_div_iff₀ hd]
    have := Nat.ceil_lt_add_one hpos.le
    linarith
  refine ⟨⌈T / delta⌉₊ + 1, offsets ⌈T / delta⌉₊ delta T, ?_, fun more hm => ?_⟩
  · rw [← hT]; exact offsets_spec _ _ _ _ hn0 hd hn hn' hstep
  · refine ⟨_, (heq more).trans (arcAngles_eq (!a.clockwise) ⌈T / delta⌉₊ _ _ T ?_ h0.le hn (fun _ => hn') hd more
      (by omega)), ?_⟩
    · rw [add_sub_cancel_left, ← mul_assoc, sgn_sq, one_mul]
    · unfold offsets
      rw [List.map_append, List.map_append, List.map_map, List.map_map, List.map_singleton, List.map_singleton,
        arcPoint_turn a hs]
      congr 1
      apply List.map_congr_left
      intro k _
      simp only [Function.comp_apply]
      rw [arcPoint_turn a hs]

theorem step_bound (a : Arc) (n m : ℤ) (hn : 1 ≤ n) (hm : n ≤ m) :
    radians (|pointAngle a.relStart - pointAngle a.relStop| / m) ≤ 2 * π / n := by
  have hA := pointAngle_range a.relStart
  have hB := pointAngle_range a.relStop
  have hn' : (0 : ℝ) < n := by exact_mod_cast hn
  have hm' : (n : ℝ) ≤ m := by exact_mod_cast hm
  have habs : |pointAngle a.relStart - pointAngle a.relStop| ≤ 360 := by
    rw [abs_le]; constructor <;> linarith [hA.1, hA.2, hB.1, hB.2]
  have h1 : |pointAngle a.relStart - pointAngle a.relStop| / m ≤ 360 / n :=
    div_le_div₀ (by norm_num) habs hn' hm'
  have hp := pi_pos
  calc radians (|pointAngle a.relStart - pointAngle a.relStop| / m)
      ≤ radians (360 / n) := by unfold radians; have := mul_le_mul_of_nonneg_right h1 hp.le; linarith
    _ = 2 * π / n := by unfold radians; field_simp; norm_num

/-- **C54** (partial). For every arc that is not a full turn, the Shapely backend generates, in finitely many steps,
points on the arc: the start, then points reached by turning further and further in the drawing direction, by at most one
`n`-th of a turn each when the number of segments is at least `n`, and finally the point in the direction of the end.
Missing: arcs that turn fully, see `c54_false_clockwise_loops` and `c54_false_full_turn`. -/
theorem c54_shapely_partial (a : Arc) (hs : a.start ≠ a.center) (he : a.stop ≠ a.center) (t : ℝ)
    (ht : Sweep a.clockwise (a.start - a.center) (a.stop - a.center) t) (hlt : t < 2 * π)
    (count : ℝ → ℤ) (n : ℤ) (hn : 1 ≤ n) (hcount : ∀ l, n ≤ count l) :
    ∃ fuel offs, Discretises t (2 * π / n) offs ∧ ∀ more, fuel ≤ more →
      shapelyArc count more a = .ok (offs.map (fun τ => a.center + turn a.clockwise τ (a.start - a.center))) := by
  have hm := hcount (arcLength a)
  have hmpos : (0 : ℝ) < (count (arcLength a) : ℝ) := by exact_mod_cast (by omega : (0 : ℤ) < count (arcLength a))
  obtain ⟨hne, -⟩ := sweep_total a hs he t ht hlt
  have habs : 0 < |pointAngle a.relStart - pointAngle a.relStop| := abs_pos.mpr (sub_ne_zero.mpr hne)
  have hd : 0 < |pointAngle a.relStart - pointAngle a.relStop| / (count (arcLength a) : ℝ) := div_pos habs hmpos
  obtain ⟨fuel, offs, hoffs, h⟩ := sweep_offsets a hs he t ht hlt _ (2 * π / n) hd (step_bound a n _ hn hm)
  refine ⟨fuel, offs, hoffs, fun more hmore => ?_⟩
  obtain ⟨angles, h1, h2⟩ := h more hmore
  unfold shapelyArc
  simp only
  rw [if_neg (by omega), if_neg (not_lt.mpr hd.le), h1, ← h2]
  rfl

/-- The default number of segments is at least 24. -/
theorem shapelyCount_ge (l : ℝ) : 24 ≤ shapelyCount l := by
  unfold shapelyCount
  rw [Int.le_floor]
  have := abs_nonneg l
  push_cast; linarith

/-- The number of segments of the Pillow backend is at least 12, so that `DPMMTooSmallError` is never raised. -/
theorem pillowCount_ge (p : ℤ) : 12 ≤ pillowCount p := by
  unfold pillowCount; split_ifs <;> omega

theorem discretises_mono {t step step' : ℝ} {offs : List ℝ} (h : Discretises t step offs) (hs : step ≤ step') :
    Discretises t step' offs :=
  ⟨h.1, h.2.1, h.2.2.imp fun _ _ h => ⟨h.1, h.2.trans hs⟩⟩

/-- The pieces of an arc of the Pillow backend are at most one pixel long. -/
theorem step_pixel (a : Arc) (dpmm : ℤ) (hd : 0 < dpmm) (hs : a.start ≠ a.center) :
    radians (|pointAngle a.relStart - pointAngle a.relStop| / (pillowCount (toPixel dpmm (arcLength a)) : ℝ)) ≤
      1 / dpmm / vlen (a.start - a.center) := by
  have hp := pi_pos
  have hd' : (0 : ℝ) < dpmm := by exact_mod_cast hd
  have hr : 0 < vlen (a.start - a.center) := vlen_pos (ne_center hs)
  have hm := pillowCount_ge (toPixel dpmm (arcLength a))
  have hm' : (0 : ℝ) < (pillowCount (toPixel dpmm (arcLength a)) : ℝ) := by
    exact_mod_cast (by omega : (0 : ℤ) < pillowCount (toPixel dpmm (arcLength a)))
  have hl : arcLength a = radians |pointAngle a.relStart - pointAngle a.relStop| * vlen (a.start - a.center) := by
    have : a.radius = vlen (a.start - a.center) := length_eq_norm _
    unfold arcLength radians
    rw [this]; ring
  have h0 : 0 ≤ arcLength a * dpmm := by
    rw [hl]; unfold radians; positivity
  have key : arcLength a * dpmm ≤ (pillowCount (toPixel dpmm (arcLength a)) : ℝ) := by
    have h1 : arcLength a * dpmm < (toPixel dpmm (arcLength a) : ℝ) + 1 := by
      unfold toPixel truncate
      rw [if_pos h0]
      exact Int.lt_floor_add_one _
    unfold pillowCount
    split_ifs with h
    · have h2 : (7 : ℝ) ≤ (toPixel dpmm (arcLength a) : ℝ) := by exact_mod_cast (by omega : (7 : ℤ) ≤ toPixel dpmm (arcLength a))
      push_cast
      linarith
    · have h2 : (toPixel dpmm (arcLength a) : ℝ) ≤ 6 := by exact_mod_cast (by omega : toPixel dpmm (arcLength a) ≤ 6)
      push_cast
      linarith
  rw [le_div_iff₀ hr, le_div_iff₀ hd']
  have : radians (|pointAngle a.relStart - pointAngle a.relStop| / (pillowCount (toPixel dpmm (arcLength a)) : ℝ)) *
      vlen (a.start - a.center) * dpmm = arcLength a * dpmm / (pillowCount (toPixel dpmm (arcLength a)) : ℝ) := by
    rw [hl]; unfold radians; ring
  rw [this, div_le_one hm']
  exact key

/-- **C54** (partial). The Pillow backend generates the same kind of points, between the start and the end of the arc,
at most a twelfth of a turn and at most one pixel apart, whatever the resolution.  Missing: full turns, see
`c54_false_pillow_full_turn`. -/
theorem c54_pillow_partial (a : Arc) (hs : a.start ≠ a.center) (he : a.stop ≠ a.center) (t : ℝ)
    (ht : Sweep a.clockwise (a.start - a.center) (a.stop - a.center) t) (hlt : t < 2 * π) (dpmm : ℤ) :
    ∃ fuel offs, Discretises t (2 * π / 12) offs ∧ (0 < dpmm → Discretises t (1 / dpmm / vlen (a.start - a.center)) offs) ∧
      ∀ more, fuel ≤ more → pillowArc dpmm more a =
        .ok (a.start :: (offs.map (fun τ => a.center + turn a.clockwise τ (a.start - a.center)) ++ [a.stop])) := by
  have hm := pillowCount_ge (toPixel dpmm (arcLength a))
  have hmpos : (0 : ℝ) < (pillowCount (toPixel dpmm (arcLength a)) : ℝ) := by
    exact_mod_cast (by omega : (0 : ℤ) < pillowCount (toPixel dpmm (arcLength a)))
  obtain ⟨hne, -⟩ := sweep_total a hs he t ht hlt
  have habs : 0 < |pointAngle a.relStart - pointAngle a.relStop| := abs_pos.mpr (sub_ne_zero.mpr hne)
  have hd : 0 < |pointAngle a.relStart - pointAngle a.relStop| / (pillowCount (toPixel dpmm (arcLength a)) : ℝ) :=
    div_pos habs hmpos
  obtain ⟨fuel, offs, hoffs, h⟩ := sweep_offsets a hs he t ht hlt _ _ hd le_rfl
  refine ⟨fuel, offs, by simpa using discretises_mono hoffs (step_bound a 12 _ (by norm_num) hm),
    fun hd => discretises_mono hoffs (step_pixel a dpmm hd hs), fun more hmore => ?_⟩
  obtain ⟨angles, h1, h2⟩ := h more hmore
  unfold pillowArc
  simp only
  rw [if_neg (by omega), if_neg (not_le.mpr hd), h1, ← h2]
  rfl

/-- **C54** (fails). A clockwise arc that returns to its start never ends: however many steps the generator of the
Shapely backend makes, it has not finished. -/
theorem c54_false_clockwise_loops (a : Arc) (h : a.start = a.stop) (hcw : a.clockwise = true) (count : ℝ → ℤ)
    (hcount : ∀ l, 1 ≤ count l) (fuel : ℕ) : shapelyArc count fuel a = .error .outOfFuel := by
  have hA := pointAngle_range a.relStart
  have hrel : a.relStop = a.relStart := by unfold Arc.relStop Arc.relStart; rw [h]
  have hc := hcount (arcLength a)
  unfold shapelyArc
  simp only
  rw [if_neg (by omega), hrel, sub_self, abs_zero, zero_div, if_neg (lt_irrefl _), hcw]
  unfold arcSweep
  rw [if_pos le_rfl, if_pos rfl, arcAngles_loops]
  · rfl
  · simp only [sgn, Bool.false_eq_true, if_false]; linarith

/-- **C54** (fails). A counter-clockwise arc that returns to its start is reduced to a single point. -/
theorem c54_false_full_turn (a : Arc) (h : a.start = a.stop) (hs : a.start ≠ a.center) (hcw : a.clockwise = false)
    (count : ℝ → ℤ) (hcount : ∀ l, 1 ≤ count l) (fuel : ℕ) : shapelyArc count (fuel + 1) a = .ok [a.start] := by
  have hrel : a.relStop = a.relStart := by unfold Arc.relStop Arc.relStart; rw [h]
  have hc := hcount (arcLength a)
  have hp := arcPoint_turn a hs 0
  unfold shapelyArc
  simp only
  rw [if_neg (by omega), hrel, sub_self, abs_zero, zero_div, if_neg (lt_irrefl _), hcw]
  unfold arcSweep
  rw [if_pos le_rfl, if_neg (by simp), arcAngles, if_neg (by simp)]
  rw [mul_zero, add_zero] at hp
  simp only [pure, Except.pure, bind, Except.bind, List.map_cons, List.map_nil]
  rw [hp]
  unfold turn rotCcw radians
  congr 2
  ext <;> simp

/-- **C54** (fails). Any arc that returns to its start makes the Pillow backend fail an assertion. -/
theorem c54_false_pillow_full_turn (a : Arc) (h : a.start = a.stop) (dpmm : ℤ) (fuel : ℕ) :
    pillowArc dpmm fuel a = .error .assertion := by
  have hrel : a.relStop = a.relStart := by unfold Arc.relStop Arc.relStart; rw [h]
  have hm := pillowCount_ge (toPixel dpmm (arcLength a))
  unfold pillowArc
  simp only
  rw [if_neg (by omega), hrel, sub_self, abs_zero, zero_div, if_pos le_rfl]

/-! ### The points approximate the arc -/

theorem near_offset (step τ : ℝ) (hstep : 0 ≤ step) (l : List ℝ) (hc : l.IsChain (fun a b => a < b ∧ b - a ≤ step))
    (h : ℝ) (hh : l.head? = some h) (hle : h ≤ τ) (e : ℝ) (he : l.getLast? = some e) (hτ : τ ≤ e) :
    ∃ o ∈ l, o ≤ τ ∧ τ - o ≤ step := by
  induction l generalizing h with
  | nil => simp at hh
  | cons x l ih =>
    simp only [List.head?_cons, Option.some.injEq] at hh
    subst hh
    cases l with
    | nil =>
      simp only [List.getLast?_singleton, Option.some.injEq] at he
      exact ⟨x, by simp, hle, by linarith⟩
    | cons y l =>
      rw [List.isChain_cons_cons] at hc
      by_cases hy : y ≤ τ
      · rw [List.getLast?_cons_cons] at he
        obtain ⟨o, ho, h1, h2⟩ := ih hc.2 y rfl hy he
        exact ⟨o, List.mem_cons_of_mem _ ho, h1, h2⟩
      · push Not at hy
        exact ⟨x, by simp, hle, by linarith [hc.1.2]⟩

theorem turn_close (cw : Bool) (s t : ℝ) (c v : Vec ℝ) :
    distSq (c + turn cw s v) (c + turn cw t v) ≤ (vlen v * (s - t)) ^ 2 := by
  have h := Real.one_sub_sq_div_two_le_cos (x := s - t)
  have hv := vlen_sq v
  have h2 : distSq (c + turn cw s v) (c + turn cw t v) = (v.x ^ 2 + v.y ^ 2) * (2 - 2 * cos (s - t)) := by
    have hs := sin_sq_add_cos_sq s
    have ht := sin_sq_add_cos_sq t
    rw [cos_sub]
    unfold distSq turn rotCcw
    cases cw
    · simp only [Vec.add_x, Vec.add_y, Bool.false_eq_true, if_false]
      linear_combination (v.x ^ 2 + v.y ^ 2) * (hs + ht)
    · simp only [Vec.add_x, Vec.add_y, if_true, cos_neg, sin_neg]
      linear_combination (v.x ^ 2 + v.y ^ 2) * (hs + ht)
  rw [h2, mul_pow, hv]
  have h3 : 0 ≤ v.x ^ 2 + v.y ^ 2 := by positivity
  nlinarith

/-- **C54** (partial). With at least `n` segments, every point of an arc that is not a full turn is within one `n`-th of
the circumference of a generated point. -/
theorem c54_close_partial (a : Arc) (hs : a.start ≠ a.center) (he : a.stop ≠ a.center) (t : ℝ)
    (ht : Sweep a.clockwise (a.start - a.center) (a.stop - a.center) t) (hlt : t < 2 * π)
    (count : ℝ → ℤ) (n : ℤ) (hn : 1 ≤ n) (hcount : ∀ l, n ≤ count l) :
    ∃ fuel pts, (∀ more, fuel ≤ more → shapelyArc count more a = .ok pts) ∧
      (∀ p ∈ pts, OnArc a.start a.center a.clockwise t p) ∧
      ∀ q, OnArc a.start a.center a.clockwise t q →
        ∃ p ∈ pts, distSq q p ≤ (2 * π * vlen (a.start - a.center) / n) ^ 2 := by
  obtain ⟨fuel, offs, ⟨hhead, hlast, hchain⟩, h⟩ := c54_shapely_partial a hs he t ht hlt count n hn hcount
  have hp := pi_pos
  have hn' : (0 : ℝ) < n := by exact_mod_cast hn
  have hrange : ∀ o ∈ offs, 0 ≤ o ∧ o ≤ t := by
    have hpw : offs.Pairwise (fun a b => a < b) := by
      rw [← List.isChain_iff_pairwise]
      exact hchain.imp (fun _ _ h => h.1)
    intro o ho
    constructor
    · cases offs with
      | nil => simp at ho
      | cons x l =>
        simp only [List.head?_cons, Option.some.injEq] at hhead
        subst hhead
        rcases List.mem_cons.mp ho with rfl | h
        · exact le_rfl
        · exact (List.rel_of_pairwise_cons hpw h).le
    · obtain ⟨l, rfl⟩ := List.getLast?_eq_some_iff.mp hlast
      rcases List.mem_append.mp ho with h | h
      · rw [List.pairwise_append] at hpw
        exact (hpw.2.2 o h t (by simp)).le
      · simp only [List.mem_singleton] at h; exact h.le
  refine ⟨fuel, _, h, ?_, ?_⟩
  · intro p hp
    obtain ⟨o, ho, rfl⟩ := List.mem_map.mp hp
    exact ⟨o, (hrange o ho).1, (hrange o ho).2, rfl⟩
  · rintro q ⟨τ, h0, h1, rfl⟩
    obtain ⟨o, ho, h2, h3⟩ := near_offset (2 * π / n) τ (by positivity) offs hchain 0 hhead h0 t hlast h1
    refine ⟨_, List.mem_map_of_mem ho, (turn_close _ _ _ _ _).trans ?_⟩
    have h4 : 0 ≤ vlen (a.start - a.center) := vlen_nonneg _
    have h5 : vlen (a.start - a.center) * (τ - o) ≤ 2 * π * vlen (a.start - a.center) / n := by
      have := mul_le_mul_of_nonneg_left h3 h4
      calc _ ≤ vlen (a.start - a.center) * (2 * π / n) := this
        _ = _ := by ring
    exact pow_le_pow_left₀ (mul_nonneg h4 (by linarith)) h5 2

/-! ### Whole outlines -/

theorem SamePath_append_right {l m : List (Vec ℝ)} (h : SamePath l m) (r : List (Vec ℝ)) :
    SamePath (l ++ r) (m ++ r) := by
  induction h with
  | refl => exact .refl _
  | symm _ ih => exact .symm ih
  | trans _ _ ih1 ih2 => exact .trans ih1 ih2
  | repeated b p a => simpa using SamePath.repeated b p (a ++ r)

theorem SamePath_append_left {l m : List (Vec ℝ)} (r : List (Vec ℝ)) (h : SamePath l m) :
    SamePath (r ++ l) (r ++ m) := by
  induction h with
  | refl => exact .refl _
  | symm _ ih => exact .symm ih
  | trans _ _ ih1 ih2 => exact .trans ih1 ih2
  | repeated b p a => simpa using SamePath.repeated (r ++ b) p a

/-- A point already there may be added. -/
theorem SamePath_last {l : List (Vec ℝ)} {p : Vec ℝ} (h : l.getLast? = some p) : SamePath l (l ++ [p]) := by
  obtain ⟨m, rfl⟩ := List.getLast?_eq_some_iff.mp h
  simpa using (SamePath.repeated m p []).symm

theorem SamePath_first {l : List (Vec ℝ)} {p : Vec ℝ} (h : l.head? = some p) : SamePath (p :: l) l := by
  cases l with
  | nil => simp at h
  | cons x l =>
    simp only [List.head?_cons, Option.some.injEq] at h
    subst h
    exact SamePath.repeated [] x l

theorem addStart_path (points : List (Vec ℝ)) (p : Vec ℝ) : SamePath (addStart points p) (points ++ [p]) := by
  unfold addStart
  split_ifs with h
  · exact SamePath_last h
  · exact .refl _

theorem arc_ends (a : Arc) (t : ℝ) (hlen : vlen (a.start - a.center) = vlen (a.stop - a.center))
    (hs : a.start ≠ a.center) (ht : Sweep a.clockwise (a.start - a.center) (a.stop - a.center) t) :
    a.center + turn a.clockwise 0 (a.start - a.center) = a.start ∧
    a.center + turn a.clockwise t (a.start - a.center) = a.stop := by
  have hpos := vlen_pos (ne_center hs)
  constructor
  · unfold turn rotCcw; ext <;> simp
  · obtain ⟨-, -, hx, hy⟩ := ht
    rw [← hlen] at hx hy
    have hx' := mul_right_cancel₀ hpos.ne' hx
    have hy' := mul_right_cancel₀ hpos.ne' hy
    ext
    · simp only [Vec.add_x]; rw [hx']; simp
    · simp only [Vec.add_y]; rw [hy']; simp

/-- Every arc sweeps some angle; arcs with different ends do not turn fully. -/
theorem sweep_exists (a : Arc) (hs : a.start ≠ a.center) (hlen : vlen (a.start - a.center) = vlen (a.stop - a.center))
    (hne : a.start ≠ a.stop) :
    a.stop ≠ a.center ∧ ∃ t, Sweep a.clockwise (a.start - a.center) (a.stop - a.center) t ∧ t < 2 * π := by
  have hpos := vlen_pos (ne_center hs)
  have he : a.stop ≠ a.center := by
    intro h
    have : vlen (a.stop - a.center) = 0 := by
      rw [h]; unfold vlen; simp
    rw [hlen, this] at hpos
    exact lt_irrefl _ hpos
  refine ⟨he, ?_⟩
  obtain ⟨ux, uy⟩ := scale_norm (ne_center hs)
  obtain ⟨vx, vy⟩ := scale_norm (ne_center he)
  have hnn : a.relStart.normalized ≠ a.relStop.normalized := by
    intro h
    apply hne
    have hx := congrArg Vec.x h
    have hy := congrArg Vec.y h
    change (a.start - a.center).normalized.x = (a.stop - a.center).normalized.x at hx
    change (a.start - a.center).normalized.y = (a.stop - a.center).normalized.y at hy
    simp only [Vec.sub_x] at ux vx
    simp only [Vec.sub_y] at uy vy
    rw [hx, hlen, ← vx] at ux
    rw [hy, hlen, ← vy] at uy
    ext <;> linarith
  have hA : pointAngle a.relStart ≠ pointAngle a.relStop := fun h => hnn (full_of_same_angle a h)
  obtain ⟨T, h0, h1, ⟨k, hk⟩, -⟩ := arcSweep_eq _ _ 1 a.clockwise (pointAngle_range a.relStart)
    (pointAngle_range a.relStop) hA
  have hn := sweep_of_angles a hs he T h0 h1 k hk
  have hp := pi_pos
  refine ⟨radians T, ⟨by unfold radians; positivity, by unfold radians; nlinarith, ?_, ?_⟩, by unfold radians; nlinarith⟩
  · obtain ⟨tx, -⟩ := turn_scale a.clockwise (radians T) (vlen (a.start - a.center)) _ _ ux uy
    have := congrArg Vec.x hn
    change (turn a.clockwise (radians T) (a.start - a.center).normalized).x = (a.stop - a.center).normalized.x at this
    rw [tx, this, vx]; ring
  · obtain ⟨-, ty⟩ := turn_scale a.clockwise (radians T) (vlen (a.start - a.center)) _ _ ux uy
    have := congrArg Vec.y hn
    change (turn a.clockwise (radians T) (a.start - a.center).normalized).y = (a.stop - a.center).normalized.y at this
    rw [ty, this, vy]; ring

theorem shapelySegment_path (count : ℝ → ℤ) (n : ℤ) (hn : 1 ≤ n) (hcount : ∀ l, n ≤ count l) (g : Segment)
    (hg : NotClosed g) :
    ∃ fuel trace, Follows (2 * π / n) g trace ∧ ∀ more, fuel ≤ more → ∀ points, ∃ pts,
      shapelySegment count more points g = .ok pts ∧ SamePath pts (points ++ trace) := by
  cases g with
  | line l =>
    refine ⟨0, [l.start, l.stop], rfl, fun more _ points => ⟨_, rfl, ?_⟩⟩
    simpa using SamePath_append_right (addStart_path points l.start) [l.stop]
  | arc a =>
    obtain ⟨hs, hlen, hne⟩ := hg
    obtain ⟨he, t, ht, hlt⟩ := sweep_exists a hs hlen hne
    obtain ⟨fuel, offs, hd, h⟩ := c54_shapely_partial a hs he t ht hlt count n hn hcount
    obtain ⟨h0, h1⟩ := arc_ends a t hlen hs ht
    obtain ⟨hhead, hlast, -⟩ := id hd
    have hlast' : (offs.map (fun τ => a.center + turn a.clockwise τ (a.start - a.center))).getLast? = some a.stop := by
      rw [List.getLast?_map, hlast]; simp [h1]
    have hhead' : (offs.map (fun τ => a.center + turn a.clockwise τ (a.start - a.center))).head? = some a.start := by
      rw [List.head?_map, hhead]; simp [h0]
    refine ⟨fuel, _, ⟨t, offs, ht, hd, rfl, hlast'⟩, fun more hm points => ?_⟩
    generalize hg : offs.map (fun τ => a.center + turn a.clockwise τ (a.start - a.center)) = pts at *
    have hl : (addStart points a.start ++ pts).getLast? = some a.stop := by
      rw [List.getLast?_append, hlast']; rfl
    refine ⟨addStart points a.start ++ pts, ?_, ?_⟩
    · simp only [shapelySegment, h more hm, bind, Except.bind, pure, Except.pure]
      rw [if_pos hl]
    · refine (SamePath_append_right (addStart_path points a.start) pts).trans ?_
      rw [List.append_assoc]
      exact SamePath_append_left _ (SamePath_first hhead')

theorem shapelyLoop_path (count : ℝ → ℤ) (n : ℤ) (hn : 1 ≤ n) (hcount : ∀ l, n ≤ count l) (gs : List Segment)
    (hg : ∀ g ∈ gs, NotClosed g) :
    ∃ fuel traces, List.Forall₂ (Follows (2 * π / n)) gs traces ∧ ∀ more, fuel ≤ more → ∀ points, ∃ pts,
      shapelyLoop count more gs points = .ok pts ∧ SamePath pts (points ++ traces.flatten) := by
  induction gs with
  | nil => exact ⟨0, [], .nil, fun more _ points => ⟨points, rfl, by simpa using SamePath.refl points⟩⟩
  | cons g gs ih =>
    obtain ⟨f1, trace, hf, h1⟩ := shapelySegment_path count n hn hcount g (hg g (by simp))
    obtain ⟨f2, traces, hfs, h2⟩ := ih (fun g h => hg g (by simp [h]))
    refine ⟨max f1 f2, trace :: traces, .cons hf hfs, fun more hm points => ?_⟩
    obtain ⟨pts, e1, p1⟩ := h1 more (le_trans (le_max_left _ _) hm) points
    obtain ⟨pts', e2, p2⟩ := h2 more (le_trans (le_max_right _ _) hm) pts
    refine ⟨pts', ?_, ?_⟩
    · simp only [shapelyLoop, e1, bind, Except.bind, e2]
    · refine p2.trans ?_
      simpa using SamePath_append_right p1 traces.flatten

theorem path_head {l m : List (Vec ℝ)} (h : SamePath l m) : l.head? = m.head? := by
  induction h with
  | refl => rfl
  | symm _ ih => exact ih.symm
  | trans _ _ ih1 ih2 => exact ih1.trans ih2
  | repeated b p a => cases b <;> rfl

theorem follows_head {step : ℝ} {g : Segment} {tr : List (Vec ℝ)} (h : Follows step g tr) : tr.head? = some g.start := by
  cases g with
  | line l => have h' : tr = _ := h; rw [h']; rfl
  | arc a =>
    obtain ⟨t, offs, -, ⟨hh, -, -⟩, rfl, -⟩ := h
    rw [List.head?_map, hh]
    simp only [Option.map_some, Segment.start, Option.some.injEq]
    unfold turn rotCcw; ext <;> simp

/-- **C54** (partial). The polygon that the Shapely backend draws for a shape without full turns: its vertices follow the
segments one after the other, every arc from its start to its end in its direction in steps of at most one `n`-th of a
turn, and return to the first point. -/
theorem c54_shapely_outline_partial (s : Shape) (hs : ∀ g ∈ s.segments, NotClosed g) (count : ℝ → ℤ) (n : ℤ)
    (hn : 1 ≤ n) (hcount : ∀ l, n ≤ count l) :
    ∃ fuel traces, List.Forall₂ (Follows (2 * π / n)) s.segments traces ∧ ∀ more, fuel ≤ more → ∃ pts,
      shapelyVertices count more s = .ok pts ∧ SamePath pts (traces.flatten ++ [s.head.start]) := by
  obtain ⟨fuel, traces, hf, h⟩ := shapelyLoop_path count n hn hcount s.segments hs
  refine ⟨fuel, traces, hf, fun more hm => ?_⟩
  obtain ⟨pts, e, p⟩ := h more hm []
  rw [List.nil_append] at p
  refine ⟨pts ++ pts.head?.toList, by simp only [shapelyVertices, e, bind, Except.bind, pure, Except.pure], ?_⟩
  have hhead : pts.head? = some s.head.start := by
    rw [path_head p]
    unfold Shape.segments at hf
    cases hf with
    | cons h1 _ => rw [List.flatten_cons, List.head?_append, follows_head h1]; rfl
  rw [hhead]
  exact SamePath_append_right p _

theorem pillowSegment_path (dpmm : ℤ) (g : Segment) (hg : NotClosed g) :
    ∃ fuel trace, (Follows (2 * π / 12) g trace ∧ (0 < dpmm → Along (1 / dpmm) g trace)) ∧ ∀ more, fuel ≤ more → ∀ points, ∃ pts,
      pillowSegment dpmm more points g = .ok pts ∧ SamePath pts (points ++ trace) := by
  cases g with
  | line l =>
    refine ⟨0, [l.start, l.stop], ⟨rfl, fun _ => rfl⟩, fun more _ points => ⟨_, rfl, ?_⟩⟩
    simpa using SamePath_append_right (addStart_path points l.start) [l.stop]
  | arc a =>
    obtain ⟨hs, hlen, hne⟩ := hg
    obtain ⟨he, t, ht, hlt⟩ := sweep_exists a hs hlen hne
    obtain ⟨fuel, offs, hd, hd', h⟩ := c54_pillow_partial a hs he t ht hlt dpmm
    obtain ⟨h0, h1⟩ := arc_ends a t hlen hs ht
    obtain ⟨hhead, hlast, -⟩ := id hd
    have hlast' : (offs.map (fun τ => a.center + turn a.clockwise τ (a.start - a.center))).getLast? = some a.stop := by
      rw [List.getLast?_map, hlast]; simp [h1]
    have hhead' : (offs.map (fun τ => a.center + turn a.clockwise τ (a.start - a.center))).head? = some a.start := by
      rw [List.head?_map, hhead]; simp [h0]
    refine ⟨fuel, _, ⟨⟨t, offs, ht, hd, rfl, hlast'⟩, fun hp => ⟨t, offs, ht, hd' hp, rfl, hlast'⟩⟩, fun more hm points => ?_⟩
    generalize hg : offs.map (fun τ => a.center + turn a.clockwise τ (a.start - a.center)) = pts at *
    refine ⟨addStart points a.start ++ (a.start :: (pts ++ [a.stop])) ++ [a.stop], ?_, ?_⟩
    · simp only [pillowSegment, h more hm, bind, Except.bind, pure, Except.pure]
    · have e1 : SamePath (pts ++ [a.stop]) pts := (SamePath_last hlast').symm
      have e2 : SamePath (a.start :: (pts ++ [a.stop])) pts :=
        (SamePath_append_left [a.start] e1).trans (SamePath_first hhead')
      have e3 : SamePath ((a.start :: (pts ++ [a.stop])) ++ [a.stop]) pts := (SamePath_append_right e2 _).trans e1
      rw [List.append_assoc]
      refine (SamePath_append_left _ e3).trans ((SamePath_append_right (addStart_path points a.start) pts).trans ?_)
      rw [List.append_assoc]
      exact SamePath_append_left _ (SamePath_first hhead')

theorem pillowLoop_path (dpmm : ℤ) (gs : List Segment) (hg : ∀ g ∈ gs, NotClosed g) :
    ∃ fuel traces, List.Forall₂ (fun g tr => Follows (2 * π / 12) g tr ∧ (0 < dpmm → Along (1 / dpmm) g tr)) gs traces ∧ ∀ more, fuel ≤ more → ∀ points, ∃ pts,
      pillowLoop dpmm more gs points = .ok pts ∧ SamePath pts (points ++ traces.flatten) := by
  induction gs with
  | nil => exact ⟨0, [], .nil, fun more _ points => ⟨points, rfl, by simpa using SamePath.refl points⟩⟩
  | cons g gs ih =>
    obtain ⟨f1, trace, hf, h1⟩ := pillowSegment_path dpmm g (hg g (by simp))
    obtain ⟨f2, traces, hfs, h2⟩ := ih (fun g h => hg g (by simp [h]))
    refine ⟨max f1 f2, trace :: traces, .cons hf hfs, fun more hm points => ?_⟩
    obtain ⟨pts, e1, p1⟩ := h1 more (le_trans (le_max_left _ _) hm) points
    obtain ⟨pts', e2, p2⟩ := h2 more (le_trans (le_max_right _ _) hm) pts
    refine ⟨pts', ?_, ?_⟩
    · simp only [pillowLoop, e1, bind, Except.bind, e2]
    · refine p2.trans ?_
      simpa using SamePath_append_right p1 traces.flatten

/-- **C54** (partial). The same for the Pillow backend, with steps of at most a twelfth of a turn and at most one pixel; the polygon is closed
by the image library. -/
theorem c54_pillow_outline_partial (s : Shape) (hs : ∀ g ∈ s.segments, NotClosed g) (dpmm : ℤ) :
    ∃ fuel traces, List.Forall₂ (fun g tr => Follows (2 * π / 12) g tr ∧ (0 < dpmm → Along (1 / dpmm) g tr)) s.segments traces ∧ ∀ more, fuel ≤ more → ∃ pts,
      pillowVertices dpmm more s = .ok pts ∧ SamePath pts traces.flatten := by
  obtain ⟨fuel, traces, hf, h⟩ := pillowLoop_path dpmm s.segments hs
  refine ⟨fuel, traces, hf, fun more hm => ?_⟩
  obtain ⟨pts, e, p⟩ := h more hm []
  exact ⟨pts, e, by simpa using p⟩

/-! ### Cases -/

/-- A quarter of a circle is covered by the hypotheses. -/
example : NotClosed (.arc ⟨⟨1, 0⟩, ⟨0, 1⟩, ⟨0, 0⟩, false⟩) := by
  refine ⟨?_, ?_, ?_⟩
  · intro h; have := congrArg Vec.x h; norm_num at this
  · unfold vlen; norm_num
  · intro h; have := congrArg Vec.x h; norm_num at this

/-- The sweep of three quarters of a circle, clockwise. -/
example : ∃ t, Sweep true ((⟨1, 0⟩ : Vec ℝ) - ⟨0, 0⟩) (⟨0, 1⟩ - ⟨0, 0⟩) t ∧ t < 2 * π := by
  have hp := pi_pos
  refine ⟨3 * π / 2, ⟨by positivity, by linarith, ?_, ?_⟩, by linarith⟩
  all_goals
    have h1 : cos (3 * π / 2) = 0 := by
      rw [show 3 * π / 2 = π / 2 + π by ring, cos_add_pi, cos_pi_div_two, neg_zero]
    have h2 : sin (3 * π / 2) = -1 := by
      rw [show 3 * π / 2 = π / 2 + π by ring, sin_add_pi, sin_pi_div_two]
    simp [turn, rotCcw, vlen, h1, h2]

/-- The default number of segments satisfies the hypothesis with `n = 24`. -/
example : ∀ l, (24 : ℤ) ≤ shapelyCount l := shapelyCount_ge

end Verif.Props.Arcs
