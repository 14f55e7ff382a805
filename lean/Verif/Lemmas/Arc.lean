import Verif.Lemmas.Geom

/-! Support function of an arc: the key lemma behind the bounding box property. -/

namespace Verif.Geom
open Verif.Spec Real

theorem normalized_of_unit {d : Vec ℝ} (hd : d.x ^ 2 + d.y ^ 2 = 1) : d.normalized = d := by
  have hne : ¬ (d.x = 0 ∧ d.y = 0) := by rintro ⟨h1, h2⟩; rw [h1, h2] at hd; norm_num at hd
  have hl : vlen d = 1 := by unfold vlen; rw [hd, sqrt_one]
  ext
  · rw [normalized_x hne, hl, div_one]
  · rw [normalized_y hne, hl, div_one]

theorem axisAngle_spec (a : Arc) (d : Vec ℝ) (hd : d.x ^ 2 + d.y ^ 2 = 1) :
    ∃ α, 0 ≤ α ∧ α ≤ 2 * π ∧ a.axisAngle d = degrees α ∧ turn a.clockwise α a.relStart.normalized = d := by
  obtain ⟨s, h0, h1, h2, h3⟩ := angleBetween_spec a.relStart d
  rw [normalized_of_unit hd] at h3
  obtain ⟨α, ha0, ha1, ha2, ha3⟩ : ∃ α, 0 ≤ α ∧ α < 2 * π ∧ pyMod (a.relStart.angleBetween d) 360 = degrees α ∧
      rotCcw (-α) a.relStart.normalized = d := by
    rcases h1.lt_or_eq with hlt | he
    · refine ⟨s, h0.le, hlt, ?_, h3⟩
      rw [h2, pyMod_of_mem (by norm_num) (degrees_nonneg.mpr h0.le)]
      rw [← degrees_two_pi]; exact degrees_lt.mpr hlt
    · refine ⟨0, le_refl _, by positivity, ?_, ?_⟩
      · rw [h2, he, degrees_two_pi, pyMod_self (by norm_num)]; unfold degrees; simp
      · rw [he] at h3
        rw [← h3, ← rotCcw_neg_two_pi (-0)]; congr 1; ring
  unfold Arc.axisAngle turn
  simp only [ha2]
  cases a.clockwise
  · refine ⟨2 * π - α, by linarith, by linarith, ?_, ?_⟩
    · simp only [Bool.false_eq_true, if_false]
      rw [degrees_sub, degrees_two_pi]
    · simp only [Bool.false_eq_true, if_false]
      rw [← ha3, ← rotCcw_neg_two_pi]; congr 1; ring
  · exact ⟨α, ha0, ha1.le, by simp, by simpa using ha3⟩

theorem totalAngle_spec (a : Arc) (t : ℝ) (hu : ¬ (a.relStart.x = 0 ∧ a.relStart.y = 0))
    (hv : ¬ (a.relStop.x = 0 ∧ a.relStop.y = 0)) (hs : Sweep a.clockwise a.relStart a.relStop t)
    (hfull : a.clockwise = true ∨ t < 2 * π) : a.totalAngle = degrees t := by
  have hn := sweep_normalized hu hv hs
  obtain ⟨h0, h1, -, -⟩ := hs
  unfold Arc.totalAngle
  cases hc : a.clockwise
  · rw [hc] at hn hfull
    have hlt : t < 2 * π := by simpa using hfull
    obtain ⟨s, s0, s1, s2, s3⟩ := angleBetweenCc_spec a.relStart a.relStop
    simp only [Bool.false_eq_true, if_false, Vec.angleBetween, s2, sub_sub_cancel]
    congr 1
    rcases s0.lt_or_eq with hpos | hz
    · exact sweep_unique (cw := false) (normalized_unit a.relStart) hpos s1.le h0 h1 (by
        rw [hn]; simpa [turn] using s3)
    · exfalso
      have e : turn false (2 * π) a.relStart.normalized = turn false t a.relStart.normalized := by
        rw [hn, ← s3, ← hz]
        unfold turn rotCcw; simp
      have := sweep_unique (normalized_unit a.relStart) (by positivity) (le_refl _) h0 h1 e
      linarith
  · rw [hc] at hn
    obtain ⟨s, s0, s1, s2, s3⟩ := angleBetween_spec a.relStart a.relStop
    simp only [if_true, s2]
    congr 1
    exact sweep_unique (cw := true) (normalized_unit a.relStart) s0 s1 h0 h1 (by
        rw [hn]; simpa [turn] using s3)

theorem turn_dot {n d : Vec ℝ} (hn : n.x ^ 2 + n.y ^ 2 = 1) {cw : Bool} {α : ℝ} (h : turn cw α n = d) (τ : ℝ) :
    (turn cw τ n).x * d.x + (turn cw τ n).y * d.y = cos (α - τ) := by
  rw [← h]
  unfold turn rotCcw
  cases cw
  · simp only [Bool.false_eq_true, if_false, cos_sub]
    linear_combination (cos α * cos τ + sin α * sin τ) * hn
  · simp only [if_true, cos_sub, cos_neg, sin_neg]
    linear_combination (cos α * cos τ + sin α * sin τ) * hn

/-- In every axis direction the arc does not reach further than one of the candidate points. -/
theorem arc_support (a : Arc) (t : ℝ) (hvalid : vlen a.relStart = vlen a.relStop)
    (hu : ¬ (a.relStart.x = 0 ∧ a.relStart.y = 0))
    (hs : Sweep a.clockwise a.relStart a.relStop t) (hfull : a.clockwise = true ∨ t < 2 * π)
    (τ : ℝ) (h0 : 0 ≤ τ) (h1 : τ ≤ t) (d : Vec ℝ) (hd : d.x ^ 2 + d.y ^ 2 = 1) :
    ∃ c : Vec ℝ, (c = a.relStart ∨ c = a.relStop ∨
        (a.axisAngle d < a.totalAngle ∧ c = d.scale a.radius)) ∧
      (turn a.clockwise τ a.relStart).x * d.x + (turn a.clockwise τ a.relStart).y * d.y ≤ c.x * d.x + c.y * d.y := by
  have hr : 0 < vlen a.relStart := vlen_pos hu
  have hv : ¬ (a.relStop.x = 0 ∧ a.relStop.y = 0) := by
    rintro ⟨hx, hy⟩
    rw [hvalid] at hr
    unfold vlen at hr
    rw [hx, hy] at hr
    simp at hr
  have htot := totalAngle_spec a t hu hv hs hfull
  obtain ⟨α, a0, a1, a2, a3⟩ := axisAngle_spec a d hd
  have hn := normalized_unit a.relStart
  obtain ⟨ux, uy⟩ := scale_norm hu
  obtain ⟨vx, vy⟩ := scale_norm hv
  obtain ⟨tx, ty⟩ := turn_scale a.clockwise τ _ _ _ ux uy
  have hdot := turn_dot hn a3 τ
  have hlhs : (turn a.clockwise τ a.relStart).x * d.x + (turn a.clockwise τ a.relStart).y * d.y
      = cos (α - τ) * vlen a.relStart := by
    rw [tx, ty, ← hdot]; ring
  rw [hlhs]
  by_cases hlt : α < t
  · refine ⟨d.scale a.radius, Or.inr (Or.inr ⟨?_, rfl⟩), ?_⟩
    · rw [a2, htot]; exact degrees_lt.mpr hlt
    · have : (d.scale a.radius).x * d.x + (d.scale a.radius).y * d.y = vlen a.relStart := by
        unfold Vec.scale Arc.radius
        rw [length_eq_norm]
        simp only
        linear_combination vlen a.relStart * hd
      rw [this]
      have := cos_le_one (α - τ)
      nlinarith
  · push Not at hlt
    have hmax := cos_le_max (a := α - t) (b := α) (w := α - τ) (by linarith) a1 (by linarith) (by linarith)
    rcases le_max_iff.mp hmax with h | h
    · refine ⟨a.relStop, Or.inr (Or.inl rfl), ?_⟩
      have e := turn_dot hn a3 t
      rw [sweep_normalized hu hv hs] at e
      rw [vx, vy, ← hvalid]
      have : a.relStop.normalized.x * vlen a.relStart * d.x + a.relStop.normalized.y * vlen a.relStart * d.y
          = cos (α - t) * vlen a.relStart := by rw [← e]; ring
      rw [this]
      exact mul_le_mul_of_nonneg_right h hr.le
    · refine ⟨a.relStart, Or.inl rfl, ?_⟩
      have e := turn_dot hn a3 0
      have e0 : turn a.clockwise 0 a.relStart.normalized = a.relStart.normalized := by
        unfold turn rotCcw; simp
      rw [e0, sub_zero] at e
      have : a.relStart.x * d.x + a.relStart.y * d.y = cos α * vlen a.relStart := by
        rw [← e]
        conv_lhs => rw [ux, uy]
        ring
      rw [this]
      exact mul_le_mul_of_nonneg_right h hr.le

theorem mem_candidates (a : Arc) (c : Vec ℝ) (d : Vec ℝ)
    (hd : d = Vec.unitX ∨ d = -Vec.unitY ∨ d = -Vec.unitX ∨ d = Vec.unitY)
    (h : c = a.relStart ∨ c = a.relStop ∨ (a.axisAngle d < a.totalAngle ∧ c = d.scale a.radius)) :
    c ∈ a.candidates := by
  unfold Arc.candidates
  rcases h with h | h | ⟨h1, h2⟩
  · simp [h]
  · simp [h]
  · rcases hd with rfl | rfl | rfl | rfl
    · have : c = ⟨a.radius, 0⟩ := by rw [h2]; ext <;> simp [Vec.scale, Vec.unitX]
      simp [h1, this]
    · have : c = ⟨0, -a.radius⟩ := by rw [h2]; ext <;> simp [Vec.scale, Vec.unitY]
      simp [h1, this]
    · have : c = ⟨-a.radius, 0⟩ := by rw [h2]; ext <;> simp [Vec.scale, Vec.unitX]
      simp [h1, this]
    · have : c = ⟨0, a.radius⟩ := by rw [h2]; ext <;> simp [Vec.scale, Vec.unitY]
      simp [h1, this]

theorem candidates_cases (a : Arc) (c : Vec ℝ) (h : c ∈ a.candidates) :
    c = a.relStart ∨ c = a.relStop ∨ ∃ d : Vec ℝ, d.x ^ 2 + d.y ^ 2 = 1 ∧ a.axisAngle d < a.totalAngle ∧
      c = d.scale a.radius := by
  unfold Arc.candidates at h
  simp only [List.mem_append, List.mem_cons, List.not_mem_nil, or_false] at h
  rcases h with ((((h | h) | h) | h) | h) | h
  · exact Or.inl h
  · exact Or.inr (Or.inl h)
  · split_ifs at h with hc
    · exact Or.inr (Or.inr ⟨Vec.unitX, by simp [Vec.unitX], hc, by
        rw [List.mem_singleton.mp h]; ext <;> simp [Vec.scale, Vec.unitX]⟩)
    · simp at h
  · split_ifs at h with hc
    · exact Or.inr (Or.inr ⟨-Vec.unitY, by simp [Vec.unitY], hc, by
        rw [List.mem_singleton.mp h]; ext <;> simp [Vec.scale, Vec.unitY]⟩)
    · simp at h
  · split_ifs at h with hc
    · exact Or.inr (Or.inr ⟨-Vec.unitX, by simp [Vec.unitX], hc, by
        rw [List.mem_singleton.mp h]; ext <;> simp [Vec.scale, Vec.unitX]⟩)
    · simp at h
  · split_ifs at h with hc
    · exact Or.inr (Or.inr ⟨Vec.unitY, by simp [Vec.unitY], hc, by
        rw [List.mem_singleton.mp h]; ext <;> simp [Vec.scale, Vec.unitY]⟩)
    · simp at h

theorem inBox_candidate (a : Arc) (c : Vec ℝ) (h : c ∈ a.candidates) : InBox (c + a.center) a.outerBox :=
  inBox_fromVectors _ _ _ (Or.inr (List.mem_map.mpr ⟨c, h, rfl⟩))

theorem inBox_center (a : Arc) : InBox a.center a.outerBox := by
  have h : (⟨0, 0⟩ : Vec ℝ) + a.center = a.center := by ext <;> simp
  have := inBox_fromVectors ((⟨0, 0⟩ : Vec ℝ) + a.center) (a.candidates.map (· + a.center)) a.center (Or.inl h.symm)
  exact this

/-- Every point of a valid arc lies in the computed box. -/
theorem arc_inBox (a : Arc) (t : ℝ) (hvalid : vlen a.relStart = vlen a.relStop)
    (hs : Sweep a.clockwise a.relStart a.relStop t) (hfull : a.clockwise = true ∨ t < 2 * π)
    (p : Vec ℝ) (hp : OnArc a.start a.center a.clockwise t p) : InBox p a.outerBox := by
  obtain ⟨τ, h0, h1, rfl⟩ := hp
  have hrel : a.start - a.center = a.relStart := rfl
  rw [hrel]
  by_cases hu : a.relStart.x = 0 ∧ a.relStart.y = 0
  · have : a.center + turn a.clockwise τ a.relStart = a.center := by
      ext <;> simp [turn, rotCcw, hu.1, hu.2]
    rw [this]; exact inBox_center a
  · have key := arc_support a t hvalid hu hs hfull τ h0 h1
    refine ⟨?_, ?_, ?_, ?_⟩
    · obtain ⟨c, hc, hle⟩ := key (-Vec.unitX) (by simp [Vec.unitX])
      have := (inBox_candidate a c (mem_candidates a c _ (by simp) hc)).1
      simp [Vec.unitX] at hle this ⊢
      linarith
    · obtain ⟨c, hc, hle⟩ := key Vec.unitX (by simp [Vec.unitX])
      have := (inBox_candidate a c (mem_candidates a c _ (by simp) hc)).2.1
      simp [Vec.unitX] at hle this ⊢
      linarith
    · obtain ⟨c, hc, hle⟩ := key (-Vec.unitY) (by simp [Vec.unitY])
      have := (inBox_candidate a c (mem_candidates a c _ (by simp) hc)).2.2.1
      simp [Vec.unitY] at hle this ⊢
      linarith
    · obtain ⟨c, hc, hle⟩ := key Vec.unitY (by simp [Vec.unitY])
      have := (inBox_candidate a c (mem_candidates a c _ (by simp) hc)).2.2.2
      simp [Vec.unitY] at hle this ⊢
      linarith

/-- The computed box is the least one containing the centre and every point of the arc. -/
theorem arc_box_least (a : Arc) (t : ℝ) (hvalid : vlen a.relStart = vlen a.relStop)
    (hs : Sweep a.clockwise a.relStart a.relStop t) (hfull : a.clockwise = true ∨ t < 2 * π)
    (b : Box ℝ) (hc : InBox a.center b) (hb : ∀ p, OnArc a.start a.center a.clockwise t p → InBox p b) :
    BoxIn a.outerBox b := by
  have hrel : a.start - a.center = a.relStart := rfl
  have hadd : ∀ v : Vec ℝ, v + a.center = a.center + v := fun v => by ext <;> simp [add_comm]
  apply fromVectors_le
  rintro p (rfl | hp)
  · have : (⟨0, 0⟩ : Vec ℝ) + a.center = a.center := by ext <;> simp
    rw [this]; exact hc
  · obtain ⟨c, hmem, rfl⟩ := List.mem_map.mp hp
    by_cases hu : a.relStart.x = 0 ∧ a.relStart.y = 0
    · have hz : vlen a.relStart = 0 := by unfold vlen; simp [hu.1, hu.2]
      have hv := vlen_eq_zero (hvalid ▸ hz : vlen a.relStop = 0)
      have : c = ⟨0, 0⟩ := by
        rcases candidates_cases a c hmem with h | h | ⟨d, -, -, h⟩
        · rw [h]; ext; exacts [hu.1, hu.2]
        · rw [h]; ext; exacts [hv.1, hv.2]
        · rw [h]; unfold Vec.scale Arc.radius; rw [length_eq_norm, hz]; simp
      rw [this]
      have : (⟨0, 0⟩ : Vec ℝ) + a.center = a.center := by ext <;> simp
      simp only [this]; exact hc
    · have hr : 0 < vlen a.relStart := vlen_pos hu
      have hv : ¬ (a.relStop.x = 0 ∧ a.relStop.y = 0) := by
        rintro ⟨hx, hy⟩
        rw [hvalid] at hr
        unfold vlen at hr
        rw [hx, hy] at hr
        simp at hr
      apply hb
      rcases candidates_cases a c hmem with h | h | ⟨d, hd, hlt, h⟩
      · exact ⟨0, le_refl _, hs.1.le, by rw [hrel, hadd, h]; congr 1; unfold turn rotCcw; ext <;> simp⟩
      · refine ⟨t, hs.1.le, le_refl _, ?_⟩
        rw [hrel, hadd, h]
        congr 1
        obtain ⟨-, -, hx, hy⟩ := hs
        rw [← hvalid] at hx hy
        ext
        · exact (mul_right_cancel₀ hr.ne' hx).symm
        · exact (mul_right_cancel₀ hr.ne' hy).symm
      · obtain ⟨α, a0, a1, a2, a3⟩ := axisAngle_spec a d hd
        have htot := totalAngle_spec a t hu hv hs hfull
        rw [a2, htot, degrees_lt] at hlt
        refine ⟨α, a0, hlt.le, ?_⟩
        rw [hrel, hadd, h]
        congr 1
        obtain ⟨ux, uy⟩ := scale_norm hu
        obtain ⟨tx, ty⟩ := turn_scale a.clockwise α _ _ _ ux uy
        ext
        · rw [tx, a3]; simp [Vec.scale, Arc.radius, length_eq_norm]
        · rw [ty, a3]; simp [Vec.scale, Arc.radius, length_eq_norm]

end Verif.Geom
