import Verif.Lemmas.ShapeArea

/-!
# The area of a thick arc
-/

namespace Verif.Lemmas.ArcArea
open Verif.Geom Verif.Spec Verif.Rvmc Verif.Compiler Verif.Props.Shapes Verif.Sim Verif.Lemmas.ShapeArea Real

/-- The point at distance `k` and angle `a` from the origin. -/
noncomputable def pol (k a : ℝ) : Vec ℝ := ⟨k * cos a, k * sin a⟩

theorem rot_pol (t k a : ℝ) : rotCcw t (pol k a) = pol k (a + t) := by
  ext <;> simp only [rotCcw, pol, cos_add, sin_add] <;> ring

theorem nsq_pol (k a : ℝ) : nsq (pol k a) = k ^ 2 := by
  have := sin_sq_add_cos_sq a
  simp only [nsq, pol]
  linear_combination k ^ 2 * this

theorem vlen_pol {k : ℝ} (hk : 0 ≤ k) (a : ℝ) : vlen (pol k a) = k := by
  have : vlen (pol k a) = √ (nsq (pol k a)) := rfl
  rw [this, nsq_pol, sqrt_sq hk]

theorem pol_two_pi (k a : ℝ) : pol k (a + 2 * π) = pol k a := by
  ext <;> simp [pol]

/-- Polar coordinates, with angles from `a` on. -/
theorem exists_pol (w : Vec ℝ) (a : ℝ) : ∃ k t, 0 ≤ k ∧ 0 ≤ t ∧ t < 2 * π ∧ w = pol k (a + t) := by
  have hk : 0 ≤ vlen w := sqrt_nonneg _
  have h : nsq (pol (vlen w) a) = nsq w := by
    rw [nsq_pol]
    exact sq_sqrt (by positivity)
  obtain ⟨t, t0, t1, ht⟩ := exists_angle h
  exact ⟨vlen w, t, hk, t0, t1, by rw [← rot_pol, ht]⟩

theorem add_sub_cancel_left' (c v : Vec ℝ) : c + v - c = v := by ext <;> simp

theorem cross_pol (k l a b : ℝ) : cross (pol k a) (pol l b) = k * l * sin (b - a) := by
  simp only [cross, pol, sin_sub]; ring

/-- Not positive just on the directions from angle `a` to angle `a + θ`, zero just at the ends. -/
noncomputable def wedge (a θ : ℝ) (w : Vec ℝ) : ℝ :=
  if θ ≤ π then max (-cross (pol 1 a) w) (-cross w (pol 1 (a + θ)))
  else min (-cross (pol 1 a) w) (-cross w (pol 1 (a + θ)))

theorem wedge_pol {a θ k t : ℝ} (hk : 0 ≤ k) : wedge a θ (pol k (a + t)) =
    k * (if θ ≤ π then max (-sin t) (-sin (θ - t)) else min (-sin t) (-sin (θ - t))) := by
  have e1 : cross (pol 1 a) (pol k (a + t)) = k * sin t := by rw [cross_pol]; ring_nf
  have e2 : cross (pol k (a + t)) (pol 1 (a + θ)) = k * sin (θ - t) := by
    rw [cross_pol, show a + θ - (a + t) = θ - t by ring, mul_one]
  unfold wedge
  rw [e1, e2]
  split
  · rw [mul_max_of_nonneg _ _ hk]; ring_nf
  · rw [mul_min_of_nonneg _ _ hk]; ring_nf

theorem angle_nonpos {θ t : ℝ} (h0 : 0 < θ) (h1 : θ < 2 * π) (t0 : 0 ≤ t) (t1 : t < 2 * π) :
    (if θ ≤ π then max (-sin t) (-sin (θ - t)) else min (-sin t) (-sin (θ - t))) ≤ 0 ↔ t ≤ θ := by
  have hp := pi_pos
  have hpos : ∀ x, 0 ≤ x → x ≤ π → 0 ≤ sin x := fun x a b => sin_nonneg_of_nonneg_of_le_pi a b
  have hneg : ∀ x, π < x → x < 2 * π → sin x < 0 := by
    intro x a b
    have := sin_pos_of_pos_of_lt_pi (x := x - π) (by linarith) (by linarith)
    rw [sin_sub_pi] at this
    linarith
  have hneg' : ∀ x, -π < x → x < 0 → sin x < 0 := fun x a b => sin_neg_of_neg_of_neg_pi_lt b a
  split
  · rename_i hθ
    rw [max_le_iff, neg_nonpos, neg_nonpos]
    constructor
    · rintro ⟨a, b⟩
      by_contra hc
      push Not at hc
      rcases le_or_gt t π with h | h
      · have := hneg' (θ - t) (by linarith) (by linarith); linarith
      · have := hneg t h t1; linarith
    · intro h
      exact ⟨hpos _ t0 (by linarith), hpos _ (by linarith) (by linarith)⟩
  · rename_i hθ
    push Not at hθ
    rw [min_le_iff, neg_nonpos, neg_nonpos]
    constructor
    · intro h
      by_contra hc
      push Not at hc
      have e1 := hneg t (by linarith) t1
      have e2 := hneg' (θ - t) (by linarith) (by linarith)
      rcases h with h | h <;> linarith
    · intro h
      rcases le_or_gt t π with h' | h'
      · exact .inl (hpos _ t0 h')
      · exact .inr (hpos _ (by linarith) (by linarith))

theorem sin_zero_cases {x : ℝ} (h0 : 0 ≤ x) (h1 : x < 2 * π) (h : sin x = 0) : x = 0 ∨ x = π := by
  have hp := pi_pos
  rcases eq_or_lt_of_le h0 with h0 | h0
  · exact .inl h0.symm
  rcases lt_trichotomy x π with h2 | h2 | h2
  · exact absurd h (sin_pos_of_pos_of_lt_pi h0 h2).ne'
  · exact .inr h2
  · have := sin_pos_of_pos_of_lt_pi (x := x - π) (by linarith) (by linarith)
    rw [sin_sub_pi] at this
    linarith

theorem angle_zero {θ t : ℝ} (h0 : 0 < θ) (h1 : θ < 2 * π) (t0 : 0 ≤ t) (t1 : t < 2 * π)
    (h : (if θ ≤ π then max (-sin t) (-sin (θ - t)) else min (-sin t) (-sin (θ - t))) = 0) : t = 0 ∨ t = θ := by
  have hp := pi_pos
  have hle := (angle_nonpos h0 h1 t0 t1).1 h.le
  split at h
  · rename_i hθ
    rcases max_choice (-sin t) (-sin (θ - t)) with hm | hm <;> rw [hm, neg_eq_zero] at h
    · rcases sin_zero_cases t0 t1 h with h | h
      · exact .inl h
      · exact .inr (by linarith)
    · rcases sin_zero_cases (by linarith) (by linarith) h with h | h
      · exact .inr (by linarith)
      · exact .inl (by linarith)
  · rename_i hθ
    push Not at hθ
    have hm' := h
    rcases min_choice (-sin t) (-sin (θ - t)) with hm | hm <;> rw [hm, neg_eq_zero] at h
    · rcases sin_zero_cases t0 t1 h with h | h
      · exact .inl h
      · exfalso
        have := sin_pos_of_pos_of_lt_pi (x := θ - t) (by linarith) (by linarith)
        have := min_le_right (-sin t) (-sin (θ - t))
        linarith
    · rcases sin_zero_cases (by linarith) (by linarith) h with h | h
      · exact .inr (by linarith)
      · exfalso
        have := sin_pos_of_pos_of_lt_pi (x := t) (by linarith) (by linarith)
        have := min_le_left (-sin t) (-sin (θ - t))
        linarith

/-- A point from which a path to the far away avoids the curve is not surrounded: here a path to `c` and then along a
ray. -/
theorem not_surrounded_via {curve : Vec ℝ → Prop} {p c u : Vec ℝ} (hu : u ≠ ⟨0, 0⟩)
    (h1 : ∀ t : ℝ, 0 ≤ t → t ≤ 1 → ¬ curve ⟨c.x + t * (p.x - c.x), c.y + t * (p.y - c.y)⟩)
    (h2 : ∀ t : ℝ, 0 ≤ t → ¬ curve ⟨c.x + t * u.x, c.y + t * u.y⟩) : p ∉ Surrounded curve := by
  rintro ⟨r, hr⟩
  have key := hr (fun t => ⟨c.x + (max 0 (1 - |t|) * (p.x - c.x) + max 0 (|t| - 1) * u.x),
      c.y + (max 0 (1 - |t|) * (p.y - c.y) + max 0 (|t| - 1) * u.y)⟩)
    (by fun_prop) (by fun_prop) (by ext <;> simp) (fun t => by
      have := abs_nonneg t
      rcases le_total |t| 1 with ht | ht
      · rw [max_eq_right (by linarith : (0 : ℝ) ≤ 1 - |t|), max_eq_left (by linarith : |t| - 1 ≤ 0)]
        simpa using h1 (1 - |t|) (by linarith) (by linarith)
      · rw [max_eq_left (by linarith : 1 - |t| ≤ 0), max_eq_right (by linarith : 0 ≤ |t| - 1)]
        simpa using h2 (|t| - 1) (by linarith))
  have hu' : u.x ≠ 0 ∨ u.y ≠ 0 := by
    by_contra hn
    push Not at hn
    exact hu (by ext <;> simp [hn.1, hn.2])
  have big : ∀ (a b : ℝ), b ≠ 0 → ∃ t : ℝ, 1 ≤ t ∧ r < |a + (t - 1) * b| := by
    intro a b hb
    have hb' := abs_pos.2 hb
    refine ⟨1 + (|r| + |a| + 1) / |b|, by have : 0 ≤ (|r| + |a| + 1) / |b| := by positivity
                                          linarith, ?_⟩
    have e1 : |(1 + (|r| + |a| + 1) / |b| - 1) * b| = |r| + |a| + 1 := by
      rw [add_sub_cancel_left, abs_mul, abs_div, abs_abs, div_mul_cancel₀ _ hb'.ne', abs_of_nonneg (by positivity)]
    have e2 := abs_sub_abs_le_abs_sub ((1 + (|r| + |a| + 1) / |b| - 1) * b) (-a)
    rw [e1, abs_neg, sub_neg_eq_add, add_comm _ a] at e2
    have := le_abs_self r
    linarith
  rcases hu' with hx | hy
  · obtain ⟨t, t1, ht⟩ := big c.x u.x hx
    have := (key t).1
    rw [abs_of_nonneg (by linarith : 0 ≤ t)] at this
    simp only [max_eq_left (by linarith : 1 - t ≤ 0), max_eq_right (by linarith : 0 ≤ t - 1), zero_mul, zero_add] at this
    linarith
  · obtain ⟨t, t1, ht⟩ := big c.y u.y hy
    have := (key t).2
    rw [abs_of_nonneg (by linarith : 0 ≤ t)] at this
    simp only [max_eq_left (by linarith : 1 - t ≤ 0), max_eq_right (by linarith : 0 ≤ t - 1), zero_mul, zero_add] at this
    linarith

/-- The area of a curve that is the zero set of a continuous function, negative only within bounds. -/
theorem surrounded_iff {curve : Vec ℝ → Prop} {φ : Vec ℝ → ℝ} (hφ : Continuous fun q : ℝ × ℝ => φ ⟨q.1, q.2⟩)
    (h0 : ∀ p, φ p = 0 → curve p) (hb : ∃ r, ∀ p, φ p ≤ 0 → |p.x| ≤ r ∧ |p.y| ≤ r)
    (hesc : ∀ p, 0 < φ p → p ∉ Surrounded curve) (p : Vec ℝ) : p ∈ Surrounded curve ↔ φ p ≤ 0 := by
  constructor
  · intro hp
    by_contra hn
    exact hesc p (not_le.1 hn) hp
  · intro hp
    obtain ⟨r, hr⟩ := hb
    refine ⟨r, fun path hx hy e0 hc t => hr _ ?_⟩
    by_contra hn
    push Not at hn
    have hcont : Continuous fun t => φ (path t) := hφ.comp (hx.prodMk hy)
    obtain ⟨s, hs⟩ := mem_range_of_exists_le_of_exists_ge hcont ⟨0, by rw [e0]; exact hp⟩ ⟨t, hn.le⟩
    exact hc s (h0 _ hs)

/-- The outline of a sector of a ring encloses the sector. -/
theorem sector_area {curve : Vec ℝ → Prop} {c : Vec ℝ} {R K a θ : ℝ} (hK : 0 ≤ K) (hR : K ≤ R) (h0 : 0 < θ)
    (h1 : θ < 2 * π)
    (hc : ∀ q, curve q ↔ (∃ t, 0 ≤ t ∧ t ≤ θ ∧ (q = c + pol R (a + t) ∨ q = c + pol K (a + t))) ∨
      ∃ k, K ≤ k ∧ k ≤ R ∧ (q = c + pol k a ∨ q = c + pol k (a + θ))) (p : Vec ℝ) :
    p ∈ Surrounded curve ↔ ∃ k t, K ≤ k ∧ k ≤ R ∧ 0 ≤ t ∧ t ≤ θ ∧ p = c + pol k (a + t) := by
  set φ : Vec ℝ → ℝ := fun q => max (max (nsq (q - c) - R ^ 2) (K ^ 2 - nsq (q - c))) (wedge a θ (q - c)) with hφd
  have hadd : ∀ v : Vec ℝ, c + v - c = v := fun v => by ext <;> simp
  have hsub : ∀ q : Vec ℝ, q = c + (q - c) := fun q => by ext <;> simp
  -- in polar coordinates
  have val : ∀ k t, 0 ≤ k → φ (c + pol k (a + t)) = max (max (k ^ 2 - R ^ 2) (K ^ 2 - k ^ 2))
      (k * (if θ ≤ π then max (-sin t) (-sin (θ - t)) else min (-sin t) (-sin (θ - t)))) := by
    intro k t hk
    rw [hφd]; simp only [hadd, nsq_pol, wedge_pol hk]
  have hin : ∀ k t, 0 ≤ k → 0 ≤ t → t < 2 * π → (φ (c + pol k (a + t)) ≤ 0 ↔ K ≤ k ∧ k ≤ R ∧ (k = 0 ∨ t ≤ θ)) := by
    intro k t hk t0 t1
    rw [val k t hk, max_le_iff, max_le_iff, sub_nonpos, sub_nonpos]
    have e1 : k ^ 2 ≤ R ^ 2 ↔ k ≤ R := by
      constructor
      · intro h; nlinarith
      · intro h; nlinarith
    have e2 : K ^ 2 ≤ k ^ 2 ↔ K ≤ k := by
      constructor
      · intro h; nlinarith
      · intro h; nlinarith
    rw [e1, e2]
    rcases eq_or_lt_of_le hk with hz | hz
    · rw [← hz]; simp; tauto
    · rw [← angle_nonpos h0 h1 t0 t1, mul_nonpos_iff]
      constructor
      · rintro ⟨⟨h2, h3⟩, ⟨_, h4⟩ | ⟨h4, _⟩⟩
        · exact ⟨h3, h2, .inr h4⟩
        · linarith
      · rintro ⟨h3, h2, h4 | h4⟩
        · linarith
        · exact ⟨⟨h2, h3⟩, .inl ⟨hk, h4⟩⟩
  have hcurve : ∀ q, curve q → φ q ≤ 0 := by
    intro q hq
    rcases (hc q).1 hq with ⟨t, t0, t1, rfl | rfl⟩ | ⟨k, k0, k1, rfl | rfl⟩
    · exact (hin _ _ (by linarith) t0 (by linarith)).2 ⟨hR, le_refl _, .inr t1⟩
    · exact (hin _ _ hK t0 (by linarith)).2 ⟨le_refl _, hR, .inr t1⟩
    · have := (hin k 0 (by linarith) (le_refl _) (by linarith)).2 ⟨k0, k1, .inr h0.le⟩
      rwa [add_zero] at this
    · exact (hin k θ (by linarith) h0.le h1).2 ⟨k0, k1, .inr (le_refl _)⟩
  rw [surrounded_iff (φ := φ)]
  · constructor
    · intro hp
      obtain ⟨k, t, hk, t0, t1, hw⟩ := exists_pol (p - c) a
      rw [hsub p, hw] at hp
      obtain ⟨e1, e2, e3⟩ := (hin k t hk t0 t1).1 hp
      rcases e3 with e3 | e3
      · refine ⟨k, 0, e1, e2, le_refl _, h0.le, ?_⟩
        rw [hsub p, hw, e3]; simp [pol]
      · exact ⟨k, t, e1, e2, t0, e3, by rw [← hw]; exact hsub p⟩
    · rintro ⟨k, t, e1, e2, t0, e3, rfl⟩
      exact (hin k t (by linarith) t0 (by linarith)).2 ⟨e1, e2, .inr e3⟩
  · have hw : Continuous fun q : ℝ × ℝ => wedge a θ (⟨q.1, q.2⟩ - c) := by
      unfold wedge cross
      split <;> simp only [Vec.sub_x, Vec.sub_y] <;> fun_prop
    rw [hφd]
    simp only [nsq, Vec.sub_x, Vec.sub_y]
    fun_prop
  · intro q hq
    obtain ⟨k, t, hk, t0, t1, hw⟩ := exists_pol (q - c) a
    rw [hsub q, hw] at hq ⊢
    obtain ⟨e1, e2, e3⟩ := (hin k t hk t0 t1).1 hq.le
    rw [val k t hk] at hq
    rw [hc]
    rcases e3 with e3 | e3
    · subst e3
      exact .inr ⟨0, e1, e2, .inl (by simp [pol])⟩
    rcases max_choice (max (k ^ 2 - R ^ 2) (K ^ 2 - k ^ 2))
      (k * (if θ ≤ π then max (-sin t) (-sin (θ - t)) else min (-sin t) (-sin (θ - t)))) with hm | hm
    · rw [hm] at hq
      left
      rcases max_choice (k ^ 2 - R ^ 2) (K ^ 2 - k ^ 2) with hm | hm <;> rw [hm] at hq
      · have : k = R := by nlinarith
        exact ⟨t, t0, e3, .inl (by rw [this])⟩
      · have : k = K := by nlinarith
        exact ⟨t, t0, e3, .inr (by rw [this])⟩
    · rw [hm] at hq
      right
      rcases mul_eq_zero.1 hq with hz | hz
      · subst hz
        exact ⟨0, e1, e2, .inl (by simp [pol])⟩
      · rcases angle_zero h0 h1 t0 t1 hz with rfl | rfl
        · exact ⟨k, e1, e2, .inl (by rw [add_zero])⟩
        · exact ⟨k, e1, e2, .inr rfl⟩
  · refine ⟨R + |c.x| + |c.y|, fun q hq => ?_⟩
    obtain ⟨k, t, hk, t0, t1, hw⟩ := exists_pol (q - c) a
    rw [hsub q, hw] at hq ⊢
    obtain ⟨e1, e2, e3⟩ := (hin k t hk t0 t1).1 hq
    have b : ∀ y : ℝ, |y| ≤ 1 → |k * y| ≤ R := by
      intro y hy
      rw [abs_mul, abs_of_nonneg hk]
      nlinarith [abs_nonneg y]
    have b1 := b _ (abs_cos_le_one (a + t))
    have b2 := b _ (abs_sin_le_one (a + t))
    constructor
    · have := abs_add_le c.x (k * cos (a + t))
      have := abs_nonneg c.y
      simp only [Vec.add_x, pol]; linarith
    · have := abs_add_le c.y (k * sin (a + t))
      have := abs_nonneg c.x
      simp only [Vec.add_y, pol]; linarith
  · intro q hq
    obtain ⟨k, t, hk, t0, t1, hw⟩ := exists_pol (q - c) a
    have hqe : q = c + pol k (a + t) := by rw [← hw]; exact hsub q
    have hq' : ¬ (K ≤ k ∧ k ≤ R ∧ (k = 0 ∨ t ≤ θ)) := by
      rw [← hin k t hk t0 t1, ← hqe]; exact not_le.2 hq
    rcases lt_or_ge k K with hkK | hkK
    · -- through the middle and out by the gap
      apply not_surrounded_via (c := c) (u := pol 1 (a + (θ / 2 + π)))
      · intro h
        have := nsq_pol 1 (a + (θ / 2 + π))
        rw [h] at this; simp [nsq] at this
      · intro s s0 s1 hcv
        have e : (⟨c.x + s * (q.x - c.x), c.y + s * (q.y - c.y)⟩ : Vec ℝ) = c + pol (s * k) (a + t) := by
          rw [hqe]; ext <;> simp [pol] <;> ring
        rw [e] at hcv
        have := ((hin (s * k) t (by positivity) t0 t1).1 (hcurve _ hcv)).1
        nlinarith
      · intro s s0 hcv
        have e : (⟨c.x + s * (pol 1 (a + (θ / 2 + π))).x, c.y + s * (pol 1 (a + (θ / 2 + π))).y⟩ : Vec ℝ) =
            c + pol s (a + (θ / 2 + π)) := by ext <;> simp [pol]
        rw [e] at hcv
        obtain ⟨e1, e2, e3⟩ := (hin s (θ / 2 + π) s0 (by linarith [pi_pos]) (by linarith)).1 (hcurve _ hcv)
        rcases e3 with e3 | e3 <;> linarith
    · -- straight away from the middle
      have hkpos : 0 < k := by
        rcases eq_or_lt_of_le hk with hz | hz
        · exact absurd ⟨hkK, by linarith, .inl hz.symm⟩ hq'
        · exact hz
      apply not_surrounded (u := pol 1 (a + t))
      · intro h
        have := nsq_pol 1 (a + t)
        rw [h] at this; simp [nsq] at this
      · intro s s0 hcv
        have e : (⟨q.x + s * (pol 1 (a + t)).x, q.y + s * (pol 1 (a + t)).y⟩ : Vec ℝ) = c + pol (k + s) (a + t) := by
          rw [hqe]; ext <;> simp [pol] <;> ring
        rw [e] at hcv
        obtain ⟨e1, e2, e3⟩ := (hin (k + s) t (by linarith) t0 t1).1 (hcurve _ hcv)
        apply hq'
        refine ⟨hkK, by linarith, .inr ?_⟩
        rcases e3 with e3 | e3
        · linarith
        · exact e3

/-- The angle of a sweep is unique unless it is a whole turn or none. -/
theorem sweep_unique {k l a θ t : ℝ} (hk : 0 < k) (hl : 0 < l) (h0 : 0 < θ) (h1 : θ < 2 * π)
    (h : Sweep false (pol k a) (pol l (a + θ)) t) : t = θ := by
  obtain ⟨t0, t1, tx, ty⟩ := h
  simp only [turn, Bool.false_eq_true, if_false, rot_pol, vlen_pol hk.le, vlen_pol hl.le] at tx ty
  simp only [pol] at tx ty
  have hkl : k * l ≠ 0 := by positivity
  have ex : cos (a + t) = cos (a + θ) := by
    apply mul_left_cancel₀ hkl; linear_combination tx
  have ey : sin (a + t) = sin (a + θ) := by
    apply mul_left_cancel₀ hkl; linear_combination ty
  have : cos (t - θ) = 1 := by
    rw [show t - θ = (a + t) - (a + θ) by ring, cos_sub, ex, ey]
    have := sin_sq_add_cos_sq (a + θ)
    linear_combination this
  have := (cos_eq_one_iff_of_lt_of_lt (x := t - θ) (by linarith) (by linarith)).1 this
  linarith

/-- The points of the arc between two angles, drawn counter-clockwise. -/
theorem arc_ccw {c : Vec ℝ} {k a θ : ℝ} (hk : 0 ≤ k) (h0 : 0 < θ) (h1 : θ < 2 * π) (p : Vec ℝ) :
    OnPiece p (.arc ⟨c + pol k a, c + pol k (a + θ), c, false⟩) ↔ ∃ t, 0 ≤ t ∧ t ≤ θ ∧ p = c + pol k (a + t) := by
  have hadd : ∀ v : Vec ℝ, c + v - c = v := fun v => by ext <;> simp
  simp only [OnPiece, OnArc, hadd, turn, Bool.false_eq_true, if_false, rot_pol]
  constructor
  · rintro ⟨t, ht, τ, a0, a1, rfl⟩
    rcases eq_or_lt_of_le hk with hz | hz
    · exact ⟨0, le_refl _, h0.le, by rw [← hz]; simp [pol]⟩
    · rw [sweep_unique hz hz h0 h1 ht] at a1
      exact ⟨τ, a0, a1, rfl⟩
  · rintro ⟨t, t0, t1, rfl⟩
    refine ⟨θ, ⟨h0, h1.le, ?_, ?_⟩, t, t0, t1, rfl⟩ <;>
      simp [turn, rot_pol, vlen_pol hk]

theorem sweep_swap {k a θ t : ℝ} : Sweep true (pol k (a + θ)) (pol k a) t ↔ Sweep false (pol k a) (pol k (a + θ)) t := by
  simp only [Sweep, turn, Bool.false_eq_true, if_false, if_true, rot_pol]
  have hv : vlen (pol k (a + θ)) = vlen (pol k a) := by
    have : ∀ b, vlen (pol k b) = √ (nsq (pol k b)) := fun _ => rfl
    rw [this, this, nsq_pol, nsq_pol]
  rw [hv]
  have key : (pol k (a + θ + -t)).x * vlen (pol k a) = (pol k a).x * vlen (pol k a) ∧
      (pol k (a + θ + -t)).y * vlen (pol k a) = (pol k a).y * vlen (pol k a) ↔
      (pol k (a + t)).x * vlen (pol k a) = (pol k (a + θ)).x * vlen (pol k a) ∧
      (pol k (a + t)).y * vlen (pol k a) = (pol k (a + θ)).y * vlen (pol k a) := by
    by_cases hz : vlen (pol k a) = 0
    · simp [hz]
    · have hk : k ≠ 0 := by
        rintro rfl
        apply hz
        simp [vlen, pol]
      simp only [mul_left_inj' hz]
      simp only [pol, mul_right_inj' hk]
      have e : a + θ + -t = (a + θ) - t := by ring
      rw [e]
      constructor
      · rintro ⟨h1, h2⟩
        rw [cos_sub] at h1
        rw [sin_sub] at h2
        rw [cos_add a t, sin_add a t]
        have := sin_sq_add_cos_sq t
        constructor
        · rw [← h1, ← h2]; linear_combination cos (a + θ) * this
        · rw [← h1, ← h2]; linear_combination sin (a + θ) * this
      · rintro ⟨h1, h2⟩
        rw [cos_sub, sin_sub, ← h1, ← h2, cos_add a t, sin_add a t]
        have := sin_sq_add_cos_sq t
        constructor
        · linear_combination cos a * this
        · linear_combination sin a * this
  tauto

/-- The same arc drawn clockwise. -/
theorem arc_cw {c : Vec ℝ} {k a θ : ℝ} (hk : 0 ≤ k) (h0 : 0 < θ) (h1 : θ < 2 * π) (p : Vec ℝ) :
    OnPiece p (.arc ⟨c + pol k (a + θ), c + pol k a, c, true⟩) ↔ ∃ t, 0 ≤ t ∧ t ≤ θ ∧ p = c + pol k (a + t) := by
  have hadd : ∀ v : Vec ℝ, c + v - c = v := fun v => by ext <;> simp
  simp only [OnPiece, OnArc, hadd, sweep_swap]
  simp only [turn, if_true, rot_pol]
  constructor
  · rintro ⟨t, ht, τ, a0, a1, rfl⟩
    rcases eq_or_lt_of_le hk with hz | hz
    · exact ⟨0, le_refl _, h0.le, by rw [← hz]; simp [pol]⟩
    · rw [sweep_unique hz hz h0 h1 ht] at a1
      exact ⟨θ - τ, by linarith, by linarith, by rw [show a + θ + -τ = a + (θ - τ) by ring]⟩
  · rintro ⟨t, t0, t1, rfl⟩
    refine ⟨θ, ⟨h0, h1.le, ?_, ?_⟩, θ - t, by linarith, by linarith, ?_⟩
    · simp [turn, rot_pol, vlen_pol hk]
    · simp [turn, rot_pol, vlen_pol hk]
    · rw [show a + θ + -(θ - t) = a + t by ring]

theorem segment_pol {c : Vec ℝ} {k l a : ℝ} (h : k ≤ l) (p : Vec ℝ) :
    (OnSegment (c + pol k a) (c + pol l a) p ↔ ∃ m, k ≤ m ∧ m ≤ l ∧ p = c + pol m a) ∧
    (OnSegment (c + pol l a) (c + pol k a) p ↔ ∃ m, k ≤ m ∧ m ≤ l ∧ p = c + pol m a) := by
  constructor
  · constructor
    · rintro ⟨s, s0, s1, rfl⟩
      refine ⟨k + s * (l - k), by nlinarith, by nlinarith, ?_⟩
      ext <;> simp [pol] <;> ring
    · rintro ⟨m, m0, m1, rfl⟩
      rcases eq_or_lt_of_le h with hz | hz
      · have : m = k := by linarith
        exact ⟨0, le_refl _, zero_le_one, by rw [this]; ext <;> simp⟩
      · refine ⟨(m - k) / (l - k), div_nonneg (by linarith) (by linarith), (div_le_one (by linarith)).2 (by linarith), ?_⟩
        have : (m - k) / (l - k) * (l - k) = m - k := div_mul_cancel₀ _ (by linarith)
        ext
        · simp only [Vec.add_x, pol]; linear_combination -(cos a) * this
        · simp only [Vec.add_y, pol]; linear_combination -(sin a) * this
  · constructor
    · rintro ⟨s, s0, s1, rfl⟩
      refine ⟨l + s * (k - l), by nlinarith, by nlinarith, ?_⟩
      ext <;> simp [pol] <;> ring
    · rintro ⟨m, m0, m1, rfl⟩
      rcases eq_or_lt_of_le h with hz | hz
      · have : m = l := by linarith
        exact ⟨0, le_refl _, zero_le_one, by rw [this]; ext <;> simp⟩
      · refine ⟨(l - m) / (l - k), div_nonneg (by linarith) (by linarith), (div_le_one (by linarith)).2 (by linarith), ?_⟩
        have : (l - m) / (l - k) * (l - k) = l - m := div_mul_cancel₀ _ (by linarith)
        ext
        · simp only [Vec.add_x, pol]; linear_combination (cos a) * this
        · simp only [Vec.add_y, pol]; linear_combination (sin a) * this

theorem normalized_pol {r a : ℝ} (hr : 0 < r) : (pol r a).normalized = pol 1 a := by
  have h : ¬ ((pol r a).x = 0 ∧ (pol r a).y = 0) := by
    rintro ⟨h1, h2⟩
    have := nsq_pol r a
    simp only [nsq, h1, h2] at this
    nlinarith
  ext
  · rw [normalized_x h, vlen_pol hr.le]; simp only [pol]; field_simp
  · rw [normalized_y h, vlen_pol hr.le]; simp only [pol]; field_simp

/-- The outline of a thick arc. -/
theorem cwArc_eq {c : Vec ℝ} {r a b t : ℝ} (neg : Bool) (hr : 0 < r) :
    Shape.newCwArc (c + pol r b) (c + pol r a) c t neg =
      ⟨.arc ⟨c + pol (r + t / 2) b, c + pol (r + t / 2) a, c, true⟩,
        [.arc ⟨c + pol (r - t / 2) a, c + pol (r - t / 2) b, c, false⟩], neg⟩ := by
  have hadd : ∀ v : Vec ℝ, c + v - c = v := fun v => by ext <;> simp
  have out : ∀ b, c + pol r b + (pol 1 b).scale (t / 2) = c + pol (r + t / 2) b := by
    intro b; ext <;> simp [pol, Vec.scale] <;> ring
  have inn : ∀ b, c + pol r b - (pol 1 b).scale (t / 2) = c + pol (r - t / 2) b := by
    intro b; ext <;> simp [pol, Vec.scale] <;> ring
  unfold Shape.newCwArc
  simp only [hadd, normalized_pol hr, out, inn]

/-- What a thick arc covers: the points whose distance from the middle differs from the radius by at most half of the
thickness, in the directions of the arc. -/
theorem cwArc_thin {c : Vec ℝ} {r a θ t : ℝ} (neg : Bool) (hr : 0 < r) (ht : 0 ≤ t) (htr : t / 2 ≤ r) (h0 : 0 < θ)
    (h1 : θ < 2 * π) (p : Vec ℝ) :
    p ∈ areaOf (Shape.newCwArc (c + pol r (a + θ)) (c + pol r a) c t neg) ↔
      ∃ k τ, r - t / 2 ≤ k ∧ k ≤ r + t / 2 ∧ 0 ≤ τ ∧ τ ≤ θ ∧ p = c + pol k (a + τ) := by
  rw [cwArc_eq neg hr]
  unfold areaOf
  apply sector_area (by linarith) (by linarith) h0 h1
  intro q
  simp only [OnRim, OnOutline, successors, Shape.segments, List.tail_cons, List.take_succ_cons, List.take_zero,
    List.cons_append, List.nil_append, List.zip_cons_cons, List.zip_nil_right, List.mem_cons, List.not_mem_nil, or_false,
    exists_eq_or_imp, exists_eq_left, Segment.start, Segment.stop, arc_cw (by linarith : 0 ≤ r + t / 2) h0 h1,
    arc_ccw (by linarith : 0 ≤ r - t / 2) h0 h1, (segment_pol (by linarith : r - t / 2 ≤ r + t / 2) _).1,
    (segment_pol (by linarith : r - t / 2 ≤ r + t / 2) _).2]
  constructor
  · rintro ((⟨τ, a0, a1, e⟩ | ⟨τ, a0, a1, e⟩) | (⟨m, a0, a1, e⟩ | ⟨m, a0, a1, e⟩))
    · exact .inl ⟨τ, a0, a1, .inl e⟩
    · exact .inl ⟨τ, a0, a1, .inr e⟩
    · exact .inr ⟨m, a0, a1, .inl e⟩
    · exact .inr ⟨m, a0, a1, .inr e⟩
  · rintro (⟨τ, a0, a1, e | e⟩ | ⟨m, a0, a1, e | e⟩)
    · exact .inl (.inl ⟨τ, a0, a1, e⟩)
    · exact .inl (.inr ⟨τ, a0, a1, e⟩)
    · exact .inr (.inl ⟨m, a0, a1, e⟩)
    · exact .inr (.inr ⟨m, a0, a1, e⟩)

theorem surrounded_mono {c c' : Vec ℝ → Prop} (h : ∀ q, c q → c' q) {p : Vec ℝ} (hp : p ∈ Surrounded c) :
    p ∈ Surrounded c' := by
  obtain ⟨r, hr⟩ := hp
  exact ⟨r, fun path hx hy h0 hn t => hr path hx hy h0 (fun t hc => hn t (h _ hc)) t⟩

theorem pol_neg (k a : ℝ) : pol (-k) a = pol k (a + π) := by
  ext <;> simp [pol]

/-- What a thick arc covers at least and at most, also when it is so thick that the inner edge passes the middle. -/
theorem cwArc_area {c : Vec ℝ} {r a θ t : ℝ} (neg : Bool) (hr : 0 < r) (ht : 0 ≤ t) (h0 : 0 < θ)
    (h1 : θ < 2 * π) :
    (∀ k τ, 0 ≤ k → r - t / 2 ≤ k → k ≤ r + t / 2 → 0 ≤ τ → τ ≤ θ →
      c + pol k (a + τ) ∈ areaOf (Shape.newCwArc (c + pol r (a + θ)) (c + pol r a) c t neg)) ∧
    ∀ p ∈ areaOf (Shape.newCwArc (c + pol r (a + θ)) (c + pol r a) c t neg),
      (∃ k τ, r - t / 2 ≤ k ∧ k ≤ r + t / 2 ∧ 0 ≤ τ ∧ τ ≤ θ ∧ p = c + pol k (a + τ)) ∨ vlen (p - c) ≤ t / 2 - r := by
  rcases le_or_gt (t / 2) r with htr | htr
  · constructor
    · intro k τ _ k0 k1 τ0 τ1
      exact (cwArc_thin neg hr ht htr h0 h1 _).2 ⟨k, τ, k0, k1, τ0, τ1, rfl⟩
    · intro p hp
      exact .inl ((cwArc_thin neg hr ht htr h0 h1 _).1 hp)
  · -- the points of the outline
    have rim : ∀ q, OnRim (Shape.newCwArc (c + pol r (a + θ)) (c + pol r a) c t neg) q ↔
        ((∃ τ, 0 ≤ τ ∧ τ ≤ θ ∧ q = c + pol (r + t / 2) (a + τ)) ∨
          ∃ τ, 0 ≤ τ ∧ τ ≤ θ ∧ q = c + pol (t / 2 - r) (a + π + τ)) ∨
        ((∃ k, r - t / 2 ≤ k ∧ k ≤ r + t / 2 ∧ q = c + pol k a) ∨
          ∃ k, r - t / 2 ≤ k ∧ k ≤ r + t / 2 ∧ q = c + pol k (a + θ)) := by
      intro q
      rw [cwArc_eq neg hr]
      have e1 : pol (r - t / 2) a = pol (t / 2 - r) (a + π) := by rw [← pol_neg]; ring_nf
      have e2 : pol (r - t / 2) (a + θ) = pol (t / 2 - r) (a + π + θ) := by
        rw [show a + π + θ = a + θ + π by ring, ← pol_neg]; ring_nf
      have inner := arc_ccw (c := c) (k := t / 2 - r) (a := a + π) (by linarith) h0 h1 q
      rw [← e1, ← e2] at inner
      simp only [OnRim, OnOutline, successors, Shape.segments, List.tail_cons, List.take_succ_cons, List.take_zero,
        List.cons_append, List.nil_append, List.zip_cons_cons, List.zip_nil_right, List.mem_cons, List.not_mem_nil, or_false,
        exists_eq_or_imp, exists_eq_left, Segment.start, Segment.stop, arc_cw (by linarith : 0 ≤ r + t / 2) h0 h1,
        inner, (segment_pol (by linarith : r - t / 2 ≤ r + t / 2) _).1,
        (segment_pol (by linarith : r - t / 2 ≤ r + t / 2) _).2]
    constructor
    · intro k τ hk _ k1 τ0 τ1
      have pie := (sector_area (curve := fun q => (∃ t', 0 ≤ t' ∧ t' ≤ θ ∧ (q = c + pol (r + t / 2) (a + t') ∨
          q = c + pol 0 (a + t'))) ∨ ∃ k, 0 ≤ k ∧ k ≤ r + t / 2 ∧ (q = c + pol k a ∨ q = c + pol k (a + θ))) (c := c)
        (le_refl 0) (by linarith : (0 : ℝ) ≤ r + t / 2) h0 h1 (fun _ => Iff.rfl) _).2 ⟨k, τ, hk, k1, τ0, τ1, rfl⟩
      refine surrounded_mono ?_ pie
      intro q hq
      rw [rim]
      rcases hq with ⟨u, u0, u1, e | e⟩ | ⟨l, l0, l1, e | e⟩
      · exact .inl (.inl ⟨u, u0, u1, e⟩)
      · refine .inr (.inl ⟨0, by linarith, by linarith, ?_⟩)
        rw [e]; simp [pol]
      · exact .inr (.inl ⟨l, by linarith, l1, e⟩)
      · exact .inr (.inr ⟨l, by linarith, l1, e⟩)
    · intro p hp
      obtain ⟨k, u, hk, u0, u1, hw⟩ := exists_pol (p - c) a
      have hpe : p = c + pol k (a + u) := by rw [← hw]; ext <;> simp
      by_contra hn
      push Not at hn
      obtain ⟨hn1, hn2⟩ := hn
      rw [hw, vlen_pol hk] at hn2
      have hfar : u ≤ θ → r + t / 2 < k := by
        intro hu
        by_contra hc
        exact hn1 k u (by linarith) (not_lt.1 hc) u0 hu hpe
      refine not_surrounded (u := pol 1 (a + u)) ?_ ?_ hp
      · intro h
        have := nsq_pol 1 (a + u)
        rw [h] at this; simp [nsq] at this
      · intro s s0 hcv
        have e : (⟨p.x + s * (pol 1 (a + u)).x, p.y + s * (pol 1 (a + u)).y⟩ : Vec ℝ) = c + pol (k + s) (a + u) := by
          rw [hpe]; ext <;> simp [pol] <;> ring
        rw [e, rim] at hcv
        have len : ∀ l b, c + pol (k + s) (a + u) = c + pol l b → pol (k + s) (a + u) = pol l b := by
          intro l b h
          have hx := congrArg Vec.x h
          have hy := congrArg Vec.y h
          simp only [Vec.add_x, Vec.add_y] at hx hy
          ext <;> linarith
        have sqr : ∀ l b, pol (k + s) (a + u) = pol l b → (k + s) ^ 2 = l ^ 2 := by
          intro l b h; rw [← nsq_pol (k + s) (a + u), ← nsq_pol l b, h]
        have dir : ∀ l v, 0 < l → 0 ≤ v → v < 2 * π → pol (k + s) (a + u) = pol l (a + v) → k + s = l ∧ u = v := by
          intro l v l0 v0 v1 h
          have hkl : k + s = l := by
            have := sqr _ _ h
            nlinarith
          refine ⟨hkl, ?_⟩
          have hx := congrArg Vec.x h
          have hy := congrArg Vec.y h
          simp only [pol, hkl] at hx hy
          have hx := mul_left_cancel₀ l0.ne' hx
          have hy := mul_left_cancel₀ l0.ne' hy
          have : cos (u - v) = 1 := by
            rw [show u - v = (a + u) - (a + v) by ring, cos_sub, hx, hy]
            have := sin_sq_add_cos_sq (a + v)
            linear_combination this
          have := (cos_eq_one_iff_of_lt_of_lt (x := u - v) (by linarith) (by linarith)).1 this
          linarith
        have edge : ∀ l v, 0 ≤ v → v ≤ θ → r - t / 2 ≤ l → l ≤ r + t / 2 → ¬ pol (k + s) (a + u) = pol l (a + v) := by
          intro l v v0 v1 l0 l1 h
          rcases le_or_gt l 0 with hl | hl
          · have := sqr _ _ h
            nlinarith
          · obtain ⟨d1, d2⟩ := dir l v hl v0 (by linarith) h
            have := hfar (by linarith)
            linarith
        rcases hcv with (⟨τ, τ0, τ1, e⟩ | ⟨τ, τ0, τ1, e⟩) | (⟨l, l0, l1, e⟩ | ⟨l, l0, l1, e⟩)
        · exact edge _ τ τ0 τ1 (by linarith) (le_refl _) (len _ _ e)
        · have := sqr _ _ (len _ _ e)
          nlinarith
        · exact edge l 0 (le_refl _) h0.le l0 l1 (by rw [add_zero]; exact len _ _ e)
        · exact edge l θ h0.le (le_refl _) l0 l1 (len _ _ e)

theorem vlen_triangle (u v : Vec ℝ) : vlen (u - v) ≤ vlen u + vlen v := by
  have hu := ShapeArea.vlen_nonneg u
  have hv := ShapeArea.vlen_nonneg v
  rw [vlen_le (by linarith)]
  have h1 : vlen u ^ 2 = u.x ^ 2 + u.y ^ 2 := sq_sqrt (by positivity)
  have h2 : vlen v ^ 2 = v.x ^ 2 + v.y ^ 2 := sq_sqrt (by positivity)
  have h3 : -(u.x * v.x + u.y * v.y) ≤ vlen u * vlen v := by
    have : (u.x * v.x + u.y * v.y) ^ 2 ≤ (vlen u * vlen v) ^ 2 := by
      rw [mul_pow, h1, h2]
      linarith [sq_nonneg (u.x * v.y - u.y * v.x), show (u.x ^ 2 + u.y ^ 2) * (v.x ^ 2 + v.y ^ 2) =
        (u.x * v.x + u.y * v.y) ^ 2 + (u.x * v.y - u.y * v.x) ^ 2 by ring]
    have := (abs_le_of_sq_le_sq' this (by positivity)).1
    linarith
  simp only [Vec.sub_x, Vec.sub_y]
  nlinarith

/-- Discs at the ends of a thick arc hide what it covers besides its sector. -/
theorem cwArc_cover {c : Vec ℝ} {r a θ t : ℝ} (neg : Bool) (hr : 0 < r) (ht : 0 ≤ t) (h0 : 0 < θ)
    (h1 : θ < 2 * π) (p : Vec ℝ) {q : Vec ℝ} (hq : vlen (q - c) = r) :
    (vlen (p - q) ≤ t / 2 ∨ p ∈ areaOf (Shape.newCwArc (c + pol r (a + θ)) (c + pol r a) c t neg)) ↔
      vlen (p - q) ≤ t / 2 ∨ ∃ k τ, r - t / 2 ≤ k ∧ k ≤ r + t / 2 ∧ 0 ≤ τ ∧ τ ≤ θ ∧ p = c + pol k (a + τ) := by
  have near : vlen (p - c) ≤ t / 2 - r → vlen (p - q) ≤ t / 2 := by
    intro h
    have := vlen_triangle (p - c) (q - c)
    rw [show p - c - (q - c) = p - q by ext <;> simp] at this
    linarith
  obtain ⟨b1, b2⟩ := cwArc_area (c := c) (a := a) neg hr ht h0 h1
  constructor
  · rintro (h | h)
    · exact .inl h
    · rcases b2 p h with h | h
      · exact .inr h
      · exact .inl (near h)
  · rintro (h | ⟨k, τ, k0, k1, τ0, τ1, rfl⟩)
    · exact .inl h
    · rcases le_or_gt 0 k with hk | hk
      · exact .inr (b1 k τ hk k0 k1 τ0 τ1)
      · left
        apply near
        rw [show c + pol k (a + τ) - c = pol k (a + τ) by ext <;> simp, show k = -(-k) by ring, pol_neg, vlen_pol (by linarith)]
        linarith

/-- The distance between two points in polar coordinates. -/
theorem dist_pol (k r a b : ℝ) : nsq (pol k a - pol r b) = k ^ 2 + r ^ 2 - 2 * (k * r) * cos (a - b) := by
  have h1 := sin_sq_add_cos_sq a
  have h2 := sin_sq_add_cos_sq b
  simp only [nsq, pol, Vec.sub_x, Vec.sub_y, cos_sub]
  linear_combination k ^ 2 * h1 + r ^ 2 * h2

/-- Outside of an arc, an end of it is nearest. -/
theorem cos_ends {θ τ t : ℝ} (h0 : 0 ≤ τ) (h1 : τ ≤ θ) (h2 : θ ≤ t) (h3 : t < 2 * π) :
    cos (t - τ) ≤ cos t ∨ cos (t - τ) ≤ cos (t - θ) := by
  rcases le_total (t - τ) π with h | h
  · exact .inr (cos_le_cos_of_nonneg_of_le_pi (by linarith) h (by linarith))
  · left
    have e : ∀ x, cos x = cos (2 * π - x) := fun x => (cos_two_pi_sub x).symm
    rw [e t, e (t - τ)]
    exact cos_le_cos_of_nonneg_of_le_pi (by linarith) (by linarith) (by linarith)

/-- The discs at the ends of an arc and the thick arc together are what a round aperture sweeps along the arc. -/
theorem swept_arc {c : Vec ℝ} {r a θ t : ℝ} (hr : 0 < r) (ht : 0 ≤ t) (h0 : 0 < θ) (p : Vec ℝ) :
    (vlen (p - (c + pol r a)) ≤ t / 2 ∨ vlen (p - (c + pol r (a + θ))) ≤ t / 2 ∨
      ∃ k τ, r - t / 2 ≤ k ∧ k ≤ r + t / 2 ∧ 0 ≤ τ ∧ τ ≤ θ ∧ p = c + pol k (a + τ)) ↔
    ∃ q, (∃ τ, 0 ≤ τ ∧ τ ≤ θ ∧ q = c + pol r (a + τ)) ∧ vlen (p - q) ≤ t / 2 := by
  have ht2 : 0 ≤ t / 2 := by linarith
  constructor
  · rintro (h | h | ⟨k, τ, k0, k1, τ0, τ1, rfl⟩)
    · exact ⟨_, ⟨0, le_refl _, h0.le, by rw [add_zero]⟩, h⟩
    · exact ⟨_, ⟨θ, h0.le, le_refl _, rfl⟩, h⟩
    · refine ⟨_, ⟨τ, τ0, τ1, rfl⟩, ?_⟩
      rw [vlen_le ht2]
      have e : c + pol k (a + τ) - (c + pol r (a + τ)) = pol (k - r) (a + τ) := by
        ext <;> simp [pol] <;> ring
      rw [e]
      have := nsq_pol (k - r) (a + τ)
      unfold nsq at this
      rw [this]
      nlinarith
  · rintro ⟨q, ⟨τ, τ0, τ1, rfl⟩, h⟩
    obtain ⟨k, u, hk, u0, u1, hw⟩ := exists_pol (p - c) a
    have hp : p = c + pol k (a + u) := by rw [← hw]; ext <;> simp
    have e : ∀ b, p - (c + pol r b) = pol k (a + u) - pol r b := by
      intro b; rw [hp]; ext <;> simp
    have d : ∀ b, vlen (p - (c + pol r b)) ≤ t / 2 ↔ k ^ 2 + r ^ 2 - 2 * (k * r) * cos (a + u - b) ≤ (t / 2) ^ 2 := by
      intro b
      rw [vlen_le ht2, e, ← dist_pol]; rfl
    rw [d] at h ⊢
    rw [d]
    have hkr : 0 ≤ k * r := by positivity
    rcases le_total u θ with hu | hu
    · right; right
      have hc := cos_le_one (a + u - (a + τ))
      have hk2 : (k - r) ^ 2 ≤ (t / 2) ^ 2 := by nlinarith
      obtain ⟨b1, b2⟩ := abs_le_of_sq_le_sq' hk2 ht2
      exact ⟨k, u, by linarith, by linarith, u0, hu, hp⟩
    · rw [show a + u - (a + τ) = u - τ by ring] at h
      rw [show a + u - a = u by ring, show a + u - (a + θ) = u - θ by ring]
      rcases cos_ends τ0 τ1 hu u1 with hc | hc
      · left; nlinarith
      · right; left; nlinarith

theorem sweptAlong_iff (cw : Bool) (s e c p : Vec ℝ) (d : ℝ) :
    SweptAlong cw s e c d p ↔ ∃ q, OnPiece q (.arc ⟨s, e, c, cw⟩) ∧ vlen (p - q) ≤ d / 2 := by
  constructor
  · rintro ⟨q, t, h1, h2, h3⟩; exact ⟨q, ⟨t, h1, h2⟩, h3⟩
  · rintro ⟨q, ⟨t, h1, h2⟩, h3⟩; exact ⟨q, t, h1, h2, h3⟩

/-- Two points at one distance from the middle, in polar coordinates. -/
theorem two_points {s e c : Vec ℝ} (hsc : vlen (s - c) = vlen (e - c)) (hne : s ≠ e) :
    0 < vlen (s - c) ∧ ∃ a θ, 0 < θ ∧ θ < 2 * π ∧ s = c + pol (vlen (s - c)) a ∧ e = c + pol (vlen (s - c)) (a + θ) := by
  obtain ⟨k, t, hk, -, -, hs⟩ := exists_pol (s - c) 0
  obtain ⟨l, θ, hl, t0, t1, he⟩ := exists_pol (e - c) (0 + t)
  have e1 : vlen (s - c) = k := by rw [hs, vlen_pol hk]
  have e2 : vlen (e - c) = l := by rw [he, vlen_pol hl]
  have hlk : l = k := by rw [← e1, ← e2, hsc]
  subst hlk
  have es : s = c + pol l (0 + t) := by rw [← hs]; ext <;> simp
  have ee : e = c + pol l (0 + t + θ) := by rw [← he]; ext <;> simp
  rw [e1]
  refine ⟨?_, 0 + t, θ, ?_, t1, es, ee⟩
  · rcases eq_or_lt_of_le hl with h | h
    · exfalso; apply hne; rw [es, ee, ← h]; simp [pol]
    · exact h
  · rcases eq_or_lt_of_le t0 with h | h
    · exfalso; apply hne; rw [es, ee, ← h]; simp
    · exact h

/-- A thick arc with discs at its ends is what a round aperture sweeps along the arc. -/
theorem arc_swept (cw neg : Bool) {s e c : Vec ℝ} {d : ℝ} (hd : 0 ≤ d) (hsc : vlen (s - c) = vlen (e - c)) (hne : s ≠ e)
    (p : Vec ℝ) :
    (p ∈ areaOf (Shape.newCircle s d neg) ∨
      p ∈ areaOf (if cw then Shape.newCwArc s e c d neg else Shape.newCcwArc s e c d neg) ∨
      p ∈ areaOf (Shape.newCircle e d neg)) ↔ SweptAlong cw s e c d p := by
  rw [circle_enclosed s p hd, circle_enclosed e p hd, sweptAlong_iff]
  cases cw
  · obtain ⟨hr, a, θ, h0, h1, es, ee⟩ := two_points hsc hne
    generalize vlen (s - c) = r at *
    subst es ee
    simp only [Bool.false_eq_true, if_false, Shape.newCcwArc, arc_ccw hr.le h0 h1]
    rw [← swept_arc hr hd h0, ← or_assoc, cwArc_cover neg hr hd h0 h1 p (by simp [add_sub_cancel_left', vlen_pol hr.le]), or_assoc]
    constructor <;> rintro (h | h | h) <;> first | exact .inl h | exact .inr (.inl h) | exact .inr (.inr h)
  · obtain ⟨hr, a, θ, h0, h1, ee, es⟩ := two_points hsc.symm hne.symm
    rw [← hsc] at hr ee es
    generalize vlen (s - c) = r at *
    subst es ee
    simp only [if_true, arc_cw hr.le h0 h1]
    rw [← swept_arc hr hd h0, ← or_assoc, cwArc_cover neg hr hd h0 h1 p (by simp [add_sub_cancel_left', vlen_pol hr.le]), or_assoc]
    constructor <;> rintro (h | h | h) <;> first | exact .inl h | exact .inr (.inl h) | exact .inr (.inr h)

/-- A whole turn. -/
theorem circle_points (cw : Bool) {s c : Vec ℝ} (p : Vec ℝ) :
    OnPiece p (.arc ⟨s, s, c, cw⟩) ↔ vlen (p - c) = vlen (s - c) := by
  have hv : ∀ v w : Vec ℝ, vlen v = vlen w ↔ nsq v = nsq w := by
    intro v w
    unfold vlen nsq
    rw [sqrt_inj (by positivity) (by positivity)]
  rw [hv]
  simp only [OnPiece, OnArc]
  constructor
  · rintro ⟨t, -, τ, -, -, rfl⟩
    rw [show c + turn cw τ (s - c) - c = turn cw τ (s - c) by ext <;> simp]
    unfold turn
    exact nsq_rot _ _
  · intro h
    obtain ⟨t, t0, t1, ht⟩ := exists_angle h.symm
    have hp := pi_pos
    refine ⟨2 * π, ⟨by linarith, le_refl _, ?_, ?_⟩, if cw then 2 * π - t else t, ?_, ?_, ?_⟩
    · cases cw <;> simp [turn, rotCcw]
    · cases cw <;> simp [turn, rotCcw]
    · split <;> linarith
    · split <;> linarith
    · have : turn cw (if cw then 2 * π - t else t) (s - c) = rotCcw t (s - c) := by
        cases cw
        · simp [turn]
        · simp only [turn, if_true]
          rw [show -(2 * π - t) = t - 2 * π by ring]
          ext <;> simp [rotCcw, cos_sub_two_pi, sin_sub_two_pi]
      rw [this, ht]; ext <;> simp

/-- The two halves of a ring and two discs on it are what a round aperture sweeps around the circle. -/
theorem circle_swept (cw neg : Bool) {s c : Vec ℝ} {d : ℝ} (hd : 0 ≤ d) (hsc : s ≠ c) (p : Vec ℝ) :
    (p ∈ areaOf (Shape.newCircle s d neg) ∨
      p ∈ areaOf (if cw then Shape.newCwArc ⟨c.x - vlen (s - c), c.y⟩ ⟨c.x + vlen (s - c), c.y⟩ c d neg
        else Shape.newCcwArc ⟨c.x - vlen (s - c), c.y⟩ ⟨c.x + vlen (s - c), c.y⟩ c d neg) ∨
      p ∈ areaOf (if cw then Shape.newCwArc ⟨c.x + vlen (s - c), c.y⟩ ⟨c.x - vlen (s - c), c.y⟩ c d neg
        else Shape.newCcwArc ⟨c.x + vlen (s - c), c.y⟩ ⟨c.x - vlen (s - c), c.y⟩ c d neg) ∨
      p ∈ areaOf (Shape.newCircle ⟨c.x + vlen (s - c), c.y⟩ d neg)) ↔ SweptAlong cw s s c d p := by
  have hp := pi_pos
  have ht2 : 0 ≤ d / 2 := by linarith
  have hr : 0 < vlen (s - c) := by
    apply vlen_pos
    rintro ⟨h1, h2⟩
    simp only [Vec.sub_x, Vec.sub_y] at h1 h2
    exact hsc (by ext <;> linarith)
  rw [circle_enclosed s p hd, circle_enclosed _ p hd, sweptAlong_iff]
  simp only [circle_points]
  generalize hrr : vlen (s - c) = r at *
  have el : (⟨c.x - r, c.y⟩ : Vec ℝ) = c + pol r (0 + π) := by ext <;> simp [pol]; ring
  have el' : (⟨c.x - r, c.y⟩ : Vec ℝ) = c + pol r π := by rw [el, zero_add]
  have er : (⟨c.x + r, c.y⟩ : Vec ℝ) = c + pol r 0 := by ext <;> simp [pol]
  have er' : (⟨c.x + r, c.y⟩ : Vec ℝ) = c + pol r (π + π) := by
    rw [er, show π + π = 0 + 2 * π by ring, pol_two_pi]
  obtain ⟨up, up'⟩ := cwArc_area (c := c) (a := 0) neg hr hd hp (by linarith)
  obtain ⟨low, low'⟩ := cwArc_area (c := c) (a := π) neg hr hd hp (by linarith)
  rw [← el, ← er] at up up'
  rw [← el', ← er'] at low low'
  have halves : (p ∈ areaOf (if cw then Shape.newCwArc ⟨c.x - r, c.y⟩ ⟨c.x + r, c.y⟩ c d neg
        else Shape.newCcwArc ⟨c.x - r, c.y⟩ ⟨c.x + r, c.y⟩ c d neg) ∨
      p ∈ areaOf (if cw then Shape.newCwArc ⟨c.x + r, c.y⟩ ⟨c.x - r, c.y⟩ c d neg
        else Shape.newCcwArc ⟨c.x + r, c.y⟩ ⟨c.x - r, c.y⟩ c d neg)) ↔
      ∃ k τ, r - d / 2 ≤ k ∧ k ≤ r + d / 2 ∧ p = c + pol k τ := by
    have near : vlen (p - c) ≤ d / 2 - r → ∃ k τ, r - d / 2 ≤ k ∧ k ≤ r + d / 2 ∧ p = c + pol k τ := by
      intro h
      obtain ⟨l, u, l0, u0, u1, hw⟩ := exists_pol (p - c) 0
      rw [hw, vlen_pol l0] at h
      exact ⟨l, 0 + u, by linarith, by linarith, by rw [← hw]; ext <;> simp⟩
    have both : (p ∈ areaOf (Shape.newCwArc ⟨c.x - r, c.y⟩ ⟨c.x + r, c.y⟩ c d neg) ∨
        p ∈ areaOf (Shape.newCwArc ⟨c.x + r, c.y⟩ ⟨c.x - r, c.y⟩ c d neg)) ↔
        ∃ k τ, r - d / 2 ≤ k ∧ k ≤ r + d / 2 ∧ p = c + pol k τ := by
      constructor
      · rintro (h | h)
        · rcases up' p h with ⟨k, τ, k0, k1, -, -, e⟩ | h
          · exact ⟨k, _, k0, k1, e⟩
          · exact near h
        · rcases low' p h with ⟨k, τ, k0, k1, -, -, e⟩ | h
          · exact ⟨k, _, k0, k1, e⟩
          · exact near h
      · rintro ⟨k, τ, k0, k1, e⟩
        obtain ⟨l, u, l0, u0, u1, hw⟩ := exists_pol (p - c) 0
        have e2 : p = c + pol l (0 + u) := by rw [← hw]; ext <;> simp
        have hkl : l ^ 2 = k ^ 2 := by
          rw [← nsq_pol l (0 + u), ← nsq_pol k τ, ← hw, e, add_sub_cancel_left']
        have hl1 : l ≤ r + d / 2 := by
          by_contra hc
          push Not at hc
          nlinarith
        have hl0 : r - d / 2 ≤ l := by
          by_contra hc
          push Not at hc
          nlinarith
        rcases le_total u π with h | h
        · left; rw [e2]; exact up l u l0 hl0 hl1 u0 h
        · right
          rw [e2, show 0 + u = π + (u - π) by ring]
          exact low l (u - π) l0 hl0 hl1 (by linarith) (by linarith)
    cases cw
    · simp only [Bool.false_eq_true, if_false, Shape.newCcwArc]
      rw [or_comm]; exact both
    · simpa using both
  constructor
  · intro h
    have h' : vlen (p - s) ≤ d / 2 ∨ (∃ k τ, r - d / 2 ≤ k ∧ k ≤ r + d / 2 ∧ p = c + pol k τ) ∨
        vlen (p - ⟨c.x + r, c.y⟩) ≤ d / 2 := by
      rcases h with h | h | h | h
      · exact .inl h
      · exact .inr (.inl (halves.1 (.inl h)))
      · exact .inr (.inl (halves.1 (.inr h)))
      · exact .inr (.inr h)
    rcases h' with h | ⟨k, τ, k0, k1, rfl⟩ | h
    · exact ⟨s, hrr, h⟩
    · refine ⟨c + pol r τ, ?_, ?_⟩
      · rw [show c + pol r τ - c = pol r τ by ext <;> simp, vlen_pol hr.le]
      · rw [show c + pol k τ - (c + pol r τ) = pol (k - r) τ by ext <;> simp [pol] <;> ring, vlen_le ht2]
        have := nsq_pol (k - r) τ
        unfold nsq at this
        rw [this]
        nlinarith
    · refine ⟨⟨c.x + r, c.y⟩, ?_, h⟩
      rw [er, show c + pol r 0 - c = pol r 0 by ext <;> simp, vlen_pol hr.le]
  · rintro ⟨q, hq, h⟩
    obtain ⟨l, b, l0, -, -, hb⟩ := exists_pol (q - c) 0
    obtain ⟨k, u, hk, -, -, hw⟩ := exists_pol (p - c) 0
    have hl : l = r := by rw [← hq, hb, vlen_pol l0]
    subst hl
    have e : p - q = pol k (0 + u) - pol l (0 + b) := by rw [← hw, ← hb]; ext <;> simp
    rw [e, vlen_le ht2] at h
    have hd := dist_pol k l (0 + u) (0 + b)
    unfold nsq at hd
    rw [hd] at h
    have hc := cos_le_one (0 + u - (0 + b))
    have hkl : 0 ≤ k * l := by positivity
    have hk2 : (k - l) ^ 2 ≤ (d / 2) ^ 2 := by nlinarith
    obtain ⟨b1, b2⟩ := abs_le_of_sq_le_sq' hk2 ht2
    rcases halves.2 ⟨k, 0 + u, by linarith, by linarith, by rw [← hw]; ext <;> simp⟩ with h | h
    · exact .inr (.inl h)
    · exact .inr (.inr (.inl h))

end Verif.Lemmas.ArcArea
