import Verif.Lemmas.SketchPixels

/-!
# The boxes of figures that have an area
-/

namespace Verif.Sketch
open Verif.Rvmc Verif.Geom Verif.Vm Verif.Spec Verif.RvmcBuilder Verif.Lemmas.Collinear Verif.Props.Geom Verif.Lemmas.MacroShape Real
noncomputable section

/-- A box with points beside and above each other. -/
theorem wide_of {b : Box ℝ} {p q p' q' : Vec ℝ} (h1 : InBox p b) (h2 : InBox q b) (h3 : p.x < q.x) (h4 : InBox p' b) (h5 : InBox q' b)
    (h6 : p'.y < q'.y) : Wide b :=
  ⟨lt_of_le_of_lt h1.1 (lt_of_lt_of_le h3 h2.2.1), lt_of_le_of_lt h4.2.2.1 (lt_of_lt_of_le h6 h5.2.2.2)⟩

/-- A shape that covers a small cross. -/
theorem wide_cross {s : Shape} (hn : ∀ g ∈ s.segments, NotClosed g) {c : Vec ℝ} {r : ℝ} (hr : 0 < r)
    (h1 : c + ⟨r, 0⟩ ∈ areaOf s) (h2 : c + ⟨-r, 0⟩ ∈ areaOf s) (h3 : c + ⟨0, r⟩ ∈ areaOf s) (h4 : c + ⟨0, -r⟩ ∈ areaOf s) :
    Wide s.outerBox :=
  wide_of (area_inBox hn h2) (area_inBox hn h1) (by simp; linarith) (area_inBox hn h4) (area_inBox hn h3) (by simp; linarith)

theorem bar_cross {s : Shape} (hn : ∀ g ∈ s.segments, NotClosed g) {c : Vec ℝ} {w h : ℝ} (hw : 0 < w) (hh : 0 < h) (ha : areaOf s = Bar c w h) :
    Wide s.outerBox := by
  have hr : 0 < min w h / 2 := by positivity
  have a1 : min w h ≤ w := min_le_left _ _
  have a2 : min w h ≤ h := min_le_right _ _
  refine wide_cross (c := c) (r := min w h / 2) hn hr ?_ ?_ ?_ ?_ <;> rw [ha] <;> constructor <;>
    simp [abs_of_pos hr, hw.le, hh.le] <;> try linarith

theorem stripe_cross {s : Shape} (hn : ∀ g ∈ s.segments, NotClosed g) {a b : Vec ℝ} {t : ℝ} (ht : 0 < t) (hab : a ≠ b)
    (ha : areaOf s = Stripe a b t) : Wide s.outerBox := by
  have hL : 0 < vlen (b - a) := by
    unfold vlen
    apply Real.sqrt_pos.2
    by_contra h
    apply hab
    have h1 : (b - a).x ^ 2 + (b - a).y ^ 2 ≤ 0 := not_lt.1 h
    have hx : (b - a).x = 0 := by nlinarith [sq_nonneg (b - a).x, sq_nonneg (b - a).y]
    have hy : (b - a).y = 0 := by nlinarith [sq_nonneg (b - a).x, sq_nonneg (b - a).y]
    ext
    · simp at hx; linarith
    · simp at hy; linarith
  have hsq : vlen (b - a) ^ 2 = (b.x - a.x) ^ 2 + (b.y - a.y) ^ 2 := by
    unfold vlen; rw [Real.sq_sqrt (by positivity)]; simp
  have bx : |b.x - a.x| ≤ vlen (b - a) := by
    apply abs_le_of_sq_le_sq _ hL.le
    rw [hsq]; nlinarith [sq_nonneg (b.y - a.y)]
  have bY : |b.y - a.y| ≤ vlen (b - a) := by
    apply abs_le_of_sq_le_sq _ hL.le
    rw [hsq]; nlinarith [sq_nonneg (b.x - a.x)]
  obtain ⟨L, hLe⟩ : ∃ L, L = vlen (b - a) := ⟨_, rfl⟩
  rw [← hLe] at hL hsq bx bY
  have hr : 0 < min t L / 2 := by positivity
  obtain ⟨r, hre⟩ : ∃ r, r = min t L / 2 := ⟨_, rfl⟩
  rw [← hre] at hr
  have r1 : 2 * r ≤ t := by rw [hre]; linarith [min_le_left t L]
  have r2 : 2 * r ≤ L := by rw [hre]; linarith [min_le_right t L]
  have key : ∀ u : Vec ℝ, (u = ⟨r, 0⟩ ∨ u = ⟨-r, 0⟩ ∨ u = ⟨0, r⟩ ∨ u = ⟨0, -r⟩) → (⟨(a.x + b.x) / 2, (a.y + b.y) / 2⟩ : Vec ℝ) + u ∈ Stripe a b t := by
    intro u hu
    obtain ⟨X, hX⟩ : ∃ X, X = b.x - a.x := ⟨_, rfl⟩
    obtain ⟨Y, hY⟩ : ∃ Y, Y = b.y - a.y := ⟨_, rfl⟩
    have e1 : (a.x + b.x) / 2 - a.x = X / 2 := by rw [hX]; ring
    have e2 : (a.y + b.y) / 2 - a.y = Y / 2 := by rw [hY]; ring
    unfold Stripe
    simp only [Set.mem_ofPred_eq, Vec.add_x, Vec.add_y, ← hX, ← hY, ← hLe]
    rw [← hX] at bx; rw [← hY] at bY; rw [← hX, ← hY] at hsq
    have f1 : (a.x + b.x) / 2 + u.x - a.x = X / 2 + u.x := by linarith
    have f2 : (a.y + b.y) / 2 + u.y - a.y = Y / 2 + u.y := by linarith
    rw [f1, f2, abs_le]
    rw [abs_le] at bx bY
    have g1 : r * X ≤ r * L := by nlinarith
    have g2 : -(r * L) ≤ r * X := by nlinarith
    have g3 : r * Y ≤ r * L := by nlinarith
    have g4 : -(r * L) ≤ r * Y := by nlinarith
    have g5 : 2 * r * L ≤ L ^ 2 := by nlinarith
    have g6 : 2 * r * L ≤ t * L := by nlinarith
    rcases hu with rfl | rfl | rfl | rfl <;> refine ⟨?_, ?_, ?_, ?_⟩ <;> simp only <;> linarith
  refine wide_cross (c := ⟨(a.x + b.x) / 2, (a.y + b.y) / 2⟩) hn hr ?_ ?_ ?_ ?_ <;> rw [ha]
  · exact key _ (.inl rfl)
  · exact key _ (.inr (.inl rfl))
  · exact key _ (.inr (.inr (.inl rfl)))
  · exact key _ (.inr (.inr (.inr rfl)))

theorem vlen_axis (r : ℝ) (hr : 0 ≤ r) : vlen (⟨r, 0⟩ : Vec ℝ) = r ∧ vlen (⟨-r, 0⟩ : Vec ℝ) = r ∧ vlen (⟨0, r⟩ : Vec ℝ) = r ∧ vlen (⟨0, -r⟩ : Vec ℝ) = r := by
  unfold vlen
  simp [Real.sqrt_sq hr]

/-- Three corners of a regular polygon are not in a row. -/
theorem cos_row {a t : ℝ} (h0 : 0 < t) (h1 : t < π) (e1 : cos a = cos (a + t)) (e2 : cos (a + t) = cos (a + 2 * t)) : False := by
  have s : 0 < sin t := sin_pos_of_pos_of_lt_pi h0 h1
  have k1 : cos a = cos (a + t) * cos t + sin (a + t) * sin t := by
    rw [← cos_sub]; congr 1; ring
  have k2 : cos (a + 2 * t) = cos (a + t) * cos t - sin (a + t) * sin t := by
    rw [← cos_add]; congr 1; ring
  have k3 : sin (a + t) = 0 := by
    have : sin (a + t) * sin t = 0 := by linarith
    exact (mul_eq_zero.1 this).resolve_right s.ne'
  have k4 : cos (a + t) * (1 - cos t) = 0 := by rw [k3] at k1; linarith
  have k5 := sin_sq_add_cos_sq (a + t)
  rw [k3] at k5
  rcases mul_eq_zero.1 k4 with h | h
  · rw [h] at k5; norm_num at k5
  · have := sin_sq_add_cos_sq t
    have hc : cos t = 1 := by linarith
    rw [hc] at this
    nlinarith

theorem corner_in_box {s : Shape} {c : Vec ℝ} {d r : ℝ} {n : ℕ} (hs : s.segments = polygonSides (regularCorners c d n r)) {k : ℕ} (hk : k < n) :
    InBox (c + rotCcw (r * π / 180) ⟨d / 2 * cos (2 * π * k / n), d / 2 * sin (2 * π * k / n)⟩) s.outerBox := by
  have hlen : (regularCorners c d n r).length = n := by simp [regularCorners]
  obtain ⟨p, hp⟩ : ∃ p, p = c + rotCcw (r * π / 180) ⟨d / 2 * cos (2 * π * k / n), d / 2 * sin (2 * π * k / n)⟩ := ⟨_, rfl⟩
  rw [← hp]
  have hg : (regularCorners c d n r)[k]? = some p := by
    simp [regularCorners, hk, hp]
  have hl : ((regularCorners c d n r).tail ++ (regularCorners c d n r).take 1).length = n := by
    simp only [List.length_append, List.length_tail, List.length_take, hlen]; omega
  obtain ⟨q, hq⟩ : ∃ q, ((regularCorners c d n r).tail ++ (regularCorners c d n r).take 1)[k]? = some q :=
    ⟨_, List.getElem?_eq_getElem (by rw [hl]; exact hk)⟩
  have hz : (p, q) ∈ (regularCorners c d n r).zip ((regularCorners c d n r).tail ++ (regularCorners c d n r).take 1) :=
    List.mem_iff_getElem?.2 ⟨k, by rw [List.getElem?_zip_eq_some]; exact ⟨hg, hq⟩⟩
  have hm : Segment.line ⟨p, q⟩ ∈ s.segments := by
    rw [hs]
    exact List.mem_map.2 ⟨(p, q), hz, rfl⟩
  exact inBox_of_boxIn (ends_inBox (.line ⟨p, q⟩)).1 (segment_box_in_shape s _ hm)

theorem polygon_wide {s : Shape} {c : Vec ℝ} {d r : ℝ} {n : ℕ} (hn : 3 ≤ n) (hd : 0 < d) (hs : s.segments = polygonSides (regularCorners c d n r)) :
    Wide s.outerBox := by
  have hn' : (3 : ℝ) ≤ n := by exact_mod_cast hn
  have t0 : 0 < 2 * π / n := by positivity
  have t1 : 2 * π / n < π := by
    rw [div_lt_iff₀ (by linarith)]
    nlinarith [pi_pos]
  have b0 := corner_in_box hs (k := 0) (by omega)
  have b1 := corner_in_box hs (k := 1) (by omega)
  have b2 := corner_in_box hs (k := 2) (by omega)
  have form : ∀ k : ℕ, c + rotCcw (r * π / 180) ⟨d / 2 * cos (2 * π * k / n), d / 2 * sin (2 * π * k / n)⟩ =
      ⟨c.x + d / 2 * cos (r * π / 180 + k * (2 * π / n)), c.y + d / 2 * sin (r * π / 180 + k * (2 * π / n))⟩ := by
    intro k
    have : 2 * π * k / n = k * (2 * π / n) := by ring
    rw [this]
    ext
    · simp only [Vec.add_x, rotCcw, cos_add]; ring
    · simp only [Vec.add_y, rotCcw, sin_add]; ring
  rw [form] at b0 b1 b2
  simp only [Nat.cast_zero, zero_mul, add_zero, Nat.cast_one, one_mul, Nat.cast_ofNat] at b0 b1 b2
  obtain ⟨x0, x0', y0, y0'⟩ := b0
  obtain ⟨x1, x1', y1, y1'⟩ := b1
  obtain ⟨x2, x2', y2, y2'⟩ := b2
  simp only at *
  have cancel : ∀ {u v : ℝ}, d / 2 * u = d / 2 * v → u = v := fun h => mul_left_cancel₀ (by positivity) h
  constructor
  · by_contra h
    rw [not_lt] at h
    refine cos_row t0 t1 (a := r * π / 180) (cancel ?_) (cancel ?_) <;> linarith
  · by_contra h
    rw [not_lt] at h
    refine cos_row t0 t1 (a := r * π / 180 - π / 2) ?_ ?_
    · rw [cos_sub_pi_div_two, show r * π / 180 - π / 2 + 2 * π / n = r * π / 180 + 2 * π / n - π / 2 by ring, cos_sub_pi_div_two]
      apply cancel; linarith
    · rw [show r * π / 180 - π / 2 + 2 * π / n = r * π / 180 + 2 * π / n - π / 2 by ring, cos_sub_pi_div_two,
        show r * π / 180 - π / 2 + 2 * (2 * π / n) = r * π / 180 + 2 * (2 * π / n) - π / 2 by ring, cos_sub_pi_div_two]
      apply cancel; linarith

theorem broad_ample {m : Mark} (h : Broad m) : Ample m := by
  cases m <;> first | exact h | trivial

/-- The boxes of figures that have an area have a width and a height. -/
theorem shapes_wide (m : Mark) (hm : Plausible m) (hb : Broad m) (neg : Bool) {ss : List Shape} (h : m.shapes neg = .ok ss) :
    ∀ s ∈ ss, Wide s.outerBox := by
  have hsound := shapes_sound m hm (broad_ample hb) neg h
  obtain ⟨ss', h', hall⟩ := shapes_parts m hm neg
  rw [h] at h'
  cases h'
  cases m with
  | circle c d =>
    rcases hall with _ | ⟨⟨-, ha⟩, hr⟩
    cases hr
    simp only [List.mem_singleton]
    rintro _ rfl
    have hd : (0 : ℝ) < d / 2 := half_pos hb
    obtain ⟨v1, v2, v3, v4⟩ := vlen_axis (d / 2) hd.le
    have e : ∀ u : Vec ℝ, c + u - c = u := by intro u; ext <;> simp
    refine wide_cross (c := c) (hsound _ (by simp)).1.1 hd ?_ ?_ ?_ ?_ <;> rw [ha] <;> simp only [Set.mem_ofPred_eq, e]
    · exact v1.le
    · exact v2.le
    · exact v3.le
    · exact v4.le
  | rectangle c w h' =>
    rcases hall with _ | ⟨⟨-, ha⟩, hr⟩
    cases hr
    simp only [List.mem_singleton]
    rintro _ rfl
    exact bar_cross (hsound _ (by simp)).1.1 hb.1 hb.2 ha
  | obround c w h' =>
    rcases hall with _ | ⟨⟨-, ha⟩, hr⟩
    cases hr
    simp only [List.mem_singleton]
    rintro _ rfl
    have hd : (0 : ℝ) < min w h' / 2 := half_pos (lt_min hb.1 hb.2)
    obtain ⟨v1, v2, v3, v4⟩ := vlen_axis (min w h' / 2) hd.le
    have e : ∀ u : Vec ℝ, c + u - c = u := by intro u; ext <;> simp
    have hc : OnSegment (c - ⟨(w - min w h') / 2, (h' - min w h') / 2⟩) (c + ⟨(w - min w h') / 2, (h' - min w h') / 2⟩) c :=
      ⟨1 / 2, by norm_num, by norm_num, by ext <;> simp <;> ring⟩
    refine wide_cross (c := c) (hsound _ (by simp)).1.1 hd ?_ ?_ ?_ ?_ <;> rw [ha] <;> refine ⟨c, hc, ?_⟩ <;> rw [e]
    · exact v1.le
    · exact v2.le
    · exact v3.le
    · exact v4.le
  | polygon c d n r =>
    obtain ⟨hn, h0, h1⟩ := hm
    obtain ⟨s, k1, -, k3⟩ := polygon_made c d r neg hn h0 h1
    simp only [Mark.shapes, k1, bind, Except.bind, pure, Except.pure, Except.ok.injEq] at h
    subst h
    simp only [List.mem_singleton]
    rintro _ rfl
    exact polygon_wide (by omega) hb k3
  | line a b t =>
    rcases hall with _ | ⟨⟨-, ha⟩, hr⟩
    cases hr
    simp only [List.mem_singleton]
    rintro _ rfl
    exact stripe_cross (hsound _ (by simp)).1.1 hb hm.2 ha
  | cross c w h' t =>
    rcases hall with _ | ⟨⟨-, ha⟩, _ | ⟨⟨-, ha'⟩, hr⟩⟩
    cases hr
    simp only [List.mem_cons, List.not_mem_nil, or_false]
    rintro _ (rfl | rfl)
    · exact bar_cross (hsound _ (by simp)).1.1 hb.1 hb.2.2 ha
    · exact bar_cross (hsound _ (by simp)).1.1 hb.2.2 hb.2.1 ha'
  | x c l t =>
    rcases hall with _ | ⟨⟨-, ha⟩, _ | ⟨⟨-, ha'⟩, hr⟩⟩
    cases hr
    have hl := hm.1
    simp only [List.mem_cons, List.not_mem_nil, or_false]
    rintro _ (rfl | rfl)
    · refine stripe_cross (hsound _ (by simp)).1.1 hb ?_ ha
      intro h; have := congrArg Vec.x h; simp at this; linarith
    · refine stripe_cross (hsound _ (by simp)).1.1 hb ?_ ha'
      intro h; have := congrArg Vec.x h; simp at this; linarith

end
end Verif.Sketch
