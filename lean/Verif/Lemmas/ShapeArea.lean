import Verif.Lemmas.Area
import Verif.Spec.Stroke
import Verif.Props.Shapes
import Mathlib.Tactic.Tauto

/-!
# The areas of circles, rectangles, thick lines, obrounds and halves of rings
-/

namespace Verif.Lemmas.ShapeArea
open Verif.Geom Verif.Spec Verif.Rvmc Verif.Compiler Verif.Props.Shapes Verif.Sim Real

theorem vlen_nonneg (v : Vec ℝ) : 0 ≤ vlen v := sqrt_nonneg _

theorem vlen_le {v : Vec ℝ} {r : ℝ} (hr : 0 ≤ r) : vlen v ≤ r ↔ v.x ^ 2 + v.y ^ 2 ≤ r ^ 2 := by
  unfold vlen
  rw [sqrt_le_left hr]

/-- Squared length. -/
noncomputable def nsq (v : Vec ℝ) : ℝ := v.x ^ 2 + v.y ^ 2

/-- The cross product. -/
noncomputable def cross (u v : Vec ℝ) : ℝ := u.x * v.y - u.y * v.x

theorem nsq_rot (t : ℝ) (v : Vec ℝ) : nsq (rotCcw t v) = nsq v := by
  unfold nsq rotCcw
  have := sin_sq_add_cos_sq t
  simp only
  linear_combination (v.x ^ 2 + v.y ^ 2) * this

theorem cross_rot (t : ℝ) (u v : Vec ℝ) : cross (rotCcw t u) (rotCcw t v) = cross u v := by
  unfold cross rotCcw
  have := sin_sq_add_cos_sq t
  simp only
  linear_combination (u.x * v.y - u.y * v.x) * this

theorem rot_sub (t : ℝ) (u v : Vec ℝ) : rotCcw t u - rotCcw t v = rotCcw t (u - v) := by
  ext <;> simp [rotCcw] <;> ring

theorem rot_rot (s t : ℝ) (v : Vec ℝ) : rotCcw s (rotCcw t v) = rotCcw (s + t) v := by
  ext <;> simp [rotCcw, cos_add, sin_add] <;> ring

@[simp] theorem rot_zero (v : Vec ℝ) : rotCcw 0 v = v := by ext <;> simp [rotCcw]

theorem rot_back (t : ℝ) (v : Vec ℝ) : rotCcw t (rotCcw (-t) v) = v := by rw [rot_rot]; simp

theorem rot_back' (t : ℝ) (v : Vec ℝ) : rotCcw (-t) (rotCcw t v) = v := by rw [rot_rot]; simp

/-- Vectors of one length differ by a rotation. -/
theorem exists_angle {u v : Vec ℝ} (h : nsq u = nsq v) : ∃ t, 0 ≤ t ∧ t < 2 * π ∧ rotCcw t u = v := by
  by_cases hu : u.x = 0 ∧ u.y = 0
  · have hv : nsq v = 0 := by rw [← h]; simp [nsq, hu.1, hu.2]
    have hv' : v.x = 0 ∧ v.y = 0 := by
      unfold nsq at hv; constructor <;> nlinarith [sq_nonneg v.x, sq_nonneg v.y]
    exact ⟨0, le_refl _, by positivity, by ext <;> simp [rotCcw, hu.1, hu.2, hv'.1, hv'.2]⟩
  · obtain ⟨t, t0, t1, -, ht⟩ := angleBetweenCc_spec u v
    have hv : ¬ (v.x = 0 ∧ v.y = 0) := by
      intro hv
      apply hu
      have : nsq u = 0 := by rw [h]; simp [nsq, hv.1, hv.2]
      unfold nsq at this; constructor <;> nlinarith [sq_nonneg u.x, sq_nonneg u.y]
    have hl : vlen u = vlen v := by unfold vlen; unfold nsq at h; rw [h]
    have hp := vlen_pos hu
    refine ⟨t, t0, t1, ?_⟩
    have hx := congrArg Vec.x ht
    have hy := congrArg Vec.y ht
    simp only [rotCcw, normalized_x hu, normalized_y hu, normalized_x hv, normalized_y hv, ← hl] at hx hy
    have hne := hp.ne'
    field_simp at hx hy
    ext <;> simp only [rotCcw] <;> linarith

theorem cross_self_rot (t : ℝ) (u : Vec ℝ) : cross u (rotCcw t u) = nsq u * sin t := by
  unfold cross rotCcw nsq; simp only; ring

/-- The half circle from `c + u` to `c - u`. -/
theorem half_arc {s e c : Vec ℝ} (cw : Bool) (p : Vec ℝ) (he : e - c = ⟨-(s - c).x, -(s - c).y⟩) :
    OnPiece p (.arc ⟨s, e, c, cw⟩) ↔ nsq (p - c) = nsq (s - c) ∧
      if cw then cross (s - c) (p - c) ≤ 0 else 0 ≤ cross (s - c) (p - c) := by
  set u := s - c with hu
  have hpc : ∀ v : Vec ℝ, p = c + v ↔ p - c = v := by
    intro v; constructor
    · rintro rfl; ext <;> simp
    · rintro rfl; ext <;> simp
  have hsin : ∀ t, 0 ≤ t → t ≤ π → 0 ≤ sin t := fun t h0 h1 => sin_nonneg_of_nonneg_of_le_pi h0 h1
  have hn : 0 ≤ nsq u := by unfold nsq; positivity
  -- the points of the arc
  have key : OnPiece p (.arc ⟨s, e, c, cw⟩) ↔ ∃ τ, 0 ≤ τ ∧ τ ≤ π ∧ p - c = turn cw τ u := by
    simp only [OnPiece, ← hu, he]
    constructor
    · rintro ⟨t, ⟨t0, t1, tx, ty⟩, τ, a0, a1, hp⟩
      rw [hpc, ← hu] at hp
      by_cases h0 : u.x = 0 ∧ u.y = 0
      · refine ⟨0, le_refl _, pi_pos.le, ?_⟩
        rw [hp]; ext <;> simp [turn, rotCcw, h0.1, h0.2]
      · have hpos := vlen_pos h0
        have hl : vlen (⟨-u.x, -u.y⟩ : Vec ℝ) = vlen u := by unfold vlen; simp
        rw [hl] at tx ty
        have tx' := mul_right_cancel₀ hpos.ne' tx
        have ty' := mul_right_cancel₀ hpos.ne' ty
        have hnpos : 0 < nsq u := by
          have := vlen_sq u; unfold nsq; nlinarith
        have hcos : cos t = -1 := by
          have : nsq u * (cos t + 1) = 0 := by
            cases cw
            · simp only [turn, rotCcw, Bool.false_eq_true, if_false] at tx' ty'
              unfold nsq; linear_combination u.x * tx' + u.y * ty'
            · simp only [turn, rotCcw, if_true, cos_neg, sin_neg] at tx' ty'
              unfold nsq; linear_combination u.x * tx' + u.y * ty'
          rcases mul_eq_zero.1 this with h | h
          · linarith
          · linarith
        have ht : t = π := by
          have hp := pi_pos
          have h1 : cos (t - π) = 1 := by rw [cos_sub_pi, hcos]; norm_num
          have h2 := (cos_eq_one_iff_of_lt_of_lt (x := t - π) (by linarith) (by linarith)).1 h1
          linarith
        exact ⟨τ, a0, by rw [← ht]; exact a1, hp⟩
    · rintro ⟨τ, a0, a1, hp⟩
      exact ⟨π, half_sweep cw u, τ, a0, a1, (hpc _).2 hp⟩
  rw [key]
  constructor
  · rintro ⟨τ, a0, a1, hp⟩
    rw [hp]
    cases cw
    · simp only [turn, Bool.false_eq_true, if_false]
      exact ⟨nsq_rot _ _, by rw [cross_self_rot]; exact mul_nonneg hn (hsin _ a0 a1)⟩
    · simp only [turn, if_true]
      refine ⟨nsq_rot _ _, ?_⟩
      rw [cross_self_rot, sin_neg]
      have := mul_nonneg hn (hsin _ a0 a1)
      linarith
  · rintro ⟨h1, h2⟩
    obtain ⟨t, t0, t1, ht⟩ := exists_angle h1.symm
    rw [← ht, cross_self_rot] at h2
    rw [← ht]
    rcases eq_or_lt_of_le hn with h0 | h0
    · refine ⟨0, le_refl _, pi_pos.le, ?_⟩
      have : u.x = 0 ∧ u.y = 0 := by
        unfold nsq at h0; constructor <;> nlinarith [sq_nonneg u.x, sq_nonneg u.y]
      ext <;> simp [turn, rotCcw, this.1, this.2]
    · cases cw
      · simp only [Bool.false_eq_true, if_false] at h2
        have hs : 0 ≤ sin t := by by_contra hc; push Not at hc; nlinarith
        refine ⟨t, t0, ?_, by simp [turn]⟩
        by_contra hc
        push Not at hc
        have := sin_pos_of_pos_of_lt_pi (x := t - π) (by linarith) (by linarith)
        rw [sin_sub_pi] at this
        linarith
      · simp only [if_true] at h2
        have hs : sin t ≤ 0 := by by_contra hc; push Not at hc; nlinarith
        rcases eq_or_lt_of_le t0 with h | h
        · subst h; exact ⟨0, le_refl _, pi_pos.le, by simp [turn]⟩
        · refine ⟨2 * π - t, by linarith, ?_, ?_⟩
          · by_contra hc
            push Not at hc
            have := sin_pos_of_pos_of_lt_pi h (by linarith)
            linarith
          · simp only [turn, if_true]
            have : -(2 * π - t) = t - 2 * π := by ring
            rw [this]
            ext <;> simp [rotCcw, cos_sub_two_pi, sin_sub_two_pi]

/-! ### Discs -/

/-- The outline of two half circles in one sense. -/
theorem two_halves {a b c : Vec ℝ} (cw neg : Bool) (p : Vec ℝ) (he : b - c = ⟨-(a - c).x, -(a - c).y⟩) :
    OnOutline ⟨.arc ⟨a, b, c, cw⟩, [.arc ⟨b, a, c, cw⟩], neg⟩ p ↔ nsq (p - c) = nsq (a - c) := by
  have he' : a - c = ⟨-(b - c).x, -(b - c).y⟩ := by rw [he]; ext <;> simp
  have hn : nsq (b - c) = nsq (a - c) := by rw [he]; simp only [nsq]; ring
  have hc : cross (b - c) (p - c) = -cross (a - c) (p - c) := by rw [he]; simp only [cross]; ring
  simp only [OnOutline, Shape.segments, List.mem_cons, List.not_mem_nil, or_false, exists_eq_or_imp, exists_eq_left]
  rw [half_arc cw p he, half_arc cw p he', hn, hc]
  constructor
  · rintro (⟨h, -⟩ | ⟨h, -⟩) <;> exact h
  · intro h
    cases cw
    · simp only [Bool.false_eq_true, if_false]
      rcases le_total 0 (cross (a - c) (p - c)) with h1 | h1
      · exact .inl ⟨h, h1⟩
      · exact .inr ⟨h, by linarith⟩
    · simp only [if_true]
      rcases le_total (cross (a - c) (p - c)) 0 with h1 | h1
      · exact .inl ⟨h, h1⟩
      · exact .inr ⟨h, by linarith⟩

theorem antipode (c : Vec ℝ) (r : ℝ) :
    ((⟨c.x + r, c.y⟩ : Vec ℝ) - c) = ⟨-((⟨c.x - r, c.y⟩ : Vec ℝ) - c).x, -((⟨c.x - r, c.y⟩ : Vec ℝ) - c).y⟩ := by
  ext <;> simp

theorem half_start {s e c : Vec ℝ} (cw : Bool) (he : e - c = ⟨-(s - c).x, -(s - c).y⟩) : OnPiece s (.arc ⟨s, e, c, cw⟩) := by
  rw [half_arc cw s he]
  have : cross (s - c) (s - c) = 0 := by unfold cross; ring
  rw [this]
  cases cw <;> simp

theorem abs_le_of_sq {v r : ℝ} (h : v ^ 2 ≤ r) : |v| ≤ r + 1 := by
  have := sq_abs v
  nlinarith [sq_nonneg (|v| - 1), abs_nonneg v]

theorem abs_bound {v c r : ℝ} (h : |v - c| ≤ r) : |v| ≤ r + |c| := by
  have := abs_add_le (v - c) c
  simp only [sub_add_cancel] at this
  linarith

theorem two_halves_rim {a b c : Vec ℝ} (cw neg : Bool) (he : b - c = ⟨-(a - c).x, -(a - c).y⟩) (q : Vec ℝ) :
    OnRim ⟨.arc ⟨a, b, c, cw⟩, [.arc ⟨b, a, c, cw⟩], neg⟩ q ↔ nsq (q - c) = nsq (a - c) := by
  have he' : a - c = ⟨-(b - c).x, -(b - c).y⟩ := by rw [he]; ext <;> simp
  rw [onRim_connected, two_halves cw neg q he]
  intro g hg
  simp only [successors, Shape.segments, List.tail_cons, List.take_succ_cons, List.take_zero, List.cons_append, List.nil_append,
    List.zip_cons_cons, List.zip_nil_left, List.mem_cons, List.not_mem_nil, or_false] at hg
  rcases hg with rfl | rfl
  · exact ⟨rfl, half_start cw he'⟩
  · exact ⟨rfl, half_start cw he⟩

/-- Two half circles enclose a disc. -/
theorem two_halves_area {a b c : Vec ℝ} (cw neg : Bool) (p : Vec ℝ) (he : b - c = ⟨-(a - c).x, -(a - c).y⟩) :
    p ∈ areaOf ⟨.arc ⟨a, b, c, cw⟩, [.arc ⟨b, a, c, cw⟩], neg⟩ ↔ nsq (p - c) ≤ nsq (a - c) := by
  have hrim := two_halves_rim (a := a) (b := b) (c := c) cw neg he
  have hn : 0 ≤ nsq (a - c) := by unfold nsq; positivity
  unfold areaOf
  rw [surrounded_eq (φ := fun p => nsq (p - c) - nsq (a - c)), sub_nonpos]
  · simp only [nsq, Vec.sub_x, Vec.sub_y]; fun_prop
  · intro q hq; rw [hrim]; linarith
  · intro q hq; rw [hrim] at hq; linarith
  · refine ⟨nsq (a - c) + 1 + |c.x| + |c.y|, fun q hq => ?_⟩
    simp only [nsq, Vec.sub_x, Vec.sub_y] at hq ⊢
    constructor
    · have := abs_bound (abs_le_of_sq (v := q.x - c.x) (r := (a.x - c.x) ^ 2 + (a.y - c.y) ^ 2) (by nlinarith [sq_nonneg (q.y - c.y)]))
      linarith [abs_nonneg c.y]
    · have := abs_bound (abs_le_of_sq (v := q.y - c.y) (r := (a.x - c.x) ^ 2 + (a.y - c.y) ^ 2) (by nlinarith [sq_nonneg (q.x - c.x)]))
      linarith [abs_nonneg c.x]
  · intro q hq
    refine ⟨q - c, fun h0 => ?_, fun t ht => ?_⟩
    · rw [h0] at hq; simp only [nsq] at hq hn; linarith
    · have : nsq ((⟨q.x + t * (q - c).x, q.y + t * (q - c).y⟩ : Vec ℝ) - c) = (1 + t) ^ 2 * nsq (q - c) := by
        simp only [nsq, Vec.sub_x, Vec.sub_y]; ring
      rw [this]
      have h1 : 0 ≤ nsq (q - c) := by unfold nsq; positivity
      nlinarith [mul_nonneg ht h1, mul_nonneg (mul_nonneg ht ht) h1]

/-- A circle encloses the points within its radius. -/
theorem circle_enclosed (c p : Vec ℝ) {d : ℝ} (hd : 0 ≤ d) (neg : Bool) :
    p ∈ areaOf (Shape.newCircle c d neg) ↔ vlen (p - c) ≤ d / 2 := by
  rw [vlen_le (by linarith)]
  show p ∈ areaOf ⟨.arc ⟨_, _, _, true⟩, [.arc ⟨_, _, _, true⟩], neg⟩ ↔ _
  rw [two_halves_area _ _ _ (antipode _ _)]
  simp [nsq]

/-! ### Rectangles -/

theorem between_coord {a b l lo hi : ℝ} (h0 : 0 ≤ l) (h1 : l ≤ 1) (ha : lo ≤ a ∧ a ≤ hi) (hb : lo ≤ b ∧ b ≤ hi) :
    lo ≤ a + l * (b - a) ∧ a + l * (b - a) ≤ hi := by
  constructor <;> nlinarith

theorem fraction {lo hi v : ℝ} (h0 : lo ≤ v) (h1 : v ≤ hi) : ∃ l : ℝ, 0 ≤ l ∧ l ≤ 1 ∧ v = lo + l * (hi - lo) := by
  rcases eq_or_lt_of_le (h0.trans h1) with h | h
  · exact ⟨0, le_refl _, zero_le_one, by linarith⟩
  · refine ⟨(v - lo) / (hi - lo), div_nonneg (by linarith) (by linarith), ?_, ?_⟩
    · rw [div_le_one (by linarith)]; linarith
    · rw [div_mul_cancel₀ _ (by linarith)]; ring

theorem vertical_iff {x y0 y1 : ℝ} (hy : y0 ≤ y1) (q : Vec ℝ) :
    (OnSegment ⟨x, y0⟩ ⟨x, y1⟩ q ↔ q.x = x ∧ y0 ≤ q.y ∧ q.y ≤ y1) ∧
    (OnSegment ⟨x, y1⟩ ⟨x, y0⟩ q ↔ q.x = x ∧ y0 ≤ q.y ∧ q.y ≤ y1) := by
  constructor
  · constructor
    · rintro ⟨l, l0, l1, rfl⟩
      refine ⟨by simp, ?_, ?_⟩ <;> simp only <;> nlinarith
    · rintro ⟨h0, h1, h2⟩
      obtain ⟨l, l0, l1, hl⟩ := fraction h1 h2
      exact ⟨l, l0, l1, by ext <;> simp only <;> linarith⟩
  · constructor
    · rintro ⟨l, l0, l1, rfl⟩
      refine ⟨by simp, ?_, ?_⟩ <;> simp only <;> nlinarith
    · rintro ⟨h0, h1, h2⟩
      obtain ⟨l, l0, l1, hl⟩ := fraction h1 h2
      exact ⟨1 - l, by linarith, by linarith, by ext <;> simp only <;> linarith⟩

theorem horizontal_iff {y x0 x1 : ℝ} (hx : x0 ≤ x1) (q : Vec ℝ) :
    (OnSegment ⟨x0, y⟩ ⟨x1, y⟩ q ↔ q.y = y ∧ x0 ≤ q.x ∧ q.x ≤ x1) ∧
    (OnSegment ⟨x1, y⟩ ⟨x0, y⟩ q ↔ q.y = y ∧ x0 ≤ q.x ∧ q.x ≤ x1) := by
  constructor
  · constructor
    · rintro ⟨l, l0, l1, rfl⟩
      refine ⟨by simp, ?_, ?_⟩ <;> simp only <;> nlinarith
    · rintro ⟨h0, h1, h2⟩
      obtain ⟨l, l0, l1, hl⟩ := fraction h1 h2
      exact ⟨l, l0, l1, by ext <;> simp only <;> linarith⟩
  · constructor
    · rintro ⟨l, l0, l1, rfl⟩
      refine ⟨by simp, ?_, ?_⟩ <;> simp only <;> nlinarith
    · rintro ⟨h0, h1, h2⟩
      obtain ⟨l, l0, l1, hl⟩ := fraction h1 h2
      exact ⟨1 - l, by linarith, by linarith, by ext <;> simp only <;> linarith⟩

theorem rectangle_rim (c q : Vec ℝ) {w h : ℝ} (hw : 0 ≤ w) (hh : 0 ≤ h) (neg : Bool) :
    OnRim (Shape.newRectangle c w h neg) q ↔
      ((q.y = c.y - h / 2 ∨ q.y = c.y + h / 2) ∧ c.x - w / 2 ≤ q.x ∧ q.x ≤ c.x + w / 2) ∨
      ((q.x = c.x - w / 2 ∨ q.x = c.x + w / 2) ∧ c.y - h / 2 ≤ q.y ∧ q.y ≤ c.y + h / 2) := by
  rw [onRim_connected]
  · have hx : c.x - w / 2 ≤ c.x + w / 2 := by linarith
    have hy : c.y - h / 2 ≤ c.y + h / 2 := by linarith
    simp only [OnOutline, Shape.segments, Shape.newRectangle, Shape.ln, List.mem_cons, List.not_mem_nil, or_false,
      exists_eq_or_imp, exists_eq_left, OnPiece]
    rw [(horizontal_iff hx q).1, (vertical_iff hy q).1, (horizontal_iff hx q).2, (vertical_iff hy q).2]
    tauto
  · intro g hg
    simp only [successors, Shape.segments, Shape.newRectangle, Shape.ln, List.tail_cons, List.take_succ_cons, List.take_zero,
      List.cons_append, List.nil_append,
      List.zip_cons_cons, List.zip_nil_left, List.mem_cons, List.not_mem_nil, or_false] at hg
    rcases hg with rfl | rfl | rfl | rfl <;> exact ⟨rfl, onSegment_start _ _⟩

/-- A rectangle encloses the points between its sides. -/
theorem rectangle_enclosed (c p : Vec ℝ) {w h : ℝ} (hw : 0 ≤ w) (hh : 0 ≤ h) (neg : Bool) :
    p ∈ areaOf (Shape.newRectangle c w h neg) ↔
      (c.x - w / 2 ≤ p.x ∧ p.x ≤ c.x + w / 2) ∧ (c.y - h / 2 ≤ p.y ∧ p.y ≤ c.y + h / 2) := by
  have hφ : ∀ q : Vec ℝ, max (|q.x - c.x| - w / 2) (|q.y - c.y| - h / 2) ≤ 0 ↔
      (c.x - w / 2 ≤ q.x ∧ q.x ≤ c.x + w / 2) ∧ (c.y - h / 2 ≤ q.y ∧ q.y ≤ c.y + h / 2) := by
    intro q
    rw [max_le_iff, sub_nonpos, sub_nonpos, abs_le, abs_le]
    constructor
    · rintro ⟨⟨h1, h2⟩, h3, h4⟩; refine ⟨⟨?_, ?_⟩, ?_, ?_⟩ <;> linarith
    · rintro ⟨⟨h1, h2⟩, h3, h4⟩; refine ⟨⟨?_, ?_⟩, ?_, ?_⟩ <;> linarith
  unfold areaOf
  rw [surrounded_eq (φ := fun q => max (|q.x - c.x| - w / 2) (|q.y - c.y| - h / 2)), hφ]
  · fun_prop
  · intro q hq
    rw [rectangle_rim c q hw hh]
    obtain ⟨⟨h1, h2⟩, h3, h4⟩ := (hφ q).1 hq.le
    rcases max_choice (|q.x - c.x| - w / 2) (|q.y - c.y| - h / 2) with hm | hm
    · right
      refine ⟨?_, h3, h4⟩
      rw [hm] at hq
      rcases abs_cases (q.x - c.x) with ⟨e, -⟩ | ⟨e, -⟩
      · right; linarith
      · left; linarith
    · left
      refine ⟨?_, h1, h2⟩
      rw [hm] at hq
      rcases abs_cases (q.y - c.y) with ⟨e, -⟩ | ⟨e, -⟩
      · right; linarith
      · left; linarith
  · intro q hq
    rw [rectangle_rim c q hw hh] at hq
    rw [hφ]
    rcases hq with ⟨h1 | h1, h2, h3⟩ | ⟨h1 | h1, h2, h3⟩ <;> refine ⟨⟨?_, ?_⟩, ?_, ?_⟩ <;> linarith
  · refine ⟨w / 2 + h / 2 + |c.x| + |c.y|, fun q hq => ?_⟩
    rw [max_le_iff, sub_nonpos, sub_nonpos] at hq
    have h1 := abs_bound hq.1
    have h2 := abs_bound hq.2
    constructor <;> linarith [abs_nonneg c.x, abs_nonneg c.y]
  · intro q hq
    rw [lt_max_iff] at hq
    have grow : ∀ {a c b : ℝ}, 0 < |a - c| - b → ∀ t : ℝ, 0 ≤ t → 0 < |a + t * (a - c) - c| - b := by
      intro a c b h t ht
      have : a + t * (a - c) - c = (1 + t) * (a - c) := by ring
      rw [this, abs_mul, abs_of_nonneg (by linarith : 0 ≤ 1 + t)]
      nlinarith [abs_nonneg (a - c), mul_nonneg ht (abs_nonneg (a - c))]
    rcases hq with hq | hq
    · refine ⟨⟨q.x - c.x, 0⟩, fun h0 => ?_, fun t ht => lt_max_of_lt_left (grow hq t ht)⟩
      have := congrArg Vec.x h0
      simp only at this
      rw [this] at hq; simp at hq; linarith
    · refine ⟨⟨0, q.y - c.y⟩, fun h0 => ?_, fun t ht => lt_max_of_lt_right (grow hq t ht)⟩
      have := congrArg Vec.y h0
      simp only at this
      rw [this] at hq; simp at hq; linarith

/-! ### Segments under affine maps -/

theorem affine_point {f : Vec ℝ → Vec ℝ} (hf : Affine f) (a b : Vec ℝ) (l : ℝ) :
    (⟨(f a).x + l * ((f b).x - (f a).x), (f a).y + l * ((f b).y - (f a).y)⟩ : Vec ℝ) =
      f ⟨a.x + l * (b.x - a.x), a.y + l * (b.y - a.y)⟩ := by
  obtain ⟨p, q, r, s, x, y, h⟩ := hf.form
  rw [h, h, h]
  ext <;> simp only <;> ring

theorem affine_segment {f : Vec ℝ → Vec ℝ} (hf : Affine f) (hi : ∀ u v, f u = f v → u = v) (a b v : Vec ℝ) :
    OnSegment (f a) (f b) (f v) ↔ OnSegment a b v := by
  unfold OnSegment
  refine exists_congr fun l => and_congr_right fun _ => and_congr_right fun _ => ?_
  rw [affine_point hf]
  exact ⟨hi _ _, fun h => by rw [h]⟩

/-! ### Thick lines -/

/-- The unit vector along a line. -/
theorem unit_normalized (v : Vec ℝ) : v.normalized.x ^ 2 + v.normalized.y ^ 2 = 1 := by
  unfold Vec.normalized
  split
  · simp
  · rename_i h
    have hpos : 0 < v.x * v.x + v.y * v.y := by
      by_contra hn
      apply h
      constructor <;> nlinarith [mul_self_nonneg v.x, mul_self_nonneg v.y]
    have hl : v.length ^ 2 = v.x * v.x + v.y * v.y := sq_sqrt hpos.le
    have hl0 : v.length ≠ 0 := by
      intro h0; rw [h0] at hl; simp at hl; linarith
    simp only [Vec.divBy]
    field_simp
    linarith

theorem normalized_scale (v : Vec ℝ) (h : v ≠ ⟨0, 0⟩) :
    0 < vlen v ∧ v.x = vlen v * v.normalized.x ∧ v.y = vlen v * v.normalized.y := by
  have h' : ¬ (v.x = 0 ∧ v.y = 0) := fun hh => h (by ext <;> simp [hh.1, hh.2])
  have hpos : 0 < v.x ^ 2 + v.y ^ 2 := by
    by_contra hn
    apply h'
    constructor <;> nlinarith [sq_nonneg v.x, sq_nonneg v.y]
  have hl : 0 < vlen v := sqrt_pos.2 hpos
  have he : v.length = vlen v := by unfold Vec.length vlen; congr 1; ring
  refine ⟨hl, ?_, ?_⟩ <;> unfold Vec.normalized <;> rw [if_neg h'] <;> simp only [Vec.divBy, he] <;> field_simp

/-- The points enclosed by the outline of a straight stroke. -/
theorem line_enclosed (s e p : Vec ℝ) {t : ℝ} (ht : 0 ≤ t) (neg : Bool) :
    p ∈ areaOf (Shape.newLine s e t neg) ↔ ∃ l m : ℝ, 0 ≤ l ∧ l ≤ 1 ∧ -1 ≤ m ∧ m ≤ 1 ∧
      p = ⟨s.x + l * (e.x - s.x) - m * ((e - s).normalized.y * (t / 2)),
        s.y + l * (e.y - s.y) + m * ((e - s).normalized.x * (t / 2))⟩ := by
  have hu := unit_normalized (e - s)
  obtain ⟨hx, hy⟩ : e.x - s.x = vlen (e - s) * (e - s).normalized.x ∧ e.y - s.y = vlen (e - s) * (e - s).normalized.y := by
    by_cases h : e - s = ⟨0, 0⟩
    · have h1 := congrArg Vec.x h
      have h2 := congrArg Vec.y h
      simp only [Vec.sub_x, Vec.sub_y] at h1 h2
      rw [h, h1, h2]
      simp [vlen]
    · obtain ⟨-, h1, h2⟩ := normalized_scale (e - s) h
      exact ⟨h1, h2⟩
  have hL : 0 ≤ vlen (e - s) := vlen_nonneg _
  have hn : Shape.newLine s e t neg = ⟨.line ⟨⟨s.x - (e - s).normalized.y * (t / 2), s.y + (e - s).normalized.x * (t / 2)⟩,
      ⟨e.x - (e - s).normalized.y * (t / 2), e.y + (e - s).normalized.x * (t / 2)⟩⟩,
      [.line ⟨⟨e.x + (e - s).normalized.y * (t / 2), e.y - (e - s).normalized.x * (t / 2)⟩,
        ⟨s.x + (e - s).normalized.y * (t / 2), s.y - (e - s).normalized.x * (t / 2)⟩⟩], neg⟩ := by
    have key : ∀ a b c d a' b' c' d' : Vec ℝ, a = a' → b = b' → c = c' → d = d' →
        (⟨.line ⟨a, b⟩, [.line ⟨c, d⟩], neg⟩ : Shape) = ⟨.line ⟨a', b'⟩, [.line ⟨c', d'⟩], neg⟩ := by
      rintro _ _ _ _ _ _ _ _ rfl rfl rfl rfl; rfl
    apply key <;> ext <;> simp [Vec.scale] <;> ring
  rw [hn]
  generalize vlen (e - s) = L at *
  generalize (e - s).normalized = u at *
  set f : Vec ℝ → Vec ℝ := fun v => ⟨u.x * v.x + -u.y * v.y + s.x, u.y * v.x + u.x * v.y + s.y⟩ with hf
  set g : Vec ℝ → Vec ℝ := fun v => ⟨u.x * v.x + u.y * v.y + -(u.x * s.x + u.y * s.y),
    -u.y * v.x + u.x * v.y + (u.y * s.x - u.x * s.y)⟩ with hg
  have hfa : Affine f := ⟨_, _, _, _, _, _, fun _ => rfl⟩
  have hga : Affine g := ⟨_, _, _, _, _, _, fun _ => rfl⟩
  have hfg : ∀ v, f (g v) = v := by
    intro v
    ext
    · simp only [hf, hg]; linear_combination (v.x - s.x) * hu
    · simp only [hf, hg]; linear_combination (v.y - s.y) * hu
  have hgf : ∀ v, g (f v) = v := by
    intro v
    ext
    · simp only [hf, hg]; linear_combination v.x * hu
    · simp only [hf, hg]; linear_combination v.y * hu
  have hi : ∀ u v, f u = f v → u = v := fun a b h => by rw [← hgf a, h, hgf]
  have c1 : (⟨s.x - u.y * (t / 2), s.y + u.x * (t / 2)⟩ : Vec ℝ) = f ⟨0, t / 2⟩ := by
    ext <;> simp only [hf] <;> ring
  have c2 : (⟨e.x - u.y * (t / 2), e.y + u.x * (t / 2)⟩ : Vec ℝ) = f ⟨L, t / 2⟩ := by
    ext <;> simp only [hf] <;> linarith
  have c3 : (⟨e.x + u.y * (t / 2), e.y - u.x * (t / 2)⟩ : Vec ℝ) = f ⟨L, -(t / 2)⟩ := by
    ext <;> simp only [hf] <;> linarith
  have c4 : (⟨s.x + u.y * (t / 2), s.y - u.x * (t / 2)⟩ : Vec ℝ) = f ⟨0, -(t / 2)⟩ := by
    ext <;> simp only [hf] <;> ring
  rw [c1, c2, c3, c4]
  unfold areaOf
  rw [surrounded_image (O := OnRim (Shape.newRectangle ⟨L / 2, 0⟩ L t false)) hfa hga hfg hgf]
  · show p ∈ f '' areaOf _ ↔ _
    constructor
    · rintro ⟨q, hq, rfl⟩
      rw [rectangle_enclosed _ _ hL ht] at hq
      obtain ⟨⟨q1, q2⟩, q3, q4⟩ := hq
      simp only at q1 q2 q3 q4
      obtain ⟨l, l0, l1, hl⟩ := fraction (lo := 0) (hi := L) (v := q.x) (by linarith) (by linarith)
      obtain ⟨m, m0, m1, hm⟩ := fraction (lo := -(t / 2)) (hi := t / 2) (v := q.y) (by linarith) (by linarith)
      refine ⟨l, 2 * m - 1, l0, l1, by linarith, by linarith, ?_⟩
      rw [hx, hy]
      ext <;> simp only [hf, hl, hm] <;> ring
    · rintro ⟨l, m, l0, l1, m0, m1, rfl⟩
      refine ⟨⟨l * L, m * (t / 2)⟩, ?_, ?_⟩
      · rw [rectangle_enclosed _ _ hL ht]
        simp only
        refine ⟨⟨?_, ?_⟩, ?_, ?_⟩ <;> nlinarith
      · rw [hx, hy]
        ext <;> simp only [hf] <;> ring
  · intro v
    rw [rectangle_rim _ _ hL ht]
    simp only [OnRim, OnOutline, successors, Shape.segments, List.tail_cons, List.take_succ_cons, List.take_zero,
      List.cons_append, List.nil_append, List.zip_cons_cons, List.zip_nil_left, List.mem_cons, List.not_mem_nil, or_false,
      exists_eq_or_imp, exists_eq_left, OnPiece, Segment.start, Segment.stop]
    have ht2 : -(t / 2) ≤ t / 2 := by linarith
    rw [affine_segment hfa hi, affine_segment hfa hi, affine_segment hfa hi, affine_segment hfa hi,
      (horizontal_iff hL v).1, (horizontal_iff hL v).2, (vertical_iff ht2 v).1, (vertical_iff ht2 v).2]
    have e1 : L / 2 - L / 2 = 0 := by ring
    have e2 : L / 2 + L / 2 = L := by ring
    simp only [e1, e2, zero_sub, zero_add]
    tauto

/-! ### Obrounds -/

theorem clamped {u v c a r : ℝ} (ha : 0 ≤ a) :
    (∃ z, c - a ≤ z ∧ z ≤ c + a ∧ u ^ 2 + (v - z) ^ 2 ≤ r) ↔ u ^ 2 + (max (|v - c| - a) 0) ^ 2 - r ≤ 0 := by
  constructor
  · rintro ⟨z, h0, h1, h2⟩
    have h3 : (max (|v - c| - a) 0) ^ 2 ≤ (v - z) ^ 2 := by
      rcases le_total (|v - c| - a) 0 with h | h
      · rw [max_eq_right h]; nlinarith [sq_nonneg (v - z)]
      · rw [max_eq_left h]
        rcases abs_cases (v - c) with ⟨e, -⟩ | ⟨e, -⟩ <;> rw [e] at h ⊢ <;> nlinarith
    linarith
  · intro h
    rcases le_total (|v - c| - a) 0 with h0 | h0
    · rw [max_eq_right h0] at h
      obtain ⟨h1, h2⟩ := abs_le.1 (show |v - c| ≤ a by linarith)
      exact ⟨v, by linarith, by linarith, by simp at h ⊢; linarith⟩
    · rw [max_eq_left h0] at h
      rcases abs_cases (v - c) with ⟨e, -⟩ | ⟨e, -⟩ <;> rw [e] at h h0
      · exact ⟨c + a, by linarith, le_refl _, by nlinarith⟩
      · exact ⟨c - a, le_refl _, by linarith, by nlinarith⟩

theorem clamped_grows {u v a r t : ℝ} (ht : 0 ≤ t) (h : 0 < u ^ 2 + (max (|v| - a) 0) ^ 2 - r) :
    0 < ((1 + t) * u) ^ 2 + (max (|(1 + t) * v| - a) 0) ^ 2 - r := by
  have h1 : max (|v| - a) 0 ≤ max (|(1 + t) * v| - a) 0 := by
    apply max_le_max _ (le_refl _)
    rw [abs_mul, abs_of_nonneg (by linarith : 0 ≤ 1 + t)]
    nlinarith [abs_nonneg v]
  have h2 : 0 ≤ max (|v| - a) 0 := le_max_right _ _
  have h3 : u ^ 2 ≤ ((1 + t) * u) ^ 2 := by nlinarith [sq_nonneg u, mul_nonneg ht (sq_nonneg u), mul_nonneg (mul_nonneg ht ht) (sq_nonneg u)]
  nlinarith

theorem clamped_bound {u v a r : ℝ} (ha : 0 ≤ a) (h : u ^ 2 + (max (|v| - a) 0) ^ 2 - r ≤ 0) : |u| ≤ r + 1 + a ∧ |v| ≤ r + 1 + a := by
  have h2 : 0 ≤ max (|v| - a) 0 := le_max_right _ _
  have h3 : |v| - a ≤ max (|v| - a) 0 := le_max_left _ _
  constructor
  · have := abs_le_of_sq (v := u) (r := r) (by nlinarith [sq_nonneg (max (|v| - a) 0)])
    linarith
  · have := abs_le_of_sq (v := max (|v| - a) 0) (r := r) (by nlinarith [sq_nonneg u])
    rw [abs_of_nonneg h2] at this
    linarith

theorem sq_eq_cases {x r : ℝ} (h : x ^ 2 = r ^ 2) : x = r ∨ x = -r := by
  rcases sq_eq_sq_iff_eq_or_eq_neg.1 h with h | h
  · exact .inl h
  · exact .inr h

theorem obround_vertical_rim (c : Vec ℝ) {w h : ℝ} (hw : 0 ≤ w) (hh : w ≤ h) (neg : Bool) (q : Vec ℝ) :
    OnRim (Shape.newObround c w h neg) q ↔
      (nsq (q - ⟨c.x, c.y - (h - w) / 2⟩) = (w / 2) ^ 2 ∧ (w = 0 ∨ q.y ≤ c.y - (h - w) / 2)) ∨
      (nsq (q - ⟨c.x, c.y + (h - w) / 2⟩) = (w / 2) ^ 2 ∧ (w = 0 ∨ c.y + (h - w) / 2 ≤ q.y)) ∨
      ((q.x = c.x + w / 2 ∨ q.x = c.x - w / 2) ∧ c.y - (h - w) / 2 ≤ q.y ∧ q.y ≤ c.y + (h - w) / 2) := by
  have e1 : c.y - h / 2 + w / 2 = c.y - (h - w) / 2 := by ring
  have e2 : c.y + h / 2 - w / 2 = c.y + (h - w) / 2 := by ring
  have hs : Shape.newObround c w h neg = ⟨.arc ⟨⟨c.x - w / 2, c.y - (h - w) / 2⟩, ⟨c.x + w / 2, c.y - (h - w) / 2⟩,
      ⟨c.x, c.y - (h - w) / 2⟩, false⟩, [.line ⟨⟨c.x + w / 2, c.y - (h - w) / 2⟩, ⟨c.x + w / 2, c.y + (h - w) / 2⟩⟩,
      .arc ⟨⟨c.x + w / 2, c.y + (h - w) / 2⟩, ⟨c.x - w / 2, c.y + (h - w) / 2⟩, ⟨c.x, c.y + (h - w) / 2⟩, false⟩,
      .line ⟨⟨c.x - w / 2, c.y + (h - w) / 2⟩, ⟨c.x - w / 2, c.y - (h - w) / 2⟩⟩], neg⟩ := by
    simp only [Shape.newObround, if_pos hh, Shape.ln, e1, e2]
  rw [hs, onRim_connected]
  · simp only [OnOutline, Shape.segments, List.mem_cons, List.not_mem_nil, or_false, exists_eq_or_imp, exists_eq_left]
    rw [half_arc false q (antipode ⟨c.x, c.y - (h - w) / 2⟩ (w / 2)), half_arc false q (by ext <;> simp)]
    simp only [OnPiece, Bool.false_eq_true, if_false]
    have a1 : nsq ((⟨c.x - w / 2, c.y - (h - w) / 2⟩ : Vec ℝ) - ⟨c.x, c.y - (h - w) / 2⟩) = (w / 2) ^ 2 := by simp [nsq]
    have a2 : nsq ((⟨c.x + w / 2, c.y + (h - w) / 2⟩ : Vec ℝ) - ⟨c.x, c.y + (h - w) / 2⟩) = (w / 2) ^ 2 := by simp [nsq]
    have b1 : cross ((⟨c.x - w / 2, c.y - (h - w) / 2⟩ : Vec ℝ) - ⟨c.x, c.y - (h - w) / 2⟩) (q - ⟨c.x, c.y - (h - w) / 2⟩) =
        w / 2 * (c.y - (h - w) / 2 - q.y) := by simp [cross]; ring
    have b2 : cross ((⟨c.x + w / 2, c.y + (h - w) / 2⟩ : Vec ℝ) - ⟨c.x, c.y + (h - w) / 2⟩) (q - ⟨c.x, c.y + (h - w) / 2⟩) =
        w / 2 * (q.y - (c.y + (h - w) / 2)) := by simp [cross]
    rw [a1, a2, b1, b2]
    have sgn : ∀ b : ℝ, 0 ≤ w / 2 * b ↔ w = 0 ∨ 0 ≤ b := by
      intro b
      constructor
      · intro h0
        rcases eq_or_lt_of_le hw with h1 | h1
        · exact .inl h1.symm
        · exact .inr (by by_contra hc; push Not at hc; nlinarith)
      · rintro (h0 | h0)
        · simp [h0]
        · positivity
    rw [sgn, sgn, sub_nonneg, sub_nonneg, (vertical_iff (by linarith) q).1, (vertical_iff (by linarith) q).2]
    tauto
  · intro g hg
    simp only [successors, Shape.segments, List.tail_cons, List.take_succ_cons, List.take_zero, List.cons_append, List.nil_append,
      List.zip_cons_cons, List.zip_nil_left, List.mem_cons, List.not_mem_nil, or_false] at hg
    rcases hg with rfl | rfl | rfl | rfl
    · exact ⟨rfl, onSegment_start _ _⟩
    · exact ⟨rfl, by refine half_start false ?_; ext <;> simp [Segment.start]⟩
    · exact ⟨rfl, onSegment_start _ _⟩
    · exact ⟨rfl, by refine half_start false ?_; ext <;> simp [Segment.start]⟩

/-- An upright obround. -/
theorem obround_vertical (c p : Vec ℝ) {w h : ℝ} (hw : 0 ≤ w) (hh : w ≤ h) (neg : Bool) :
    p ∈ areaOf (Shape.newObround c w h neg) ↔ Swept ⟨c.x, c.y - (h - w) / 2⟩ ⟨c.x, c.y + (h - w) / 2⟩ w p := by
  have ha : 0 ≤ (h - w) / 2 := by linarith
  have hsw : ∀ q, Swept ⟨c.x, c.y - (h - w) / 2⟩ ⟨c.x, c.y + (h - w) / 2⟩ w q ↔
      (q.x - c.x) ^ 2 + (max (|q.y - c.y| - (h - w) / 2) 0) ^ 2 - (w / 2) ^ 2 ≤ 0 := by
    intro q
    rw [← clamped ha]
    constructor
    · rintro ⟨z, hz, hq⟩
      obtain ⟨z1, z2, z3⟩ := (vertical_iff (by linarith) z).1.1 hz
      rw [vlen_le (by linarith)] at hq
      simp only [Vec.sub_x, Vec.sub_y, z1] at hq
      exact ⟨z.y, z2, z3, hq⟩
    · rintro ⟨z, z1, z2, hq⟩
      exact ⟨⟨c.x, z⟩, (vertical_iff (by linarith) _).1.2 ⟨rfl, z1, z2⟩, (vlen_le (by linarith)).2 hq⟩
  have hout := obround_vertical_rim c hw hh neg
  rw [hsw]
  unfold areaOf
  rw [surrounded_eq (φ := fun q => (q.x - c.x) ^ 2 + (max (|q.y - c.y| - (h - w) / 2) 0) ^ 2 - (w / 2) ^ 2)]
  · fun_prop
  · intro q hq
    rw [hout]
    rcases le_total (|q.y - c.y| - (h - w) / 2) 0 with h0 | h0
    · rw [max_eq_right h0] at hq
      obtain ⟨h1, h2⟩ := abs_le.1 (show |q.y - c.y| ≤ (h - w) / 2 by linarith)
      refine .inr (.inr ⟨?_, by linarith, by linarith⟩)
      rcases sq_eq_cases (x := q.x - c.x) (r := w / 2) (by linarith) with e | e
      · left; linarith
      · right; linarith
    · rw [max_eq_left h0] at hq
      rcases abs_cases (q.y - c.y) with ⟨e, -⟩ | ⟨e, -⟩ <;> rw [e] at hq h0
      · exact .inr (.inl ⟨by simp only [nsq, Vec.sub_x, Vec.sub_y]; linear_combination hq, .inr (by linarith)⟩)
      · exact .inl ⟨by simp only [nsq, Vec.sub_x, Vec.sub_y]; linear_combination hq, .inr (by linarith)⟩
  · intro q hq
    rw [hout] at hq
    rw [← clamped ha]
    rcases hq with ⟨h1, -⟩ | ⟨h1, -⟩ | ⟨h1, h2, h3⟩
    · exact ⟨_, le_refl _, by linarith, h1.le⟩
    · exact ⟨_, by linarith, le_refl _, h1.le⟩
    · refine ⟨q.y, h2, h3, ?_⟩
      rcases h1 with h1 | h1 <;> simp [h1]
  · refine ⟨(w / 2) ^ 2 + 1 + (h - w) / 2 + |c.x| + |c.y|, fun q hq => ?_⟩
    obtain ⟨h1, h2⟩ := clamped_bound ha hq
    have h1 := abs_bound h1
    have h2 := abs_bound h2
    constructor <;> linarith [abs_nonneg c.x, abs_nonneg c.y]
  · intro q hq
    refine ⟨q - c, fun h0 => ?_, fun t ht => ?_⟩
    · have hx := congrArg Vec.x h0
      have hy := congrArg Vec.y h0
      simp only [Vec.sub_x, Vec.sub_y] at hx hy
      rw [hx, hy, abs_zero, max_eq_right (by linarith)] at hq
      nlinarith [sq_nonneg (w / 2)]
    · have := clamped_grows ht hq
      have g1 : q.x + t * (q - c).x - c.x = (1 + t) * (q.x - c.x) := by simp only [Vec.sub_x]; ring
      have g2 : q.y + t * (q - c).y - c.y = (1 + t) * (q.y - c.y) := by simp only [Vec.sub_y]; ring
      simp only [g1, g2]
      exact this

theorem obround_horizontal_rim (c : Vec ℝ) {w h : ℝ} (hh : 0 ≤ h) (hw : h < w) (neg : Bool) (q : Vec ℝ) :
    OnRim (Shape.newObround c w h neg) q ↔
      (nsq (q - ⟨c.x - (w - h) / 2, c.y⟩) = (h / 2) ^ 2 ∧ (h = 0 ∨ q.x ≤ c.x - (w - h) / 2)) ∨
      (nsq (q - ⟨c.x + (w - h) / 2, c.y⟩) = (h / 2) ^ 2 ∧ (h = 0 ∨ c.x + (w - h) / 2 ≤ q.x)) ∨
      ((q.y = c.y + h / 2 ∨ q.y = c.y - h / 2) ∧ c.x - (w - h) / 2 ≤ q.x ∧ q.x ≤ c.x + (w - h) / 2) := by
  have e1 : c.x - w / 2 + h / 2 = c.x - (w - h) / 2 := by ring
  have e2 : c.x + w / 2 - h / 2 = c.x + (w - h) / 2 := by ring
  have hs : Shape.newObround c w h neg = ⟨.line ⟨⟨c.x - (w - h) / 2, c.y - h / 2⟩, ⟨c.x + (w - h) / 2, c.y - h / 2⟩⟩,
      [.arc ⟨⟨c.x + (w - h) / 2, c.y - h / 2⟩, ⟨c.x + (w - h) / 2, c.y + h / 2⟩, ⟨c.x + (w - h) / 2, c.y⟩, false⟩,
      .line ⟨⟨c.x + (w - h) / 2, c.y + h / 2⟩, ⟨c.x - (w - h) / 2, c.y + h / 2⟩⟩,
      .arc ⟨⟨c.x - (w - h) / 2, c.y + h / 2⟩, ⟨c.x - (w - h) / 2, c.y - h / 2⟩, ⟨c.x - (w - h) / 2, c.y⟩, false⟩], neg⟩ := by
    simp only [Shape.newObround, if_neg (not_le.2 hw), Shape.ln, e1, e2]
  rw [hs, onRim_connected]
  · simp only [OnOutline, Shape.segments, List.mem_cons, List.not_mem_nil, or_false, exists_eq_or_imp, exists_eq_left]
    rw [half_arc false q (by ext <;> simp), half_arc false q (by ext <;> simp)]
    simp only [OnPiece, Bool.false_eq_true, if_false]
    have a1 : nsq ((⟨c.x - (w - h) / 2, c.y + h / 2⟩ : Vec ℝ) - ⟨c.x - (w - h) / 2, c.y⟩) = (h / 2) ^ 2 := by simp [nsq]
    have a2 : nsq ((⟨c.x + (w - h) / 2, c.y - h / 2⟩ : Vec ℝ) - ⟨c.x + (w - h) / 2, c.y⟩) = (h / 2) ^ 2 := by simp [nsq]
    have b1 : cross ((⟨c.x - (w - h) / 2, c.y + h / 2⟩ : Vec ℝ) - ⟨c.x - (w - h) / 2, c.y⟩) (q - ⟨c.x - (w - h) / 2, c.y⟩) =
        h / 2 * (c.x - (w - h) / 2 - q.x) := by simp [cross]; ring
    have b2 : cross ((⟨c.x + (w - h) / 2, c.y - h / 2⟩ : Vec ℝ) - ⟨c.x + (w - h) / 2, c.y⟩) (q - ⟨c.x + (w - h) / 2, c.y⟩) =
        h / 2 * (q.x - (c.x + (w - h) / 2)) := by simp [cross]
    rw [a1, a2, b1, b2]
    have sgn : ∀ b : ℝ, 0 ≤ h / 2 * b ↔ h = 0 ∨ 0 ≤ b := by
      intro b
      constructor
      · intro h0
        rcases eq_or_lt_of_le hh with h1 | h1
        · exact .inl h1.symm
        · exact .inr (by by_contra hc; push Not at hc; nlinarith)
      · rintro (h0 | h0)
        · simp [h0]
        · positivity
    rw [sgn, sgn, sub_nonneg, sub_nonneg, (horizontal_iff (by linarith) q).1, (horizontal_iff (by linarith) q).2]
    tauto
  · intro g hg
    simp only [successors, Shape.segments, List.tail_cons, List.take_succ_cons, List.take_zero, List.cons_append, List.nil_append,
      List.zip_cons_cons, List.zip_nil_left, List.mem_cons, List.not_mem_nil, or_false] at hg
    rcases hg with rfl | rfl | rfl | rfl
    · exact ⟨rfl, by refine half_start false ?_; ext <;> simp [Segment.start]⟩
    · exact ⟨rfl, onSegment_start _ _⟩
    · exact ⟨rfl, by refine half_start false ?_; ext <;> simp [Segment.start]⟩
    · exact ⟨rfl, onSegment_start _ _⟩

/-- A lying obround. -/
theorem obround_horizontal (c p : Vec ℝ) {w h : ℝ} (hh : 0 ≤ h) (hw : h < w) (neg : Bool) :
    p ∈ areaOf (Shape.newObround c w h neg) ↔ Swept ⟨c.x - (w - h) / 2, c.y⟩ ⟨c.x + (w - h) / 2, c.y⟩ h p := by
  have ha : 0 ≤ (w - h) / 2 := by linarith
  have hsw : ∀ q, Swept ⟨c.x - (w - h) / 2, c.y⟩ ⟨c.x + (w - h) / 2, c.y⟩ h q ↔
      (q.y - c.y) ^ 2 + (max (|q.x - c.x| - (w - h) / 2) 0) ^ 2 - (h / 2) ^ 2 ≤ 0 := by
    intro q
    rw [← clamped ha]
    constructor
    · rintro ⟨z, hz, hq⟩
      obtain ⟨z1, z2, z3⟩ := (horizontal_iff (by linarith) z).1.1 hz
      rw [vlen_le (by linarith)] at hq
      simp only [Vec.sub_x, Vec.sub_y, z1] at hq
      exact ⟨z.x, z2, z3, by linarith⟩
    · rintro ⟨z, z1, z2, hq⟩
      exact ⟨⟨z, c.y⟩, (horizontal_iff (by linarith) _).1.2 ⟨rfl, z1, z2⟩, (vlen_le (by linarith)).2
        (by simp only [Vec.sub_x, Vec.sub_y]; linarith)⟩
  have hout := obround_horizontal_rim c hh hw neg
  rw [hsw]
  unfold areaOf
  rw [surrounded_eq (φ := fun q => (q.y - c.y) ^ 2 + (max (|q.x - c.x| - (w - h) / 2) 0) ^ 2 - (h / 2) ^ 2)]
  · fun_prop
  · intro q hq
    rw [hout]
    rcases le_total (|q.x - c.x| - (w - h) / 2) 0 with h0 | h0
    · rw [max_eq_right h0] at hq
      obtain ⟨h1, h2⟩ := abs_le.1 (show |q.x - c.x| ≤ (w - h) / 2 by linarith)
      refine .inr (.inr ⟨?_, by linarith, by linarith⟩)
      rcases sq_eq_cases (x := q.y - c.y) (r := h / 2) (by linarith) with e | e
      · left; linarith
      · right; linarith
    · rw [max_eq_left h0] at hq
      rcases abs_cases (q.x - c.x) with ⟨e, -⟩ | ⟨e, -⟩ <;> rw [e] at hq h0
      · exact .inr (.inl ⟨by simp only [nsq, Vec.sub_x, Vec.sub_y]; linear_combination hq, .inr (by linarith)⟩)
      · exact .inl ⟨by simp only [nsq, Vec.sub_x, Vec.sub_y]; linear_combination hq, .inr (by linarith)⟩
  · intro q hq
    rw [hout] at hq
    rw [← clamped ha]
    simp only [nsq, Vec.sub_x, Vec.sub_y] at hq
    rcases hq with ⟨h1, -⟩ | ⟨h1, -⟩ | ⟨h1, h2, h3⟩
    · exact ⟨_, le_refl _, by linarith, by linarith⟩
    · exact ⟨_, by linarith, le_refl _, by linarith⟩
    · refine ⟨q.x, h2, h3, ?_⟩
      rcases h1 with h1 | h1 <;> simp [h1]
  · refine ⟨(h / 2) ^ 2 + 1 + (w - h) / 2 + |c.x| + |c.y|, fun q hq => ?_⟩
    obtain ⟨h1, h2⟩ := clamped_bound ha hq
    have h1 := abs_bound h1
    have h2 := abs_bound h2
    constructor <;> linarith [abs_nonneg c.x, abs_nonneg c.y]
  · intro q hq
    refine ⟨q - c, fun h0 => ?_, fun t ht => ?_⟩
    · have hx := congrArg Vec.x h0
      have hy := congrArg Vec.y h0
      simp only [Vec.sub_x, Vec.sub_y] at hx hy
      rw [hx, hy, abs_zero, max_eq_right (by linarith)] at hq
      nlinarith [sq_nonneg (h / 2)]
    · have := clamped_grows ht hq
      have g1 : q.x + t * (q - c).x - c.x = (1 + t) * (q.x - c.x) := by simp only [Vec.sub_x]; ring
      have g2 : q.y + t * (q - c).y - c.y = (1 + t) * (q.y - c.y) := by simp only [Vec.sub_y]; ring
      simp only [g1, g2]
      exact this

/-! ### Halves of rings -/

/-- The area of half a ring; `σ = 1` for the lower half, `σ = -1` for the upper half. -/
theorem half_ring_area {curve : Vec ℝ → Prop} {c : Vec ℝ} {R K σ : ℝ} (hK : 0 ≤ K) (hR : K ≤ R) (hσ : σ = 1 ∨ σ = -1)
    (hc : ∀ q, curve q ↔ ((nsq (q - c) = R ^ 2 ∨ nsq (q - c) = K ^ 2) ∧ σ * (q.y - c.y) ≤ 0) ∨
      (q.y = c.y ∧ ((c.x - R ≤ q.x ∧ q.x ≤ c.x - K) ∨ (c.x + K ≤ q.x ∧ q.x ≤ c.x + R)))) (p : Vec ℝ) :
    p ∈ Surrounded curve ↔ K ^ 2 ≤ nsq (p - c) ∧ nsq (p - c) ≤ R ^ 2 ∧ σ * (p.y - c.y) ≤ 0 := by
  have hφ : ∀ q : Vec ℝ, max (max (nsq (q - c) - R ^ 2) (K ^ 2 - nsq (q - c))) (σ * (q.y - c.y)) ≤ 0 ↔
      K ^ 2 ≤ nsq (q - c) ∧ nsq (q - c) ≤ R ^ 2 ∧ σ * (q.y - c.y) ≤ 0 := by
    intro q
    rw [max_le_iff, max_le_iff, sub_nonpos, sub_nonpos]
    tauto
  have hKR : K ^ 2 ≤ R ^ 2 := by nlinarith
  rw [surrounded_eq (φ := fun q => max (max (nsq (q - c) - R ^ 2) (K ^ 2 - nsq (q - c))) (σ * (q.y - c.y))), hφ]
  · simp only [nsq, Vec.sub_x, Vec.sub_y]; fun_prop
  · intro q hq
    rw [hc]
    obtain ⟨h1, h2, h3⟩ := (hφ q).1 hq.le
    rcases max_choice (max (nsq (q - c) - R ^ 2) (K ^ 2 - nsq (q - c))) (σ * (q.y - c.y)) with hm | hm
    · rw [hm] at hq
      rcases max_choice (nsq (q - c) - R ^ 2) (K ^ 2 - nsq (q - c)) with hm | hm <;> rw [hm] at hq
      · exact .inl ⟨.inl (by linarith), h3⟩
      · exact .inl ⟨.inr (by linarith), h3⟩
    · rw [hm] at hq
      have hy : q.y = c.y := by rcases hσ with rfl | rfl <;> linarith
      refine .inr ⟨hy, ?_⟩
      simp only [nsq, Vec.sub_x, Vec.sub_y, hy, sub_self] at h1 h2
      rcases le_total q.x c.x with hx | hx
      · left; constructor <;> nlinarith
      · right; constructor <;> nlinarith
  · intro q hq
    rw [hc] at hq
    rw [hφ]
    rcases hq with ⟨h1 | h1, h2⟩ | ⟨h1, h2⟩
    · exact ⟨by linarith, h1.le, h2⟩
    · exact ⟨h1.ge, by linarith, h2⟩
    · simp only [nsq, Vec.sub_x, Vec.sub_y, h1, sub_self]
      rcases h2 with ⟨h2, h3⟩ | ⟨h2, h3⟩ <;> refine ⟨by nlinarith, by nlinarith, by simp⟩
  · refine ⟨R ^ 2 + 1 + |c.x| + |c.y|, fun q hq => ?_⟩
    obtain ⟨-, h2, -⟩ := (hφ q).1 hq
    simp only [nsq, Vec.sub_x, Vec.sub_y] at h2
    constructor
    · have := abs_bound (abs_le_of_sq (v := q.x - c.x) (r := R ^ 2) (by nlinarith [sq_nonneg (q.y - c.y)]))
      linarith [abs_nonneg c.y]
    · have := abs_bound (abs_le_of_sq (v := q.y - c.y) (r := R ^ 2) (by nlinarith [sq_nonneg (q.x - c.x)]))
      linarith [abs_nonneg c.x]
  · intro q hq
    by_cases hfar : R ^ 2 < nsq (q - c)
    · refine ⟨q - c, fun h0 => ?_, fun t ht => ?_⟩
      · rw [h0] at hfar; simp only [nsq] at hfar; nlinarith [sq_nonneg R]
      · have : nsq ((⟨q.x + t * (q - c).x, q.y + t * (q - c).y⟩ : Vec ℝ) - c) = (1 + t) ^ 2 * nsq (q - c) := by
          simp only [nsq, Vec.sub_x, Vec.sub_y]; ring
        apply lt_max_of_lt_left
        apply lt_max_of_lt_left
        rw [this]
        have h1 : 0 ≤ nsq (q - c) := by unfold nsq; positivity
        nlinarith [mul_nonneg ht h1, mul_nonneg (mul_nonneg ht ht) h1]
    · refine ⟨⟨0, σ⟩, fun h0 => ?_, fun t ht => ?_⟩
      · have := congrArg Vec.y h0
        simp only at this
        rcases hσ with rfl | rfl <;> norm_num at this
      · have hσ2 : σ * σ = 1 := by rcases hσ with rfl | rfl <;> norm_num
        by_cases hup : 0 < σ * (q.y + t * σ - c.y)
        · exact lt_max_of_lt_right hup
        · push Not at hup
          have h1 : σ * (q.y - c.y) + t ≤ 0 := by nlinarith
          have h2 : ¬ 0 < σ * (q.y - c.y) := by push Not; linarith
          have h3 : 0 < K ^ 2 - nsq (q - c) := by
            rcases lt_max_iff.1 hq with h | h
            · rcases lt_max_iff.1 h with h | h
              · exact absurd h (by linarith)
              · exact h
            · exact absurd h h2
          apply lt_max_of_lt_left
          apply lt_max_of_lt_right
          simp only [nsq, Vec.sub_x, Vec.sub_y] at h3 ⊢
          have h4 : (q.y + t * σ - c.y) ^ 2 = (σ * (q.y - c.y) + t) ^ 2 := by
            have : (σ * (q.y - c.y) + t) = σ * (q.y + t * σ - c.y) := by linear_combination (-t) * hσ2
            rw [this, mul_pow]
            have : σ ^ 2 = 1 := by rw [sq]; exact hσ2
            rw [this, one_mul]
          have h5 : (q.y - c.y) ^ 2 = (σ * (q.y - c.y)) ^ 2 := by
            rw [mul_pow]
            have : σ ^ 2 = 1 := by rw [sq]; exact hσ2
            rw [this, one_mul]
          rw [h4]
          rw [h5] at h3
          nlinarith

end Verif.Lemmas.ShapeArea
