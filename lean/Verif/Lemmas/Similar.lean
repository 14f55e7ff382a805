import Verif.Spec.Inside
import Verif.Lemmas.Area
import Verif.Props.Geom

/-!
# Similarity transformations of outlines
-/

namespace Verif.Sim
open Verif.Geom Verif.Spec Verif.Rvmc Verif.Vm Real
noncomputable section

/-- A matrix that turns, scales by `k`, mirrors when `e = -1`, and moves. -/
structure Similar (m : Mat ℝ) (e k : ℝ) : Prop where
  sign : e = 1 ∨ e = -1
  first : m.m 0 1 = -e * m.m 1 0
  second : m.m 1 1 = e * m.m 0 0
  scale : m.m 0 0 ^ 2 + m.m 1 0 ^ 2 = k ^ 2
  pos : k ≠ 0

variable {m : Mat ℝ} {e k : ℝ}

theorem Similar.sense (h : Similar m e k) : m.keepsSense ↔ e = 1 := by
  have hp := h.scale
  have hk : 0 < k ^ 2 := by have := h.pos; positivity
  unfold Mat.keepsSense
  rw [h.first, h.second]
  by_cases h0 : m.m 0 0 = 0
  · rw [h0] at hp
    have h1 : 0 < m.m 1 0 * m.m 1 0 := by nlinarith
    rcases h.sign with rfl | rfl
    · refine iff_of_true (.inr ⟨h0, by rw [h0]; ring, by linarith⟩) rfl
    · refine iff_of_false ?_ (by norm_num)
      rintro (h | ⟨-, -, h⟩)
      · rw [h0] at h; linarith
      · linarith
  · have h1 : 0 < m.m 0 0 * m.m 0 0 := mul_self_pos.2 h0
    rcases h.sign with rfl | rfl
    · exact iff_of_true (.inl (by linarith)) rfl
    · refine iff_of_false ?_ (by norm_num)
      rintro (h | ⟨h, -, -⟩)
      · linarith
      · exact h0 h

theorem Similar.turn (h : Similar m e k) (cw : Bool) (τ : ℝ) (c w : Vec ℝ) :
    m.apply (c + turn cw τ w) = m.apply c + turn (if e = 1 then cw else !cw) τ (m.apply (c + w) - m.apply c) :=
  Verif.Props.Geom.similarity_turn m (m.m 0 0) (m.m 1 0) e h.sign rfl h.first rfl h.second cw τ c w

theorem Similar.vlen (h : Similar m e k) (v w : Vec ℝ) : vlen (m.apply v - m.apply w) = |k| * vlen (v - w) := by
  unfold Spec.vlen
  rw [← sqrt_sq_eq_abs, ← sqrt_mul (sq_nonneg k)]
  congr 1
  have e2 : e ^ 2 = 1 := by rcases h.sign with h | h <;> rw [h] <;> norm_num
  have := h.scale
  simp only [Mat.apply, Vec.sub_x, Vec.sub_y, h.first, h.second]
  linear_combination ((v.x - w.x) ^ 2 + (v.y - w.y) ^ 2) * this +
    (v.y - w.y) ^ 2 * (m.m 0 0 ^ 2 + m.m 1 0 ^ 2) * e2

/-- The inverse map. -/
def inv (m : Mat ℝ) (e k : ℝ) (v : Vec ℝ) : Vec ℝ :=
  ⟨(m.m 0 0 * (v.x - m.m 0 2) + m.m 1 0 * (v.y - m.m 1 2)) / k ^ 2,
   e * (m.m 0 0 * (v.y - m.m 1 2) - m.m 1 0 * (v.x - m.m 0 2)) / k ^ 2⟩

theorem Similar.inv_apply (h : Similar m e k) (v : Vec ℝ) : inv m e k (m.apply v) = v := by
  have e2 : e ^ 2 = 1 := by rcases h.sign with h | h <;> rw [h] <;> norm_num
  have hk : k ^ 2 ≠ 0 := pow_ne_zero _ h.pos
  have := h.scale
  ext
  · simp only [inv, Mat.apply, h.first, h.second]
    rw [div_eq_iff hk]
    linear_combination v.x * this
  · simp only [inv, Mat.apply, h.first, h.second]
    rw [div_eq_iff hk]
    linear_combination (v.y * e ^ 2) * this + v.y * k ^ 2 * e2

theorem Similar.apply_inv (h : Similar m e k) (v : Vec ℝ) : m.apply (inv m e k v) = v := by
  have e2 : e ^ 2 = 1 := by rcases h.sign with h | h <;> rw [h] <;> norm_num
  have hk : k ^ 2 ≠ 0 := pow_ne_zero _ h.pos
  have := h.scale
  have hx : (inv m e k v).x * k ^ 2 = m.m 0 0 * (v.x - m.m 0 2) + m.m 1 0 * (v.y - m.m 1 2) := div_mul_cancel₀ _ hk
  have hy : (inv m e k v).y * k ^ 2 = e * (m.m 0 0 * (v.y - m.m 1 2) - m.m 1 0 * (v.x - m.m 0 2)) := div_mul_cancel₀ _ hk
  ext
  · apply mul_right_cancel₀ hk
    simp only [Mat.apply, h.first]
    linear_combination m.m 0 0 * hx - e * m.m 1 0 * hy + (v.x - m.m 0 2) * this -
      (m.m 1 0 * (m.m 0 0 * (v.y - m.m 1 2) - m.m 1 0 * (v.x - m.m 0 2))) * e2
  · apply mul_right_cancel₀ hk
    simp only [Mat.apply, h.second]
    linear_combination m.m 1 0 * hx + e * m.m 0 0 * hy + (v.y - m.m 1 2) * this +
      (m.m 0 0 * (m.m 0 0 * (v.y - m.m 1 2) - m.m 1 0 * (v.x - m.m 0 2))) * e2

theorem Similar.injective (h : Similar m e k) : Function.Injective m.apply :=
  Function.LeftInverse.injective h.inv_apply

theorem Similar.clockwise (h : Similar m e k) (a : Arc) : (a.transform m).clockwise = if e = 1 then a.clockwise else !a.clockwise := by
  show (if m.keepsSense then a.clockwise else !a.clockwise) = _
  by_cases he : e = 1
  · rw [if_pos (h.sense.2 he), if_pos he]
  · rw [if_neg (fun hh => he (h.sense.1 hh)), if_neg he]

theorem Similar.image (h : Similar m e k) (a : Arc) (τ : ℝ) : m.apply (a.center + Spec.turn a.clockwise τ (a.start - a.center)) =
    (a.transform m).center + Spec.turn (a.transform m).clockwise τ ((a.transform m).start - (a.transform m).center) := by
  have hsub : ∀ v : Vec ℝ, a.center + (v - a.center) = v := fun v => by ext <;> simp
  have := h.turn a.clockwise τ a.center (a.start - a.center)
  rw [hsub, ← h.clockwise a] at this
  exact this

theorem Similar.sweep (h : Similar m e k) (a : Arc) (t : ℝ) : Sweep (a.transform m).clockwise ((a.transform m).start - (a.transform m).center)
    ((a.transform m).stop - (a.transform m).center) t ↔ Sweep a.clockwise (a.start - a.center) (a.stop - a.center) t := by
  have himg := h.image a
  have h1 : Spec.vlen ((a.transform m).stop - (a.transform m).center) = |k| * Spec.vlen (a.stop - a.center) :=
    h.vlen a.stop a.center
  have h2 : Spec.vlen ((a.transform m).start - (a.transform m).center) = |k| * Spec.vlen (a.start - a.center) :=
    h.vlen a.start a.center
  have hk : |k| ≠ 0 := abs_ne_zero.2 h.pos
  unfold Sweep
  refine and_congr_right fun _ => and_congr_right fun _ => ?_
  rw [h1, h2]
  have hT := himg t
  set u := Spec.turn a.clockwise t (a.start - a.center) with hu
  have hx : (Spec.turn (a.transform m).clockwise t ((a.transform m).start - (a.transform m).center)).x =
      m.m 0 0 * u.x + m.m 0 1 * u.y := by
    have := congrArg Vec.x hT
    simp only [Mat.apply, Vec.add_x, Vec.add_y] at this
    have hcx : (a.transform m).center.x = m.m 0 0 * a.center.x + m.m 0 1 * a.center.y + m.m 0 2 := rfl
    linarith
  have hy : (Spec.turn (a.transform m).clockwise t ((a.transform m).start - (a.transform m).center)).y =
      m.m 1 0 * u.x + m.m 1 1 * u.y := by
    have := congrArg Vec.y hT
    simp only [Mat.apply, Vec.add_x, Vec.add_y] at this
    have hcy : (a.transform m).center.y = m.m 1 0 * a.center.x + m.m 1 1 * a.center.y + m.m 1 2 := rfl
    linarith
  have hsx : ((a.transform m).stop - (a.transform m).center).x =
      m.m 0 0 * (a.stop - a.center).x + m.m 0 1 * (a.stop - a.center).y := by
    show (m.apply a.stop - m.apply a.center).x = _
    simp only [Mat.apply, Vec.sub_x, Vec.sub_y]; ring
  have hsy : ((a.transform m).stop - (a.transform m).center).y =
      m.m 1 0 * (a.stop - a.center).x + m.m 1 1 * (a.stop - a.center).y := by
    show (m.apply a.stop - m.apply a.center).y = _
    simp only [Mat.apply, Vec.sub_x, Vec.sub_y]; ring
  rw [hx, hy, hsx, hsy]
  set v := a.stop - a.center with hv
  generalize Spec.vlen v = lv
  generalize Spec.vlen (a.start - a.center) = lu
  rw [h.first, h.second]
  have e2 : e ^ 2 = 1 := by rcases h.sign with h | h <;> rw [h] <;> norm_num
  have hs := h.scale
  have hk2 : k ^ 2 ≠ 0 := pow_ne_zero _ h.pos
  constructor
  · rintro ⟨q1, q2⟩
    have r1 : (m.m 0 0 * u.x + -e * m.m 1 0 * u.y) * lv = (m.m 0 0 * v.x + -e * m.m 1 0 * v.y) * lu := by
      apply mul_left_cancel₀ hk; linear_combination q1
    have r2 : (m.m 1 0 * u.x + e * m.m 0 0 * u.y) * lv = (m.m 1 0 * v.x + e * m.m 0 0 * v.y) * lu := by
      apply mul_left_cancel₀ hk; linear_combination q2
    constructor
    · apply mul_left_cancel₀ hk2
      linear_combination m.m 0 0 * r1 + m.m 1 0 * r2 - (u.x * lv - v.x * lu) * hs
    · apply mul_left_cancel₀ hk2
      linear_combination e * m.m 0 0 * r2 - e * m.m 1 0 * r1 - (u.y * lv - v.y * lu) * hs -
        (u.y * lv - v.y * lu) * (m.m 0 0 ^ 2 + m.m 1 0 ^ 2) * e2
  · rintro ⟨q1, q2⟩
    constructor
    · linear_combination (|k| * m.m 0 0) * q1 - (|k| * e * m.m 1 0) * q2
    · linear_combination (|k| * m.m 1 0) * q1 + (|k| * e * m.m 0 0) * q2

/-- The points of a piece after the transformation are the images of its points. -/
theorem Similar.piece (h : Similar m e k) (g : Segment) (p : Vec ℝ) :
    OnPiece (m.apply p) (g.transform m) ↔ OnPiece p g := by
  cases g with
  | line l =>
    simp only [Segment.transform, Line.transform, OnPiece, OnSegment]
    refine exists_congr fun s => and_congr_right fun _ => and_congr_right fun _ => ?_
    have : (⟨(m.apply l.start).x + s * ((m.apply l.stop).x - (m.apply l.start).x),
        (m.apply l.start).y + s * ((m.apply l.stop).y - (m.apply l.start).y)⟩ : Vec ℝ) =
        m.apply ⟨l.start.x + s * (l.stop.x - l.start.x), l.start.y + s * (l.stop.y - l.start.y)⟩ := by
      ext <;> simp only [Mat.apply] <;> ring
    rw [this]
    exact h.injective.eq_iff
  | arc a =>
    simp only [Segment.transform, OnPiece]
    refine exists_congr fun t => and_congr (h.sweep a t) ?_
    unfold OnArc
    refine exists_congr fun τ => and_congr_right fun _ => and_congr_right fun _ => ?_
    rw [← h.image a τ]
    exact h.injective.eq_iff

theorem transform_start (g : Segment) : (g.transform m).start = m.apply g.start := by cases g <;> rfl

theorem transform_stop (g : Segment) : (g.transform m).stop = m.apply g.stop := by cases g <;> rfl

theorem Similar.outline (h : Similar m e k) (s : Shape) (p : Vec ℝ) :
    OnOutline (s.transform m) (m.apply p) ↔ OnOutline s p := by
  have : (s.transform m).segments = s.segments.map (·.transform m) := rfl
  unfold OnOutline
  rw [this]
  constructor
  · rintro ⟨g, hg, hp⟩
    obtain ⟨g', hg', rfl⟩ := List.mem_map.1 hg
    exact ⟨g', hg', (h.piece g' p).1 hp⟩
  · rintro ⟨g, hg, hp⟩
    exact ⟨g.transform m, List.mem_map_of_mem hg, (h.piece g p).2 hp⟩

theorem Similar.segment (h : Similar m e k) (a b p : Vec ℝ) :
    OnSegment (m.apply a) (m.apply b) (m.apply p) ↔ OnSegment a b p := h.piece (.line ⟨a, b⟩) p

theorem Similar.rim (h : Similar m e k) (s : Shape) (p : Vec ℝ) : OnRim (s.transform m) (m.apply p) ↔ OnRim s p := by
  have : (s.transform m).segments = s.segments.map (·.transform m) := rfl
  unfold OnRim
  rw [h.outline, this, successors_map]
  refine or_congr Iff.rfl ?_
  constructor
  · rintro ⟨g, hg, hp⟩
    obtain ⟨g', hg', rfl⟩ := List.mem_map.1 hg
    simp only [Prod.map, transform_start, transform_stop, h.segment] at hp
    exact ⟨g', hg', hp⟩
  · rintro ⟨g, hg, hp⟩
    refine ⟨_, List.mem_map_of_mem hg, ?_⟩
    simp only [Prod.map, transform_start, transform_stop, h.segment]
    exact hp

theorem affine_inv (m : Mat ℝ) (e k : ℝ) : Affine (inv m e k) := by
  refine ⟨⟨m.m 0 0 / k ^ 2, m.m 1 0 / k ^ 2, -(e * m.m 1 0 / k ^ 2), e * m.m 0 0 / k ^ 2,
    -(m.m 0 0 * m.m 0 2 + m.m 1 0 * m.m 1 2) / k ^ 2, e * (m.m 1 0 * m.m 0 2 - m.m 0 0 * m.m 1 2) / k ^ 2, ?_⟩⟩
  intro v
  ext <;> simp only [inv] <;> ring

theorem Similar.enclosed (h : Similar m e k) (s : Shape) : areaOf (s.transform m) = m.apply '' areaOf s :=
  surrounded_image (affine_apply m) (affine_inv m e k) h.apply_inv h.inv_apply (h.rim s)

/-! ## Samples -/

theorem similar_translate (x y : ℝ) : Similar (Mat.newTranslate x y) 1 1 := by
  refine ⟨.inl rfl, ?_, ?_, ?_, one_ne_zero⟩ <;> simp [Mat.newTranslate, Mat.ofRows]

end
end Verif.Sim
