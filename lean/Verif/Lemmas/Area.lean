import Verif.Spec.Area
import Mathlib.Topology.Order.IntermediateValue
import Mathlib.Topology.Algebra.Order.Group
import Mathlib.Tactic.LinearCombination

/-!
# Points enclosed by curves
-/

namespace Verif.Sim
open Verif.Geom Verif.Spec Verif.Rvmc Real
noncomputable section

/-- The points on a curve are surrounded by it. -/
theorem surrounded_self {curve : Vec ℝ → Prop} {p : Vec ℝ} (h : curve p) : p ∈ Surrounded curve := by
  refine ⟨0, fun path _ _ h0 hc => ?_⟩
  exact absurd (by rw [h0]; exact h) (hc 0)

theorem surrounded_congr {c c' : Vec ℝ → Prop} (h : ∀ p, c p ↔ c' p) : Surrounded c = Surrounded c' := by
  have : c = c' := funext fun p => propext (h p)
  rw [this]

/-- A point from which a ray avoids the curve is not surrounded. -/
theorem not_surrounded {curve : Vec ℝ → Prop} {p u : Vec ℝ} (hu : u ≠ ⟨0, 0⟩)
    (h : ∀ t : ℝ, 0 ≤ t → ¬ curve ⟨p.x + t * u.x, p.y + t * u.y⟩) : p ∉ Surrounded curve := by
  rintro ⟨r, hr⟩
  have key := hr (fun t => ⟨p.x + |t| * u.x, p.y + |t| * u.y⟩) (by fun_prop) (by fun_prop) (by ext <;> simp)
    (fun t => h _ (abs_nonneg t))
  have hu' : u.x ≠ 0 ∨ u.y ≠ 0 := by
    by_contra hn
    push Not at hn
    exact hu (by ext <;> simp [hn.1, hn.2])
  have far : ∀ a b : ℝ, b ≠ 0 → ¬ ∀ t : ℝ, |a + |t| * b| ≤ r := by
    intro a b hb hh
    have h0 := hh 0
    simp only [abs_zero, zero_mul, add_zero] at h0
    have h1 := hh ((r + |a| + 1) / |b|)
    have hr0 : 0 ≤ r := le_trans (abs_nonneg _) h0
    have hb' : 0 < |b| := abs_pos.2 hb
    have e : |((r + |a| + 1) / |b|)| = (r + |a| + 1) / |b| := abs_of_nonneg (by positivity)
    rw [e] at h1
    have e2 : |(r + |a| + 1) / |b| * b| = r + |a| + 1 := by
      rw [abs_mul, abs_div, abs_abs, div_mul_cancel₀ _ hb'.ne', abs_of_nonneg (by positivity)]
    have := abs_sub_abs_le_abs_sub ((r + |a| + 1) / |b| * b) (-a)
    rw [e2, abs_neg, sub_neg_eq_add, add_comm _ a] at this
    linarith
  rcases hu' with hx | hy
  · exact far _ _ hx fun t => (key t).1
  · exact far _ _ hy fun t => (key t).2

/-- The area of a curve that is the zero set of a continuous function, negative only within bounds. -/
theorem surrounded_eq {curve : Vec ℝ → Prop} {φ : Vec ℝ → ℝ} (hφ : Continuous fun q : ℝ × ℝ => φ ⟨q.1, q.2⟩)
    (h0 : ∀ p, φ p = 0 → curve p) (h1 : ∀ p, curve p → φ p ≤ 0)
    (hb : ∃ r, ∀ p, φ p ≤ 0 → |p.x| ≤ r ∧ |p.y| ≤ r)
    (hesc : ∀ p, 0 < φ p → ∃ u : Vec ℝ, u ≠ ⟨0, 0⟩ ∧ ∀ t : ℝ, 0 ≤ t → 0 < φ ⟨p.x + t * u.x, p.y + t * u.y⟩) (p : Vec ℝ) :
    p ∈ Surrounded curve ↔ φ p ≤ 0 := by
  constructor
  · intro hp
    by_contra hn
    push Not at hn
    obtain ⟨u, hu, h⟩ := hesc p hn
    exact not_surrounded hu (fun t ht hc => absurd (h1 _ hc) (not_le.2 (h t ht))) hp
  · intro hp
    obtain ⟨r, hr⟩ := hb
    refine ⟨r, fun path hx hy e0 hc t => hr _ ?_⟩
    by_contra hn
    push Not at hn
    have hcont : Continuous fun t => φ (path t) := hφ.comp (hx.prodMk hy)
    obtain ⟨s, hs⟩ := mem_range_of_exists_le_of_exists_ge hcont ⟨0, by rw [e0]; exact hp⟩ ⟨t, hn.le⟩
    exact hc s (h0 _ hs)

/-! ### Affine maps -/

/-- Affine maps. -/
structure Affine (f : Vec ℝ → Vec ℝ) : Prop where
  form : ∃ a b c d p q : ℝ, ∀ v, f v = ⟨a * v.x + b * v.y + p, c * v.x + d * v.y + q⟩

theorem affine_apply (m : Mat ℝ) : Affine m.apply := ⟨_, _, _, _, _, _, fun _ => rfl⟩

theorem affine_rot (t : ℝ) : Affine (rotCcw t) := by
  refine ⟨⟨cos t, -sin t, sin t, cos t, 0, 0, fun v => ?_⟩⟩
  ext <;> simp only [rotCcw] <;> ring

theorem enclosed_map {O O' : Vec ℝ → Prop} {f g : Vec ℝ → Vec ℝ} (hf : Affine f) (hg : Affine g)
    (hfg : ∀ v, f (g v) = v) (hgf : ∀ v, g (f v) = v) (hO : ∀ v, O v → O' (f v)) {p : Vec ℝ} (hp : p ∈ Surrounded O) :
    f p ∈ Surrounded O' := by
  obtain ⟨r, hr⟩ := hp
  obtain ⟨a, b, c, d, x, y, ef⟩ := hf.form
  obtain ⟨a', b', c', d', x', y', eg⟩ := hg.form
  refine ⟨max (|a| * r + |b| * r + |x|) (|c| * r + |d| * r + |y|), ?_⟩
  intro path h1 h2 h3 h4 t
  have := hr (fun t => g (path t)) (by simp only [eg]; fun_prop) (by simp only [eg]; fun_prop)
    (by show g (path 0) = p; rw [h3, hgf]) (fun t ht => h4 t (by have := hO _ ht; rwa [hfg] at this)) t
  obtain ⟨k1, k2⟩ := this
  have e1 : path t = f (g (path t)) := (hfg _).symm
  rw [e1, ef]
  set w := g (path t)
  constructor
  · refine le_trans ?_ (le_max_left _ _)
    calc |a * w.x + b * w.y + x| ≤ |a * w.x + b * w.y| + |x| := abs_add_le _ _
      _ ≤ |a * w.x| + |b * w.y| + |x| := by linarith [abs_add_le (a * w.x) (b * w.y)]
      _ = |a| * |w.x| + |b| * |w.y| + |x| := by rw [abs_mul, abs_mul]
      _ ≤ _ := by
        have := mul_le_mul_of_nonneg_left k1 (abs_nonneg a)
        have := mul_le_mul_of_nonneg_left k2 (abs_nonneg b)
        linarith
  · refine le_trans ?_ (le_max_right _ _)
    calc |c * w.x + d * w.y + y| ≤ |c * w.x + d * w.y| + |y| := abs_add_le _ _
      _ ≤ |c * w.x| + |d * w.y| + |y| := by linarith [abs_add_le (c * w.x) (d * w.y)]
      _ = |c| * |w.x| + |d| * |w.y| + |y| := by rw [abs_mul, abs_mul]
      _ ≤ _ := by
        have := mul_le_mul_of_nonneg_left k1 (abs_nonneg c)
        have := mul_le_mul_of_nonneg_left k2 (abs_nonneg d)
        linarith

/-- A curve and its image under an affine bijection. -/
theorem surrounded_image {O O' : Vec ℝ → Prop} {f g : Vec ℝ → Vec ℝ} (hf : Affine f) (hg : Affine g)
    (hfg : ∀ v, f (g v) = v) (hgf : ∀ v, g (f v) = v) (hO : ∀ v, O' (f v) ↔ O v) : Surrounded O' = f '' Surrounded O := by
  ext p
  constructor
  · intro hp
    refine ⟨g p, ?_, hfg p⟩
    exact enclosed_map hg hf hgf hfg (fun v hv => (hO _).1 (by rw [hfg]; exact hv)) hp
  · rintro ⟨q, hq, rfl⟩
    exact enclosed_map hf hg hfg hgf (fun v hv => (hO v).2 hv) hq

/-! ### Joints -/

theorem onSegment_same {a p : Vec ℝ} : OnSegment a a p ↔ p = a := by
  constructor
  · rintro ⟨l, -, -, rfl⟩; ext <;> simp
  · rintro rfl; exact ⟨0, le_refl _, zero_le_one, by ext <;> simp⟩

theorem onSegment_start (a b : Vec ℝ) : OnSegment a b a := ⟨0, le_refl _, zero_le_one, by ext <;> simp⟩

theorem onSegment_stop (a b : Vec ℝ) : OnSegment a b b := ⟨1, zero_le_one, le_refl _, by ext <;> simp⟩

theorem successors_mem {l : List Segment} {g : Segment × Segment} (h : g ∈ successors l) : g.1 ∈ l ∧ g.2 ∈ l := by
  obtain ⟨a, b⟩ := g
  obtain ⟨h1, h2⟩ := List.of_mem_zip h
  refine ⟨h1, ?_⟩
  rcases List.mem_append.1 h2 with h2 | h2
  · exact List.mem_of_mem_tail h2
  · exact List.mem_of_mem_take h2

theorem successors_map (f : Segment → Segment) (l : List Segment) :
    successors (l.map f) = (successors l).map (Prod.map f f) := by
  unfold successors
  rw [← List.map_tail, ← List.map_take, ← List.map_append, List.zip_map]

/-- A curve whose pieces follow each other. -/
theorem onRim_connected {s : Shape} (h : ∀ g ∈ successors s.segments, g.1.stop = g.2.start ∧ OnPiece g.2.start g.2) (p : Vec ℝ) :
    OnRim s p ↔ OnOutline s p := by
  constructor
  · rintro (h1 | ⟨g, hg, h1⟩)
    · exact h1
    · obtain ⟨e1, e2⟩ := h g hg
      rw [e1, onSegment_same] at h1
      subst h1
      exact ⟨g.2, (successors_mem hg).2, e2⟩
  · exact .inl

end
end Verif.Sim
