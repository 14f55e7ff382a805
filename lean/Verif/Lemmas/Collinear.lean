import Verif.Lemmas.Similar
import Verif.Lemmas.Area
import Verif.Props.Geom
import Verif.Spec.Enclosed
import Mathlib.Algebra.Polynomial.Roots

/-!
# Shapes whose points do not lie on a line
-/

namespace Verif.Lemmas.Collinear
open Verif.Geom Verif.Rvmc Verif.Spec Verif.Sim Verif.Props.Geom Real
noncomputable section

/-- The points lie on a line. -/
def OnLine (S : Set (Vec ℝ)) : Prop := ∃ a b c : ℝ, (a ≠ 0 ∨ b ≠ 0) ∧ ∀ p ∈ S, a * p.x + b * p.y = c

/-! ### Boxes -/

/-- A box with a width and a height. -/
def Wide (b : Box ℝ) : Prop := b.minX < b.maxX ∧ b.minY < b.maxY

theorem ends_inBox (g : Segment) : InBox g.start g.outerBox ∧ InBox g.stop g.outerBox := by
  cases g with
  | line l => exact ⟨inBox_fromVectors _ _ _ (.inl rfl), inBox_fromVectors _ _ _ (.inr (by simp [Segment.stop]))⟩
  | arc a =>
    have h1 := inBox_candidate a a.relStart (by simp [Arc.candidates])
    have h2 := inBox_candidate a a.relStop (by simp [Arc.candidates])
    have e1 : a.relStart + a.center = a.start := by ext <;> simp [Arc.relStart]
    have e2 : a.relStop + a.center = a.stop := by ext <;> simp [Arc.relStop]
    rw [e1] at h1; rw [e2] at h2
    exact ⟨h1, h2⟩

theorem between_inBox {a b p : Vec ℝ} {B : Box ℝ} (ha : InBox a B) (hb : InBox b B) (h : OnSegment a b p) : InBox p B := by
  obtain ⟨l, h0, h1, rfl⟩ := h
  obtain ⟨a1, a2, a3, a4⟩ := ha
  obtain ⟨b1, b2, b3, b4⟩ := hb
  refine ⟨?_, ?_, ?_, ?_⟩ <;> simp only <;> nlinarith

theorem rim_inBox {s : Shape} (hn : ∀ g ∈ s.segments, NotClosed g) {p : Vec ℝ} (hp : OnRim s p) : InBox p s.outerBox := by
  have ends : ∀ g ∈ s.segments, InBox g.start s.outerBox ∧ InBox g.stop s.outerBox := fun g hg =>
    ⟨inBox_of_boxIn (ends_inBox g).1 (segment_box_in_shape s g hg), inBox_of_boxIn (ends_inBox g).2 (segment_box_in_shape s g hg)⟩
  rcases hp with ⟨g, hg, hon⟩ | ⟨g, hg, hon⟩
  · refine c28_contains_partial s g hg ?_ p ?_
    · have := hn g hg
      cases g with
      | line => trivial
      | arc a => exact ⟨this.2.1, .inr this.2.2⟩
    · cases g with
      | line => exact hon
      | arc a => exact hon
  · have h1 := List.of_mem_zip hg
    refine between_inBox (ends _ h1.1).2 (ends _ ?_).1 hon
    rcases List.mem_append.1 h1.2 with h | h
    · exact List.mem_of_mem_tail h
    · exact List.mem_of_mem_take h

theorem area_inBox {s : Shape} (hn : ∀ g ∈ s.segments, NotClosed g) {p : Vec ℝ} (hp : p ∈ areaOf s) : InBox p s.outerBox := by
  have key : ∀ u : Vec ℝ, u ≠ ⟨0, 0⟩ → ∃ t : ℝ, 0 ≤ t ∧ InBox ⟨p.x + t * u.x, p.y + t * u.y⟩ s.outerBox := by
    intro u hu
    by_contra h
    push Not at h
    exact not_surrounded hu (fun t ht hr => h t ht (rim_inBox hn hr)) hp
  obtain ⟨t1, k1, -, a1, -⟩ := key ⟨1, 0⟩ (by intro h; simpa using congrArg Vec.x h)
  obtain ⟨t2, k2, a2, -⟩ := key ⟨-1, 0⟩ (by intro h; simpa using congrArg Vec.x h)
  obtain ⟨t3, k3, -, -, -, a3⟩ := key ⟨0, 1⟩ (by intro h; simpa using congrArg Vec.y h)
  obtain ⟨t4, k4, -, -, a4, -⟩ := key ⟨0, -1⟩ (by intro h; simpa using congrArg Vec.y h)
  simp only at a1 a2 a3 a4
  refine ⟨?_, ?_, ?_, ?_⟩ <;> linarith

/-- The box of a shape that does not lie on a line has a width and a height. -/
theorem wide_of_bulky {s : Shape} (hn : ∀ g ∈ s.segments, NotClosed g) (h : ¬ OnLine (areaOf s)) : Wide s.outerBox := by
  by_contra hw
  unfold Wide at hw
  rw [not_and_or, not_lt, not_lt] at hw
  refine h ?_
  rcases hw with hw | hw
  · refine ⟨1, 0, s.outerBox.minX, .inl one_ne_zero, fun p hp => ?_⟩
    obtain ⟨a, b, -⟩ := area_inBox hn hp
    linarith
  · refine ⟨0, 1, s.outerBox.minY, .inr one_ne_zero, fun p hp => ?_⟩
    obtain ⟨-, -, a, b⟩ := area_inBox hn hp
    linarith

/-! ### Transformations -/

theorem bulky_transform {m : Mat ℝ} {e k : ℝ} (hm : Similar m e k) {s : Shape} (h : ¬ OnLine (areaOf s)) :
    ¬ OnLine (areaOf (s.transform m)) := by
  rintro ⟨a, b, c, hab, hall⟩
  refine h ⟨a * m.m 0 0 + b * m.m 1 0, a * m.m 0 1 + b * m.m 1 1, c - a * m.m 0 2 - b * m.m 1 2, ?_, fun p hp => ?_⟩
  · by_contra hn
    push Not at hn
    obtain ⟨n1, n2⟩ := hn
    have hk : 0 < k ^ 2 := by have := hm.pos; positivity
    have he : e ^ 2 = 1 := by rcases hm.sign with h | h <;> rw [h] <;> norm_num
    rw [hm.first, hm.second] at n2
    have s1 := hm.scale
    have e1 : e * (b * m.m 0 0 - a * m.m 1 0) = 0 := by linarith
    have e2 : b * m.m 0 0 - a * m.m 1 0 = 0 := by
      have : e ≠ 0 := by intro h; rw [h] at he; norm_num at he
      exact (mul_eq_zero.1 e1).resolve_left this
    have ha : a * k ^ 2 = 0 := by rw [← s1]; linear_combination m.m 0 0 * n1 - m.m 1 0 * e2
    have hb : b * k ^ 2 = 0 := by rw [← s1]; linear_combination m.m 1 0 * n1 + m.m 0 0 * e2
    rcases hab with h | h
    · exact h ((mul_eq_zero.1 ha).resolve_right hk.ne')
    · exact h ((mul_eq_zero.1 hb).resolve_right hk.ne')
  · have := hall (m.apply p) (by rw [hm.enclosed]; exact ⟨p, hp, rfl⟩)
    simp only [Mat.apply] at this
    linear_combination this

/-! ### Discs are not covered by lines -/

theorem line_parabola {a b c x y r : ℝ} (hab : a ≠ 0 ∨ b ≠ 0) (hr : r ≠ 0) :
    {t : ℝ | a * (x + r * t) + b * (y + r * t ^ 2) = c}.Finite := by
  let P : Polynomial ℝ := .C (a * x + b * y - c) + .C (a * r) * .X + .C (b * r) * .X ^ 2
  have hP : P ≠ 0 := by
    intro h
    have ev : ∀ t : ℝ, (a * x + b * y - c) + a * r * t + b * r * t ^ 2 = 0 := by
      intro t
      have := congrArg (Polynomial.eval t) h
      simpa only [P, Polynomial.eval_add, Polynomial.eval_mul, Polynomial.eval_C, Polynomial.eval_X, Polynomial.eval_pow,
        Polynomial.eval_zero] using this
    have e0 := ev 0
    have e1 := ev 1
    have e2 := ev (-1)
    have h1 : 0 = a * r := by linarith
    have h2 : 0 = b * r := by linarith
    rcases hab with h | h
    · exact (mul_ne_zero h hr) h1.symm
    · exact (mul_ne_zero h hr) h2.symm
  refine (P.roots.toFinset.finite_toSet).subset fun t ht => ?_
  rw [Finset.mem_coe, Multiset.mem_toFinset, Polynomial.mem_roots hP]
  simp only [Set.mem_ofPred_eq] at ht
  simp only [P, Polynomial.IsRoot.def, Polynomial.eval_add, Polynomial.eval_mul, Polynomial.eval_C, Polynomial.eval_X, Polynomial.eval_pow]
  linear_combination ht

theorem disc_not_covered (Ss : List (Set (Vec ℝ))) (hf : ∀ S ∈ Ss, OnLine S) (v : Vec ℝ) {r : ℝ} (hr : 0 < r) :
    ∃ p : Vec ℝ, |p.x - v.x| ≤ r ∧ |p.y - v.y| ≤ r ∧ ∀ S ∈ Ss, p ∉ S := by
  have fin : {t : ℝ | ∃ S ∈ Ss, (⟨v.x + r * t, v.y + r * t ^ 2⟩ : Vec ℝ) ∈ S}.Finite := by
    induction Ss with
    | nil => simp
    | cons S Ss ih =>
      have one : {t : ℝ | (⟨v.x + r * t, v.y + r * t ^ 2⟩ : Vec ℝ) ∈ S}.Finite := by
        obtain ⟨a, b, c, hab, hall⟩ := hf S (List.mem_cons_self ..)
        exact (line_parabola hab hr.ne').subset fun t ht => hall _ ht
      refine ((ih fun S hS => hf S (List.mem_cons_of_mem _ hS)).union one).subset ?_
      · rintro t ⟨S', hS', ht⟩
        rcases List.mem_cons.1 hS' with rfl | h
        · exact .inr ht
        · exact .inl ⟨S', h, ht⟩
  obtain ⟨t, h1, h2⟩ := (Set.Icc_infinite (show (0 : ℝ) < 1 by norm_num)).exists_notMem_finite fin
  refine ⟨⟨v.x + r * t, v.y + r * t ^ 2⟩, ?_, ?_, fun S hS hp => h2 ⟨S, hS, hp⟩⟩
  · simp only [add_sub_cancel_left]
    rw [abs_of_nonneg (mul_nonneg hr.le h1.1)]
    nlinarith [h1.1, h1.2]
  · simp only [add_sub_cancel_left]
    rw [abs_of_nonneg (mul_nonneg hr.le (by positivity))]
    nlinarith [h1.1, h1.2, mul_nonneg h1.1 h1.1, mul_le_mul h1.2 h1.2 h1.1 zero_le_one]

/-! ### Half rings -/

theorem half_bulky {s : Shape} {R : ℝ} (hR : 0 < R) (h : s.head = .arc ⟨⟨R, 0⟩, ⟨-R, 0⟩, ⟨0, 0⟩, true⟩) : ¬ OnLine (areaOf s) := by
  rintro ⟨a, b, c, hab, hall⟩
  have on : ∀ τ, 0 ≤ τ → τ ≤ π → (⟨R * cos τ, - (R * sin τ)⟩ : Vec ℝ) ∈ areaOf s := by
    intro τ h0 h1
    refine surrounded_self (.inl ⟨s.head, List.mem_cons_self .., ?_⟩)
    rw [h]
    refine ⟨π, ⟨pi_pos, by linarith [pi_pos], ?_, ?_⟩, τ, h0, h1, ?_⟩
    · simp [turn, rotCcw, vlen]
    · simp [turn, rotCcw, vlen]
    · ext <;> simp [turn, rotCcw] <;> ring
  have h1 := hall _ (on 0 le_rfl pi_pos.le)
  have h2 := hall _ (on π pi_pos.le le_rfl)
  have h3 := hall _ (on (π / 2) (by positivity) (by linarith [pi_pos]))
  simp only [cos_zero, sin_zero, cos_pi, sin_pi, cos_pi_div_two, sin_pi_div_two] at h1 h2 h3
  have ea : a * R = 0 := by linarith
  have eb : b * R = 0 := by linarith
  rcases hab with h | h
  · exact (mul_ne_zero h hR.ne') ea
  · exact (mul_ne_zero h hR.ne') eb

theorem ring_bulky {od k : ℝ} (hk : 0 < k) (hd : k < od) (neg : Bool) : ¬ OnLine (areaOf (Shape.newRing ⟨0, 0⟩ od k neg).1) := by
  have norm : ∀ x : ℝ, x ≠ 0 → Vec.normalized (⟨x, 0⟩ : Vec ℝ) = ⟨x / |x|, 0⟩ := by
    intro x hx
    simp [Vec.normalized, hx, Vec.divBy, Vec.length, Real.sqrt_mul_self_eq_abs]
  have h1 : k / 2 + (od - k) / 2 / 2 > 0 := by linarith
  refine half_bulky (R := od / 2) (by linarith) ?_
  simp only [Shape.newRing, Shape.newCwArc, Segment.arc.injEq, Arc.mk.injEq, and_true]
  have e1 : (⟨0 + k / 2 + (od - k) / 2 / 2, 0⟩ : Vec ℝ) - ⟨0, 0⟩ = ⟨k / 2 + (od - k) / 2 / 2, 0⟩ := by ext <;> simp
  have e2 : (⟨0 - k / 2 - (od - k) / 2 / 2, 0⟩ : Vec ℝ) - ⟨0, 0⟩ = ⟨-(k / 2 + (od - k) / 2 / 2), 0⟩ := by ext <;> simp; ring
  rw [e1, e2, norm _ h1.ne', norm _ (neg_ne_zero.2 h1.ne'), abs_neg, abs_of_pos h1, neg_div, div_self h1.ne']
  constructor <;> ext <;> simp [Vec.scale] <;> ring

end
end Verif.Lemmas.Collinear
