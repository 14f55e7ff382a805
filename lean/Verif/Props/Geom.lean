import Verif.Lemmas.Arc
import Mathlib.Data.EReal.Operations

/-!
# C27-C31: boxes, shapes, matrices, arcs, angles
-/

namespace Verif.Props.Geom
open Verif.Geom Verif.Spec Real

/-! ### C27: box union -/

section union
variable {K : Type*} [LinearOrder K]

/-- **C27.** The sum of two boxes contains both and is contained in every box containing both. -/
theorem c27_union_least (a b : Box K) :
    BoxIn a (a.union b) ∧ BoxIn b (a.union b) ∧ ∀ c, BoxIn a c → BoxIn b c → BoxIn (a.union b) c := by
  refine ⟨by simp [BoxIn, Box.union], by simp [BoxIn, Box.union], ?_⟩
  rintro c ⟨h1, h2, h3, h4⟩ ⟨g1, g2, g3, g4⟩
  exact ⟨le_min h1 g1, le_min h2 g2, max_le h3 g3, max_le h4 g4⟩

/-- **C27.** Every point of either box is in the sum. -/
theorem c27_union_points (a b : Box K) (p : Vec K) (h : InBox p a ∨ InBox p b) : InBox p (a.union b) := by
  rcases h with ⟨h1, h2, h3, h4⟩ | ⟨h1, h2, h3, h4⟩
  · exact ⟨min_le_of_left_le h1, le_max_of_le_left h2, min_le_of_left_le h3, le_max_of_le_left h4⟩
  · exact ⟨min_le_of_right_le h1, le_max_of_le_right h2, min_le_of_right_le h3, le_max_of_le_right h4⟩

/-- **C27.** Box sum is commutative, associative and idempotent. -/
theorem c27_union_laws (a b c : Box K) :
    a.union b = b.union a ∧ (a.union b).union c = a.union (b.union c) ∧ a.union a = a := by
  refine ⟨?_, ?_, ?_⟩
  · ext <;> simp [Box.union, min_comm, max_comm]
  · ext <;> simp [Box.union, min_assoc, max_assoc]
  · ext <;> simp [Box.union]

/-- **C27.** The box of a list of points contains each of them and is the least such box. -/
theorem c27_from_vectors (v : Vec K) (vs : List (Vec K)) :
    (∀ p ∈ v :: vs, InBox p (Box.fromVectors v vs)) ∧
    ∀ c, (∀ p ∈ v :: vs, InBox p c) → BoxIn (Box.fromVectors v vs) c := by
  refine ⟨fun p hp => inBox_fromVectors v vs p (by simpa using hp), fun c hc => ?_⟩
  exact fromVectors_le v vs c (fun p hp => hc p (by simpa using hp))

end union

/-- **C27.** Translating commutes with the sum, and moving forth and back is the identity. -/
theorem c27_translate {K : Type*} [Field K] [LinearOrder K] [IsStrictOrderedRing K] (a b : Box K) (v : Vec K) :
    (a.union b).translate v = (a.translate v).union (b.translate v) ∧
    (a.translate v).translateBack v = a ∧
    (∀ p, InBox p a ↔ InBox (p + v) (a.translate v)) := by
  refine ⟨?_, ?_, ?_⟩
  · ext <;> simp [Box.union, Box.translate, min_add_add_right, max_add_add_right]
  · ext <;> simp [Box.translate, Box.translateBack]
  · intro p; simp [InBox, Box.translate]

/-- **C27.** The default box (infinite inverted bounds) is neutral for the sum. -/
theorem c27_empty_neutral (a : Box EReal) : Box.empty.union a = a ∧ a.union Box.empty = a := by
  constructor <;> ext <;> simp [Box.empty, Box.union]

/-- **C27.** Translating the default box by a finite vector leaves it the default box. -/
theorem c27_empty_translate (x y : ℝ) : (Box.empty : Box EReal).translate ⟨(x : EReal), (y : EReal)⟩ = Box.empty := by
  ext <;> simp [Box.empty, Box.translate]

example : (⟨0, 0, 1, 1⟩ : Box ℚ).union ⟨2, -1, 3, 1 / 2⟩ = ⟨0, -1, 3, 1⟩ := by decide +kernel

/-! ### C28: bounding boxes of shapes -/

/-- The points of a segment: a straight segment, or the arc from its start to its end in its sense. -/
def OnSegmentOf : Segment → Vec ℝ → Prop
  | .line l, p => OnSegment l.start l.stop p
  | .arc a, p => ∃ t, Sweep a.clockwise (a.start - a.center) (a.stop - a.center) t ∧
      OnArc a.start a.center a.clockwise t p

/-- Start and end are equally far from the centre, and the arc is not a full counter-clockwise turn. -/
def ProperSegment : Segment → Prop
  | .line _ => True
  | .arc a => vlen (a.start - a.center) = vlen (a.stop - a.center) ∧
      (a.clockwise = true ∨ a.start ≠ a.stop)

theorem line_inBox (l : Line) (p : Vec ℝ) (h : OnSegment l.start l.stop p) : InBox p l.outerBox := by
  obtain ⟨k, h0, h1, rfl⟩ := h
  unfold Line.outerBox Box.fromVectors Box.extend
  simp only [List.foldl_cons, List.foldl_nil, InBox]
  refine ⟨?_, ?_, ?_, ?_⟩
  · rw [min_le_iff]; by_cases h : l.start.x ≤ l.stop.x
    · left; nlinarith
    · right; push Not at h; nlinarith
  · rw [le_max_iff]; by_cases h : l.start.x ≤ l.stop.x
    · right; nlinarith
    · left; push Not at h; nlinarith
  · rw [min_le_iff]; by_cases h : l.start.y ≤ l.stop.y
    · left; nlinarith
    · right; push Not at h; nlinarith
  · rw [le_max_iff]; by_cases h : l.start.y ≤ l.stop.y
    · right; nlinarith
    · left; push Not at h; nlinarith

theorem turn_two_pi (cw : Bool) (v : Vec ℝ) : turn cw (2 * π) v = v := by
  unfold turn rotCcw
  cases cw <;> ext <;> simp

theorem turn_zero_vec (cw : Bool) (t : ℝ) (v : Vec ℝ) (h : v.x = 0 ∧ v.y = 0) : turn cw t v = ⟨0, 0⟩ := by
  unfold turn rotCcw; ext <;> simp [h.1, h.2]

theorem segment_inBox (g : Segment) (hg : ProperSegment g) (p : Vec ℝ) (hp : OnSegmentOf g p) :
    InBox p g.outerBox := by
  cases g with
  | line l => exact line_inBox l p hp
  | arc a =>
    obtain ⟨hvalid, hf⟩ := hg
    obtain ⟨t, hs, hp⟩ := hp
    by_cases hz : a.relStart.x = 0 ∧ a.relStart.y = 0
    · obtain ⟨τ, -, -, rfl⟩ := hp
      have hrel : a.start - a.center = a.relStart := rfl
      rw [hrel, turn_zero_vec _ _ _ hz]
      have : a.center + (⟨0, 0⟩ : Vec ℝ) = a.center := by ext <;> simp
      rw [this]; exact inBox_center a
    · refine arc_inBox a t hvalid hs ?_ p hp
      rcases hf with h | h
      · exact Or.inl h
      · right
        rcases hs.2.1.lt_or_eq with hlt | he
        · exact hlt
        · exfalso; apply h
          obtain ⟨-, -, hx, hy⟩ := hs
          rw [he, turn_two_pi, ← hvalid] at hx hy
          have hr := (vlen_pos hz).ne'
          have h1 := mul_right_cancel₀ hr hx
          have h2 := mul_right_cancel₀ hr hy
          simp only [Vec.sub_x, Vec.sub_y] at h1 h2
          ext <;> linarith

theorem boxIn_foldl_union (gs : List Segment) (b : Box ℝ) :
    BoxIn b (gs.foldl (fun acc g => acc.union g.outerBox) b) ∧
    ∀ g ∈ gs, BoxIn g.outerBox (gs.foldl (fun acc g => acc.union g.outerBox) b) := by
  induction gs generalizing b with
  | nil => simp [BoxIn]
  | cons g gs ih =>
    simp only [List.foldl_cons]
    obtain ⟨h1, h2⟩ := ih (b.union g.outerBox)
    obtain ⟨u1, u2, -⟩ := c27_union_least b g.outerBox
    have tr : ∀ x y z : Box ℝ, BoxIn x y → BoxIn y z → BoxIn x z := by
      rintro x y z ⟨a1, a2, a3, a4⟩ ⟨b1, b2, b3, b4⟩
      exact ⟨b1.trans a1, b2.trans a2, a3.trans b3, a4.trans b4⟩
    refine ⟨tr _ _ _ u1 h1, fun g' hg' => ?_⟩
    rcases List.mem_cons.mp hg' with rfl | h
    · exact tr _ _ _ u2 h1
    · exact h2 g' h

theorem inBox_of_boxIn {p : Vec ℝ} {a b : Box ℝ} (h : InBox p a) (hab : BoxIn a b) : InBox p b :=
  ⟨hab.1.trans h.1, h.2.1.trans hab.2.2.1, hab.2.1.trans h.2.2.1, h.2.2.2.trans hab.2.2.2⟩

theorem segment_box_in_shape (s : Shape) (g : Segment) (hg : g ∈ s.segments) : BoxIn g.outerBox s.outerBox := by
  obtain ⟨h1, h2⟩ := boxIn_foldl_union s.tail s.head.outerBox
  rcases List.mem_cons.mp hg with rfl | h
  · exact h1
  · exact h2 g h

/-- **C28** (containment). Every point of every segment of a shape lies in the shape's bounding box.
Excluded (see `c28_full_ccw_turn_escapes`): arcs with different start and end radius, and counter-clockwise arcs whose
start and end coincide. -/
theorem c28_contains_partial (s : Shape) (g : Segment) (hg : g ∈ s.segments) (hproper : ProperSegment g)
    (p : Vec ℝ) (hp : OnSegmentOf g p) : InBox p s.outerBox :=
  inBox_of_boxIn (segment_inBox g hproper p hp) (segment_box_in_shape s g hg)

/-- **C28** (tightness). The box of a shape is the least one containing every point of every segment *and the centres
of its arcs*: the code always adds the centre.
Missing from the full property: minimality without the centres, which is false (`c28_not_tight`). -/
theorem c28_least_partial (s : Shape) (hproper : ∀ g ∈ s.segments, ProperSegment g)
    (hsweep : ∀ a, Segment.arc a ∈ s.segments →
      ∃ t, Sweep a.clockwise (a.start - a.center) (a.stop - a.center) t)
    (b : Box ℝ) (hb : ∀ g ∈ s.segments, ∀ p, OnSegmentOf g p → InBox p b)
    (hcenter : ∀ a, Segment.arc a ∈ s.segments → InBox a.center b) : BoxIn s.outerBox b := by
  have hseg : ∀ g ∈ s.segments, BoxIn g.outerBox b := by
    intro g hg
    cases g with
    | line l =>
      apply fromVectors_le
      intro p hp
      apply hb _ hg
      rcases hp with rfl | hp
      · exact ⟨0, le_refl _, zero_le_one, by ext <;> simp⟩
      · rw [List.mem_singleton.mp hp]
        exact ⟨1, zero_le_one, le_refl _, by ext <;> simp⟩
    | arc a =>
      obtain ⟨t, ht⟩ := hsweep a hg
      obtain ⟨hvalid, hf⟩ := hproper _ hg
      by_cases hz : a.relStart.x = 0 ∧ a.relStart.y = 0
      · have hz0 : vlen a.relStart = 0 := by unfold vlen; simp [hz.1, hz.2]
        have hs' := vlen_eq_zero (v := a.relStop) (hvalid ▸ hz0)
        have hany : Sweep a.clockwise a.relStart a.relStop 1 := by
          refine ⟨one_pos, by linarith [two_le_pi], ?_, ?_⟩ <;>
            rw [turn_zero_vec _ _ _ hz] <;> simp [hs'.1, hs'.2]
        refine arc_box_least a 1 hvalid hany (Or.inr (by linarith [two_le_pi])) b (hcenter a hg) ?_
        intro p hp
        exact hb _ hg p ⟨1, hany, hp⟩
      · refine arc_box_least a t hvalid ht ?_ b (hcenter a hg) (fun p hp => hb _ hg p ⟨t, ht, hp⟩)
        rcases hf with h | h
        · exact Or.inl h
        · right
          rcases ht.2.1.lt_or_eq with hlt | he
          · exact hlt
          · exfalso; apply h
            obtain ⟨-, -, hx, hy⟩ := ht
            rw [he, turn_two_pi, ← hvalid] at hx hy
            have hr := (vlen_pos hz).ne'
            have h1 := mul_right_cancel₀ hr hx
            have h2 := mul_right_cancel₀ hr hy
            simp only [Vec.sub_x, Vec.sub_y] at h1 h2
            ext <;> linarith
  have hfold : ∀ (gs : List Segment) (acc : Box ℝ), BoxIn acc b → (∀ g ∈ gs, BoxIn g.outerBox b) →
      BoxIn (gs.foldl (fun acc g => acc.union g.outerBox) acc) b := by
    intro gs
    induction gs with
    | nil => intro acc h _; simpa using h
    | cons g gs ih =>
      intro acc h hgs
      rw [List.foldl_cons]
      exact ih _ ((c27_union_least acc g.outerBox).2.2 b h (hgs g (by simp))) (fun g' h' => hgs g' (by simp [h']))
  exact hfold _ _ (hseg _ (by simp [Shape.segments])) (fun g hg => hseg g (by simp [Shape.segments, hg]))

/-- Non-vacuity of C28: a clockwise half circle of radius 1 is proper, has a sweep (half a turn), and its midpoint is
one of its points. -/
example : ProperSegment (.arc ⟨⟨-1, 0⟩, ⟨1, 0⟩, ⟨0, 0⟩, true⟩) ∧
    OnSegmentOf (.arc ⟨⟨-1, 0⟩, ⟨1, 0⟩, ⟨0, 0⟩, true⟩) ⟨0, 1⟩ := by
  have hp := pi_pos
  refine ⟨⟨by simp [vlen], Or.inl rfl⟩, π, ⟨hp, by linarith, ?_, ?_⟩, π / 2, by linarith, by linarith, ?_⟩
  · simp [turn, rotCcw, vlen]
  · simp [turn, rotCcw]
  · ext <;> simp [turn, rotCcw]

/-- **C28** fails for a full counter-clockwise turn (start = end): the code takes it for an arc of length zero, and the
point opposite to the start is outside the box. -/
theorem c28_full_ccw_turn_escapes :
    ∃ (a : Arc) (p : Vec ℝ), vlen (a.start - a.center) = vlen (a.stop - a.center) ∧ OnSegmentOf (.arc a) p ∧
      ¬ InBox p a.outerBox := by
  refine ⟨⟨⟨1, 0⟩, ⟨1, 0⟩, ⟨0, 0⟩, false⟩, ⟨-1, 0⟩, rfl, ⟨2 * π, ⟨by positivity, le_refl _, ?_, ?_⟩,
    π, pi_pos.le, by linarith [pi_pos], ?_⟩, ?_⟩
  · rw [turn_two_pi]
  · rw [turn_two_pi]
  · ext <;> simp [turn, rotCcw]
  · set a : Arc := ⟨⟨1, 0⟩, ⟨1, 0⟩, ⟨0, 0⟩, false⟩ with ha
    have htot : a.totalAngle = 0 := by
      obtain ⟨s, s0, s1, s2, s3⟩ := angleBetweenCc_spec a.relStart a.relStop
      have e : a.totalAngle = degrees s := by
        unfold Arc.totalAngle Vec.angleBetween; rw [s2]; simp [ha]
      rcases s0.lt_or_eq with hpos | hz
      · exfalso
        have hn := normalized_unit a.relStart
        have : turn false s a.relStart.normalized = turn false (2 * π) a.relStart.normalized := by
          rw [turn_two_pi]
          have : a.relStop.normalized = a.relStart.normalized := rfl
          rw [← this] at s3 ⊢; simpa [turn, this] using s3
        have := sweep_unique hn hpos s1.le (by positivity) (le_refl _) this
        linarith
      · rw [e, ← hz]; unfold degrees; simp
    have hax : ∀ d : Vec ℝ, d.x ^ 2 + d.y ^ 2 = 1 → ¬ a.axisAngle d < a.totalAngle := by
      intro d hd
      obtain ⟨α, a0, -, a2, -⟩ := axisAngle_spec a d hd
      rw [htot, a2, not_lt]; exact degrees_nonneg.mpr a0
    have hcand : a.candidates = [⟨1, 0⟩, ⟨1, 0⟩] := by
      unfold Arc.candidates
      rw [if_neg (hax _ (by simp [Vec.unitX])), if_neg (hax _ (by simp [Vec.unitY])),
        if_neg (hax _ (by simp [Vec.unitX])), if_neg (hax _ (by simp [Vec.unitY]))]
      have h1 : a.relStart = ⟨1, 0⟩ := by ext <;> simp [ha, Arc.relStart]
      have h2 : a.relStop = ⟨1, 0⟩ := by ext <;> simp [ha, Arc.relStop]
      simp [h1, h2]
    intro h
    have h1 := h.1
    unfold Arc.outerBox at h1
    rw [hcand] at h1
    simp only [ha, Box.fromVectors, Box.extend, List.map_cons, List.map_nil, List.foldl_cons, List.foldl_nil,
      Vec.add_x, Vec.add_y] at h1
    rw [min_le_iff, min_le_iff] at h1
    rcases h1 with (h1 | h1) | h1 <;> norm_num at h1

/-- **C28** (minimality fails). The box always contains the centre of an arc: the short arc from (0.8, 0.6) to
(0.6, 0.8) about the origin lies right of `x = 0.5`, but its box starts at or left of `x = 0`. -/
theorem c28_not_tight :
    ∃ a : Arc, ProperSegment (.arc a) ∧ (∀ p, OnSegmentOf (.arc a) p → 1 / 2 ≤ p.x) ∧ a.outerBox.minX ≤ 0 := by
  set a : Arc := ⟨⟨4 / 5, 3 / 5⟩, ⟨3 / 5, 4 / 5⟩, ⟨0, 0⟩, false⟩ with ha
  have hl1 : vlen (a.start - a.center) = 1 := by
    unfold vlen; rw [sqrt_eq_one]; simp [ha]; norm_num
  have hl2 : vlen (a.stop - a.center) = 1 := by
    unfold vlen; rw [sqrt_eq_one]; simp [ha]; norm_num
  refine ⟨a, ⟨by rw [hl1, hl2], Or.inr ?_⟩, ?_, (inBox_center a).1⟩
  · intro h; have := congrArg Vec.x h; simp [ha] at this
  · rintro p ⟨t, ⟨t0, t1, tx, ty⟩, τ, h0, h1, rfl⟩
    rw [hl1, hl2] at tx ty
    simp [ha, turn, rotCcw] at tx ty ⊢
    have hc : cos t = 24 / 25 := by linarith
    have hs : sin t = 7 / 25 := by linarith
    have htpi : t < π := by
      by_contra hge
      push Not at hge
      have : sin t ≤ 0 := by
        have := sin_nonneg_of_nonneg_of_le_pi (x := t - π) (by linarith) (by linarith)
        rw [sin_sub_pi] at this; linarith
      linarith
    have ht2 : t < π / 2 := by
      by_contra hge
      push Not at hge
      have := cos_nonpos_of_pi_div_two_le_of_le (x := t) hge (by linarith)
      linarith
    have hcτ : 24 / 25 ≤ cos τ := by rw [← hc]; exact cos_le_cos_of_nonneg_of_le_pi h0 (by linarith) h1
    have hsτ : sin τ ≤ 7 / 25 := by rw [← hs]; exact sin_le_sin_of_le_of_le_pi_div_two (by linarith) ht2.le h1
    linarith

/-! ### C29: matrices -/

section matrices
variable {K : Type*} [Field K]

/-- The last row is `(0, 0, 1)`: true of every matrix the library creates (`c29_constructors_affine`). -/
def Affine (m : Mat K) : Prop := m.m 2 0 = 0 ∧ m.m 2 1 = 0 ∧ m.m 2 2 = 1

theorem matmul_entry (a b : Mat K) (i j : Fin 3) :
    (a.matmul b).m i j = a.m i 0 * b.m 0 j + a.m i 1 * b.m 1 j + a.m i 2 * b.m 2 j := by
  simp [Mat.matmul]

/-- **C29.** The matrices the library creates are affine, and products of affine matrices are affine. -/
theorem c29_constructors_affine (x y c s : K) (p q : Bool) :
    Affine (Mat.newTranslate x y) ∧ Affine (Mat.newRotateCS c s) ∧ Affine (Mat.newReflect p q : Mat K) ∧
    Affine (Mat.newScale x y) ∧ ∀ a b : Mat K, Affine a → Affine b → Affine (a.matmul b) := by
  refine ⟨⟨rfl, rfl, rfl⟩, ⟨rfl, rfl, rfl⟩, ⟨rfl, rfl, rfl⟩, ⟨rfl, rfl, rfl⟩, ?_⟩
  rintro a b ⟨a0, a1, a2⟩ ⟨b0, b1, b2⟩
  simp [Affine, matmul_entry, a0, a1, a2, b0, b1, b2]

/-- **C29.** Transforming by a product is transforming by the right factor and then by the left one. -/
theorem c29_apply_matmul (a b : Mat K) (hb : Affine b) (v : Vec K) :
    (a.matmul b).apply v = a.apply (b.apply v) := by
  obtain ⟨b0, b1, b2⟩ := hb
  ext <;> simp only [Mat.apply, matmul_entry, b0, b1, b2] <;> ring

/-- **C29.** The product is associative. -/
theorem c29_matmul_assoc (a b c : Mat K) : (a.matmul b).matmul c = a.matmul (b.matmul c) := by
  ext i j; simp only [matmul_entry]; ring

/-- **C29.** Translation moves by the vector, reflection negates the chosen coordinates, scaling multiplies them. -/
theorem c29_named (x y : K) (p q : Bool) (v : Vec K) :
    (Mat.newTranslate x y).apply v = ⟨v.x + x, v.y + y⟩ ∧
    (Mat.newReflect p q).apply v = ⟨if p then -v.x else v.x, if q then -v.y else v.y⟩ ∧
    (Mat.newScale x y).apply v = ⟨x * v.x, y * v.y⟩ := by
  refine ⟨?_, ?_, ?_⟩
  · ext <;> simp [Mat.apply, Mat.newTranslate, Mat.ofRows]
  · cases p <;> cases q <;> ext <;> simp [Mat.apply, Mat.newReflect, Mat.ofRows]
  · ext <;> simp [Mat.apply, Mat.newScale, Mat.ofRows]

/-- **C29.** Reflections preserve distances and uniform scaling by `k` multiplies squared distances by `k^2`. -/
theorem c29_distances (k : K) (p q : Bool) (u v : Vec K) :
    distSq ((Mat.newReflect p q).apply u) ((Mat.newReflect p q).apply v) = distSq u v ∧
    distSq ((Mat.newScale k k).apply u) ((Mat.newScale k k).apply v) = k ^ 2 * distSq u v := by
  constructor
  · rw [(c29_named 0 0 p q u).2.1, (c29_named 0 0 p q v).2.1]
    cases p <;> cases q <;> simp [distSq] <;> ring
  · rw [(c29_named k k p q u).2.2, (c29_named k k p q v).2.2]
    simp only [distSq]; ring

end matrices

/-- **C29.** Rotation by `b` and then by `a` degrees is rotation by `a + b` degrees; the rotation matrix is the
counter-clockwise rotation, so it preserves distances. -/
theorem c29_rotation (a b : ℝ) (u v : Vec ℝ) :
    (Mat.newRotate a).matmul (Mat.newRotate b) = Mat.newRotate (a + b) ∧
    (Mat.newRotate a).apply v = rotCcw (a * π / 180) v ∧
    distSq ((Mat.newRotate a).apply u) ((Mat.newRotate a).apply v) = distSq u v := by
  refine ⟨?_, ?_, ?_⟩
  · have hr : radians (a + b) = radians a + radians b := by unfold radians; ring
    ext i j
    rw [matmul_entry]
    unfold Mat.newRotate Mat.newRotateCS
    rw [hr, cos_add, sin_add]
    fin_cases i <;> fin_cases j <;> simp [Mat.ofRows] <;> ring
  · ext <;> simp [Mat.apply, Mat.newRotate, Mat.newRotateCS, Mat.ofRows, rotCcw, radians] <;> ring
  · have := sin_sq_add_cos_sq (radians a)
    simp only [distSq, Mat.apply, Mat.newRotate, Mat.newRotateCS, Mat.ofRows]
    linear_combination ((u.x - v.x) ^ 2 + (u.y - v.y) ^ 2) * this

example : (Mat.newRotate 90).apply ⟨1, 0⟩ = ⟨0, 1⟩ := by
  rw [(c29_rotation 90 0 ⟨0, 0⟩ ⟨1, 0⟩).2.1]
  have : (90 : ℝ) * π / 180 = π / 2 := by ring
  rw [this]
  ext <;> simp [rotCcw]

/-! ### C30: arcs under transformation -/

/-- A similarity without translation: rotation and scaling by `(p, q)`, mirrored when `e` is `-1`. -/
theorem similarity_turn (m : Mat ℝ) (p q e : ℝ) (he : e = 1 ∨ e = -1)
    (h00 : m.m 0 0 = p) (h01 : m.m 0 1 = -e * q) (h10 : m.m 1 0 = q) (h11 : m.m 1 1 = e * p)
    (cw : Bool) (τ : ℝ) (c w : Vec ℝ) :
    m.apply (c + turn cw τ w) = m.apply c + turn (if e = 1 then cw else !cw) τ (m.apply (c + w) - m.apply c) := by
  have h1 : (1 : ℝ) ≠ -1 := by norm_num
  rcases he with rfl | rfl
  · cases cw <;> ext <;> simp [Mat.apply, turn, rotCcw, h00, h01, h10, h11] <;> ring
  · have : ¬ ((-1 : ℝ) = 1) := by norm_num
    cases cw <;> ext <;> simp [Mat.apply, turn, rotCcw, h00, h01, h10, h11, this] <;> ring

/-- The matrix of an aperture transformation (gerber/compiler/compiler.py 656-665): mirroring after rotation after
uniform scaling, the rotation being given by its cosine and sine. -/
noncomputable def apertureMatrix (mx my : Bool) (c s k : ℝ) : Mat ℝ :=
  (Mat.newReflect mx my).matmul ((Mat.newRotateCS c s).matmul (Mat.newScale k k))

theorem apertureMatrix_entries (mx my : Bool) (c s k : ℝ) :
    let e : ℝ := if mx = my then 1 else -1
    let g : ℝ := if mx then -1 else 1
    (apertureMatrix mx my c s k).m 0 0 = g * c * k ∧
    (apertureMatrix mx my c s k).m 0 1 = -e * ((if my then -1 else 1) * s * k) ∧
    (apertureMatrix mx my c s k).m 1 0 = (if my then -1 else 1) * s * k ∧
    (apertureMatrix mx my c s k).m 1 1 = e * (g * c * k) := by
  cases mx <;> cases my <;>
    simp [apertureMatrix, matmul_entry, Mat.newReflect, Mat.newRotateCS, Mat.newScale, Mat.ofRows]

theorem sense_aperture (mx my : Bool) {c s k : ℝ} (hcs : c ^ 2 + s ^ 2 = 1) (hk : k ≠ 0) :
    (apertureMatrix mx my c s k).keepsSense ↔ mx = my := by
  obtain ⟨e00, e01, e10, e11⟩ := apertureMatrix_entries mx my c s k
  have hk2 : 0 < k ^ 2 := by positivity
  unfold Mat.keepsSense
  rw [e00, e01, e10, e11]
  by_cases hc : c = 0
  · have hs : s ^ 2 = 1 := by rw [hc] at hcs; linarith
    have : 0 < s ^ 2 * k ^ 2 := by rw [hs]; linarith
    have hs0 : s ≠ 0 := by rintro rfl; norm_num at hs
    cases mx <;> cases my <;> simp [hc, hs0, hk] <;> nlinarith
  · have : 0 < c ^ 2 * k ^ 2 := by positivity
    cases mx <;> cases my <;> simp [hc, hk] <;> nlinarith

/-- **C30**. When an arc is transformed by mirror ∘ rotation ∘ scaling, its defining points are transformed,
its sense flips exactly when exactly one axis is mirrored (orientation is reversed), it sweeps the same angle, and the
transformed arc consists exactly of the images of the points of the original one.
Right angles, whose cosine is zero in exact arithmetic, are included (see `Mat.keepsSense` and `c30_test_as_written`). -/
theorem c30_arc_transform (a : Arc) (mx my : Bool) (c s k : ℝ) (hcs : c ^ 2 + s ^ 2 = 1) (hk : k ≠ 0)
    (t : ℝ) (ht : Sweep a.clockwise (a.start - a.center) (a.stop - a.center) t) :
    let m := apertureMatrix mx my c s k
    let b := a.transform m
    b.start = m.apply a.start ∧ b.stop = m.apply a.stop ∧ b.center = m.apply a.center ∧
    (b.clockwise = if mx = my then a.clockwise else !a.clockwise) ∧
    Sweep b.clockwise (b.start - b.center) (b.stop - b.center) t ∧
    ∀ p, OnArc b.start b.center b.clockwise t p ↔
      ∃ q, OnArc a.start a.center a.clockwise t q ∧ p = m.apply q := by
  intro m b
  obtain ⟨e00, e01, e10, e11⟩ := apertureMatrix_entries mx my c s k
  set e : ℝ := if mx = my then 1 else -1 with he
  set g : ℝ := if mx then -1 else 1 with hg
  set q' : ℝ := (if my then -1 else 1) * s * k with hq
  have hee : e = 1 ∨ e = -1 := by rw [he]; split_ifs <;> simp
  have hgg : g ^ 2 = 1 := by rw [hg]; split_ifs <;> norm_num
  have hsign : m.keepsSense ↔ mx = my := sense_aperture mx my hcs hk
  have hcw : b.clockwise = if mx = my then a.clockwise else !a.clockwise := by
    show (if m.keepsSense then a.clockwise else !a.clockwise) = _
    by_cases h : mx = my
    · rw [if_pos (hsign.mpr h), if_pos h]
    · rw [if_neg (fun hh => h (hsign.mp hh)), if_neg h]
  have hcw2 : (if e = 1 then a.clockwise else !a.clockwise) = b.clockwise := by
    rw [hcw, he]
    by_cases h : mx = my
    · simp [h]
    · have : ¬ ((-1 : ℝ) = 1) := by norm_num
      simp [h, this]
  have hturn := similarity_turn m (g * c * k) q' e hee e00 e01 e10 e11 a.clockwise
  rw [hcw2] at hturn
  have hsub : ∀ v : Vec ℝ, a.center + (v - a.center) = v := fun v => by ext <;> simp
  have himg : ∀ τ, m.apply (a.center + turn a.clockwise τ (a.start - a.center))
      = b.center + turn b.clockwise τ (b.start - b.center) := by
    intro τ
    have := hturn τ a.center (a.start - a.center)
    rw [hsub] at this
    exact this
  -- lengths scale by `|k|`
  have hlen : ∀ v w : Vec ℝ, vlen (m.apply v - m.apply w) = |k| * vlen (v - w) := by
    intro v w
    unfold vlen
    rw [← sqrt_sq_eq_abs, ← sqrt_mul (sq_nonneg k)]
    congr 1
    have hmy : ((if my then (-1 : ℝ) else 1)) ^ 2 = 1 := by split_ifs <;> norm_num
    have he2 : e ^ 2 = 1 := by rcases hee with h | h <;> rw [h] <;> norm_num
    have q2 : q' ^ 2 = s ^ 2 * k ^ 2 := by rw [hq]; linear_combination (s ^ 2 * k ^ 2) * hmy
    have p2 : (g * c * k) ^ 2 = c ^ 2 * k ^ 2 := by linear_combination (c ^ 2 * k ^ 2) * hgg
    have f00 : m.m 0 0 = g * c * k := e00
    have f01 : m.m 0 1 = -e * q' := e01
    have f10 : m.m 1 0 = q' := e10
    have f11 : m.m 1 1 = e * (g * c * k) := e11
    simp only [Mat.apply, Vec.sub_x, Vec.sub_y, f00, f01, f10, f11]
    generalize g * c * k = P at p2 ⊢
    linear_combination ((v.x - w.x) ^ 2 + (v.y - w.y) ^ 2 * e ^ 2) * p2
      + ((v.x - w.x) ^ 2 + (v.y - w.y) ^ 2 * e ^ 2) * q2
      + (k ^ 2 * (v.x - w.x) ^ 2 + k ^ 2 * (v.y - w.y) ^ 2 * e ^ 2) * hcs + (v.y - w.y) ^ 2 * k ^ 2 * he2
  refine ⟨rfl, rfl, rfl, hcw, ?_, ?_⟩
  · obtain ⟨t0, t1, tx, ty⟩ := ht
    have hT := himg t
    have h1 : vlen (b.stop - b.center) = |k| * vlen (a.stop - a.center) := hlen a.stop a.center
    have h2 : vlen (b.start - b.center) = |k| * vlen (a.start - a.center) := hlen a.start a.center
    have hx := congrArg Vec.x hT
    have hy := congrArg Vec.y hT
    simp only [Mat.apply, Vec.add_x, Vec.add_y] at hx hy
    refine ⟨t0, t1, ?_, ?_⟩
    · rw [h1, h2]
      have : (turn b.clockwise t (b.start - b.center)).x
          = m.m 0 0 * (turn a.clockwise t (a.start - a.center)).x
            + m.m 0 1 * (turn a.clockwise t (a.start - a.center)).y := by
        have hcx : b.center.x = m.m 0 0 * a.center.x + m.m 0 1 * a.center.y + m.m 0 2 := rfl
        linarith
      have hsx : (b.stop - b.center).x = m.m 0 0 * (a.stop - a.center).x + m.m 0 1 * (a.stop - a.center).y := by
        show (m.apply a.stop - m.apply a.center).x = _
        simp only [Mat.apply, Vec.sub_x, Vec.sub_y]; ring
      rw [this, hsx]
      linear_combination (|k| * m.m 0 0) * tx + (|k| * m.m 0 1) * ty
    · rw [h1, h2]
      have : (turn b.clockwise t (b.start - b.center)).y
          = m.m 1 0 * (turn a.clockwise t (a.start - a.center)).x
            + m.m 1 1 * (turn a.clockwise t (a.start - a.center)).y := by
        have hcy : b.center.y = m.m 1 0 * a.center.x + m.m 1 1 * a.center.y + m.m 1 2 := rfl
        linarith
      have hsy : (b.stop - b.center).y = m.m 1 0 * (a.stop - a.center).x + m.m 1 1 * (a.stop - a.center).y := by
        show (m.apply a.stop - m.apply a.center).y = _
        simp only [Mat.apply, Vec.sub_x, Vec.sub_y]; ring
      rw [this, hsy]
      linear_combination (|k| * m.m 1 0) * tx + (|k| * m.m 1 1) * ty
  · intro p
    constructor
    · rintro ⟨τ, h0, h1, rfl⟩
      exact ⟨_, ⟨τ, h0, h1, rfl⟩, (himg τ).symm⟩
    · rintro ⟨q, ⟨τ, h0, h1, rfl⟩, rfl⟩
      exact ⟨τ, h0, h1, himg τ⟩

/-- Non-vacuity of C30: a proper rotation, a right angle and a half-circle. -/
example : ((3 / 5 : ℝ)) ^ 2 + (4 / 5) ^ 2 = 1 ∧ (0 : ℝ) ^ 2 + 1 ^ 2 = 1 ∧ Sweep true (⟨-1, 0⟩ : Vec ℝ) ⟨1, 0⟩ π := by
  refine ⟨by norm_num, by norm_num, pi_pos, by linarith [pi_pos], ?_, ?_⟩ <;> simp [turn, rotCcw, vlen]

/-- **C30**, the test for the sense as the code writes it: it is the one of the model for all angles whose cosine is not zero,
which floating point angles never have. -/
theorem c30_test_as_written (mx my : Bool) (c s k : ℝ) (hc : c ≠ 0) (hk : k ≠ 0) :
    (apertureMatrix mx my c s k).keepsSense ↔
      (apertureMatrix mx my c s k).m 0 0 * (apertureMatrix mx my c s k).m 1 1 > 0 := by
  refine ⟨fun h => h.resolve_right ?_, .inl⟩
  rintro ⟨h, -, -⟩
  rw [(apertureMatrix_entries mx my c s k).1] at h
  have : (if mx then (-1 : ℝ) else 1) ≠ 0 := by split_ifs <;> norm_num
  exact mul_ne_zero (mul_ne_zero this hc) hk h

/-- Non-vacuity: the test gives both answers. -/
example : (apertureMatrix false false (3 / 5) (4 / 5) 1).m 0 0 * (apertureMatrix false false (3 / 5) (4 / 5) 1).m 1 1 > 0 ∧
    ¬ (apertureMatrix true false (3 / 5) (4 / 5) 1).m 0 0 * (apertureMatrix true false (3 / 5) (4 / 5) 1).m 1 1 > 0 := by
  constructor <;>
  · obtain ⟨a, -, -, b⟩ := apertureMatrix_entries _ false (3 / 5) (4 / 5) 1
    rw [a, b]; norm_num

/-- The test as the code writes it would fail in exact arithmetic: for a rotation whose cosine is exactly zero it reads
`0 > 0`, although the rotation preserves the sense. -/
theorem c30_exact_quarter_turn : ¬ (Mat.newRotateCS (0 : ℝ) 1).m 0 0 * (Mat.newRotateCS (0 : ℝ) 1).m 1 1 > 0 := by
  simp [Mat.newRotateCS, Mat.ofRows]

/-! ### C31: angles -/

/-- **C31** (partial). The two angles add up to 360 degrees, the counter-clockwise one is in [0, 360) and the clockwise
one in (0, 360]; each turns the first direction into the second.
Missing: the documented range [0, 360) of the clockwise angle, which is false (`c31_clockwise_can_be_360`). -/
theorem c31_angles_partial (u v : Vec ℝ) (hu : u ≠ ⟨0, 0⟩) (hv : v ≠ ⟨0, 0⟩) :
    u.angleBetween v + u.angleBetweenCc v = 360 ∧
    (0 ≤ u.angleBetweenCc v ∧ u.angleBetweenCc v < 360) ∧
    (0 < u.angleBetween v ∧ u.angleBetween v ≤ 360) ∧
    (rotCcw (u.angleBetweenCc v * π / 180) u).x * vlen v = v.x * vlen u ∧
    (rotCcw (u.angleBetweenCc v * π / 180) u).y * vlen v = v.y * vlen u := by
  have hu' : ¬ (u.x = 0 ∧ u.y = 0) := fun h => hu (by ext; exacts [h.1, h.2])
  have hv' : ¬ (v.x = 0 ∧ v.y = 0) := fun h => hv (by ext; exacts [h.1, h.2])
  obtain ⟨t, t0, t1, t2, t3⟩ := angleBetweenCc_spec u v
  have h1 : u.angleBetweenCc v < 360 := by
    rw [t2, ← degrees_two_pi]; exact degrees_lt.mpr t1
  have h0 : 0 ≤ u.angleBetweenCc v := by rw [t2]; exact degrees_nonneg.mpr t0
  have hb : u.angleBetweenCc v * π / 180 = t := by
    rw [t2]; unfold degrees; have := pi_pos; field_simp
  obtain ⟨ux, uy⟩ := scale_norm hu'
  obtain ⟨vx, vy⟩ := scale_norm hv'
  have hx := congrArg Vec.x t3
  have hy := congrArg Vec.y t3
  simp only [rotCcw] at hx hy
  refine ⟨by unfold Vec.angleBetween; ring, ⟨h0, h1⟩, ⟨by unfold Vec.angleBetween; linarith,
    by unfold Vec.angleBetween; linarith⟩, ?_, ?_⟩
  · rw [hb]; simp only [rotCcw]
    conv_lhs => rw [ux, uy]
    conv_rhs => rw [vx]
    linear_combination (vlen u * vlen v) * hx
  · rw [hb]; simp only [rotCcw]
    conv_lhs => rw [ux, uy]
    conv_rhs => rw [vy]
    linear_combination (vlen u * vlen v) * hy

/-- **C31** (documented range fails). The clockwise angle between a vector and itself is 360, although its documentation
says it can be 0 and is never 360. -/
theorem c31_clockwise_can_be_360 (u : Vec ℝ) : u.angleBetween u = 360 := by
  obtain ⟨t, t0, t1, t2, t3⟩ := angleBetween_spec u u
  have := sweep_unique (cw := true) (normalized_unit u) t0 t1 (by positivity : (0 : ℝ) < 2 * π) (le_refl _) (by
    rw [turn_two_pi]; simpa [turn] using t3)
  rw [t2, this, degrees_two_pi]

example : (⟨1, 0⟩ : Vec ℝ) ≠ ⟨0, 0⟩ := by
  intro h; have := congrArg Vec.x h; simp at this

end Verif.Props.Geom
