import Verif.Lemmas.Halves
import Verif.Lemmas.ArcArea
import Verif.Lemmas.Similar

/-!
# Shapes whose outline goes round what it encloses once
-/

namespace Verif.Halves
open Verif.Geom Verif.Rvmc Verif.Spec Verif.Crossing Verif.Fine Verif.Lemmas.ShapeArea Verif.Lemmas.ArcArea Verif.Sim Real

/-- The points enclosed by the outline can be joined to the point `c`. -/
def Joined (s : Shape) (c : Vec ℝ) : Prop :=
  ∀ p ∈ areaOf s, ¬ OnRim s p → ∃ path : ℝ → Vec ℝ, Continuous (fun t => (path t).x) ∧ Continuous (fun t => (path t).y) ∧
    path 0 = p ∧ path 1 = c ∧ ∀ t, 0 ≤ t → t ≤ 1 → ¬ OnRim s (path t)

theorem joined_star {s : Shape} {c : Vec ℝ} (hj : ∀ p ∈ areaOf s, ¬ OnRim s p → ∀ q, OnSegment p c q → ¬ OnRim s q) : Joined s c := by
  refine fun p hp hr => ⟨fun t => ⟨p.x + t * (c.x - p.x), p.y + t * (c.y - p.y)⟩, ?_, ?_, ?_, ?_, fun t t0 t1 => hj p hp hr _ ⟨t, t0, t1, rfl⟩⟩
  · exact continuous_const.add (continuous_id.mul continuous_const)
  · exact continuous_const.add (continuous_id.mul continuous_const)
  · ext <;> simp
  · ext <;> simp

/-- The outline encloses nothing, or can be cut in two or crossed once, and encloses one piece. -/
structure Round (s : Shape) : Prop where
  pieces : ∀ g ∈ s.segments, NotClosed g
  cut : (∀ p ∈ areaOf s, OnRim s p) ∨ ∃ c u, (Halved s c u ∨ Crossed s c u) ∧ Joined s c

theorem Round.once {s : Shape} (h : Round s) : GoesRoundOnce s := by
  rcases h.cut with h1 | ⟨c, u, h1 | h1, h2⟩
  · exact fun p hp hr => absurd (h1 p hp) hr
  · exact Halves.once h.pieces (fun hc => halved_within h.pieces hc h1) h2
  · exact Halves.once h.pieces (fun hc => crossed_within h.pieces hc h1) h2

/-- Transformations. -/
theorem Round.transform {m : Mat ℝ} {e k : ℝ} (hm : Similar m e k) {s : Shape} (h : Round s) : Round (s.transform m) := by
  have hseg : (s.transform m).segments = s.segments.map (·.transform m) := rfl
  refine ⟨fun g hg => ?_, ?_⟩
  · rw [hseg] at hg
    obtain ⟨g, hg', rfl⟩ := List.mem_map.1 hg
    have := h.pieces g hg'
    cases g with
    | line l => trivial
    | arc a =>
      obtain ⟨h1, h2, h3⟩ := this
      refine ⟨fun h => h1 (hm.injective h), ?_, fun h => h3 (hm.injective h)⟩
      show vlen (m.apply a.start - m.apply a.center) = vlen (m.apply a.stop - m.apply a.center)
      rw [hm.vlen, hm.vlen, h2]
  · have hjoin : ∀ c, Joined s c → Joined (s.transform m) (m.apply c) := by
      intro c h2 p hp hr
      rw [hm.enclosed] at hp
      obtain ⟨q, hq, rfl⟩ := hp
      rw [hm.rim] at hr
      obtain ⟨path, p1, p2, p3, p4, p5⟩ := h2 q hq hr
      refine ⟨fun t => m.apply (path t), ?_, ?_, by simp only [p3], by simp only [p4], fun t t0 t1 => ?_⟩
      · exact ((continuous_const.mul p1).add (continuous_const.mul p2)).add continuous_const
      · exact ((continuous_const.mul p1).add (continuous_const.mul p2)).add continuous_const
      · rw [hm.rim]; exact p5 t t0 t1
    rcases h.cut with h1 | ⟨c, u, ⟨g, A, x, B, hs, hA, hB, α, β, hαβ, hg, hx⟩ | ⟨h1, g, x, neg, rfl, h3, ⟨l, k', l0, l1, k0, k1, h4, h5⟩, h6⟩, h2⟩
    · left
      intro p hp
      rw [hm.enclosed] at hp
      obtain ⟨q, hq, rfl⟩ := hp
      exact (hm.rim s q).2 (h1 q hq)
    · right
      have e2 : e ^ 2 = 1 := by rcases hm.sign with h | h <;> rw [h] <;> norm_num
      have hcross : ∀ v w : Vec ℝ, cross (m.apply (c + v) - m.apply c) (m.apply w - m.apply c) = e * k ^ 2 * cross v (w - c) := by
        intro v w
        have := hm.scale
        simp only [cross, Mat.apply, Vec.sub_x, Vec.sub_y, Vec.add_x, Vec.add_y, hm.first, hm.second]
        linear_combination e * (v.x * (w.y - c.y) - v.y * (w.x - c.x)) * this
      have hmul : ∀ (v : Vec ℝ) (l : ℝ), v - c = ⟨l * u.x, l * u.y⟩ →
          m.apply v - m.apply c = ⟨l * (m.apply (c + u) - m.apply c).x, l * (m.apply (c + u) - m.apply c).y⟩ := by
        intro v l hv
        have h1 := congrArg Vec.x hv
        have h2 := congrArg Vec.y hv
        simp only [Vec.sub_x, Vec.sub_y] at h1 h2
        ext <;> simp only [Mat.apply, Vec.sub_x, Vec.sub_y, Vec.add_x, Vec.add_y]
        · linear_combination m.m 0 0 * h1 + m.m 0 1 * h2
        · linear_combination m.m 1 0 * h1 + m.m 1 1 * h2
      have hk : 0 < k ^ 2 := by have := hm.pos; positivity
      have piece : ∀ x : Segment, ∀ v, OnPiece v (x.transform m) → ∃ w, v = m.apply w ∧ OnPiece w x := by
        intro x v hv
        refine ⟨inv m e k v, (hm.apply_inv v).symm, ?_⟩
        rw [← hm.apply_inv v] at hv
        exact (hm.piece x _).1 hv
      set U := m.apply (c + u) - m.apply c with hU
      refine ⟨m.apply c, ⟨e * U.x, e * U.y⟩, .inl ⟨g.transform m, A.map (·.transform m), x.transform m, B.map (·.transform m), ?_, ?_, ?_, e * α, e * β, ?_, ?_, ?_⟩, ?_⟩
      · rw [hseg, hs]; simp
      · intro y hy v hv
        obtain ⟨y, hy', rfl⟩ := List.mem_map.1 (show y ∈ (g :: A).map fun z : Segment => z.transform m from hy)
        obtain ⟨w, rfl, hw⟩ := piece y v hv
        have h1 := hA y hy' w hw
        have h2 := hcross u w
        rw [← hU] at h2
        have : cross ⟨e * U.x, e * U.y⟩ (m.apply w - m.apply c) = e ^ 2 * k ^ 2 * cross u (w - c) := by
          simp only [cross] at h2 ⊢
          linear_combination e * h2
        rw [this, e2]
        positivity
      · intro y hy v hv
        obtain ⟨y, hy', rfl⟩ := List.mem_map.1 (show y ∈ (x :: B).map fun z : Segment => z.transform m from hy)
        obtain ⟨w, rfl, hw⟩ := piece y v hv
        have h1 := hB y hy' w hw
        have h2 := hcross u w
        rw [← hU] at h2
        have : cross ⟨e * U.x, e * U.y⟩ (m.apply w - m.apply c) = e ^ 2 * k ^ 2 * cross u (w - c) := by
          simp only [cross] at h2 ⊢
          linear_combination e * h2
        rw [this, e2]
        nlinarith
      · calc 0 < e ^ 2 * (α * β) := by rw [e2]; linarith
          _ = e * α * (e * β) := by ring
      · rw [transform_start, hmul _ _ hg]
        ext <;> simp only
        · linear_combination -α * U.x * e2
        · linear_combination -α * U.y * e2
      · rw [transform_start, hmul _ _ hx]
        ext <;> simp only
        · linear_combination β * U.x * e2
        · linear_combination β * U.y * e2
      · exact hjoin c h2
    · right
      have e2 : e ^ 2 = 1 := by rcases hm.sign with h | h <;> rw [h] <;> norm_num
      have e0 : e ≠ 0 := by rcases hm.sign with h | h <;> rw [h] <;> norm_num
      refine ⟨m.apply c, m.apply u, .inr ⟨?_, g.transform m, x.transform m, neg, rfl, ?_, ⟨l, k', l0, l1, k0, k1, ?_, ?_⟩, ?_⟩, hjoin c h2⟩
      · rw [hm.enclosed]
        rintro ⟨q, hq, he⟩
        rw [hm.injective he] at hq
        exact h1 hq
      · intro v hv
        rw [← hm.apply_inv v, hm.segment] at hv
        obtain ⟨n1, n2, n3⟩ := h3 _ hv
        rw [← hm.apply_inv v, hm.piece, hm.piece, transform_start, transform_stop, hm.segment]
        exact ⟨n1, n2, n3⟩
      · simp only [transform_start, transform_stop, Mat.apply]
        linear_combination m.m 0 0 * h4 + m.m 0 1 * h5
      · simp only [transform_start, transform_stop, Mat.apply]
        linear_combination m.m 1 0 * h4 + m.m 1 1 * h5
      · rw [transform_start, transform_stop]
        have : cross (m.apply u - m.apply c) (m.apply x.start - m.apply g.stop) = e * k ^ 2 * cross (u - c) (x.start - g.stop) := by
          have := hm.scale
          simp only [cross, Mat.apply, Vec.sub_x, Vec.sub_y, hm.first, hm.second]
          linear_combination e * ((u.x - c.x) * (x.start.y - g.stop.y) - (u.y - c.y) * (x.start.x - g.stop.x)) * this
        rw [this]
        exact mul_ne_zero (mul_ne_zero e0 (pow_ne_zero _ hm.pos)) h6

/-! ### Circles -/

theorem nsq_nonneg (v : Vec ℝ) : 0 ≤ nsq v := by unfold nsq; positivity

theorem nsq_toward {p c q : Vec ℝ} (h : OnSegment p c q) : ∃ l, 0 ≤ l ∧ l ≤ 1 ∧ q - c = ⟨(1 - l) * (p - c).x, (1 - l) * (p - c).y⟩ := by
  obtain ⟨l, l0, l1, rfl⟩ := h
  refine ⟨l, l0, l1, ?_⟩
  ext <;> simp only [Vec.sub_x, Vec.sub_y] <;> ring

theorem round_two_halves {a b c : Vec ℝ} (cw neg : Bool) (hac : a ≠ c) (he : b - c = ⟨-(a - c).x, -(a - c).y⟩) :
    Round ⟨.arc ⟨a, b, c, cw⟩, [.arc ⟨b, a, c, cw⟩], neg⟩ := by
  have he' : a - c = ⟨-(b - c).x, -(b - c).y⟩ := by rw [he]; ext <;> simp
  have hx := congrArg Vec.x he
  have hy := congrArg Vec.y he
  simp only [Vec.sub_x, Vec.sub_y] at hx hy
  have hl : vlen (a - c) = vlen (b - c) := by rw [he]; unfold vlen; simp only [neg_sq]
  have hbc : b ≠ c := by
    rintro rfl
    exact hac (by ext <;> linarith)
  have hab : a ≠ b := by
    rintro rfl
    exact hac (by ext <;> linarith)
  refine ⟨?_, .inr ⟨c, if cw then b - c else a - c, ?_, joined_star fun p hp hr q hq => ?_⟩⟩
  · intro g hg
    simp only [Shape.segments, List.mem_cons, List.not_mem_nil, or_false] at hg
    rcases hg with rfl | rfl
    · exact ⟨hac, hl, hab⟩
    · exact ⟨hbc, hl.symm, hab.symm⟩
  · left
    have hcr : ∀ v, cross (b - c) (v - c) = -cross (a - c) (v - c) := by intro v; rw [he]; simp only [cross]; ring
    refine ⟨_, [], _, [], rfl, ?_, ?_, if cw then -1 else 1, if cw then -1 else 1, ?_, ?_, ?_⟩
    · intro x hx v hv
      simp only [List.mem_singleton] at hx
      subst hx
      obtain ⟨-, h⟩ := (half_arc cw v he).1 hv
      cases cw
      · simpa using h
      · simp only [if_true] at h ⊢
        rw [hcr]; linarith
    · intro x hx v hv
      simp only [List.mem_singleton] at hx
      subst hx
      obtain ⟨-, h⟩ := (half_arc cw v he').1 hv
      rw [hcr] at h
      cases cw
      · simp only [Bool.false_eq_true, if_false] at h ⊢
        linarith
      · simp only [if_true] at h ⊢
        rw [hcr]; linarith
    · cases cw <;> norm_num
    · cases cw
      · ext <;> simp [Segment.start]
      · ext <;> simp [Segment.start] <;> linarith
    · cases cw
      · ext <;> simp [Segment.start] <;> linarith
      · ext <;> simp [Segment.start]
  · rw [two_halves_area cw neg p he] at hp
    rw [two_halves_rim cw neg he] at hr ⊢
    obtain ⟨l, l0, l1, h⟩ := nsq_toward hq
    have e : nsq (q - c) = (1 - l) ^ 2 * nsq (p - c) := by rw [h]; simp only [nsq]; ring
    rw [e]
    have h1 : nsq (p - c) < nsq (a - c) := lt_of_le_of_ne hp hr
    have h2 : (1 - l) ^ 2 ≤ 1 := by nlinarith
    have h3 := nsq_nonneg (p - c)
    nlinarith

theorem round_circle (c : Vec ℝ) {d : ℝ} (hd : 0 < d) (neg : Bool) : Round (Shape.newCircle c d neg) := by
  refine round_two_halves true neg ?_ (antipode _ _)
  intro h
  have := congrArg Vec.x h
  simp only at this
  linarith

/-! ### Rectangles -/

theorem round_rectangle (c : Vec ℝ) {w h : ℝ} (hw : 0 ≤ w) (hh : 0 ≤ h) (neg : Bool) : Round (Shape.newRectangle c w h neg) := by
  refine ⟨?_, ?_⟩
  · intro g hg
    simp only [Shape.segments, Shape.newRectangle, Shape.ln, List.mem_cons, List.not_mem_nil, or_false] at hg
    rcases hg with rfl | rfl | rfl | rfl <;> trivial
  by_cases h0 : 0 < w ∧ 0 < h
  · right
    refine ⟨c, ⟨-(w / 2), -(h / 2)⟩, ?_, joined_star fun p hp hr q hq hrim => ?_⟩
    · left
      have hwh : 0 ≤ w * h := by positivity
      refine ⟨_, [_], _, [_], rfl, ?_, ?_, 1, 1, by norm_num, ?_, ?_⟩
      · intro x hx v hv
        simp only [List.mem_cons, List.not_mem_nil, or_false, Shape.ln] at hx
        rcases hx with rfl | rfl
        · obtain ⟨l, l0, l1, rfl⟩ := hv
          simp only [cross, Vec.sub_x, Vec.sub_y]
          nlinarith [mul_nonneg l0 hwh]
        · obtain ⟨l, l0, l1, rfl⟩ := hv
          simp only [cross, Vec.sub_x, Vec.sub_y]
          nlinarith [mul_nonneg (sub_nonneg.2 l1) hwh]
      · intro x hx v hv
        simp only [List.mem_cons, List.not_mem_nil, or_false, Shape.ln] at hx
        rcases hx with rfl | rfl
        · obtain ⟨l, l0, l1, rfl⟩ := hv
          simp only [cross, Vec.sub_x, Vec.sub_y]
          nlinarith [mul_nonneg l0 hwh]
        · obtain ⟨l, l0, l1, rfl⟩ := hv
          simp only [cross, Vec.sub_x, Vec.sub_y]
          nlinarith [mul_nonneg (sub_nonneg.2 l1) hwh]
      · ext <;> simp [Segment.start, Shape.ln, Shape.newRectangle]
      · ext <;> simp [Segment.start, Shape.ln]
    · rw [rectangle_enclosed c p hw hh] at hp
      rw [rectangle_rim c _ hw hh] at hr hrim
      obtain ⟨⟨p1, p2⟩, p3, p4⟩ := hp
      have q1 : p.x ≠ c.x - w / 2 := fun e => hr (.inr ⟨.inl e, p3, p4⟩)
      have q2 : p.x ≠ c.x + w / 2 := fun e => hr (.inr ⟨.inr e, p3, p4⟩)
      have q3 : p.y ≠ c.y - h / 2 := fun e => hr (.inl ⟨.inl e, p1, p2⟩)
      have q4 : p.y ≠ c.y + h / 2 := fun e => hr (.inl ⟨.inr e, p1, p2⟩)
      have p1 := lt_of_le_of_ne p1 q1.symm
      have p2 := lt_of_le_of_ne p2 q2
      have p3 := lt_of_le_of_ne p3 q3.symm
      have p4 := lt_of_le_of_ne p4 q4
      obtain ⟨l, l0, l1, rfl⟩ := hq
      simp only at hrim
      rcases hrim with ⟨h1 | h1, -⟩ | ⟨h1 | h1, -⟩ <;> nlinarith
  · left
    intro p hp
    rw [rectangle_enclosed c p hw hh] at hp
    rw [rectangle_rim c _ hw hh]
    obtain ⟨⟨p1, p2⟩, p3, p4⟩ := hp
    rcases hw.eq_or_lt with e | e
    · right
      subst e
      exact ⟨.inl (by linarith), p3, p4⟩
    · have e' : h = 0 := by
        rcases hh.eq_or_lt with e' | e'
        · exact e'.symm
        · exact absurd ⟨e, e'⟩ h0
      left
      subst e'
      exact ⟨.inl (by linarith), p1, p2⟩

/-! ### Straight strokes -/

theorem round_line (s e : Vec ℝ) {t : ℝ} (ht : 0 ≤ t) (neg : Bool) : Round (Shape.newLine s e t neg) := by
  have harea := fun p => line_enclosed s e p ht neg
  have hu := unit_normalized (e - s)
  have hx : ∃ L, 0 ≤ L ∧ e.x - s.x = L * (e - s).normalized.x ∧ e.y - s.y = L * (e - s).normalized.y := by
    refine ⟨vlen (e - s), sqrt_nonneg _, ?_⟩
    by_cases h : e - s = ⟨0, 0⟩
    · have h1 := congrArg Vec.x h
      have h2 := congrArg Vec.y h
      simp only [Vec.sub_x, Vec.sub_y] at h1 h2
      rw [h, h1, h2]
      simp [vlen]
    · obtain ⟨-, h1, h2⟩ := normalized_scale (e - s) h
      exact ⟨h1, h2⟩
  obtain ⟨L, hL, hx, hy⟩ := hx
  have hn : Shape.newLine s e t neg = ⟨.line ⟨⟨s.x - (e - s).normalized.y * (t / 2), s.y + (e - s).normalized.x * (t / 2)⟩,
      ⟨e.x - (e - s).normalized.y * (t / 2), e.y + (e - s).normalized.x * (t / 2)⟩⟩,
      [.line ⟨⟨e.x + (e - s).normalized.y * (t / 2), e.y - (e - s).normalized.x * (t / 2)⟩,
        ⟨s.x + (e - s).normalized.y * (t / 2), s.y - (e - s).normalized.x * (t / 2)⟩⟩], neg⟩ := by
    have key : ∀ a b c d a' b' c' d' : Vec ℝ, a = a' → b = b' → c = c' → d = d' →
        (⟨.line ⟨a, b⟩, [.line ⟨c, d⟩], neg⟩ : Shape) = ⟨.line ⟨a', b'⟩, [.line ⟨c', d'⟩], neg⟩ := by
      rintro _ _ _ _ _ _ _ _ rfl rfl rfl rfl; rfl
    apply key <;> ext <;> simp [Vec.scale] <;> ring
  generalize Shape.newLine s e t neg = S at *
  generalize (e - s).normalized = u at *
  subst hn
  obtain ⟨P, hP⟩ : ∃ P : ℝ → ℝ → Vec ℝ, P = fun l m => ⟨s.x + l * (e.x - s.x) - m * (u.y * (t / 2)), s.y + l * (e.y - s.y) + m * (u.x * (t / 2))⟩ := ⟨_, rfl⟩
  have hrim : ∀ q, OnRim ⟨.line ⟨⟨s.x - u.y * (t / 2), s.y + u.x * (t / 2)⟩, ⟨e.x - u.y * (t / 2), e.y + u.x * (t / 2)⟩⟩,
      [.line ⟨⟨e.x + u.y * (t / 2), e.y - u.x * (t / 2)⟩, ⟨s.x + u.y * (t / 2), s.y - u.x * (t / 2)⟩⟩], neg⟩ q ↔
      ∃ l m, 0 ≤ l ∧ l ≤ 1 ∧ -1 ≤ m ∧ m ≤ 1 ∧ (l = 0 ∨ l = 1 ∨ m = 1 ∨ m = -1) ∧ q = P l m := by
    intro q
    simp only [OnRim, OnOutline, successors, Shape.segments, List.tail_cons, List.take_succ_cons, List.take_zero,
      List.cons_append, List.nil_append, List.zip_cons_cons, List.zip_nil_left, List.mem_cons, List.not_mem_nil, or_false,
      exists_eq_or_imp, exists_eq_left, OnPiece, Segment.start, Segment.stop, OnSegment, hP]
    constructor
    · rintro ((⟨l, l0, l1, rfl⟩ | ⟨l, l0, l1, rfl⟩) | (⟨l, l0, l1, rfl⟩ | ⟨l, l0, l1, rfl⟩))
      · exact ⟨l, 1, l0, l1, by norm_num, le_rfl, by tauto, by ext <;> simp only <;> ring⟩
      · exact ⟨1 - l, -1, by linarith, by linarith, le_rfl, by norm_num, by tauto, by ext <;> simp only <;> ring⟩
      · exact ⟨1, 1 - 2 * l, by norm_num, le_rfl, by linarith, by linarith, by tauto, by ext <;> simp only <;> ring⟩
      · exact ⟨0, 2 * l - 1, le_rfl, by norm_num, by linarith, by linarith, by tauto, by ext <;> simp only <;> ring⟩
    · rintro ⟨l, m, l0, l1, m0, m1, h | h | h | h, rfl⟩ <;> subst h
      · exact .inr (.inr ⟨(m + 1) / 2, by linarith, by linarith, by ext <;> simp only <;> ring⟩)
      · exact .inr (.inl ⟨(1 - m) / 2, by linarith, by linarith, by ext <;> simp only <;> ring⟩)
      · exact .inl (.inl ⟨l, l0, l1, by ext <;> simp only <;> ring⟩)
      · exact .inl (.inr ⟨1 - l, by linarith, by linarith, by ext <;> simp only <;> ring⟩)
  refine ⟨?_, ?_⟩
  · intro g hg
    simp only [Shape.segments, List.mem_cons, List.not_mem_nil, or_false] at hg
    rcases hg with rfl | rfl <;> trivial
  by_cases h0 : 0 < L ∧ 0 < t
  · right
    obtain ⟨hL0, ht0⟩ := h0
    have inj : ∀ l m l' m', P l m = P l' m' → l = l' ∧ m = m' := by
      intro l m l' m' h
      have h1 := congrArg Vec.x h
      have h2 := congrArg Vec.y h
      simp only [hP, hx, hy] at h1 h2
      constructor
      · have : L * (l - l') = 0 := by linear_combination u.x * h1 + u.y * h2 - L * (l - l') * hu
        rcases mul_eq_zero.1 this with h | h <;> linarith
      · have : t / 2 * (m - m') = 0 := by linear_combination u.x * h2 - u.y * h1 - t / 2 * (m - m') * hu
        rcases mul_eq_zero.1 this with h | h <;> linarith
    refine ⟨P (1 / 2) 0, P 1 (-1) - P (1 / 2) 0, ?_, joined_star fun p hp hr q hq hq' => ?_⟩
    · left
      have hLt : 0 ≤ L * t := by positivity
      refine ⟨_, [], _, [], rfl, ?_, ?_, -1, -1, by norm_num, ?_, ?_⟩
      · intro x hx' v hv
        simp only [List.mem_singleton] at hx'
        subst hx'
        obtain ⟨l, l0, l1, rfl⟩ := hv
        have : cross (P 1 (-1) - P (1 / 2) 0) ((⟨s.x - u.y * (t / 2) + l * (e.x - u.y * (t / 2) - (s.x - u.y * (t / 2))),
          s.y + u.x * (t / 2) + l * (e.y + u.x * (t / 2) - (s.y + u.x * (t / 2)))⟩ : Vec ℝ) - P (1 / 2) 0) = l * (L * t) / 2 := by
          simp only [hP, cross, Vec.sub_x, Vec.sub_y]
          have e1 : e.x = s.x + L * u.x := by linarith
          have e2 : e.y = s.y + L * u.y := by linarith
          rw [e1, e2]
          linear_combination (l * (L * t) / 2) * hu
        show 0 ≤ _
        rw [this]
        positivity
      · intro x hx' v hv
        simp only [List.mem_singleton] at hx'
        subst hx'
        obtain ⟨l, l0, l1, rfl⟩ := hv
        have : cross (P 1 (-1) - P (1 / 2) 0) ((⟨e.x + u.y * (t / 2) + l * (s.x + u.y * (t / 2) - (e.x + u.y * (t / 2))),
          e.y - u.x * (t / 2) + l * (s.y - u.x * (t / 2) - (e.y - u.x * (t / 2)))⟩ : Vec ℝ) - P (1 / 2) 0) = -(l * (L * t) / 2) := by
          simp only [hP, cross, Vec.sub_x, Vec.sub_y]
          have e1 : e.x = s.x + L * u.x := by linarith
          have e2 : e.y = s.y + L * u.y := by linarith
          rw [e1, e2]
          linear_combination (-(l * (L * t) / 2)) * hu
        show _ ≤ 0
        rw [this]
        have := mul_nonneg l0 hLt
        linarith
      · ext <;> simp only [hP, Segment.start, Vec.sub_x, Vec.sub_y] <;> ring
      · ext <;> simp only [hP, Segment.start, Vec.sub_x, Vec.sub_y] <;> ring
    · rw [harea] at hp
      obtain ⟨l, m, l0, l1, m0, m1, hp⟩ := hp
      have hp : p = P l m := by rw [hp, hP]
      rw [hrim] at hr hq'
      have n1 : l ≠ 0 := fun e => hr ⟨l, m, l0, l1, m0, m1, .inl e, hp⟩
      have n2 : l ≠ 1 := fun e => hr ⟨l, m, l0, l1, m0, m1, .inr (.inl e), hp⟩
      have n3 : m ≠ 1 := fun e => hr ⟨l, m, l0, l1, m0, m1, .inr (.inr (.inl e)), hp⟩
      have n4 : m ≠ -1 := fun e => hr ⟨l, m, l0, l1, m0, m1, .inr (.inr (.inr e)), hp⟩
      have l0 := lt_of_le_of_ne l0 n1.symm
      have l1 := lt_of_le_of_ne l1 n2
      have m0 := lt_of_le_of_ne m0 n4.symm
      have m1 := lt_of_le_of_ne m1 n3
      obtain ⟨k, k0, k1, rfl⟩ := hq
      obtain ⟨l', m', -, -, -, -, h, e'⟩ := hq'
      have : P ((1 - k) * l + k / 2) ((1 - k) * m) = P l' m' := by
        rw [← e', hp]
        ext <;> simp only [hP] <;> ring
      obtain ⟨rfl, rfl⟩ := inj _ _ _ _ this
      rcases h with h | h | h | h
      · nlinarith
      · nlinarith
      · nlinarith
      · nlinarith
  · left
    intro p hp
    rw [harea] at hp
    obtain ⟨l, m, l0, l1, m0, m1, hp⟩ := hp
    rw [hrim]
    rcases hL.eq_or_lt with h | h
    · refine ⟨0, m, le_rfl, zero_le_one, m0, m1, .inl rfl, ?_⟩
      rw [hp, hP, hx, hy, ← h]
      ext <;> simp
    · have h' : t = 0 := by
        rcases ht.eq_or_lt with h' | h'
        · exact h'.symm
        · exact absurd ⟨h, h'⟩ h0
      refine ⟨l, 1, l0, l1, by norm_num, le_rfl, by tauto, ?_⟩
      rw [hp, hP, h']
      ext <;> simp

/-! ### Obrounds -/

theorem phi_toward {u v a r l : ℝ} (l0 : 0 ≤ l) (l1 : l ≤ 1) (h : u ^ 2 + (max (|v| - a) 0) ^ 2 - r < 0) :
    ((1 - l) * u) ^ 2 + (max (|(1 - l) * v| - a) 0) ^ 2 - r < 0 := by
  have h1 : max (|(1 - l) * v| - a) 0 ≤ max (|v| - a) 0 := by
    apply max_le_max _ (le_refl _)
    rw [abs_mul, abs_of_nonneg (by linarith : 0 ≤ 1 - l)]
    nlinarith [abs_nonneg v]
  have h2 : 0 ≤ max (|(1 - l) * v| - a) 0 := le_max_right _ _
  have h3 : ((1 - l) * u) ^ 2 ≤ u ^ 2 := by
    rw [mul_pow]
    have : (1 - l) ^ 2 ≤ 1 := by nlinarith
    nlinarith [sq_nonneg u]
  nlinarith

theorem abs_le_of_nsq {x y r : ℝ} (hr : 0 ≤ r) (h : x ^ 2 + y ^ 2 = r ^ 2) : -r ≤ x ∧ x ≤ r :=
  abs_le.1 (abs_le_of_sq_le_sq (by nlinarith [sq_nonneg y]) hr)

theorem round_obround_vertical (c : Vec ℝ) {w h : ℝ} (hw : 0 < w) (hh : w ≤ h) (neg : Bool) : Round (Shape.newObround c w h neg) := by
  have ha : 0 ≤ (h - w) / 2 := by linarith
  obtain ⟨a, hae⟩ : ∃ a, a = (h - w) / 2 := ⟨_, rfl⟩
  obtain ⟨r, hre⟩ : ∃ r, r = w / 2 := ⟨_, rfl⟩
  have hr0 : 0 < r := by rw [hre]; linarith
  have e1 : c.y - h / 2 + w / 2 = c.y - a := by rw [hae]; ring
  have e2 : c.y + h / 2 - w / 2 = c.y + a := by rw [hae]; ring
  have hs : Shape.newObround c w h neg = ⟨.arc ⟨⟨c.x - r, c.y - a⟩, ⟨c.x + r, c.y - a⟩, ⟨c.x, c.y - a⟩, false⟩,
      [.line ⟨⟨c.x + r, c.y - a⟩, ⟨c.x + r, c.y + a⟩⟩,
      .arc ⟨⟨c.x + r, c.y + a⟩, ⟨c.x - r, c.y + a⟩, ⟨c.x, c.y + a⟩, false⟩,
      .line ⟨⟨c.x - r, c.y + a⟩, ⟨c.x - r, c.y - a⟩⟩], neg⟩ := by
    simp only [Shape.newObround, if_pos hh, Shape.ln, e1, e2, hre]
  have rim := obround_vertical_rim c hw.le hh neg
  have area := fun p => obround_vertical c p hw.le hh neg
  rw [← hae, ← hre] at rim
  rw [← hae] at area ha
  have phi : ∀ q, OnRim (Shape.newObround c w h neg) q ↔ (q.x - c.x) ^ 2 + (max (|q.y - c.y| - a) 0) ^ 2 - r ^ 2 = 0 := by
    intro q
    rw [rim]
    have hw0 : w ≠ 0 := hw.ne'
    simp only [hw0, false_or, nsq, Vec.sub_x, Vec.sub_y]
    constructor
    · rintro (⟨h1, h2⟩ | ⟨h1, h2⟩ | ⟨h1, h2, h3⟩)
      · rw [abs_of_nonpos (by linarith), max_eq_left (by linarith)]; linear_combination h1
      · rw [abs_of_nonneg (by linarith), max_eq_left (by linarith)]; linear_combination h1
      · rw [max_eq_right (by rw [sub_nonpos, abs_le]; constructor <;> linarith)]
        rcases h1 with h1 | h1 <;> rw [h1] <;> ring
    · intro hq
      rcases le_total (|q.y - c.y| - a) 0 with h0 | h0
      · rw [max_eq_right h0] at hq
        obtain ⟨h1, h2⟩ := abs_le.1 (show |q.y - c.y| ≤ a by linarith)
        refine .inr (.inr ⟨?_, by linarith, by linarith⟩)
        rcases sq_eq_cases (x := q.x - c.x) (r := r) (by linarith) with e | e
        · left; linarith
        · right; linarith
      · rw [max_eq_left h0] at hq
        rcases abs_cases (q.y - c.y) with ⟨e, -⟩ | ⟨e, -⟩ <;> rw [e] at hq h0
        · exact .inr (.inl ⟨by linear_combination hq, by linarith⟩)
        · exact .inl ⟨by linear_combination hq, by linarith⟩
  have inside : ∀ p, p ∈ areaOf (Shape.newObround c w h neg) → (p.x - c.x) ^ 2 + (max (|p.y - c.y| - a) 0) ^ 2 - r ^ 2 ≤ 0 := by
    intro p hp
    rw [area] at hp
    obtain ⟨z, hz, hq⟩ := hp
    obtain ⟨z1, z2, z3⟩ := (vertical_iff (by linarith) z).1.1 hz
    rw [vlen_le (by linarith)] at hq
    simp only [Vec.sub_x, Vec.sub_y, z1] at hq
    rw [← clamped ha]
    exact ⟨z.y, z2, z3, by rw [hre]; exact hq⟩
  have hj : Joined (Shape.newObround c w h neg) c := by
    refine joined_star fun p hp hr q hq hq' => ?_
    rw [phi] at hr hq'
    have hp := lt_of_le_of_ne (inside p hp) hr
    obtain ⟨l, l0, l1, hl⟩ := nsq_toward hq
    have h1 := congrArg Vec.x hl
    have h2 := congrArg Vec.y hl
    simp only [Vec.sub_x, Vec.sub_y] at h1 h2
    rw [h1, h2] at hq'
    exact absurd hq' (phi_toward l0 l1 hp).ne
  refine ⟨?_, .inr ⟨c, ⟨-r, -a⟩, ?_, hj⟩⟩
  · intro g hg
    rw [hs] at hg
    simp only [Shape.segments, List.mem_cons, List.not_mem_nil, or_false] at hg
    rcases hg with rfl | rfl | rfl | rfl
    · refine ⟨?_, ?_, ?_⟩
      · intro h; have := congrArg Vec.x h; simp only at this; linarith
      · unfold vlen; simp
      · intro h; have := congrArg Vec.x h; simp only at this; linarith
    · trivial
    · refine ⟨?_, ?_, ?_⟩
      · intro h; have := congrArg Vec.x h; simp only at this; linarith
      · unfold vlen; simp
      · intro h; have := congrArg Vec.x h; simp only at this; linarith
    · trivial
  · left
    refine ⟨_, [_], _, [_], by rw [hs]; rfl, ?_, ?_, 1, 1, by norm_num, ?_, ?_⟩
    · intro x hx v hv
      simp only [List.mem_cons, List.not_mem_nil, or_false] at hx
      rcases hx with rfl | rfl
      · obtain ⟨h1, h2⟩ := (half_arc false v (antipode ⟨c.x, c.y - a⟩ r)).1 hv
        simp only [nsq, cross, Vec.sub_x, Vec.sub_y, Bool.false_eq_true, if_false] at h1 h2
        have h3 : v.y ≤ c.y - a := by nlinarith
        obtain ⟨h4, h5⟩ := abs_le_of_nsq hr0.le (show (v.x - c.x) ^ 2 + (v.y - (c.y - a)) ^ 2 = r ^ 2 by rw [h1]; ring)
        simp only [cross, Vec.sub_x, Vec.sub_y]
        nlinarith
      · obtain ⟨l, l0, l1, rfl⟩ := hv
        simp only [cross, Vec.sub_x, Vec.sub_y]
        nlinarith [mul_nonneg hr0.le ha, mul_nonneg (mul_nonneg hr0.le ha) (sub_nonneg.2 l1)]
    · intro x hx v hv
      simp only [List.mem_cons, List.not_mem_nil, or_false] at hx
      rcases hx with rfl | rfl
      · obtain ⟨h1, h2⟩ := (half_arc (s := ⟨c.x + r, c.y + a⟩) (e := ⟨c.x - r, c.y + a⟩) (c := ⟨c.x, c.y + a⟩) false v (by ext <;> simp)).1 hv
        simp only [nsq, cross, Vec.sub_x, Vec.sub_y, Bool.false_eq_true, if_false] at h1 h2
        have h3 : c.y + a ≤ v.y := by nlinarith
        obtain ⟨h4, h5⟩ := abs_le_of_nsq hr0.le (show (v.x - c.x) ^ 2 + (v.y - (c.y + a)) ^ 2 = r ^ 2 by rw [h1]; ring)
        simp only [cross, Vec.sub_x, Vec.sub_y]
        nlinarith
      · obtain ⟨l, l0, l1, rfl⟩ := hv
        simp only [cross, Vec.sub_x, Vec.sub_y]
        nlinarith [mul_nonneg hr0.le ha, mul_nonneg (mul_nonneg hr0.le ha) (sub_nonneg.2 l1)]
    · ext <;> simp [Segment.start]
    · ext <;> simp [Segment.start]

theorem round_obround_horizontal (c : Vec ℝ) {w h : ℝ} (hh : 0 < h) (hw : h < w) (neg : Bool) : Round (Shape.newObround c w h neg) := by
  have ha : 0 ≤ (w - h) / 2 := by linarith
  obtain ⟨a, hae⟩ : ∃ a, a = (w - h) / 2 := ⟨_, rfl⟩
  obtain ⟨r, hre⟩ : ∃ r, r = h / 2 := ⟨_, rfl⟩
  have hr0 : 0 < r := by rw [hre]; linarith
  have e1 : c.x - w / 2 + h / 2 = c.x - a := by rw [hae]; ring
  have e2 : c.x + w / 2 - h / 2 = c.x + a := by rw [hae]; ring
  have hs : Shape.newObround c w h neg = ⟨.line ⟨⟨c.x - a, c.y - r⟩, ⟨c.x + a, c.y - r⟩⟩,
      [.arc ⟨⟨c.x + a, c.y - r⟩, ⟨c.x + a, c.y + r⟩, ⟨c.x + a, c.y⟩, false⟩,
      .line ⟨⟨c.x + a, c.y + r⟩, ⟨c.x - a, c.y + r⟩⟩,
      .arc ⟨⟨c.x - a, c.y + r⟩, ⟨c.x - a, c.y - r⟩, ⟨c.x - a, c.y⟩, false⟩], neg⟩ := by
    simp only [Shape.newObround, if_neg (not_le.2 hw), Shape.ln, e1, e2, hre]
  have rim := obround_horizontal_rim c hh.le hw neg
  have area := fun p => obround_horizontal c p hh.le hw neg
  rw [← hae, ← hre] at rim
  rw [← hae] at area ha
  have phi : ∀ q, OnRim (Shape.newObround c w h neg) q ↔ (q.y - c.y) ^ 2 + (max (|q.x - c.x| - a) 0) ^ 2 - r ^ 2 = 0 := by
    intro q
    rw [rim]
    have hw0 : h ≠ 0 := hh.ne'
    simp only [hw0, false_or, nsq, Vec.sub_x, Vec.sub_y]
    constructor
    · rintro (⟨h1, h2⟩ | ⟨h1, h2⟩ | ⟨h1, h2, h3⟩)
      · rw [abs_of_nonpos (by linarith), max_eq_left (by linarith)]; linear_combination h1
      · rw [abs_of_nonneg (by linarith), max_eq_left (by linarith)]; linear_combination h1
      · rw [max_eq_right (by rw [sub_nonpos, abs_le]; constructor <;> linarith)]
        rcases h1 with h1 | h1 <;> rw [h1] <;> ring
    · intro hq
      rcases le_total (|q.x - c.x| - a) 0 with h0 | h0
      · rw [max_eq_right h0] at hq
        obtain ⟨h1, h2⟩ := abs_le.1 (show |q.x - c.x| ≤ a by linarith)
        refine .inr (.inr ⟨?_, by linarith, by linarith⟩)
        rcases sq_eq_cases (x := q.y - c.y) (r := r) (by linarith) with e | e
        · left; linarith
        · right; linarith
      · rw [max_eq_left h0] at hq
        rcases abs_cases (q.x - c.x) with ⟨e, -⟩ | ⟨e, -⟩ <;> rw [e] at hq h0
        · exact .inr (.inl ⟨by linear_combination hq, by linarith⟩)
        · exact .inl ⟨by linear_combination hq, by linarith⟩
  have inside : ∀ p, p ∈ areaOf (Shape.newObround c w h neg) → (p.y - c.y) ^ 2 + (max (|p.x - c.x| - a) 0) ^ 2 - r ^ 2 ≤ 0 := by
    intro p hp
    rw [area] at hp
    obtain ⟨z, hz, hq⟩ := hp
    obtain ⟨z1, z2, z3⟩ := (horizontal_iff (by linarith) z).1.1 hz
    rw [vlen_le (by linarith)] at hq
    simp only [Vec.sub_x, Vec.sub_y, z1] at hq
    rw [← clamped ha]
    exact ⟨z.x, z2, z3, by rw [hre]; linarith⟩
  have hj : Joined (Shape.newObround c w h neg) c := by
    refine joined_star fun p hp hr q hq hq' => ?_
    rw [phi] at hr hq'
    have hp := lt_of_le_of_ne (inside p hp) hr
    obtain ⟨l, l0, l1, hl⟩ := nsq_toward hq
    have h1 := congrArg Vec.x hl
    have h2 := congrArg Vec.y hl
    simp only [Vec.sub_x, Vec.sub_y] at h1 h2
    rw [h1, h2] at hq'
    exact absurd hq' (phi_toward l0 l1 hp).ne
  refine ⟨?_, .inr ⟨c, ⟨-a, -r⟩, ?_, hj⟩⟩
  · intro g hg
    rw [hs] at hg
    simp only [Shape.segments, List.mem_cons, List.not_mem_nil, or_false] at hg
    rcases hg with rfl | rfl | rfl | rfl
    · trivial
    · refine ⟨?_, ?_, ?_⟩
      · intro h; have := congrArg Vec.y h; simp only at this; linarith
      · unfold vlen; simp
      · intro h; have := congrArg Vec.y h; simp only at this; linarith
    · trivial
    · refine ⟨?_, ?_, ?_⟩
      · intro h; have := congrArg Vec.y h; simp only at this; linarith
      · unfold vlen; simp
      · intro h; have := congrArg Vec.y h; simp only at this; linarith
  · left
    refine ⟨_, [_], _, [_], by rw [hs]; rfl, ?_, ?_, 1, 1, by norm_num, ?_, ?_⟩
    · intro x hx v hv
      simp only [List.mem_cons, List.not_mem_nil, or_false] at hx
      rcases hx with rfl | rfl
      · obtain ⟨l, l0, l1, rfl⟩ := hv
        simp only [cross, Vec.sub_x, Vec.sub_y]
        nlinarith [mul_nonneg hr0.le ha, mul_nonneg (mul_nonneg hr0.le ha) l0]
      · obtain ⟨h1, h2⟩ := (half_arc (s := ⟨c.x + a, c.y - r⟩) (e := ⟨c.x + a, c.y + r⟩) (c := ⟨c.x + a, c.y⟩) false v (by ext <;> simp)).1 hv
        simp only [nsq, cross, Vec.sub_x, Vec.sub_y, Bool.false_eq_true, if_false] at h1 h2
        have h3 : c.x + a ≤ v.x := by nlinarith
        obtain ⟨h4, h5⟩ := abs_le_of_nsq hr0.le (show (v.y - c.y) ^ 2 + (v.x - (c.x + a)) ^ 2 = r ^ 2 by linarith)
        simp only [cross, Vec.sub_x, Vec.sub_y]
        nlinarith
    · intro x hx v hv
      simp only [List.mem_cons, List.not_mem_nil, or_false] at hx
      rcases hx with rfl | rfl
      · obtain ⟨l, l0, l1, rfl⟩ := hv
        simp only [cross, Vec.sub_x, Vec.sub_y]
        nlinarith [mul_nonneg hr0.le ha, mul_nonneg (mul_nonneg hr0.le ha) l0]
      · obtain ⟨h1, h2⟩ := (half_arc (s := ⟨c.x - a, c.y + r⟩) (e := ⟨c.x - a, c.y - r⟩) (c := ⟨c.x - a, c.y⟩) false v (by ext <;> simp)).1 hv
        simp only [nsq, cross, Vec.sub_x, Vec.sub_y, Bool.false_eq_true, if_false] at h1 h2
        have h3 : v.x ≤ c.x - a := by nlinarith
        obtain ⟨h4, h5⟩ := abs_le_of_nsq hr0.le (show (v.y - c.y) ^ 2 + (v.x - (c.x - a)) ^ 2 = r ^ 2 by linarith)
        simp only [cross, Vec.sub_x, Vec.sub_y]
        nlinarith
    · ext <;> simp [Segment.start]
    · ext <;> simp [Segment.start]

theorem round_obround (c : Vec ℝ) {w h : ℝ} (hw : 0 < w) (hh : 0 < h) (neg : Bool) : Round (Shape.newObround c w h neg) := by
  rcases le_or_gt w h with h1 | h1
  · exact round_obround_vertical c hw h1 neg
  · exact round_obround_horizontal c hh h1 neg

/-! ### Thick arcs -/

theorem above {x b u v : ℝ} (x0 : 0 ≤ x) (x1 : x ≤ 1) (hu : b < u) (hv : b < v) : b < u + x * (v - u) := by
  rcases x0.eq_or_lt with rfl | h
  · simpa using hu
  · have h2 := mul_pos h (sub_pos.2 hv)
    have h3 := mul_nonneg (sub_nonneg.2 x1) (sub_pos.2 hu).le
    linarith

theorem below {x b u v : ℝ} (x0 : 0 ≤ x) (x1 : x ≤ 1) (hu : u < b) (hv : v < b) : u + x * (v - u) < b := by
  have := above x0 x1 (neg_lt_neg hu) (neg_lt_neg hv)
  linarith

theorem pol_ne {c : Vec ℝ} {k l a b : ℝ} (hk : 0 < k) (hl : 0 < l) (h0 : 0 < b - a) (h1 : b - a < 2 * π) : c + pol k a ≠ c + pol l b := by
  intro h
  have h2 : pol k a - pol l b = ⟨0, 0⟩ := by
    have hx := congrArg Vec.x h
    have hy := congrArg Vec.y h
    simp only [Vec.add_x, Vec.add_y] at hx hy
    ext
    · simp only [Vec.sub_x]; linarith
    · simp only [Vec.sub_y]; linarith
  have h3 := dist_pol k l a b
  rw [h2, ← cos_neg, neg_sub] at h3
  simp only [nsq] at h3
  have h4 : cos (b - a) = 1 := by
    have h5 := cos_le_one (b - a)
    have h6 : 0 < k * l := mul_pos hk hl
    nlinarith [sq_nonneg (k - l)]
  have := (cos_eq_one_iff_of_lt_of_lt (by linarith) h1).1 h4
  linarith

theorem pol_radius {c : Vec ℝ} {k l a b : ℝ} (hk : 0 < k) (hl : 0 < l) (h : c + pol k a = c + pol l b) : k = l := by
  have h1 : vlen (c + pol k a - c) = vlen (c + pol l b - c) := by rw [h]
  rw [add_sub_cancel_left', add_sub_cancel_left', vlen_pol hk.le, vlen_pol hl.le] at h1
  exact h1

theorem cwArc_rim {c : Vec ℝ} {r a θ t : ℝ} (neg : Bool) (hr : 0 < r) (ht : 0 ≤ t) (htr : t / 2 ≤ r) (h0 : 0 < θ)
    (h1 : θ < 2 * π) (q : Vec ℝ) :
    OnRim (Shape.newCwArc (c + pol r (a + θ)) (c + pol r a) c t neg) q ↔
      (∃ τ, 0 ≤ τ ∧ τ ≤ θ ∧ (q = c + pol (r + t / 2) (a + τ) ∨ q = c + pol (r - t / 2) (a + τ))) ∨
      ∃ k, r - t / 2 ≤ k ∧ k ≤ r + t / 2 ∧ (q = c + pol k a ∨ q = c + pol k (a + θ)) := by
  rw [cwArc_eq neg hr]
  simp only [OnRim, OnOutline, successors, Shape.segments, List.tail_cons, List.take_succ_cons, List.take_zero,
    List.cons_append, List.nil_append, List.zip_cons_cons, List.zip_nil_right, List.mem_cons, List.not_mem_nil, or_false,
    exists_eq_or_imp, exists_eq_left, Segment.start, Segment.stop, arc_cw (by linarith : 0 ≤ r + t / 2) h0 h1,
    arc_ccw (by linarith : 0 ≤ r - t / 2) h0 h1, (segment_pol (by linarith : r - t / 2 ≤ r + t / 2) _).1,
    (segment_pol (by linarith : r - t / 2 ≤ r + t / 2) _).2]
  constructor
  · rintro ((⟨τ, a0, a1, e⟩ | ⟨τ, a0, a1, e⟩) | (⟨m, a0, a1, e⟩ | ⟨m, a0, a1, e⟩))
    · exact .inl ⟨τ, a0, a1, .inl e⟩
    · exact .inl ⟨τ, a0, a1, .inr e⟩
    · exact .inr ⟨m, a0, a1, .inl e⟩
    · exact .inr ⟨m, a0, a1, .inr e⟩
  · rintro (⟨τ, a0, a1, e | e⟩ | ⟨m, a0, a1, e | e⟩)
    · exact .inl (.inl ⟨τ, a0, a1, e⟩)
    · exact .inl (.inr ⟨τ, a0, a1, e⟩)
    · exact .inr (.inl ⟨m, a0, a1, e⟩)
    · exact .inr (.inr ⟨m, a0, a1, e⟩)

set_option maxHeartbeats 1000000 in
theorem round_cwArc_pol {c : Vec ℝ} {r a θ t : ℝ} (neg : Bool) (hr : 0 < r) (ht : 0 ≤ t) (htr : t / 2 < r) (h0 : 0 < θ)
    (h1 : θ < 2 * π) : Round (Shape.newCwArc (c + pol r (a + θ)) (c + pol r a) c t neg) := by
  have rim := fun q => cwArc_rim (c := c) (a := a) neg hr ht htr.le h0 h1 q
  have area := fun q => cwArc_thin (c := c) (a := a) neg hr ht htr.le h0 h1 q
  have hK : 0 < r - t / 2 := by linarith
  have hR : 0 < r + t / 2 := by linarith
  have hpi := pi_pos
  refine ⟨?_, ?_⟩
  · rw [cwArc_eq neg hr]
    intro g hg
    simp only [Shape.segments, List.mem_cons, List.not_mem_nil, or_false] at hg
    have ne_c : ∀ {k : ℝ} (b : ℝ), 0 < k → c + pol k b ≠ c := by
      intro k b hk h
      have : vlen (c + pol k b - c) = k := by rw [add_sub_cancel_left', vlen_pol hk.le]
      rw [h] at this
      simp [vlen] at this
      linarith
    rcases hg with rfl | rfl
    · refine ⟨ne_c _ hR, ?_, fun h => pol_ne hR hR (a := a) (b := a + θ) (by linarith) (by linarith) h.symm⟩
      simp only [add_sub_cancel_left', vlen_pol hR.le]
    · refine ⟨ne_c _ hK, ?_, fun h => pol_ne hK hK (a := a) (b := a + θ) (by linarith) (by linarith) h⟩
      simp only [add_sub_cancel_left', vlen_pol hK.le]
  rcases ht.eq_or_lt with h | ht0
  · left
    intro p hp
    rw [area] at hp
    obtain ⟨k, τ, k0, k1, τ0, τ1, e⟩ := hp
    rw [rim]
    have : k = r + t / 2 := by rw [← h] at k0 k1 ⊢; linarith
    exact .inl ⟨τ, τ0, τ1, .inl (by rw [e, this])⟩
  right
  obtain ⟨η, e0, e1, e2, e3, e4⟩ : ∃ η > 0, η < π / 2 ∧ η < θ ∧ η < 2 * π - θ ∧ r - t / 2 < r * cos η := by
    have hq : 0 < t / (2 * r) := by positivity
    refine ⟨min (1 / 2) (min (θ / 2) (min ((2 * π - θ) / 2) (t / (2 * r)))), ?_, ?_, ?_, ?_, ?_⟩
    · refine lt_min one_half_pos (lt_min (by linarith) (lt_min (by linarith) hq))
    · exact lt_of_le_of_lt (min_le_left _ _) (by linarith [Real.two_le_pi])
    · exact lt_of_le_of_lt ((min_le_right _ _).trans (min_le_left _ _)) (by linarith)
    · exact lt_of_le_of_lt ((min_le_right _ _).trans ((min_le_right _ _).trans (min_le_left _ _))) (by linarith)
    · set η := min (1 / 2) (min (θ / 2) (min ((2 * π - θ) / 2) (t / (2 * r)))) with hη
      have a1 : η ≤ 1 := (min_le_left _ _).trans (by norm_num)
      have a2 : η ≤ t / (2 * r) := (min_le_right _ _).trans ((min_le_right _ _).trans (min_le_right _ _))
      have a3 : 0 ≤ η := by
        rw [hη]; exact le_min one_half_pos.le (le_min (by linarith) (le_min (by linarith) hq.le))
      have a4 := one_sub_sq_div_two_le_cos (x := η)
      rw [le_div_iff₀ (by linarith)] at a2
      nlinarith
  have hs0 : 0 < sin η := sin_pos_of_pos_of_lt_pi e0 (by linarith)
  have hc0 : 0 < cos η := cos_pos_of_mem_Ioo ⟨by linarith, e1⟩
  have hsc := sin_sq_add_cos_sq η
  refine ⟨c + pol r (a + η), c + pol r (a - η), .inr ⟨?_, ?_⟩, ?_⟩
  · rw [area]
    rintro ⟨k, τ, k0, k1, τ0, τ1, h⟩
    exact pol_ne hr (lt_of_lt_of_le hK k0) (by linarith) (by linarith) h
  · refine ⟨_, _, neg, cwArc_eq neg hr, ?_, ⟨1 / 2, (r + t / 2 - r * cos η) / t, by norm_num, by norm_num, ?_, ?_, ?_, ?_⟩, ?_⟩
    · rintro v ⟨l, l0, l1, rfl⟩
      have hv : nsq ((⟨(c + pol r (a + η)).x + l * ((c + pol r (a - η)).x - (c + pol r (a + η)).x),
          (c + pol r (a + η)).y + l * ((c + pol r (a - η)).y - (c + pol r (a + η)).y)⟩ : Vec ℝ) - c) = r ^ 2 * (cos η ^ 2 + (1 - 2 * l) ^ 2 * sin η ^ 2) := by
        have ha := sin_sq_add_cos_sq a
        simp only [nsq, pol, Vec.add_x, Vec.add_y, Vec.sub_x, Vec.sub_y, cos_add, sin_add, cos_sub, sin_sub]
        linear_combination (r ^ 2 * (cos η ^ 2 + (1 - 2 * l) ^ 2 * sin η ^ 2)) * ha
      have hl2 : (1 - 2 * l) ^ 2 ≤ 1 := by nlinarith
      have up : r ^ 2 * (cos η ^ 2 + (1 - 2 * l) ^ 2 * sin η ^ 2) ≤ r ^ 2 := by
        have : cos η ^ 2 + (1 - 2 * l) ^ 2 * sin η ^ 2 ≤ 1 := by nlinarith [sq_nonneg (sin η)]
        nlinarith [sq_nonneg r]
      have low : (r * cos η) ^ 2 ≤ r ^ 2 * (cos η ^ 2 + (1 - 2 * l) ^ 2 * sin η ^ 2) := by
        have : 0 ≤ r ^ 2 * ((1 - 2 * l) ^ 2 * sin η ^ 2) := by positivity
        nlinarith
      refine ⟨?_, ?_, ?_⟩
      · rw [arc_cw hR.le h0 h1]
        rintro ⟨τ, -, -, h⟩
        rw [h, add_sub_cancel_left', nsq_pol] at hv
        nlinarith
      · rw [arc_ccw hK.le h0 h1]
        rintro ⟨τ, -, -, h⟩
        rw [h, add_sub_cancel_left', nsq_pol] at hv
        nlinarith
      · simp only [Segment.start, Segment.stop]
        rw [(segment_pol (by linarith : r - t / 2 ≤ r + t / 2) _).1]
        rintro ⟨m, m0, m1, h⟩
        have hm : 0 < m := lt_of_lt_of_le hK m0
        have hx := congrArg Vec.x h
        have hy := congrArg Vec.y h
        simp only [pol, Vec.add_x, Vec.add_y, cos_add, sin_add, cos_sub, sin_sub] at hx hy
        have ha := sin_sq_add_cos_sq a
        have c1 : m * cos θ = r * cos η := by linear_combination (-cos a) * hx - sin a * hy + (r * cos η - m * cos θ) * ha
        have c2 : m * sin θ = (1 - 2 * l) * (r * sin η) := by
          linear_combination sin a * hx - cos a * hy + ((1 - 2 * l) * (r * sin η) - m * sin θ) * ha
        have s1 : m * sin (θ - η) = -(2 * l) * (r * sin η * cos η) := by
          rw [sin_sub]; linear_combination cos η * c2 - sin η * c1
        have s2 : m * sin (θ + η) = 2 * (1 - l) * (r * sin η * cos η) := by
          rw [sin_add]; linear_combination cos η * c2 + sin η * c1
        have pr : 0 < r * sin η * cos η := by positivity
        have s1' : sin (θ - η) ≤ 0 := by
          by_contra hc; push Not at hc
          have := mul_pos hm hc
          have := mul_nonneg (mul_nonneg zero_le_two l0) pr.le
          linarith
        have s2' : 0 ≤ sin (θ + η) := by
          by_contra hc; push Not at hc
          have := mul_neg_of_pos_of_neg hm hc
          have := mul_nonneg (mul_nonneg zero_le_two (sub_nonneg.2 l1)) pr.le
          linarith
        have g1 : π ≤ θ - η := by
          by_contra hc; push Not at hc
          have := sin_pos_of_pos_of_lt_pi (x := θ - η) (by linarith) hc
          linarith
        have g2 : θ + η ≤ π := by
          by_contra hc; push Not at hc
          have := sin_pos_of_pos_of_lt_pi (x := θ + η - π) (by linarith) (by linarith)
          rw [sin_sub_pi] at this
          linarith
        linarith
    · apply div_pos _ ht0
      have := cos_le_one η
      nlinarith
    · rw [div_lt_one ht0]; linarith
    · simp only [Segment.start, Segment.stop, pol, Vec.add_x, Vec.add_y, cos_add, sin_add, cos_sub, sin_sub]
      field_simp
      ring
    · simp only [Segment.start, Segment.stop, pol, Vec.add_x, Vec.add_y, cos_add, sin_add, cos_sub, sin_sub]
      field_simp
      ring
    · have : cross (c + pol r (a - η) - (c + pol r (a + η))) ((Segment.arc ⟨c + pol (r - t / 2) a, c + pol (r - t / 2) (a + θ), c, false⟩).start -
          (Segment.arc ⟨c + pol (r + t / 2) (a + θ), c + pol (r + t / 2) a, c, true⟩).stop) = -(2 * r * sin η * t) := by
        have ha := sin_sq_add_cos_sq a
        simp only [Segment.start, Segment.stop, cross, pol, Vec.add_x, Vec.add_y, Vec.sub_x, Vec.sub_y, cos_add, sin_add, cos_sub, sin_sub]
        linear_combination (-(2 * r * sin η * t)) * ha
      rw [this]
      have : 0 < 2 * r * sin η * t := by positivity
      linarith
  · intro p hp hnr
    rw [area] at hp
    obtain ⟨k, τ, k0, k1, τ0, τ1, rfl⟩ := hp
    rw [rim] at hnr
    have n1 : k ≠ r - t / 2 := fun h => hnr (.inl ⟨τ, τ0, τ1, .inr (by rw [h])⟩)
    have n2 : k ≠ r + t / 2 := fun h => hnr (.inl ⟨τ, τ0, τ1, .inl (by rw [h])⟩)
    have n3 : τ ≠ 0 := fun h => hnr (.inr ⟨k, k0, k1, .inl (by rw [h, add_zero])⟩)
    have n4 : τ ≠ θ := fun h => hnr (.inr ⟨k, k0, k1, .inr (by rw [h])⟩)
    have k0 := lt_of_le_of_ne k0 n1.symm
    have k1 := lt_of_le_of_ne k1 n2
    have τ0 := lt_of_le_of_ne τ0 n3.symm
    have τ1 := lt_of_le_of_ne τ1 n4
    refine ⟨fun x => c + pol (k + x * (r - k)) (a + (τ + x * (η - τ))), ?_, ?_, ?_, ?_, fun x x0 x1 => ?_⟩
    · simp only [Vec.add_x, pol]; fun_prop
    · simp only [Vec.add_y, pol]; fun_prop
    · simp
    · simp
    · rw [rim]
      have b1 := above x0 x1 k0 (by linarith : r - t / 2 < r)
      have b2 := below x0 x1 k1 (by linarith : r < r + t / 2)
      have b3 := above x0 x1 τ0 e0
      have b4 := below x0 x1 τ1 e2
      have b0 : 0 < k + x * (r - k) := lt_trans hK b1
      rintro (⟨σ, -, -, h | h⟩ | ⟨l, l0, l1, h | h⟩)
      · have := pol_radius b0 hR h; linarith
      · have := pol_radius b0 hK h; linarith
      · exact pol_ne (lt_of_lt_of_le hK l0) b0 (by linarith) (by linarith) h.symm
      · exact pol_ne b0 (lt_of_lt_of_le hK l0) (by linarith) (by linarith) h

theorem round_cwArc {s e c : Vec ℝ} {t : ℝ} (neg : Bool) (ht : 0 ≤ t) (hsc : vlen (s - c) = vlen (e - c)) (hne : s ≠ e)
    (htr : t / 2 < vlen (s - c)) : Round (Shape.newCwArc s e c t neg) := by
  obtain ⟨hr, a, θ, h0, h1, ee, es⟩ := two_points hsc.symm hne.symm
  rw [← hsc] at hr ee es
  generalize vlen (s - c) = r at *
  subst es ee
  exact round_cwArc_pol neg hr ht htr h0 h1

end Verif.Halves
