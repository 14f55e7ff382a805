import Verif.Lemmas.Moved
import Verif.Lemmas.MacroShape

/-!
# Polygons whose outline goes round what it encloses once
-/

namespace Verif.Halves
open Verif.Geom Verif.Rvmc Verif.Spec Verif.Crossing Verif.Fine Verif.Lemmas.ShapeArea Verif.Lemmas.ArcArea Verif.Lemmas.MacroShape
  Verif.Sim Verif.Sim Real

/-- The lines from each point to the next one. -/
def links (f : ℕ → Vec ℝ) (n : ℕ) : List Segment := (List.range n).map fun j => .line ⟨f j, f (j + 1)⟩

theorem links_traces {ε : ℝ} {gs : List Segment} {traces : List (List (Vec ℝ))} (h : List.Forall₂ (Along ε) gs traces) :
    (∀ g ∈ gs, ∃ l, g = .line l) → traces = gs.map fun g => [g.start, g.stop] := by
  induction h with
  | nil => exact fun _ => rfl
  | cons h1 _ ih =>
    intro hl
    obtain ⟨l, rfl⟩ := hl _ (List.mem_cons_self ..)
    rw [ih fun g hg => hl g (List.mem_cons_of_mem _ hg)]
    have : _ = [l.start, l.stop] := h1
    rw [this]; rfl

theorem walk_links (p : Vec ℝ) (f : ℕ → Vec ℝ) : ∀ n, walk p (((links f n).map fun g => [g.start, g.stop]).flatten ++ [f n]) =
    ((List.range n).map fun j => cr p (f j) (f (j + 1))).sum
  | 0 => rfl
  | n + 1 => by
    have ih := walk_links p f n
    have e : ((links f (n + 1)).map fun g => [g.start, g.stop]).flatten ++ [f (n + 1)] =
        ((links f n).map fun g => [g.start, g.stop]).flatten ++ f n :: [f (n + 1), f (n + 1)] := by
      simp [links, List.range_succ, Segment.start, Segment.stop]
    rw [e, walk_append, ih, List.range_succ]
    simp only [walk, List.map_append, List.map_cons, List.map_nil, List.sum_append, List.sum_cons, List.sum_nil, add_zero]
    rw [cr_zero (a := f (n + 1)) (b := f (n + 1)) Iff.rfl, add_zero]

theorem within_links {p : Vec ℝ} {f : ℕ → Vec ℝ} {n : ℕ} (hn : 0 < n) (hf : f n = f 0) {ε : ℝ} {traces : List (List (Vec ℝ))}
    (h : List.Forall₂ (Along ε) (links f n) traces) :
    WithinLine traces.flatten p ↔ ((List.range n).map fun j => cr p (f j) (f (j + 1))).sum = 1 := by
  rw [links_traces h (by simp [links]), within_walk, ← walk_links]
  have : (((links f n).map fun g => [g.start, g.stop]).flatten).head?.toList = [f n] := by
    obtain ⟨m, rfl⟩ : ∃ m, n = m + 1 := ⟨n - 1, by omega⟩
    simp [links, List.range_succ_eq_map, hf, Segment.start]
  rw [this]

theorem links_rim {s : Shape} {f : ℕ → Vec ℝ} {n : ℕ} (hf : f n = f 0) (hs : s.segments = links f n) (q : Vec ℝ) :
    OnRim s q ↔ ∃ j < n, OnSegment (f j) (f (j + 1)) q := by
  have hs' : s.segments = polygonSides ((List.range n).map f) := by rw [hs, polygonSides_range f hf]; rfl
  rw [onRim_connected]
  · unfold OnOutline
    rw [hs]
    simp [links, OnPiece]
  · rw [hs']
    generalize (List.range n).map f = corners
    unfold polygonSides successors
    rw [← List.map_tail, ← List.map_take, ← List.map_append, List.zip_map]
    intro g hg
    obtain ⟨g', hg', rfl⟩ := List.mem_map.1 hg
    exact ⟨zip_next_next _ _ hg', onSegment_start _ _⟩

/-! ### Regular polygons -/

/-- Corners of a regular polygon about the origin whose first side is upright. -/
noncomputable def upright (R : ℝ) (n k : ℕ) : Vec ℝ := pol R ((2 * k - 1) * (π / n))

theorem cos_outside {a x : ℝ} (ha : 0 ≤ a) (h1 : a ≤ |x|) (h2 : |x| ≤ 2 * π - a) : cos x ≤ cos a := by
  rw [← cos_abs x]
  rcases le_total |x| π with h | h
  · exact cos_le_cos_of_nonneg_of_le_pi ha h h1
  · rw [← cos_two_pi_sub |x|]
    exact cos_le_cos_of_nonneg_of_le_pi ha (by linarith) (by linarith)

theorem upright_angle {n : ℕ} (hn : 3 ≤ n) : 0 < π / n ∧ π / n < π / 2 := by
  have h3 : (3 : ℝ) ≤ n := by exact_mod_cast hn
  refine ⟨by positivity, ?_⟩
  apply div_lt_div_of_pos_left pi_pos (by norm_num) (by linarith)

theorem upright_closed (R : ℝ) {n : ℕ} (hn : 3 ≤ n) : upright R n n = upright R n 0 := by
  have h0 : (n : ℝ) ≠ 0 := by positivity
  have : (2 * (n : ℝ) - 1) * (π / n) = (2 * ((0 : ℕ) : ℝ) - 1) * (π / n) + 2 * π := by field_simp; push_cast; ring
  unfold upright
  rw [this]
  unfold pol
  rw [cos_add_two_pi, sin_add_two_pi]

/-- The distance of a point in the direction of a side. -/
noncomputable def reach (n k : ℕ) (p : Vec ℝ) : ℝ := p.x * cos (2 * k * (π / n)) + p.y * sin (2 * k * (π / n))

theorem reach_corner (R : ℝ) (n k j : ℕ) : reach n k (upright R n j) = R * cos ((2 * ((j : ℝ) - k) - 1) * (π / n)) := by
  have : (2 * ((j : ℝ) - k) - 1) * (π / n) = (2 * j - 1) * (π / n) - 2 * k * (π / n) := by ring
  rw [this, cos_sub]
  simp only [reach, upright, pol]
  ring

theorem reach_le {R : ℝ} (hR : 0 ≤ R) {n k j : ℕ} (hn : 3 ≤ n) (hk : k < n) (hj : j ≤ n) : reach n k (upright R n j) ≤ R * cos (π / n) := by
  rw [reach_corner]
  refine mul_le_mul_of_nonneg_left ?_ hR
  obtain ⟨h1, -⟩ := upright_angle hn
  have h0 : (n : ℝ) ≠ 0 := by positivity
  have e : |(2 * ((j : ℝ) - k) - 1) * (π / n)| = |2 * ((j : ℝ) - k) - 1| * (π / n) := by rw [abs_mul, abs_of_pos h1]
  have hz : ∃ z : ℤ, z = 2 * ((j : ℤ) - k) - 1 ∧ 1 ≤ |z| ∧ |z| ≤ 2 * n - 1 := by
    refine ⟨_, rfl, ?_, ?_⟩
    · exact Int.one_le_abs (by omega)
    · rw [abs_le]; omega
  obtain ⟨z, hz, z1, z2⟩ := hz
  have hz' : (2 * ((j : ℝ) - k) - 1) = (z : ℝ) := by rw [hz]; push_cast; ring
  have z1' : (1 : ℝ) ≤ |(z : ℝ)| := by exact_mod_cast z1
  have z2' : |(z : ℝ)| ≤ 2 * n - 1 := by exact_mod_cast z2
  refine cos_outside h1.le ?_ ?_
  · rw [e, hz']; nlinarith
  · rw [e, hz']
    have : (2 * (n : ℝ) - 1) * (π / n) = 2 * π - π / n := by field_simp
    rw [← this]
    exact mul_le_mul_of_nonneg_right z2' h1.le

theorem reach_segment (n k : ℕ) (a b : Vec ℝ) (l : ℝ) : reach n k ⟨a.x + l * (b.x - a.x), a.y + l * (b.y - a.y)⟩ =
    reach n k a + l * (reach n k b - reach n k a) := by
  simp only [reach]; ring

theorem reach_beyond (n k : ℕ) (p : Vec ℝ) (t : ℝ) :
    reach n k ⟨p.x + t * cos (2 * k * (π / n)), p.y + t * sin (2 * k * (π / n))⟩ = reach n k p + t := by
  simp only [reach]
  linear_combination t * cos_sq_add_sin_sq (2 * k * (π / n))

theorem reach_side {R : ℝ} {n k : ℕ} {q : Vec ℝ} (h : OnSegment (upright R n k) (upright R n (k + 1)) q) :
    reach n k q = R * cos (π / n) := by
  obtain ⟨l, -, -, rfl⟩ := h
  rw [reach_segment, reach_corner, reach_corner]
  have e1 : (2 * ((k : ℝ) - k) - 1) * (π / n) = -(π / n) := by ring
  have e2 : (2 * (((k + 1 : ℕ) : ℝ) - k) - 1) * (π / n) = π / n := by push_cast; ring
  rw [e1, e2, cos_neg]; ring

theorem reach_rim {R : ℝ} (hR : 0 ≤ R) {n k j : ℕ} (hn : 3 ≤ n) (hk : k < n) (hj : j < n) {q : Vec ℝ}
    (h : OnSegment (upright R n j) (upright R n (j + 1)) q) : reach n k q ≤ R * cos (π / n) := by
  obtain ⟨l, l0, l1, rfl⟩ := h
  rw [reach_segment]
  have h1 := reach_le hR hn hk hj.le
  have h2 := reach_le hR hn hk (by omega : j + 1 ≤ n)
  nlinarith [mul_le_mul_of_nonneg_left h2 l0, mul_le_mul_of_nonneg_left h1 (sub_nonneg.2 l1)]

theorem cr_first {R : ℝ} (hR : 0 < R) {n : ℕ} (hn : 3 ≤ n) : cr ⟨0, 0⟩ (upright R n 0) (upright R n (0 + 1)) = 1 := by
  obtain ⟨h1, h2⟩ := upright_angle hn
  have hs := sin_pos_of_pos_of_lt_pi h1 (by linarith [pi_pos])
  have hc := cos_pos_of_mem_Ioo ⟨by linarith, h2⟩
  unfold cr
  have e1 : upright R n 0 = ⟨R * cos (π / n), -(R * sin (π / n))⟩ := by
    unfold upright pol
    rw [show (2 * ((0 : ℕ) : ℝ) - 1) * (π / n) = -(π / n) by push_cast; ring, cos_neg, sin_neg, mul_neg]
  have e2 : upright R n (0 + 1) = ⟨R * cos (π / n), R * sin (π / n)⟩ := by
    unfold upright pol
    rw [show (2 * ((0 + 1 : ℕ) : ℝ) - 1) * (π / n) = π / n by push_cast; ring]
  rw [if_pos]
  rw [e1, e2, crosses_iff]
  have hRs := mul_pos hR hs
  have hRc := mul_pos hR hc
  refine ⟨?_, ?_⟩
  · simp only; constructor <;> intro <;> linarith
  · simp [meet, hRc]

theorem cr_other {R : ℝ} (hR : 0 < R) {n j : ℕ} (hn : 3 ≤ n) (h1 : 1 ≤ j) (hj : j < n) :
    cr ⟨0, 0⟩ (upright R n j) (upright R n (j + 1)) = 0 := by
  obtain ⟨a1, a2⟩ := upright_angle hn
  have h0 : (n : ℝ) ≠ 0 := by positivity
  have hnp : (0 : ℝ) < n := by positivity
  have hπ : π = n * (π / n) := by field_simp
  have ea : (upright R n j).y = R * sin ((2 * j - 1) * (π / n)) := rfl
  have eb : (upright R n (j + 1)).y = R * sin ((2 * j + 1) * (π / n)) := by
    simp only [upright, pol]; push_cast; ring_nf
  have ea' : (upright R n j).x = R * cos ((2 * j - 1) * (π / n)) := rfl
  have eb' : (upright R n (j + 1)).x = R * cos ((2 * j + 1) * (π / n)) := by
    simp only [upright, pol]; push_cast; ring_nf
  have hj1 : (1 : ℝ) ≤ j := by exact_mod_cast h1
  have hjn : (j : ℝ) + 1 ≤ n := by exact_mod_cast hj
  unfold cr
  rw [if_neg]
  rw [crosses_iff]
  rintro ⟨g1, g2⟩
  simp only at g1 g2
  rcases Nat.lt_or_ge (2 * j) n with hlt | hge
  · -- the upper half
    have hlt' : (2 : ℝ) * j + 1 ≤ n := by exact_mod_cast hlt
    have p1 : 0 < (upright R n j).y := by
      rw [ea]
      refine mul_pos hR (sin_pos_of_pos_of_lt_pi (by apply mul_pos _ a1; linarith) ?_)
      rw [hπ]
      have : (n : ℝ) * (π / n) / n = π / n := by field_simp
      rw [this]
      exact mul_lt_mul_of_pos_right (by linarith) a1
    have p2 := g1.1 p1
    have p3 : 0 ≤ (upright R n (j + 1)).y := by
      rw [eb]
      refine mul_nonneg hR.le (sin_nonneg_of_nonneg_of_le_pi (by positivity) ?_)
      calc (2 * (j : ℝ) + 1) * (π / n) ≤ n * (π / n) := mul_le_mul_of_nonneg_right hlt' a1.le
        _ = π := hπ.symm
    have p4 : (upright R n (j + 1)).y = 0 := le_antisymm (not_lt.1 p2) p3
    have p5 : (2 * (j : ℝ) + 1) * (π / n) = π := by
      by_contra hne
      have hle : (2 * (j : ℝ) + 1) * (π / n) ≤ π := by
        calc (2 * (j : ℝ) + 1) * (π / n) ≤ n * (π / n) := mul_le_mul_of_nonneg_right hlt' a1.le
          _ = π := hπ.symm
      have := sin_pos_of_pos_of_lt_pi (x := (2 * (j : ℝ) + 1) * (π / n)) (by positivity) (lt_of_le_of_ne hle hne)
      rw [eb] at p4
      have := mul_pos hR this
      linarith
    rw [p5, cos_pi] at eb'
    rw [meet_symm g1] at g2
    simp only [meet, p4, sub_zero, zero_mul, zero_div, add_zero, eb'] at g2
    linarith
  · rcases Nat.lt_or_ge n (2 * j) with hgt | hle
    · -- the lower half
      have hgt' : (n : ℝ) ≤ 2 * j - 1 := by
        have : (n : ℝ) + 1 ≤ 2 * j := by exact_mod_cast hgt
        linarith
      have low : ∀ x : ℝ, (n : ℝ) ≤ x → x ≤ 2 * n → sin (x * (π / n)) ≤ 0 := by
        intro x x1 x2
        have q1 : n * (π / n) ≤ x * (π / n) := mul_le_mul_of_nonneg_right x1 a1.le
        have q2 : x * (π / n) ≤ 2 * n * (π / n) := mul_le_mul_of_nonneg_right x2 a1.le
        have : sin (x * (π / n)) = - sin (x * (π / n) - π) := by rw [sin_sub_pi, neg_neg]
        rw [this]
        have := sin_nonneg_of_nonneg_of_le_pi (x := x * (π / n) - π) (by linarith) (by linarith)
        linarith
      have p1 : ¬ 0 < (upright R n j).y := by
        rw [ea, not_lt]
        exact mul_nonpos_of_nonneg_of_nonpos hR.le (low _ hgt' (by linarith))
      have p2 : ¬ 0 < (upright R n (j + 1)).y := by
        rw [eb, not_lt]
        exact mul_nonpos_of_nonneg_of_nonpos hR.le (low _ (by linarith) (by linarith))
      exact p1 (g1.2 p2)
    · -- the side opposite the first
      have he : (n : ℝ) = 2 * j := by
        have : n = 2 * j := by omega
        rw [this]; push_cast; rfl
      have hc := cos_pos_of_mem_Ioo (x := π / n) ⟨by linarith, a2⟩
      have c1 : cos ((2 * j - 1) * (π / n)) = - cos (π / n) := by
        rw [← he, show ((n : ℝ) - 1) * (π / n) = π - π / n by field_simp, cos_pi_sub]
      have c2 : cos ((2 * j + 1) * (π / n)) = - cos (π / n) := by
        rw [← he, show ((n : ℝ) + 1) * (π / n) = π / n + π by field_simp; ring, cos_add_pi]
      rw [c1] at ea'
      rw [c2] at eb'
      simp only [meet, ea', eb', sub_self, mul_zero, zero_div, add_zero] at g2
      have := mul_pos hR hc
      linarith

theorem center_within {R : ℝ} (hR : 0 < R) {n : ℕ} (hn : 3 ≤ n) :
    ((List.range n).map fun j => cr ⟨0, 0⟩ (upright R n j) (upright R n (j + 1))).sum = 1 := by
  obtain ⟨m, rfl⟩ : ∃ m, n = m + 1 := ⟨n - 1, by omega⟩
  rw [List.range_succ_eq_map, List.map_cons, List.sum_cons, cr_first hR hn, List.map_map]
  have : (List.map ((fun j => cr ⟨0, 0⟩ (upright R (m + 1) j) (upright R (m + 1) (j + 1))) ∘ Nat.succ) (List.range m)).sum = 0 := by
    apply List.sum_eq_zero
    intro x hx
    obtain ⟨j, hj, rfl⟩ := List.mem_map.1 hx
    rw [List.mem_range] at hj
    exact cr_other hR hn (by simp) (by simp; exact hj)
  rw [this, add_zero]

theorem reach_bound (n k : ℕ) (v : Vec ℝ) {r : ℝ} (hx : |v.x| ≤ r) (hy : |v.y| ≤ r) : reach n k v ≤ 2 * r := by
  have hr : 0 ≤ r := (abs_nonneg _).trans hx
  have h1 : v.x * cos (2 * k * (π / n)) ≤ r := by
    calc _ ≤ |v.x * cos (2 * k * (π / n))| := le_abs_self _
      _ = |v.x| * |cos (2 * k * (π / n))| := abs_mul ..
      _ ≤ r * 1 := mul_le_mul hx (abs_cos_le_one _) (abs_nonneg _) hr
      _ = r := mul_one r
  have h2 : v.y * sin (2 * k * (π / n)) ≤ r := by
    calc _ ≤ |v.y * sin (2 * k * (π / n))| := le_abs_self _
      _ = |v.y| * |sin (2 * k * (π / n))| := abs_mul ..
      _ ≤ r * 1 := mul_le_mul hy (abs_sin_le_one _) (abs_nonneg _) hr
      _ = r := mul_one r
  unfold reach
  linarith

theorem upright_sound {R : ℝ} (hR : 0 < R) {n : ℕ} (hn : 3 ≤ n) {s : Shape} (hs : s.segments = links (upright R n) n) : Sound s := by
  have hcl := upright_closed R hn
  obtain ⟨a1, a2⟩ := upright_angle hn
  have hc := cos_pos_of_mem_Ioo (x := π / n) ⟨by linarith, a2⟩
  have hA := mul_pos hR hc
  have hpieces : ∀ g ∈ s.segments, NotClosed g := by
    rw [hs]
    intro g hg
    obtain ⟨j, -, rfl⟩ := List.mem_map.1 hg
    trivial
  refine ⟨hpieces, once hpieces (c := ⟨0, 0⟩) (fun _ => ⟨1, one_pos, fun traces ht => ?_⟩) (joined_star fun p hp hr q hq hqr => ?_)⟩
  · rw [hs] at ht
    exact (within_links (by omega) hcl ht).2 (center_within hR hn)
  · rw [links_rim hcl hs] at hqr
    obtain ⟨k, hk, hqk⟩ := hqr
    have h1 := reach_side hqk
    -- the point is not beyond the side
    have h2 : reach n k p ≤ R * cos (π / n) := by
      by_contra hgt
      push Not at hgt
      obtain ⟨r, hr'⟩ := hp
      have key := hr' (fun t => ⟨p.x + |t| * cos (2 * k * (π / n)), p.y + |t| * sin (2 * k * (π / n))⟩)
        (continuous_const.add (continuous_abs.mul continuous_const)) (continuous_const.add (continuous_abs.mul continuous_const))
        (by ext <;> simp) ?_ (2 * r + |reach n k p| + 1)
      · have hb := reach_bound n k _ key.1 key.2
        have e : reach n k ⟨p.x + |2 * r + |reach n k p| + 1| * cos (2 * k * (π / n)), p.y + |2 * r + |reach n k p| + 1| * sin (2 * k * (π / n))⟩ =
            reach n k p + |2 * r + |reach n k p| + 1| := by
          exact reach_beyond ..
        rw [e] at hb
        have h3 := le_abs_self (2 * r + |reach n k p| + 1)
        have h4 := neg_abs_le (reach n k p)
        linarith
      · intro t ht
        rw [links_rim hcl hs] at ht
        obtain ⟨j, hj, hjt⟩ := ht
        have h3 := reach_rim hR.le hn hk hj hjt
        have e : reach n k ⟨p.x + |t| * cos (2 * k * (π / n)), p.y + |t| * sin (2 * k * (π / n))⟩ = reach n k p + |t| := by
          exact reach_beyond ..
        rw [e] at h3
        linarith [abs_nonneg t]
    obtain ⟨l, l0, l1, rfl⟩ := hq
    rw [reach_segment] at h1
    have e0 : reach n k ⟨0, 0⟩ = 0 := by simp [reach]
    rw [e0] at h1
    have hl : l = 0 := by
      by_contra hne
      have : 0 < l := lt_of_le_of_ne l0 (Ne.symm hne)
      nlinarith
    subst hl
    apply hr
    rw [links_rim hcl hs]
    refine ⟨k, hk, ?_⟩
    simpa using hqk

/-! ### Turned polygons -/

/-- The matrix that turns by an angle and moves. -/
noncomputable def turning (t : ℝ) (c : Vec ℝ) : Mat ℝ := Mat.ofRows (cos t) (-sin t) c.x (sin t) (cos t) c.y 0 0 1

theorem turning_apply (t : ℝ) (c v : Vec ℝ) : (turning t c).apply v = c + rotCcw t v := by
  ext <;> simp [turning, Mat.apply, Mat.ofRows, rotCcw] <;> ring

theorem turning_similar (t : ℝ) (c : Vec ℝ) : Similar (turning t c) 1 1 := by
  refine ⟨.inl rfl, ?_, ?_, ?_, one_ne_zero⟩ <;> simp [turning, Mat.ofRows]

theorem links_transform (f : ℕ → Vec ℝ) (n : ℕ) (m : Mat ℝ) : (links f n).map (·.transform m) = links (fun k => m.apply (f k)) n := by
  simp [links, Segment.transform, Line.transform, Function.comp_def]

theorem exists_links {f : ℕ → Vec ℝ} {n : ℕ} (hn : 0 < n) (neg : Bool) : ∃ s : Shape, s.segments = links f n ∧ s.negative = neg := by
  obtain ⟨m, rfl⟩ : ∃ m, n = m + 1 := ⟨n - 1, by omega⟩
  refine ⟨⟨.line ⟨f 0, f 1⟩, (List.range m).map fun j => .line ⟨f (j + 1), f (j + 1 + 1)⟩, neg⟩, ?_, rfl⟩
  simp [Shape.segments, links, List.range_succ_eq_map, Function.comp_def]

theorem sound_segments {s s' : Shape} (h : s.segments = s'.segments) (hs : Sound s) : Sound s' := by
  obtain ⟨g, gs, b⟩ := s
  obtain ⟨g', gs', b'⟩ := s'
  simp only [Shape.segments, List.cons.injEq] at h
  obtain ⟨rfl, rfl⟩ := h
  exact hs

theorem sound_turned {f : ℕ → Vec ℝ} {n : ℕ} (hn : 0 < n) (t : ℝ) (c : Vec ℝ) (h : ∀ s : Shape, s.segments = links f n → Sound s) {s : Shape}
    (hs : s.segments = links (fun k => c + rotCcw t (f k)) n) : Sound s := by
  obtain ⟨s0, h0, -⟩ := exists_links (f := f) hn false
  have h1 := h s0 h0
  have hseg : ∀ (s : Shape) (m : Mat ℝ), (s.transform m).segments = s.segments.map (·.transform m) := fun _ _ => rfl
  refine sound_segments ?_ (sound_transform (turning_similar t c) h1)
  rw [hseg, h0, links_transform, hs]
  congr 1
  funext k
  rw [turning_apply]

/-- Regular polygons. -/
theorem polygon_sound {n : ℕ} (hn : 3 ≤ n) {d : ℝ} (hd : 0 < d) (t : ℝ) (c : Vec ℝ) {s : Shape}
    (hs : s.segments = polygonSides ((List.range n).map fun (k : ℕ) =>
      c + rotCcw t ⟨d / 2 * cos (2 * π * k / n), d / 2 * sin (2 * π * k / n)⟩)) : Sound s := by
  refine sound_turned (f := upright (d / 2) n) (by omega) (t + π / n) c (fun s h => upright_sound (by linarith) hn h) ?_
  have h0 : (n : ℝ) ≠ 0 := by positivity
  have e : (fun k : ℕ => c + rotCcw t ⟨d / 2 * cos (2 * π * k / n), d / 2 * sin (2 * π * k / n)⟩) =
      fun k => c + rotCcw (t + π / n) (upright (d / 2) n k) := by
    funext k
    unfold upright
    rw [rot_pol]
    have : (⟨d / 2 * cos (2 * π * k / n), d / 2 * sin (2 * π * k / n)⟩ : Vec ℝ) = pol (d / 2) (2 * π * k / n) := rfl
    rw [this, rot_pol]
    congr 2
    field_simp
    ring
  rw [hs, e, polygonSides_range _ (by rw [upright_closed _ hn])]
  rfl

end Verif.Halves
