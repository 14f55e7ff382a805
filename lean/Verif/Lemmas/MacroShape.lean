import Verif.Spec.MacroShape
import Verif.Lemmas.Similar
import Verif.Lemmas.ShapeArea

/-!
# Half circles, discs, rectangles and rings under rotation
-/

namespace Verif.Lemmas.MacroShape
open Verif.Geom Verif.Spec Verif.Rvmc Verif.Compiler Verif.Props.Shapes Verif.Sim Verif.Lemmas.ShapeArea Real

theorem turned_iff {r : ℚ} {S : Vec ℝ → Prop} {p : Vec ℝ} :
    Turned r S p ↔ S (rotCcw (-((r : ℝ) * π / 180)) p) := by
  constructor
  · rintro ⟨q, h, rfl⟩; rwa [rot_back']
  · intro h; exact ⟨_, h, (rot_back _ _).symm⟩

theorem apply_rotate (r : ℝ) (v : Vec ℝ) : (Mat.newRotate r).apply v = rotCcw (r * π / 180) v :=
  (Props.Geom.c29_rotation r 0 v v).2.1

/-! ### Discs -/

theorem rotated_circle (r : ℚ) (c : Vec ℝ) (d : ℝ) (neg : Bool) : ∃ cw,
    rotated r (Shape.newCircle c d neg) = ⟨.arc ⟨rotCcw ((r : ℝ) * π / 180) ⟨c.x - d / 2, c.y⟩,
      rotCcw ((r : ℝ) * π / 180) ⟨c.x + d / 2, c.y⟩, rotCcw ((r : ℝ) * π / 180) c, cw⟩,
      [.arc ⟨rotCcw ((r : ℝ) * π / 180) ⟨c.x + d / 2, c.y⟩,
      rotCcw ((r : ℝ) * π / 180) ⟨c.x - d / 2, c.y⟩, rotCcw ((r : ℝ) * π / 180) c, cw⟩], neg⟩ := by
  simp only [rotated, Shape.transform, Shape.newCircle, Segment.transform, Arc.transform, apply_rotate, List.map_cons,
    List.map_nil]
  exact ⟨_, rfl⟩

theorem disc_rotated (r : ℚ) (x y d : ℚ) (neg : Bool) (p : Vec ℝ) :
    p ∈ areaOf (rotated r (Shape.newCircle (pt x y) (d : ℝ) neg)) ↔ Turned r (Disc (point x y) d) p := by
  obtain ⟨cw, h⟩ := rotated_circle r (pt x y) (d : ℝ) neg
  rw [h, two_halves_area, rot_sub, nsq_rot, turned_iff]
  · have h1 : nsq (p - rotCcw ((r : ℝ) * π / 180) (pt x y)) = nsq (rotCcw (-((r : ℝ) * π / 180)) p - pt x y) := by
      conv_lhs => rw [← rot_back ((r : ℝ) * π / 180) p, rot_sub, nsq_rot]
    rw [h1]
    simp [nsq, Disc, pt, point]
  · rw [rot_sub, rot_sub, antipode]
    ext <;> simp [rotCcw] <;> ring

theorem disc_plain (x y d : ℚ) (neg : Bool) (p : Vec ℝ) :
    p ∈ areaOf (Shape.newCircle (pt x y) (d : ℝ) neg) ↔ Disc (point x y) d p := by
  show p ∈ areaOf ⟨.arc ⟨_, _, _, true⟩, [.arc ⟨_, _, _, true⟩], neg⟩ ↔ _
  rw [two_halves_area _ _ _ (antipode _ _)]
  simp [nsq, Disc, pt, point]

/-! ### Straight outlines -/

/-- The outline consists of lines. -/
def Straight (s : Shape) : Prop := ∀ g ∈ s.segments, ∃ l, g = .line l

theorem rot_inj (t : ℝ) (u v : Vec ℝ) (h : rotCcw t u = rotCcw t v) : u = v := by
  rw [← rot_back' t u, h, rot_back']

theorem rim_rotated {s : Shape} (hs : Straight s) (r : ℚ) (p : Vec ℝ) :
    OnRim (rotated r s) (rotCcw ((r : ℝ) * π / 180) p) ↔ OnRim s p := by
  have hseg : (rotated r s).segments = s.segments.map (·.transform (Mat.newRotate r)) := rfl
  unfold OnRim OnOutline
  rw [hseg, successors_map]
  simp only [List.mem_map, exists_exists_and_eq_and, Prod.map, transform_start, transform_stop, apply_rotate,
    affine_segment (affine_rot _) (rot_inj _)]
  refine or_congr ?_ Iff.rfl
  refine exists_congr fun g => and_congr_right fun hg => ?_
  obtain ⟨l, rfl⟩ := hs g hg
  simp only [Segment.transform, Line.transform, OnPiece, apply_rotate, affine_segment (affine_rot _) (rot_inj _)]

/-- Rotating a shape with straight outlines rotates its area. -/
theorem enclosed_rotated {s : Shape} (hs : Straight s) (r : ℚ) (p : Vec ℝ) :
    p ∈ areaOf (rotated r s) ↔ Turned r (· ∈ areaOf s) p := by
  unfold areaOf
  rw [surrounded_image (affine_rot ((r : ℝ) * π / 180)) (affine_rot (-((r : ℝ) * π / 180))) (rot_back _) (rot_back' _)
    (rim_rotated hs r)]
  constructor
  · rintro ⟨q, h, rfl⟩; exact ⟨q, h, rfl⟩
  · rintro ⟨q, h, rfl⟩; exact ⟨q, h, rfl⟩

theorem straight_rectangle (c : Vec ℝ) (w h : ℝ) (neg : Bool) : Straight (Shape.newRectangle c w h neg) := by
  intro g hg
  simp only [Shape.segments, Shape.newRectangle, Shape.ln, List.mem_cons, List.not_mem_nil, or_false] at hg
  rcases hg with rfl | rfl | rfl | rfl <;> exact ⟨_, rfl⟩

theorem straight_line (s e : Vec ℝ) (w : ℝ) (neg : Bool) : Straight (Shape.newLine s e w neg) := by
  intro g hg
  simp only [Shape.segments, Shape.newLine, List.mem_cons, List.not_mem_nil, or_false] at hg
  rcases hg with rfl | rfl <;> exact ⟨_, rfl⟩

/-- A thick line encloses a band. -/
theorem band_enclosed {s e : Vec ℝ} (hne : s ≠ e) {w : ℚ} (hw : 0 ≤ w) (neg : Bool) (p : Vec ℝ) :
    p ∈ areaOf (Shape.newLine s e (w : ℝ) neg) ↔ Band s e w p := by
  rw [line_enclosed _ _ _ (by exact_mod_cast hw)]
  have hes : e - s ≠ ⟨0, 0⟩ := by
    intro h; apply hne
    have hx := congrArg Vec.x h
    have hy := congrArg Vec.y h
    simp at hx hy
    ext <;> linarith
  obtain ⟨hL, hx, hy⟩ := normalized_scale (e - s) hes
  have hu := unit_normalized (e - s)
  set L := vlen (e - s) with hLdef
  set u := (e - s).normalized with hudef
  simp only [Vec.sub_x, Vec.sub_y] at hx hy
  have hwr : (0 : ℝ) ≤ (w : ℝ) := by exact_mod_cast hw
  have hLL : (e.x - s.x) ^ 2 + (e.y - s.y) ^ 2 = L ^ 2 := by rw [hx, hy]; linear_combination L ^ 2 * hu
  unfold Band
  rw [hLL, ← hLdef]
  constructor
  · rintro ⟨l, m, l0, l1, m0, m1, rfl⟩
    have e1 : (s.x + l * (e.x - s.x) - m * (u.y * (↑w / 2)) - s.x) * (e.x - s.x) +
        (s.y + l * (e.y - s.y) + m * (u.x * (↑w / 2)) - s.y) * (e.y - s.y) = l * L ^ 2 := by
      rw [← hLL, hx, hy]; ring
    have e2 : (e.x - s.x) * (s.y + l * (e.y - s.y) + m * (u.x * (↑w / 2)) - s.y) -
        (e.y - s.y) * (s.x + l * (e.x - s.x) - m * (u.y * (↑w / 2)) - s.x) = m * (↑w / 2 * L) := by
      rw [hx, hy]; linear_combination (m * (↑w / 2) * L) * hu
    simp only [e1, e2]
    refine ⟨by positivity, by nlinarith [sq_nonneg L], ?_⟩
    rw [abs_le]
    have : 0 ≤ (w : ℝ) / 2 * L := by positivity
    constructor <;> nlinarith
  · rintro ⟨h0, h1, h2⟩
    rw [abs_le] at h2
    set dot := (p.x - s.x) * (e.x - s.x) + (p.y - s.y) * (e.y - s.y) with hdot
    set crs := (e.x - s.x) * (p.y - s.y) - (e.y - s.y) * (p.x - s.x) with hcrs
    have hd : dot = L * ((p.x - s.x) * u.x + (p.y - s.y) * u.y) := by rw [hdot, hx, hy]; ring
    have hc : crs = L * (u.x * (p.y - s.y) - u.y * (p.x - s.x)) := by rw [hcrs, hx, hy]; ring
    have hL2 : 0 < L ^ 2 := by positivity
    rcases eq_or_lt_of_le hwr with h | h
    · rw [← h] at h2 ⊢
      have hc0 : u.x * (p.y - s.y) - u.y * (p.x - s.x) = 0 := by
        have : crs = 0 := by linarith [h2.1, h2.2]
        rw [hc] at this
        rcases mul_eq_zero.1 this with h | h
        · exact absurd h hL.ne'
        · exact h
      refine ⟨dot / L ^ 2, 0, div_nonneg h0 hL2.le, by rw [div_le_one hL2]; exact h1, by norm_num, by norm_num, ?_⟩
      have hq : dot / L ^ 2 * L = (p.x - s.x) * u.x + (p.y - s.y) * u.y := by rw [hd]; field_simp
      ext
      · simp only [hx]; linear_combination (-(p.x - s.x)) * hu - u.y * hc0 - u.x * hq
      · simp only [hy]; linear_combination (-(p.y - s.y)) * hu + u.x * hc0 - u.y * hq
    · have hk : 0 < (w : ℝ) / 2 * L := by positivity
      refine ⟨dot / L ^ 2, crs / ((w : ℝ) / 2 * L), div_nonneg h0 hL2.le, by rw [div_le_one hL2]; exact h1, ?_, ?_, ?_⟩
      · rw [le_div_iff₀ hk]; linarith [h2.1]
      · rw [div_le_one hk]; exact h2.2
      · rw [hd, hc]
        ext
        · simp only [hx]; field_simp; linear_combination (-(p.x - s.x)) * hu
        · simp only [hy]; field_simp; linear_combination (-(p.y - s.y)) * hu

/-! ### Rings -/

theorem similar_rotate (r : ℚ) : Similar (Mat.newRotate (r : ℝ)) 1 1 := by
  have := sin_sq_add_cos_sq ((r : ℝ) * π / 180)
  refine ⟨.inl rfl, ?_, ?_, ?_, one_ne_zero⟩ <;>
    simp only [Mat.newRotate, Mat.newRotateCS, Mat.ofRows, radians] <;> simp

theorem area_rotated (r : ℚ) (s : Shape) (p : Vec ℝ) :
    p ∈ areaOf (rotated r s) ↔ Turned r (· ∈ areaOf s) p := by
  have := (similar_rotate r).enclosed s
  show p ∈ areaOf (s.transform _) ↔ _
  rw [this]
  constructor
  · rintro ⟨q, h, rfl⟩; exact ⟨q, h, apply_rotate _ _⟩
  · rintro ⟨q, h, rfl⟩; exact ⟨q, h, apply_rotate _ _⟩

theorem normalized_x_axis {a : ℝ} (ha : 0 < a) : (⟨a, 0⟩ : Vec ℝ).normalized = ⟨1, 0⟩ := by
  have hl : (⟨a, 0⟩ : Vec ℝ).length = a := by simp [Vec.length, ha.le]
  unfold Vec.normalized
  rw [if_neg (by simp [ha.ne']), hl]
  ext <;> simp [Vec.divBy, ha.ne']

theorem normalized_neg_x_axis {a : ℝ} (ha : 0 < a) : (⟨-a, 0⟩ : Vec ℝ).normalized = ⟨-1, 0⟩ := by
  have hl : (⟨-a, 0⟩ : Vec ℝ).length = a := by simp [Vec.length, ha.le]
  unfold Vec.normalized
  rw [if_neg (by simp [ha.ne']), hl]
  ext <;> simp [Vec.divBy, ha.ne', neg_div]

/-- The two halves of a ring. -/
theorem ring_shapes (c : Vec ℝ) {d k : ℝ} (hk : 0 < k) (hd : k < d) (neg : Bool) :
    Shape.newRing c d k neg =
      (⟨.arc ⟨⟨c.x + d / 2, c.y⟩, ⟨c.x - d / 2, c.y⟩, c, true⟩,
        [.arc ⟨⟨c.x - k / 2, c.y⟩, ⟨c.x + k / 2, c.y⟩, c, false⟩], neg⟩,
       ⟨.arc ⟨⟨c.x - d / 2, c.y⟩, ⟨c.x + d / 2, c.y⟩, c, true⟩,
        [.arc ⟨⟨c.x + k / 2, c.y⟩, ⟨c.x - k / 2, c.y⟩, c, false⟩], neg⟩) := by
  have hm : 0 < k / 2 + (d - k) / 2 / 2 := by linarith
  have e0 : (⟨c.x + k / 2 + (d - k) / 2 / 2, c.y⟩ : Vec ℝ) - c = ⟨k / 2 + (d - k) / 2 / 2, 0⟩ := by
    ext <;> simp; ring
  have e1 : (⟨c.x - k / 2 - (d - k) / 2 / 2, c.y⟩ : Vec ℝ) - c = ⟨-(k / 2 + (d - k) / 2 / 2), 0⟩ := by
    ext <;> simp; ring
  simp only [Shape.newRing, Shape.newCwArc, e0, e1, normalized_x_axis hm, normalized_neg_x_axis hm, Vec.scale]
  have key : ∀ a b a' b' : Shape, a = a' → b = b' → (a, b) = (a', b') := by rintro _ _ _ _ rfl rfl; rfl
  apply key <;>
  · congr 1
    · congr 1
      ext1 <;> first | rfl | (ext <;> simp <;> ring)
    · congr 2
      ext1 <;> first | rfl | (ext <;> simp <;> ring)

theorem x_axis_segment {y a b : ℝ} (q : Vec ℝ) (h : a ≤ b) :
    (OnSegment ⟨a, y⟩ ⟨b, y⟩ q ↔ q.y = y ∧ a ≤ q.x ∧ q.x ≤ b) := (horizontal_iff h q).1

theorem ring_area (c : Vec ℝ) {d k : ℝ} (hk : 0 < k) (hd : k < d) (neg : Bool) (p : Vec ℝ) :
    (p ∈ areaOf (Shape.newRing c d k neg).1 ↔ (k / 2) ^ 2 ≤ nsq (p - c) ∧ nsq (p - c) ≤ (d / 2) ^ 2 ∧ p.y ≤ c.y) ∧
    (p ∈ areaOf (Shape.newRing c d k neg).2 ↔ (k / 2) ^ 2 ≤ nsq (p - c) ∧ nsq (p - c) ≤ (d / 2) ^ 2 ∧ c.y ≤ p.y) := by
  rw [ring_shapes c hk hd]
  have hneg : ∀ q : ℝ, ((⟨c.x - q, c.y⟩ : Vec ℝ) - c) = ⟨-((⟨c.x + q, c.y⟩ : Vec ℝ) - c).x, -((⟨c.x + q, c.y⟩ : Vec ℝ) - c).y⟩ := by
    intro q; ext <;> simp
  have sgn : ∀ {a b : ℝ}, 0 < a → (a * b ≤ 0 ↔ b ≤ 0) := by
    intro a b ha; constructor <;> intro h <;> nlinarith
  have sgn' : ∀ {a b : ℝ}, 0 < a → (0 ≤ a * b ↔ 0 ≤ b) := by
    intro a b ha; constructor <;> intro h <;> nlinarith
  have ap : ∀ a : ℝ, nsq ((⟨c.x + a, c.y⟩ : Vec ℝ) - c) = a ^ 2 := by intro a; simp [nsq]
  have am : ∀ a : ℝ, nsq ((⟨c.x - a, c.y⟩ : Vec ℝ) - c) = a ^ 2 := by intro a; simp [nsq]
  have bp : ∀ (a : ℝ) (q : Vec ℝ), cross ((⟨c.x + a, c.y⟩ : Vec ℝ) - c) (q - c) = a * (q.y - c.y) := by
    intro a q; simp [cross]
  have bm : ∀ (a : ℝ) (q : Vec ℝ), cross ((⟨c.x - a, c.y⟩ : Vec ℝ) - c) (q - c) = a * (c.y - q.y) := by
    intro a q; simp [cross]; ring
  have hd2 : 0 < d / 2 := by linarith
  have hk2 : 0 < k / 2 := by linarith
  have hx1 : c.x - d / 2 ≤ c.x - k / 2 := by linarith
  have hx2 : c.x + k / 2 ≤ c.x + d / 2 := by linarith
  constructor
  · have e : ∀ v : ℝ, v ≤ c.y ↔ 1 * (v - c.y) ≤ 0 := by intro v; constructor <;> intro h <;> linarith
    rw [e]
    refine half_ring_area hk2.le (by linarith) (.inl rfl) (fun q => ?_) p
    simp only [OnRim, OnOutline, successors, Shape.segments, List.tail_cons, List.take_succ_cons, List.take_zero,
      List.cons_append, List.nil_append, List.zip_cons_cons, List.zip_nil_left, List.mem_cons, List.not_mem_nil, or_false,
      exists_eq_or_imp, exists_eq_left, Segment.start, Segment.stop]
    rw [half_arc _ _ (hneg _), half_arc _ _ (antipode _ _), ap, am, bp, bm, (horizontal_iff hx1 q).1, (horizontal_iff hx2 q).1]
    simp only [if_true, Bool.false_eq_true, if_false]
    rw [sgn hd2, sgn' hk2, sub_nonpos, sub_nonneg, one_mul, sub_nonpos]
    tauto
  · have e : ∀ v : ℝ, c.y ≤ v ↔ -1 * (v - c.y) ≤ 0 := by intro v; constructor <;> intro h <;> linarith
    rw [e]
    refine half_ring_area hk2.le (by linarith) (.inr rfl) (fun q => ?_) p
    simp only [OnRim, OnOutline, successors, Shape.segments, List.tail_cons, List.take_succ_cons, List.take_zero,
      List.cons_append, List.nil_append, List.zip_cons_cons, List.zip_nil_left, List.mem_cons, List.not_mem_nil, or_false,
      exists_eq_or_imp, exists_eq_left, Segment.start, Segment.stop]
    rw [half_arc _ _ (antipode _ _), half_arc _ _ (hneg _), ap, am, bp, bm, (horizontal_iff hx1 q).2, (horizontal_iff hx2 q).2, ← e]
    simp only [if_true, Bool.false_eq_true, if_false]
    rw [sgn hd2, sgn' hk2, sub_nonpos, sub_nonneg]
    tauto

theorem ring_depicted (r : ℚ) (x y d k : ℚ) (hk : 0 < k) (hd : k < d) :
    List.Forall₂ Depicts (ringHalves (point x y) d k r)
      [.shape (rotated r (Shape.newRing (pt x y) (d : ℝ) (k : ℝ) false).1),
       .shape (rotated r (Shape.newRing (pt x y) (d : ℝ) (k : ℝ) false).2)] := by
  have hk' : (0 : ℝ) < (k : ℝ) := by exact_mod_cast hk
  have hd' : (k : ℝ) < (d : ℝ) := by exact_mod_cast hd
  refine .cons ⟨_, rfl, rfl, fun p => ?_⟩ (.cons ⟨_, rfl, rfl, fun p => ?_⟩ .nil)
  · show _ ↔ Turned _ _ p
    rw [area_rotated, turned_iff, turned_iff, (ring_area _ hk' hd' _ _).1]
    simp [HalfRing, nsq, pt, point]
  · show _ ↔ Turned _ _ p
    rw [area_rotated, turned_iff, turned_iff, (ring_area _ hk' hd' _ _).2]
    simp [HalfRing, nsq, pt, point]

/-! ### Bands along the axes -/

theorem band_vertical (x y t l : ℚ) (hl : 0 < l) (p : Vec ℝ) :
    Band (pt x (y - l / 2)) (pt x (y + l / 2)) t p ↔
      Rectangle (point (x - t / 2) (y - l / 2)) (point (x + t / 2) (y + l / 2)) p := by
  have hl' : (0 : ℝ) < (l : ℝ) := by exact_mod_cast hl
  have hv : vlen (pt x (y + l / 2) - pt x (y - l / 2)) = (l : ℝ) := by
    have : (pt x (y + l / 2) - pt x (y - l / 2)) = (⟨0, (l : ℝ)⟩ : Vec ℝ) := by ext <;> simp [pt]
    rw [this]; simp [vlen, hl'.le]
  unfold Band Rectangle
  rw [hv, abs_le]
  simp only [pt, point]
  push_cast
  constructor
  · rintro ⟨h0, h1, h2, h3⟩
    refine ⟨?_, ?_, ?_, ?_⟩ <;> nlinarith
  · rintro ⟨h0, h1, h2, h3⟩
    refine ⟨?_, ?_, ?_, ?_⟩ <;> nlinarith

theorem band_horizontal (x y t l : ℚ) (hl : 0 < l) (p : Vec ℝ) :
    Band (pt (x - l / 2) y) (pt (x + l / 2) y) t p ↔
      Rectangle (point (x - l / 2) (y - t / 2)) (point (x + l / 2) (y + t / 2)) p := by
  have hl' : (0 : ℝ) < (l : ℝ) := by exact_mod_cast hl
  have hv : vlen (pt (x + l / 2) y - pt (x - l / 2) y) = (l : ℝ) := by
    have : (pt (x + l / 2) y - pt (x - l / 2) y) = (⟨(l : ℝ), 0⟩ : Vec ℝ) := by ext <;> simp [pt]
    rw [this]; simp [vlen, hl'.le]
  unfold Band Rectangle
  rw [hv, abs_le]
  simp only [pt, point]
  push_cast
  constructor
  · rintro ⟨h0, h1, h2, h3⟩
    refine ⟨?_, ?_, ?_, ?_⟩ <;> nlinarith
  · rintro ⟨h0, h1, h2, h3⟩
    refine ⟨?_, ?_, ?_, ?_⟩ <;> nlinarith

/-! ### Polygons -/

theorem connect_zip : ∀ (ps : List (Vec ℝ)) (p q : Vec ℝ),
    (((p :: ps).zip (ps ++ [q])).map fun c => Segment.line ⟨c.1, c.2⟩) =
      Shape.connect (p :: ps) ++ [.line ⟨(p :: ps).getLast (by simp), q⟩] := by
  intro ps
  induction ps with
  | nil => intro p q; rfl
  | cons b bs ih =>
    intro p q
    have := ih b q
    simp only [List.cons_append, List.zip_cons_cons, List.map_cons, Shape.connect] at this ⊢
    rw [this]
    simp

/-- The sides of the polygon with the given corners, as lines. -/
def polygonSides (corners : List (Vec ℝ)) : List Segment :=
  (corners.zip (corners.tail ++ corners.take 1)).map fun c => .line ⟨c.1, c.2⟩

theorem zip_next_next {α : Type} (l : List α) : ∀ g ∈ (l.zip (l.tail ++ l.take 1)).zip
    ((l.zip (l.tail ++ l.take 1)).tail ++ (l.zip (l.tail ++ l.take 1)).take 1), g.1.2 = g.2.1 := by
  intro g hg
  obtain ⟨i, hi, rfl⟩ := List.getElem_of_mem hg
  cases l with
  | nil => simp at hi
  | cons a l =>
    simp only [List.length_zip, List.length_append, List.length_tail, List.length_take, List.length_cons] at hi
    have hlen : ((a :: l).zip ((a :: l).tail ++ (a :: l).take 1)).length = l.length + 1 := by simp
    simp only [List.getElem_zip]
    by_cases h : i < l.length
    · rw [List.getElem_append_left (by simpa using h), List.getElem_append_left (by simp; omega)]
      simp [List.getElem_tail]
    · have hil : i = l.length := by omega
      subst hil
      rw [List.getElem_append_right (by simp), List.getElem_append_right (by simp)]
      simp

/-- A shape whose pieces are the sides of a polygon covers the polygon. -/
theorem polygon_area {s : Shape} {corners : List (Vec ℝ)} (h : s.segments = polygonSides corners) (p : Vec ℝ) :
    p ∈ areaOf s ↔ Polygon corners p := by
  unfold areaOf Polygon
  rw [surrounded_congr]
  intro q
  rw [onRim_connected]
  · unfold OnOutline
    rw [h]
    simp only [polygonSides, List.mem_map, exists_exists_and_eq_and, OnPiece]
  · rw [h]
    unfold polygonSides successors
    rw [← List.map_tail, ← List.map_take, ← List.map_append, List.zip_map]
    intro g hg
    obtain ⟨g', hg', rfl⟩ := List.mem_map.1 hg
    refine ⟨zip_next_next _ _ hg', ?_⟩
    exact onSegment_start _ _

theorem connectedPoints_sides (p : Vec ℝ) (ps : List (Vec ℝ)) : Shape.connectedPoints p ps = polygonSides (p :: ps) := by
  have := connect_zip ps p p
  simp only [Shape.connectedPoints, polygonSides, List.tail_cons, List.take_succ_cons, List.take_zero]
  exact this.symm

theorem polygonSides_rotated (vs : List (Vec ℝ)) (r : ℚ) :
    (polygonSides vs).map (·.transform (Mat.newRotate r)) = polygonSides (vs.map (rotCcw ((r : ℝ) * π / 180))) := by
  unfold polygonSides
  rw [← List.map_tail, ← List.map_take, ← List.map_append, List.zip_map, List.map_map, List.map_map]
  apply List.map_congr_left
  rintro ⟨a, b⟩ -
  simp only [Function.comp, Segment.transform, Line.transform, apply_rotate, Prod.map]

theorem polygonSides_range {n : ℕ} (f : ℕ → Vec ℝ) (h : f n = f 0) :
    polygonSides ((List.range n).map f) = (List.range n).map fun j => .line ⟨f j, f (j + 1)⟩ := by
  unfold polygonSides
  apply List.ext_getElem
  · cases n <;> simp
  · intro i h1 h2
    simp only [List.length_map, List.length_range] at h2
    simp only [List.getElem_map, List.getElem_zip, List.getElem_range]
    congr 2
    by_cases hi : i + 1 < n
    · rw [List.getElem_append_left (by simp; omega)]
      simp [List.getElem_tail]
    · have : i + 1 = n := by omega
      rw [List.getElem_append_right (by simp; omega)]
      have hi0 : i - (n - 1) = 0 := by omega
      simp only [List.length_tail, List.length_map, List.length_range, hi0, List.getElem_take, List.getElem_map,
        List.getElem_range]
      rw [this, h]

theorem shapeOf_ok {l : List Segment} (h : l ≠ []) (neg : Bool) :
    ∃ s, shapeOf l neg = .ok s ∧ s.segments = l ∧ s.negative = neg := by
  cases l with
  | nil => exact absurd rfl h
  | cons g gs => exact ⟨_, rfl, rfl, rfl⟩

end Verif.Lemmas.MacroShape
