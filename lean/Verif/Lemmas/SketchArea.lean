import Verif.Spec.Sketch
import Verif.Props.MacroShape

/-!
# The areas of the figures of the RVMC builder
-/

namespace Verif.Sketch
open Verif.Geom Verif.Rvmc Verif.Spec Verif.RvmcBuilder Verif.Lemmas.MacroShape Verif.Lemmas.ShapeArea Real

/-- A thick line encloses a stripe. -/
theorem stripe_enclosed {s e : Vec ℝ} (hne : s ≠ e) {w : ℝ} (hw : 0 ≤ w) (neg : Bool) (p : Vec ℝ) :
    p ∈ areaOf (Shape.newLine s e w neg) ↔ p ∈ Stripe s e w := by
  rw [line_enclosed _ _ _ hw]
  have hes : e - s ≠ ⟨0, 0⟩ := by
    intro h; apply hne
    have hx := congrArg Vec.x h
    have hy := congrArg Vec.y h
    simp at hx hy
    ext <;> linarith
  obtain ⟨hL, hx, hy⟩ := normalized_scale (e - s) hes
  have hu := unit_normalized (e - s)
  set L := vlen (e - s) with hLdef
  set u := (e - s).normalized with hudef
  simp only [Vec.sub_x, Vec.sub_y] at hx hy
  have hwr : (0 : ℝ) ≤ w := hw
  have hLL : (e.x - s.x) ^ 2 + (e.y - s.y) ^ 2 = L ^ 2 := by rw [hx, hy]; linear_combination L ^ 2 * hu
  show _ ↔ (_ ∧ _ ∧ _)
  rw [hLL, ← hLdef]
  constructor
  · rintro ⟨l, m, l0, l1, m0, m1, rfl⟩
    have e1 : (s.x + l * (e.x - s.x) - m * (u.y * (w / 2)) - s.x) * (e.x - s.x) +
        (s.y + l * (e.y - s.y) + m * (u.x * (w / 2)) - s.y) * (e.y - s.y) = l * L ^ 2 := by
      rw [← hLL, hx, hy]; ring
    have e2 : (e.x - s.x) * (s.y + l * (e.y - s.y) + m * (u.x * (w / 2)) - s.y) -
        (e.y - s.y) * (s.x + l * (e.x - s.x) - m * (u.y * (w / 2)) - s.x) = m * (w / 2 * L) := by
      rw [hx, hy]; linear_combination (m * (w / 2) * L) * hu
    simp only [e1, e2]
    refine ⟨by positivity, by nlinarith [sq_nonneg L], ?_⟩
    rw [abs_le]
    have : 0 ≤ w / 2 * L := by positivity
    constructor <;> nlinarith
  · rintro ⟨h0, h1, h2⟩
    rw [abs_le] at h2
    set dot := (p.x - s.x) * (e.x - s.x) + (p.y - s.y) * (e.y - s.y) with hdot
    set crs := (e.x - s.x) * (p.y - s.y) - (e.y - s.y) * (p.x - s.x) with hcrs
    have hd : dot = L * ((p.x - s.x) * u.x + (p.y - s.y) * u.y) := by rw [hdot, hx, hy]; ring
    have hc : crs = L * (u.x * (p.y - s.y) - u.y * (p.x - s.x)) := by rw [hcrs, hx, hy]; ring
    have hL2 : 0 < L ^ 2 := by positivity
    rcases eq_or_lt_of_le hwr with h | h
    · rw [← h] at h2 ⊢
      have hc0 : u.x * (p.y - s.y) - u.y * (p.x - s.x) = 0 := by
        have : crs = 0 := by linarith [h2.1, h2.2]
        rw [hc] at this
        rcases mul_eq_zero.1 this with h | h
        · exact absurd h hL.ne'
        · exact h
      refine ⟨dot / L ^ 2, 0, div_nonneg h0 hL2.le, by rw [div_le_one hL2]; exact h1, by norm_num, by norm_num, ?_⟩
      have hq : dot / L ^ 2 * L = (p.x - s.x) * u.x + (p.y - s.y) * u.y := by rw [hd]; field_simp
      ext
      · simp only [hx]; linear_combination (-(p.x - s.x)) * hu - u.y * hc0 - u.x * hq
      · simp only [hy]; linear_combination (-(p.y - s.y)) * hu + u.x * hc0 - u.y * hq
    · have hk : 0 < w / 2 * L := by positivity
      refine ⟨dot / L ^ 2, crs / (w / 2 * L), div_nonneg h0 hL2.le, by rw [div_le_one hL2]; exact h1, ?_, ?_, ?_⟩
      · rw [le_div_iff₀ hk]; linarith [h2.1]
      · rw [div_le_one hk]; exact h2.2
      · rw [hd, hc]
        ext
        · simp only [hx]; field_simp; linear_combination (-(p.x - s.x)) * hu
        · simp only [hy]; field_simp; linear_combination (-(p.y - s.y)) * hu

theorem bar_enclosed (c : Vec ℝ) {w h : ℝ} (hw : 0 ≤ w) (hh : 0 ≤ h) (neg : Bool) : areaOf (Shape.newRectangle c w h neg) = Bar c w h := by
  ext p
  rw [rectangle_enclosed c p hw hh]
  show _ ↔ (|p.x - c.x| ≤ w / 2 ∧ |p.y - c.y| ≤ h / 2)
  rw [abs_le, abs_le]
  constructor
  · rintro ⟨⟨a, b⟩, e, f⟩
    exact ⟨⟨by linarith, by linarith⟩, by linarith, by linarith⟩
  · rintro ⟨⟨a, b⟩, e, f⟩
    exact ⟨⟨by linarith, by linarith⟩, by linarith, by linarith⟩

theorem polygon_made (c : Vec ℝ) (d : ℝ) {n : ℤ} (r : ℝ) (neg : Bool) (hn : 3 ≤ n) (h0 : 0 ≤ r) (h1 : r < 360 / n) :
    ∃ s, Compiler.polygon c d n r neg = .ok s ∧ s.negative = neg ∧ s.segments = polygonSides (regularCorners c d n.toNat r) := by
  obtain ⟨m, rfl⟩ : ∃ m : ℕ, n = m := ⟨n.toNat, by omega⟩
  have hs := Props.MacroShape.polygon_sides (x := c.x) (y := c.y) (d := d) (rot := r) (n := m) (by omega) h0 (by simpa using h1)
  unfold Compiler.polygon
  rw [if_neg (by omega)]
  simp only [Int.toNat_natCast]
  have e : Shape.polygonSegments c d m r = polygonSides (regularCorners c d m r) := hs
  rw [e]
  have hne := Props.MacroShape.polygonSides_ne_nil (n := m) (by omega)
    fun (k : ℕ) => c + rotCcw (r * π / 180) ⟨d / 2 * cos (2 * π * k / m), d / 2 * sin (2 * π * k / m)⟩
  unfold regularCorners
  cases hl : polygonSides ((List.range m).map fun (k : ℕ) => c + rotCcw (r * π / 180) ⟨d / 2 * cos (2 * π * k / m), d / 2 * sin (2 * π * k / m)⟩) with
  | nil => exact absurd hl hne
  | cons g gs => exact ⟨⟨g, gs, neg⟩, rfl, rfl, rfl⟩

/-- The shapes of a figure cover its parts. -/
theorem shapes_parts (m : Mark) (hm : Plausible m) (neg : Bool) :
    ∃ ss, m.shapes neg = .ok ss ∧ List.Forall₂ (fun s part => s.negative = neg ∧ areaOf s = part) ss (parts m) := by
  cases m with
  | circle c d =>
    refine ⟨_, rfl, .cons ⟨rfl, ?_⟩ .nil⟩
    ext p
    exact circle_enclosed c p hm neg
  | rectangle c w h => exact ⟨_, rfl, .cons ⟨rfl, bar_enclosed c hm.1 hm.2 neg⟩ .nil⟩
  | obround c w h =>
    obtain ⟨hw, hh⟩ := hm
    refine ⟨_, rfl, .cons ⟨?_, ?_⟩ .nil⟩
    · simp only [Shape.newObround]; split <;> rfl
    · ext p
      show _ ↔ Swept _ _ _ p
      by_cases hwh : w ≤ h
      · rw [obround_vertical c p hw hwh neg, min_eq_left hwh]
        have e1 : c - (⟨(w - w) / 2, (h - w) / 2⟩ : Vec ℝ) = ⟨c.x, c.y - (h - w) / 2⟩ := by ext <;> simp
        have e2 : c + (⟨(w - w) / 2, (h - w) / 2⟩ : Vec ℝ) = ⟨c.x, c.y + (h - w) / 2⟩ := by ext <;> simp
        rw [e1, e2]
      · rw [not_le] at hwh
        rw [obround_horizontal c p hh hwh neg, min_eq_right hwh.le]
        have e1 : c - (⟨(w - h) / 2, (h - h) / 2⟩ : Vec ℝ) = ⟨c.x - (w - h) / 2, c.y⟩ := by ext <;> simp
        have e2 : c + (⟨(w - h) / 2, (h - h) / 2⟩ : Vec ℝ) = ⟨c.x + (w - h) / 2, c.y⟩ := by ext <;> simp
        rw [e1, e2]
  | polygon c d n r =>
    obtain ⟨hn, h0, h1⟩ := hm
    obtain ⟨s, k1, k2, k3⟩ := polygon_made c d r neg hn h0 h1
    refine ⟨[s], by simp only [Mark.shapes, k1]; rfl, .cons ⟨k2, ?_⟩ .nil⟩
    ext p
    exact polygon_area k3 p
  | line a b t =>
    refine ⟨_, rfl, .cons ⟨rfl, ?_⟩ .nil⟩
    ext p
    exact stripe_enclosed hm.2 hm.1 neg p
  | cross c w h t =>
    exact ⟨_, rfl, .cons ⟨rfl, bar_enclosed c hm.1 hm.2.2 neg⟩ (.cons ⟨rfl, bar_enclosed c hm.2.2 hm.2.1 neg⟩ .nil)⟩
  | x c l t =>
    obtain ⟨hl, ht⟩ := hm
    refine ⟨_, rfl, .cons ⟨rfl, ?_⟩ (.cons ⟨rfl, ?_⟩ .nil)⟩
    · ext p
      rw [stripe_enclosed (fun h => ?_) ht]
      · rfl
      · have := congrArg Vec.x h
        simp at this
        linarith
    · ext p
      rw [stripe_enclosed (fun h => ?_) ht]
      · have e1 : (c + ⟨-l / 2, l / 2⟩ : Vec ℝ) = ⟨c.x - l / 2, c.y + l / 2⟩ := by ext <;> (simp; try ring)
        have e2 : (c - ⟨-l / 2, l / 2⟩ : Vec ℝ) = ⟨c.x + l / 2, c.y - l / 2⟩ := by ext <;> (simp; try ring)
        rw [e1, e2]
      · have := congrArg Vec.x h
        simp at this
        linarith

end Verif.Sketch
