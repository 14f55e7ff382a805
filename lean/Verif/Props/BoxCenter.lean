import Verif.Model.Geom
import Mathlib.Data.Real.Basic
import Mathlib.Tactic.Linarith
import Mathlib.Tactic.NormNum
import Mathlib.Tactic.Ring
import Mathlib.Tactic.FieldSimp

/-!
# C27: boxes given by their centre and size
-/

namespace Verif.Props.BoxCenter
open Verif.Geom

variable {K : Type*} [Field K] [LinearOrder K] [IsStrictOrderedRing K]

/-- **C27** (boxes with a given centre). A box made of a centre, a width and a height has them, and holds exactly the points
that are no farther from the centre than half of them. -/
theorem c27_center (c : Vec K) (w h : K) (hw : 0 ≤ w) (hh : 0 ≤ h) :
    (Box.fromCenterWidthHeight c w h).center = c ∧ (Box.fromCenterWidthHeight c w h).width = w ∧
    (Box.fromCenterWidthHeight c w h).height = h ∧
    ∀ p : Vec K, ((Box.fromCenterWidthHeight c w h).minX ≤ p.x ∧ p.x ≤ (Box.fromCenterWidthHeight c w h).maxX ∧
      (Box.fromCenterWidthHeight c w h).minY ≤ p.y ∧ p.y ≤ (Box.fromCenterWidthHeight c w h).maxY) ↔
      2 * |p.x - c.x| ≤ w ∧ 2 * |p.y - c.y| ≤ h := by
  have habs : ∀ a b : K, 2 * |a| ≤ b ↔ -(b / 2) ≤ a ∧ a ≤ b / 2 := by
    intro a b
    rw [← abs_le, le_div_iff₀' (by norm_num)]
  refine ⟨?_, ?_, ?_, fun p => ?_⟩
  · ext
    · simp only [Box.center, Box.fromCenterWidthHeight]; ring
    · simp only [Box.center, Box.fromCenterWidthHeight]; ring
  · simp only [Box.width, Box.fromCenterWidthHeight]
    rw [show c.x + w / 2 - (c.x - w / 2) = w by ring, abs_of_nonneg hw]
  · simp only [Box.height, Box.fromCenterWidthHeight]
    rw [show c.y + h / 2 - (c.y - h / 2) = h by ring, abs_of_nonneg hh]
  · rw [habs, habs]
    simp only [Box.fromCenterWidthHeight]
    constructor
    · rintro ⟨h1, h2, h3, h4⟩
      exact ⟨⟨by linarith, by linarith⟩, by linarith, by linarith⟩
    · rintro ⟨⟨h1, h2⟩, h3, h4⟩
      exact ⟨by linarith, by linarith, by linarith, by linarith⟩

/-- **C27** (and back). Every box that is not inverted is the box of its centre, its width and its height. -/
theorem c27_center_back (b : Box K) (hx : b.minX ≤ b.maxX) (hy : b.minY ≤ b.maxY) :
    Box.fromCenterWidthHeight b.center b.width b.height = b := by
  have h1 : |b.maxX - b.minX| = b.maxX - b.minX := abs_of_nonneg (by linarith)
  have h2 : |b.maxY - b.minY| = b.maxY - b.minY := abs_of_nonneg (by linarith)
  ext <;> simp only [Box.fromCenterWidthHeight, Box.center, Box.width, Box.height, h1, h2] <;> ring

/-- A box that is not inverted. -/
example : Box.fromCenterWidthHeight (⟨3 / 2, 4⟩ : Vec ℚ) 1 4 = ⟨1, 2, 2, 6⟩ ∧ (0 : ℚ) ≤ 1 ∧ (0 : ℚ) ≤ 4 ∧ (1 : ℚ) ≤ 2 ∧ (2 : ℚ) ≤ 6 := by
  refine ⟨?_, by norm_num, by norm_num, by norm_num, by norm_num⟩
  simp only [Box.fromCenterWidthHeight]
  norm_num

end Verif.Props.BoxCenter
