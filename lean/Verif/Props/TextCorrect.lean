import Verif.Props.Outlined
import Verif.Props.TextImage

/-!
# C89: correct texts are rendered
-/

namespace Verif.Props.TextCorrect
open Verif.Visitor Verif.Geom Verif.Compiler Verif.Console Verif.Raster Verif.ImageSpace Verif.Spec Verif.Syntax Verif.Grammar
  Verif.View Verif.Vm Verif.Rvmc Verif.Render Verif.Props.Picture Verif.Props.FlashImage Verif.Props.Image Verif.Props.State
  Verif.Props.Compiler

open Verif.Peg in
/-- **C89** (texts; partial as `c89_raster_partial`, and no macro aperture has the name of a standard one).  A text that spells the
commands of such a file is parsed, compiled and rendered without an error, and its pixels away from outlines show its picture. -/
theorem c89_text_partial (date : Text → Option Text) (code written blanks : Text) (f : List Node) (hf : f ≠ [])
    (hn : ∀ n, Occurs n f → ¬LooksStandard n) (hs : Spelled date true f written) (hb : Blank blanks)
    (hx : Expanded code (written ++ blanks))
    (env : Env) (hiter : ∀ l, (env.iter l).Perm l) (hdepth : 3 ≤ env.depth)
    (s : Sheet) (picture : List (Painted (Vec ℝ))) (hp : Pictured (executed true (commands f)) s)
    (hl : s.drawn.getLast? = some picture) (ha : Avoids (executed true (commands f)))
    (ho : PlainOutlines (executed true (commands f))) (he : Executable (executed true (commands f))) (hfull : HasArea picture)
    (hflash : ∀ p x y q id d objects, executed true (commands f) = p ++ .leaf (.d03 x y) :: q → selected p = some id →
      s.tools id = some (.single d objects) → HasArea objects)
    (Ra : Raster) (fail : Bool) (style : Style) (dpmm : ℤ) (hd : 0 < dpmm) :
    ∃ g, parseCode date code = .file g ∧
      ∃ fuel, ∀ more, fuel ≤ more → ∃ space image, renderWithPillow env false Ra more fail style dpmm (commands g) = .ok (space, image) ∧
        ∀ ρ : ℝ, 0 ≤ ρ → FillsEvenOdd ρ Ra.fill →
        ∃ c layers, compiled env (executed true (commands g)) = .ok c ∧ (∀ l ∈ layers, c.buffers.get? l.id = some l.cmds) ∧
          ∀ column row, (column, row) ∈ image.frame → ∀ P,
            P = pixelPlace (lowerLeft ⟨space.minX, space.minY, space.maxX, space.maxY⟩) dpmm
              (towardZero (|space.maxY - space.minY| * dpmm)) column row →
            AwayFromOutlines layers dpmm ρ .main P →
            (Covered picture P → image.pixel (column, row) = style.foreground) ∧
            (¬ Covered picture P → image.pixel (column, row) = style.background) :=
  ⟨f, Props.Written.c86_written_is_read date code written blanks f hf hn hs hb hx,
    Rendered.c89_raster_partial env hiter hdepth (commands f) s picture hp hl ha ho he hfull hflash Ra fail style dpmm hd⟩

/-! ### Non-vacuity -/

open Verif.Peg in
/-- The text of a pad is rendered. -/
example (style : Style) : ∃ g, parseCode (fun _ => none) TextImage.padCode = .file g ∧ ∃ fuel, ∀ more, fuel ≤ more → ∃ space image,
    renderWithPillow env0 false Pixels.exactRaster more false style 20 (commands g) = .ok (space, image) := by
  obtain ⟨_, w, b, h1, rfl, h2, h3⟩ := Props.Written.c85_read_is_written _ _ _ TextImage.pad_parsed
  obtain ⟨s, picture, k1, k2, k3, k4⟩ := Rendered.pad_area
  obtain ⟨g, g1, fuel, h⟩ := c89_text_partial _ TextImage.padCode w b TextImage.padNodes nofun TextImage.pad_named h3 h2 h1
    env0 (fun _ => .refl _) (by decide) s picture k1 k2
    Enclosed.pad_avoids Enclosed.pad_outlines Rendered.pad_executable k3 (fun _ _ _ _ id d objects _ _ => k4 id d objects)
    Pixels.exactRaster false style 20 (by norm_num)
  exact ⟨g, g1, fuel, fun more hm => (h more hm).imp fun space => Exists.imp fun image h => h.1⟩

end Verif.Props.TextCorrect
