import Verif.Props.Written
import Verif.Props.Vector

/-!
# C88: the image of a text shows the picture that its commands describe
-/

namespace Verif.Props.TextImage
open Verif.Visitor Verif.Geom Verif.Compiler Verif.Console Verif.Raster Verif.ImageSpace Verif.Spec Verif.Syntax Verif.Grammar
  Verif.View Verif.Vm Verif.Rvmc Verif.Render Verif.Props.Picture Verif.Props.FlashImage Verif.Props.Image Verif.Props.State

open Verif.Peg in
/-- **C88** (raster images; partial: the commands are as in C82, and no macro aperture has the name of a standard one). Let a text
spell commands, in any of the ways in which they can be written. It is parsed, and if it is rendered, a pixel away from the
outlines has the foreground colour exactly when the picture that the commands describe covers its place, and otherwise the
background colour. -/
theorem c88_raster_partial (date : Text → Option Text) (code written blanks : Text) (f : List Node) (hf : f ≠ [])
    (hn : ∀ n, Occurs n f → ¬LooksStandard n) (hs : Spelled date true f written) (hb : Blank blanks)
    (he : Expanded code (written ++ blanks)) (ignore : Bool)
    (s : Sheet) (picture : List (Painted (Vec ℝ))) (hp : Pictured (executed (!ignore) (commands f)) s)
    (hl : s.drawn.getLast? = some picture) (ha : Avoids (executed (!ignore) (commands f)))
    (ho : PlainOutlines (executed (!ignore) (commands f))) :
    ∃ g, parseCode date code = .file g ∧
      ∀ (env : Env) (Ra : Raster) fuel fail style (dpmm : ℤ) space image, 0 < dpmm →
        renderWithPillow env ignore Ra fuel fail style dpmm (commands g) = .ok (space, image) →
        ∀ ρ : ℝ, 0 ≤ ρ → FillsEvenOdd ρ Ra.fill →
        ∃ c layers, compiled env (executed (!ignore) (commands g)) = .ok c ∧ (∀ l ∈ layers, c.buffers.get? l.id = some l.cmds) ∧
          ∀ column row, (column, row) ∈ image.frame → ∀ P,
            P = pixelPlace (lowerLeft ⟨space.minX, space.minY, space.maxX, space.maxY⟩) dpmm
              (towardZero (|space.maxY - space.minY| * dpmm)) column row →
            AwayFromOutlines layers dpmm ρ .main P →
            (Covered picture P → image.pixel (column, row) = style.foreground) ∧
            (¬ Covered picture P → image.pixel (column, row) = style.background) := by
  refine ⟨f, Props.Written.c86_written_is_read date code written blanks f hf hn hs hb he, ?_⟩
  intro env Ra fuel fail style dpmm space image hd h ρ hρ hfill
  exact Props.Enclosed.c82_plain_partial env ignore Ra fuel fail style dpmm hd _ space image h ρ hρ hfill s picture hp hl ha ho

open Verif.Peg in
/-- **C88** (geometry; partial as above).  Likewise for the geometry given by the Shapely backend. -/
theorem c88_geometry_partial (date : Text → Option Text) (code written blanks : Text) (f : List Node) (hf : f ≠ [])
    (hn : ∀ n, Occurs n f → ¬LooksStandard n) (hs : Spelled date true f written) (hb : Blank blanks)
    (he : Expanded code (written ++ blanks)) (ignore : Bool)
    (s : Sheet) (picture : List (Painted (Vec ℝ))) (hp : Pictured (executed (!ignore) (commands f)) s)
    (hl : s.drawn.getLast? = some picture) (ha : Avoids (executed (!ignore) (commands f)))
    (ho : PlainOutlines (executed (!ignore) (commands f))) :
    ∃ g, parseCode date code = .file g ∧
      ∀ env prog, compile env ignore (commands g) = .ok prog →
        ∀ (G : Geos) count (n : ℕ) fuel fail e, 3 ≤ n → (∀ l, (n : ℤ) ≤ count l) →
        Vm.run (shapely G count fuel) fail .main prog = .ok (some e) →
        ∃ c layers, compiled env (executed (!ignore) (commands g)) = .ok c ∧ (∀ l ∈ layers, c.buffers.get? l.id = some l.cmds) ∧
          ((∀ l ∈ layers, ∀ s, .shape s ∈ l.cmds → ∀ pts, shapelyVertices count fuel s = .ok pts → EvenOddInside (G.region pts) pts) →
            ∀ p, ClearOfOutlines n layers .main p → (p ∈ shapelyResult e ↔ Covered picture p)) := by
  refine ⟨f, Props.Written.c86_written_is_read date code written blanks f hf hn hs hb he, ?_⟩
  intro env prog hc G count n fuel fail e h3 hcount h
  exact Props.Vector.c84_geometry_partial env ignore _ prog hc G count n h3 hcount fuel fail e h s picture hp hl ha ho

open Verif.Peg in
/-- **C88** (ways of writing). How commands are written makes no difference: two texts that spell the same commands are compiled into
the same program, and their raster images are the same, or both fail with the same exception. -/
theorem c88_same_image_partial (date : Text → Option Text) (f : List Node) (hf : f ≠ []) (hn : ∀ n, Occurs n f → ¬LooksStandard n)
    (code written blanks code' written' blanks' : Text)
    (hs : Spelled date true f written) (hb : Blank blanks) (he : Expanded code (written ++ blanks))
    (hs' : Spelled date true f written') (hb' : Blank blanks') (he' : Expanded code' (written' ++ blanks')) :
    ∃ g g', parseCode date code = .file g ∧ parseCode date code' = .file g' ∧
      (∀ env ignore, compile env ignore (commands g) = compile env ignore (commands g')) ∧
      ∀ env ignore Ra fuel fail style dpmm, renderWithPillow env ignore Ra fuel fail style dpmm (commands g) =
        renderWithPillow env ignore Ra fuel fail style dpmm (commands g') :=
  ⟨f, f, Props.Written.c86_written_is_read date code written blanks f hf hn hs hb he,
    Props.Written.c86_written_is_read date code' written' blanks' f hf hn hs' hb' he', fun _ _ => rfl, fun _ _ _ _ _ _ _ => rfl⟩

/-! ### A sample -/

section
open Verif.Peg Verif.Props.Enclosed Verif.Props.Compiler Verif.Props.Pixels

/-- The text of a file with a pad. -/
def padCode : Text := t!"%MOMM*%\n%FSLAX26Y26*% %ADD10R,4X2*%\nD10*D03*\n"

/-- Its commands. -/
def padNodes : List Node := [.mo .metric, .fs .skipLeading .absolute 2 6 2 6, .adr t!"D10" 4 2 none, .dnn t!"D10" true, .d03 none none true]

theorem pad_parsed : parseCode (fun _ => none) padCode = .file padNodes := by
  have : ∃ a b : ℚ, a = 4 ∧ b = 2 ∧ parseCode (fun _ => none) padCode =
      .file [.mo .metric, .fs .skipLeading .absolute 2 6 2 6, .adr t!"D10" a b none, .dnn t!"D10" true, .d03 none none true] :=
    ⟨_, _, by decide +kernel, by decide +kernel, rfl⟩
  obtain ⟨a, b, rfl, rfl, h⟩ := this
  exact h

theorem pad_named (n : Node) (h : Occurs n padNodes) : ¬LooksStandard n := by
  cases h with
  | here h =>
    simp only [padNodes, List.mem_cons, List.not_mem_nil, or_false] at h
    rcases h with rfl | rfl | rfl | rfl | rfl <;> exact fun h => h
  | block h _ => simp [padNodes] at h
  | repeated h _ => simp [padNodes] at h

/-- The text spells the commands, and the pixel in the middle of its image, which the pad covers, has the foreground colour. -/
example (style : Style) : ∃ written blanks, Spelled (fun _ => none) true padNodes written ∧ Blank blanks ∧ Expanded padCode (written ++ blanks) ∧
    ∃ g space image, parseCode (fun _ => none) padCode = .file g ∧
      renderWithPillow env0 false exactRaster 1 false style 20 (commands g) = .ok (space, image) ∧ image.pixel (40, 19) = style.foreground := by
  obtain ⟨_, w, b, h1, rfl, h2, h3⟩ := Props.Written.c85_read_is_written _ _ _ pad_parsed
  refine ⟨w, b, h3, h2, h1, ?_⟩
  obtain ⟨s, h5, picture, h6, h7⟩ := pad_pictured
  obtain ⟨g, g1, g2⟩ := c88_raster_partial _ padCode w b padNodes nofun pad_named h3 h2 h1 false s picture h5 h6 pad_avoids pad_outlines
  have : Outcome.file g = Outcome.file padNodes := g1.symm.trans pad_parsed
  cases this
  obtain ⟨space, image, k1, k2, k3, k4⟩ := pad_rendered exactRaster style .metric
  obtain ⟨c, layers, h8, h9, h10⟩ := g2 env0 exactRaster 1 false style 20 space image (by norm_num) k1 0 le_rfl (fun _ _ _ => Iff.rfl)
  refine ⟨_, space, image, g1, k1, (h10 40 19 ⟨by norm_num, by rw [k3]; norm_num, by norm_num, by rw [k4]; norm_num⟩ ⟨0, 0⟩ ?_ ?_).1 h7⟩
  · have : towardZero (|(1 : ℝ) - -1| * (20 : ℤ)) = 40 := by unfold towardZero; norm_num
    rw [k2]
    simp only [this]
    norm_num [pixelPlace, lowerLeft]
  · obtain ⟨c', e1, e2⟩ := pad_compiled
    have : Except.ok c' = Except.ok c := e1.symm.trans h8
    cases this
    exact pad_away h9 e2

end

end Verif.Props.TextImage
