import Verif.Lemmas.SolidLayers
import Verif.Props.Rendered

/-!
# C89: correct files are rendered to geometries
-/

namespace Verif.Props.Outlined
open Verif.Visitor Verif.Coord Verif.Geom Verif.Rvmc Verif.Vm Verif.Compiler Verif.Spec Verif.Props.State Verif.Macro
  Verif.Props.Compiler Verif.Props.FlashImage Verif.Props.Picture Verif.Lemmas.Picture Verif.Lemmas.Compiles
  Verif.Props.Correct Verif.Render Verif.ImageSpace Verif.Raster Verif.Sim Verif.Props.Arcs Verif.SolidLayers Verif.Props.Rendered
noncomputable section

theorem addStart_length (points : List (Vec ℝ)) (p : Vec ℝ) : points.length ≤ (addStart points p).length ∧ 1 ≤ (addStart points p).length := by
  unfold addStart
  split
  · next h =>
    refine ⟨le_rfl, ?_⟩
    cases points with
    | nil => simp at h
    | cons => simp
  · simp

/-- The points of an arc are two at least. -/
theorem shapelyArc_two (count : ℝ → ℤ) (n : ℤ) (hn : 1 ≤ n) (hcount : ∀ l, n ≤ count l) (a : Arc) (hg : NotClosed (.arc a)) :
    ∃ fuel pts, 2 ≤ pts.length ∧ ∀ more, fuel ≤ more → shapelyArc count more a = .ok pts := by
  obtain ⟨hs, hlen, hne⟩ := hg
  obtain ⟨he, t, ht, hlt⟩ := sweep_exists a hs hlen hne
  obtain ⟨fuel, offs, hd, h⟩ := c54_shapely_partial a hs he t ht hlt count n hn hcount
  obtain ⟨h0, h1⟩ := arc_ends a t hlen hs ht
  obtain ⟨hhead, hlast, -⟩ := id hd
  refine ⟨fuel, _, ?_, h⟩
  have hlast' : (offs.map (fun τ => a.center + turn a.clockwise τ (a.start - a.center))).getLast? = some a.stop := by
    rw [List.getLast?_map, hlast]; simp [h1]
  have hhead' : (offs.map (fun τ => a.center + turn a.clockwise τ (a.start - a.center))).head? = some a.start := by
    rw [List.head?_map, hhead]; simp [h0]
  generalize offs.map (fun τ => a.center + turn a.clockwise τ (a.start - a.center)) = pts at *
  match pts with
  | [] => simp at hhead'
  | [p] =>
    simp only [List.head?_cons, Option.some.injEq, List.getLast?_singleton] at hhead' hlast'
    exact absurd (hhead'.symm.trans hlast') hne
  | _ :: _ :: _ => simp

theorem segment_length (count : ℝ → ℤ) (n : ℤ) (hn : 1 ≤ n) (hcount : ∀ l, n ≤ count l) (g : Segment) (hg : NotClosed g) :
    ∃ fuel, ∀ more, fuel ≤ more → ∀ points, ∃ pts, shapelySegment count more points g = .ok pts ∧ points.length + 1 ≤ pts.length ∧
      2 ≤ pts.length ∧ ((∃ a, g = .arc a) → 3 ≤ pts.length) := by
  cases g with
  | line l =>
    refine ⟨0, fun more _ points => ⟨_, rfl, ?_⟩⟩
    obtain ⟨h1, h2⟩ := addStart_length points l.start
    simp only [List.length_append, List.length_cons, List.length_nil]
    exact ⟨by omega, by omega, by rintro ⟨a, e⟩; cases e⟩
  | arc a =>
    obtain ⟨fuel, pts, h2, h⟩ := shapelyArc_two count n hn hcount a hg
    refine ⟨fuel, fun more hm points => ?_⟩
    simp only [shapelySegment, h more hm, bind, Except.bind, pure, Except.pure]
    obtain ⟨h3, h4⟩ := addStart_length points a.start
    refine ⟨_, rfl, ?_⟩
    have : (addStart points a.start ++ pts).length ≤ (if (addStart points a.start ++ pts).getLast? = some a.stop then addStart points a.start ++ pts
        else addStart points a.start ++ pts ++ [a.stop]).length := by
      split
      · exact le_rfl
      · simp
    rw [List.length_append] at this
    exact ⟨by omega, by omega, fun _ => by omega⟩

theorem loop_length (count : ℝ → ℤ) (n : ℤ) (hn : 1 ≤ n) (hcount : ∀ l, n ≤ count l) (gs : List Segment) (hg : ∀ g ∈ gs, NotClosed g) :
    ∃ fuel, ∀ more, fuel ≤ more → ∀ points, ∃ pts, shapelyLoop count more gs points = .ok pts ∧ points.length + gs.length ≤ pts.length := by
  induction gs with
  | nil => exact ⟨0, fun more _ points => ⟨points, rfl, by simp⟩⟩
  | cons g gs ih =>
    obtain ⟨f1, h1⟩ := segment_length count n hn hcount g (hg g (by simp))
    obtain ⟨f2, h2⟩ := ih (fun g h => hg g (by simp [h]))
    refine ⟨max f1 f2, fun more hm points => ?_⟩
    obtain ⟨pts, e1, p1, -⟩ := h1 more (le_trans (le_max_left _ _) hm) points
    obtain ⟨pts', e2, p2⟩ := h2 more (le_trans (le_max_right _ _) hm) pts
    refine ⟨pts', ?_, ?_⟩
    · simp only [shapelyLoop, e1, bind, Except.bind, e2]
    · simp only [List.length_cons]; omega

/-- The outline of a solid shape is a ring that the library accepts. -/
theorem vertices_ring (count : ℝ → ℤ) (n : ℤ) (hn : 1 ≤ n) (hcount : ∀ l, n ≤ count l) (s : Shape) (hs : ∀ g ∈ s.segments, NotClosed g)
    (hS : Solid s) : ∃ fuel, ∀ more, fuel ≤ more → ∃ pts, shapelyVertices count more s = .ok pts ∧ 4 ≤ pts.length := by
  obtain ⟨f1, h1⟩ := segment_length count n hn hcount s.head (hs _ (by simp [Shape.segments]))
  obtain ⟨f2, h2⟩ := loop_length count n hn hcount s.tail (fun g hg => hs g (by simp [Shape.segments, hg]))
  refine ⟨max f1 f2, fun more hm => ?_⟩
  obtain ⟨pts, e1, -, p1, p2⟩ := h1 more (le_trans (le_max_left _ _) hm) []
  obtain ⟨pts', e2, p3⟩ := h2 more (le_trans (le_max_right _ _) hm) pts
  have h3 : 3 ≤ pts'.length := by
    rcases hS with h | h
    · have := List.length_pos_of_ne_nil h
      omega
    · have := p2 h
      omega
  refine ⟨pts' ++ pts'.head?.toList, ?_, ?_⟩
  · simp only [shapelyVertices, Shape.segments, shapelyLoop, e1, e2, bind, Except.bind, pure, Except.pure]
  · cases pts' with
    | nil => simp at h3
    | cons => simp at h3 ⊢; omega

theorem shapely_able (G : Geos) (count : ℝ → ℤ) (fuel : ℕ) :
    Able (shapely G count fuel) (fun _ => True) (fun s => ∃ pts, shapelyVertices count fuel s = .ok pts ∧ 4 ≤ pts.length) where
  create _ _ _ := ⟨_, rfl⟩
  shape e s h := by
    obtain ⟨pts, h1, h2⟩ := h
    refine ⟨addGeometry G e.content (G.region (pts.map (· + (-e.origin)))) s.negative, ?_⟩
    show shapelyShape G count fuel e s = _
    simp only [shapelyShape, h1, addPolygon]
    rw [if_neg (by omega)]
  paste _ _ _ _ := ⟨_, rfl⟩

/-- **C89** (geometry; partial: likewise, and for outlines that go round once, see C84).  A file whose coordinates can be read, that
selects no aperture before its definition and repeats blocks at least once, whose picture and flashed apertures are not empty and
in which no outline is a single line, is rendered to a geometry by the Shapely backend; away from outlines it is the picture. -/
theorem c89_geometry_partial (env : Env) (hiter : ∀ l, (env.iter l).Perm l) (hdepth : 3 ≤ env.depth) (ignore : Bool)
    (file : List Visitor.Cmd) (s : Sheet) (picture : List (Painted (Vec ℝ))) (hs : Pictured (executed (!ignore) file) s)
    (hp : s.drawn.getLast? = some picture) (ha : Avoids (executed (!ignore) file)) (ho : PlainOutlines (executed (!ignore) file))
    (hl : NoLoneLines (executed (!ignore) file)) (he : Executable (executed (!ignore) file)) (hfull : ∃ v, Covered picture v)
    (hflash : ∀ p x y q id d objects, executed (!ignore) file = p ++ .leaf (.d03 x y) :: q → selected p = some id →
      s.tools id = some (.single d objects) → ∃ v, Covered objects v)
    (G : Geos) (count : ℝ → ℤ) (n : ℕ) (hn : 3 ≤ n) (hcount : ∀ l, (n : ℤ) ≤ count l) (fail : Bool) :
    ∃ prog, compile env ignore file = .ok prog ∧ ∃ fuel, ∀ more, fuel ≤ more → ∃ e,
      Vm.run (shapely G count more) fail .main prog = .ok (some e) ∧
      ∃ c layers, compiled env (executed (!ignore) file) = .ok c ∧ (∀ l ∈ layers, c.buffers.get? l.id = some l.cmds) ∧
        ((∀ l ∈ layers, ∀ s, .shape s ∈ l.cmds → ∀ pts, shapelyVertices count more s = .ok pts → EvenOddInside (G.region pts) pts) →
          ∀ p, ClearOfOutlines n layers .main p → (p ∈ shapelyResult e ↔ Covered picture p)) := by
  have hN : Nested (executed (!ignore) file) := c17_files_nested (!ignore) file _ [] (List.append_nil _).symm
  obtain ⟨c, W⟩ := whole hdepth hs hN ha he (executed_runs _ file)
  have hc : compile env ignore file = .ok ((layerOrder env c).flatMap fun id => layerCommands id (bufferOf c id)) := by
    rw [compile, file_is_run]; exact W.program hiter hdepth
  have hf := W.fit ha hiter
  have hne := W.full hs ha hp hfull hflash hf
  have hk := SoundLayers.kept hs c W.ran W.done hN ha ho
  have hS := SolidLayers.kept hs c W.ran W.done hN ha hl
  obtain ⟨fuel, hfuel⟩ := same_fuel (fun m g => ∃ pts, shapelyVertices count m g = .ok pts ∧ 4 ≤ pts.length) (shapesOf env c) (by
    intro g hg
    obtain ⟨k', b, hb, hg'⟩ := shapesOf_mem hg
    exact vertices_ring count n (by omega) hcount g (hk k' b hb g hg').1 (hS k' b hb g hg'))
  refine ⟨_, hc, fuel, fun more hmore => ?_⟩
  obtain ⟨e, hr⟩ := runs (Room := fun _ => True) ⟨fun _ _ _ => trivial, fun _ _ _ => trivial, fun _ _ _ _ => trivial⟩
    (shapely_able G count more) fail hf (by
      intro k hk'
      refine ⟨fun g hg => hfuel more hmore g (mem_shapesOf hk' hg), ?_⟩
      obtain ⟨d, hd⟩ := List.exists_mem_of_ne_nil _ (hne k hk')
      exact ⟨d, hd, fun _ _ => trivial⟩)
  exact ⟨e, hr, Vector.c84_geometry_partial env ignore file _ hc G count n hn hcount more fail e hr s picture hs hp ha ho⟩

/-! ### Non-vacuity -/

theorem pad_lines : NoLoneLines Enclosed.padAtoms := by
  refine ⟨?_, ?_⟩
  · intro name body h
    simp [Enclosed.padAtoms] at h
  · intro p l q s g gs e h
    have := throughout (P := fun p a => (∀ x y, a ≠ .leaf (.d02 x y)) ∧ a ≠ .leaf .g37) (rest := Enclosed.padAtoms) (done := [])
      (by simp [Throughout, Enclosed.padAtoms]) p _ q e
    rcases h with ⟨x, y, rfl⟩ | rfl
    · exact absurd rfl (this.1 x y)
    · exact absurd rfl this.2

/-- A pad is rendered. -/
example (G : Geos) : ∃ prog, compile env0 false (.leaf (.mo .metric) :: Image.padFile) = .ok prog ∧ ∃ fuel, ∀ more, fuel ≤ more → ∃ e,
    Vm.run (shapely G shapelyCount more) false .main prog = .ok (some e) := by
  obtain ⟨s, picture, h1, h2, h3, h4⟩ := pad_area
  have area : ∀ {os}, HasArea os → ∃ v, Covered os v := fun ⟨v, r, hr, h⟩ => ⟨v, h v (by simpa using hr.le) (by simpa using hr.le)⟩
  obtain ⟨prog, hc, fuel, h⟩ := c89_geometry_partial env0 (fun _ => .refl _) (by decide) false (.leaf (.mo .metric) :: Image.padFile) s picture
    h1 h2 Enclosed.pad_avoids Enclosed.pad_outlines pad_lines pad_executable (area h3)
    (fun _ _ _ _ id d objects _ _ h => area (h4 id d objects h)) G shapelyCount 24 (by norm_num)
    (fun l => by exact_mod_cast shapelyCount_ge l) false
  exact ⟨prog, hc, fuel, fun more hm => (h more hm).imp fun e h => h.1⟩

end
end Verif.Props.Outlined
