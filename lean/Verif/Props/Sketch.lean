import Verif.Lemmas.SketchRun
import Verif.Props.Vector
import Verif.Props.Outlined

/-!
# C90: what is asked for with the RVMC builder is rendered
-/

namespace Verif.Props.Sketch
open Verif.Rvmc Verif.Geom Verif.Vm Verif.Spec Verif.RvmcBuilder Verif.Sketch Verif.Render Verif.Sim Verif.Props.Painting
  Verif.Props.Outlined Verif.Props.Rendered Verif.SolidLayers Real
noncomputable section
variable {ι : Type} [DecidableEq ι]

/-- **C90** (partial: for scripts that use the builder as it is meant to be used, and polygons turned by less than one of their
steps, see `c90_false_polygon` and the misuses of C23).  The calls raise nothing, and the machine that executes the program paints
on the main layer the parts of its figures and the pictures of the layers pasted on it, in the order of the calls, each dark
unless it was asked to be negative; pasted layers are moved so that their origin is where they were pasted. -/
theorem c90_picture_partial (main : ι) (script : List (Deed ι)) (d : Plates ι) (ha : AskedFor main script d) (ho : d.opened = []) :
    ∃ s pl, performAll main script State.init = .ok s ∧ d.plates[0]? = some pl ∧
      ∀ fail, ∃ e, run (painting within) fail main s.commands = .ok (some e) ∧ e.origin = pl.origin ∧ e.content = pl.objects := by
  obtain ⟨s, nss, h1, h2⟩ := built ha
  obtain ⟨pl, p1, p2⟩ := h2.first
  refine ⟨s, pl, h1, p1, fun fail => ?_⟩
  obtain ⟨e, k1, k, k2⟩ := runs_of (h2.out ho) ho (outline := within) (Good := fun i x => ∃ k, Done d k i x) (by
      intro k id x os ds hx hm hm'
      have : x.2 = os := by
        rw [← List.forall₂_eq_eq_eq]
        exact forall₂_pair (R := MatchR script (Done d) k) (S := Match within (fun i x => ∃ k, Done d k i x)) (T := (· = ·))
          (fun _ _ _ a b => matched_within h2.names a b) hm hm'
      subst this
      exact ⟨k, hx⟩) (fun _ _ _ _ => ⟨_, rfl⟩) fail
  have := (done_unique h2.names k2 ⟨pl, p1, by rw [ho]; simp, p2, rfl⟩).2
  rw [Prod.mk.injEq] at this
  exact ⟨e, k1, this⟩

/-- Shapely draws whatever can be painted. -/
theorem painting_shapely (G : Geos) (count : ℝ → ℤ) (fuel : ℕ) :
    Simulates (painting (shapelyOutline G count fuel)) (shapely G count fuel) (fun e₁ e₂ => e₁.origin = e₂.origin ∧ e₁.box = e₂.box) where
  same h := h
  create _ := ⟨_, rfl, rfl, rfl⟩
  shape {e₁ e₂ s c₁} hR h := by
    simp only [painting, shapelyOutline] at h
    simp only [shapely, shapelyShape]
    cases hv : shapelyVertices count fuel s with
    | error x => rw [hv] at h; cases h
    | ok pts =>
      rw [hv] at h
      simp only at h ⊢
      unfold addPolygon
      split_ifs at h ⊢ with hl
      · cases h
      · exact ⟨_, rfl, hR⟩
  paste hR _ _ := ⟨_, rfl, hR⟩

/-- **C90** (Shapely; partial: likewise).  If round figures and polygons have a size, the program is rendered by the Shapely
backend.  Provided that its library fills polygons by the even-odd rule, the geometry consists of what was asked for, up to points
that are on the outlines or between arcs and their chords, relative to the origin of the main layer. -/
theorem c90_geometry_partial (main : ι) (script : List (Deed ι)) (d : Plates ι) (ha : AskedFor main script d) (ho : d.opened = [])
    (hs : ∀ r figure negative, .mark r figure negative ∈ script → Ample figure)
    (G : Geos) (count : ℝ → ℤ) (n : ℕ) (hn : 3 ≤ n) (hcount : ∀ l, (n : ℤ) ≤ count l) (fail : Bool) :
    ∃ s pl, performAll main script State.init = .ok s ∧ d.plates[0]? = some pl ∧ ∃ fuel, ∀ more, fuel ≤ more → ∃ e,
      run (shapely G count more) fail main s.commands = .ok (some e) ∧
      ((∀ k s v, OutlineAt script d k s v → ∀ pts, shapelyVertices count more s = .ok pts → EvenOddInside (G.region pts) pts) →
        ∀ p, (∀ s v, OutlineAt script d 0 s v → ClearOf n s (p - v)) → (p - pl.origin ∈ shapelyResult e ↔ Covered pl.objects p)) := by
  obtain ⟨s, nss, h1, h2⟩ := built ha
  obtain ⟨pl, p1, p2⟩ := h2.first
  have hmark := marks_plausible ha
  have hsound : ∀ r figure negative ss, .mark r figure negative ∈ script → figure.shapes negative = .ok ss → ∀ s ∈ ss, Spec.Sound s ∧ Solid s :=
    fun r f neg ss hm hss => shapes_sound f (hmark _ _ _ hm) (hs _ _ _ hm) neg hss
  obtain ⟨fuel, hfuel⟩ := same_fuel (fun m g => ∃ pts, shapelyVertices count m g = .ok pts ∧ 4 ≤ pts.length) (drawnShapes script) (by
    intro g hg
    obtain ⟨r, f, neg, ss, m1, m2, m3⟩ := mem_drawnShapes.1 hg
    obtain ⟨q1, q2⟩ := hsound r f neg ss m1 m2 g m3
    exact vertices_ring count n (by omega) hcount g q1.1 q2)
  refine ⟨s, pl, h1, p1, fuel, fun more hmore => ?_⟩
  have hring : ∀ k g o, MatchR script (Done d) k (.shape g) o → ∃ points, shapelyOutline G count more g = .ok points := by
    rintro k g o ⟨-, f, neg, ss, m1, -, m2, m3⟩
    obtain ⟨pts, q1, q2⟩ := hfuel more hmore g (mem_drawnShapes.2 ⟨k, f, neg, ss, m1, m2, m3⟩)
    exact ⟨G.region pts, by simp only [shapelyOutline, q1]; rw [if_neg (by omega)]⟩
  obtain ⟨e₀, k1, -⟩ := runs_of (h2.out ho) ho (outline := shapelyOutline G count more) (Good := fun _ _ => True)
    (fun _ _ _ _ _ _ _ _ => trivial) hring fail
  obtain ⟨e, k2, -⟩ := run_sim (painting_shapely G count more) k1
  refine ⟨e, k2, fun hG p hp => ?_⟩
  obtain ⟨o, k3, k4, -, k6⟩ := c55_shapely G count more fail main s.commands e k2
  have hclear : ∀ k g v points, OutlineAt script d k g v → shapelyOutline G count more g = .ok points → ∀ p, ClearOf n g p →
      (p ∈ areaOf g ↔ p ∈ points) := by
    intro k g v points hO hpts p hp
    obtain ⟨r, f, neg, ss, m1, m2, m3⟩ := outline_drawn hO
    obtain ⟨q1, -⟩ := hsound r f neg ss m1 m2 g m3
    simp only [shapelyOutline] at hpts
    cases hv : shapelyVertices count more g with
    | error x => rw [hv] at hpts; cases hpts
    | ok pts =>
      rw [hv] at hpts
      simp only at hpts
      split_ifs at hpts
      cases hpts
      exact (Vector.region_clear hn hcount q1.1 q1.2 hv (hG k g v hO pts hv) hp).symm
  obtain ⟨o', k7, k, y, y1, y2, y3⟩ := runs_of (h2.out ho) ho (outline := shapelyOutline G count more) (Good := Near n script d) (by
      intro k id x os ds hx hm hm'
      exact ⟨k, x, hx, rfl, fun p hp => forall₂_pair (R := MatchR script (Done d) k)
        (S := Match (shapelyOutline G count more) (Near n script d))
        (T := fun (o o' : Painted (Vec ℝ)) => o.dark = o'.dark ∧ (p ∈ o.points ↔ p ∈ o'.points)) (fun _ _ _ a b => matched_near h2.names hclear hp a b) hm hm'⟩) hring fail
  rw [k3] at k7
  cases k7
  obtain ⟨rfl, rfl⟩ := done_unique h2.names y1 ⟨pl, p1, by rw [ho]; simp, p2, rfl⟩
  have e1 : p - pl.origin + e.origin = p := by
    have y2 : pl.origin = o.origin := y2
    rw [← k4, ← y2]
    ext <;> simp
  rw [k6, e1]
  exact (Props.Pixels.covered_congr (y3 p hp)).symm

/-! ### Non-vacuity -/

/-- A ring on a layer of its own, pasted beside a cross, and an X. -/
def ringScript : List (Deed ℕ) :=
  [.layer none ⟨0, 0⟩, .nested 0 1 (some ⟨-1, -1, 1, 1⟩) ⟨0, 0⟩, .mark 1 (.circle ⟨0, 0⟩ 2) false, .mark 1 (.circle ⟨0, 0⟩ 1) true, .leave,
    .mark 0 (.cross ⟨0, 0⟩ 2 2 1) false, .paste 0 1 ⟨3, 0⟩ false, .mark 0 (.x ⟨6, 0⟩ 2 1) false, .leave, .getRvmc]

theorem ring_asked : ∃ d, AskedFor 0 ringScript d ∧ d.opened = [] ∧ ∃ pl, d.plates[0]? = some pl ∧ pl.origin = ⟨0, 0⟩ ∧
    pl.objects.length = 5 := by
  have a1 := AskedFor.layer (main := 0) none ⟨0, 0⟩
  have a2 := AskedFor.nested 0 [] 1 (some ⟨-1, -1, 1, 1⟩) ⟨0, 0⟩ a1 rfl (by simp)
  have a3 := AskedFor.mark 1 _ (.circle ⟨0, 0⟩ 2) false a2 (by simp) rfl (by simp [Plausible])
  have a4 := AskedFor.mark 1 _ (.circle ⟨0, 0⟩ 1) true a3 (by simp) rfl (by simp [Plausible])
  have a5 := AskedFor.leave 1 [0] _ a4 rfl rfl (by simp)
  have a6 := AskedFor.mark 0 _ (.cross ⟨0, 0⟩ 2 2 1) false a5 (by simp) rfl (by simp [Plausible])
  have a7 := AskedFor.paste 0 [] _ 1 _ ⟨3, 0⟩ false a6 rfl rfl rfl (by simp)
  have a8 := AskedFor.mark 0 _ (.x ⟨6, 0⟩ 2 1) false a7 (by simp) rfl (by simp [Plausible])
  have a9 := AskedFor.leave 0 [] _ a8 rfl rfl (by simp)
  exact ⟨_, AskedFor.getRvmc a9 rfl, rfl, _, rfl, rfl, by simp [parts]⟩

example : ∃ s e, performAll 0 ringScript State.init = .ok s ∧ run (painting within) false 0 s.commands = .ok (some e) ∧ e.content.length = 5 := by
  obtain ⟨d, h1, h2, pl, h3, -, h4⟩ := ring_asked
  obtain ⟨s, pl', k1, k2, k3⟩ := c90_picture_partial 0 ringScript d h1 h2
  obtain ⟨e, k4, -, k5⟩ := k3 false
  rw [h3] at k2
  cases k2
  exact ⟨s, e, k1, k4, by rw [k5, h4]⟩

/-- The ring is rendered by Shapely. -/
example (G : Geos) : ∃ s, performAll 0 ringScript State.init = .ok s ∧ ∃ fuel, ∀ more, fuel ≤ more → ∃ e,
    run (shapely G shapelyCount more) false 0 s.commands = .ok (some e) := by
  obtain ⟨d, h1, h2, -⟩ := ring_asked
  obtain ⟨s, pl, k1, -, fuel, k3⟩ := c90_geometry_partial 0 ringScript d h1 h2 (by
    intro r f neg hm
    simp only [ringScript, List.mem_cons, List.not_mem_nil, reduceCtorEq, or_false, false_or, Deed.mark.injEq] at hm
    rcases hm with ⟨-, rfl, -⟩ | ⟨-, rfl, -⟩ | ⟨-, rfl, -⟩ | ⟨-, rfl, -⟩ <;> simp [Ample])
    G shapelyCount 24 (by norm_num) (fun l => by exact_mod_cast Props.Arcs.shapelyCount_ge l) false
  exact ⟨s, k1, fuel, fun more hm => (k3 more hm).imp fun e h => h.1⟩

/-- **C90 does not hold** for polygons that are turned by more than one of their steps: a square turned by 180 degrees is drawn as a
triangle. -/
theorem c90_false_polygon : ¬ ∀ (c : Vec ℝ) (d : ℝ) (n : ℤ) (r : ℝ) (neg : Bool), 0 < d → 3 ≤ n → 0 ≤ r → r < 360 →
    ∃ ss, (Mark.polygon c d n r).shapes neg = .ok ss ∧ List.Forall₂ (fun s part => areaOf s = part) ss (parts (.polygon c d n r)) := by
  intro hall
  obtain ⟨ss, h1, h2⟩ := hall ⟨0, 0⟩ 2 4 180 false (by norm_num) (by norm_num) (by norm_num) (by norm_num)
  obtain ⟨m, -, q2, q3⟩ := Props.Shapes.c32_polygon_sides ⟨0, 0⟩ 2 4 (by norm_num) 180
  have hmod : pyMod 180 360 = 180 := pyMod_of_mem (by norm_num) (by norm_num) (by norm_num)
  rw [hmod] at q2 q3
  have hm : m = 2 := by
    have a := (q2 1).mpr (by norm_num)
    have b : ¬ 2 < m := fun h => by have := (q2 2).mp h; norm_num at this
    omega
  subst hm
  have q3' : Shape.polygonSegments ⟨0, 0⟩ 2 (4 : ℤ).toNat 180 =
      [.line ⟨⟨-1, 0⟩, ⟨0, -1⟩⟩, .line ⟨⟨0, -1⟩, ⟨1, 0⟩⟩] := by
    have c0 : Props.Shapes.corner ⟨0, 0⟩ 2 4 180 0 = ⟨-1, 0⟩ := by
      unfold Props.Shapes.corner
      have : ((180 : ℝ) + ((0 : ℕ) : ℝ) * (360 / ((4 : ℕ) : ℝ))) * π / 180 = π := by push_cast; ring
      rw [this]
      ext <;> simp
    have c1 : Props.Shapes.corner ⟨0, 0⟩ 2 4 180 1 = ⟨0, -1⟩ := by
      unfold Props.Shapes.corner
      have : ((180 : ℝ) + ((1 : ℕ) : ℝ) * (360 / ((4 : ℕ) : ℝ))) * π / 180 = π + π / 2 := by push_cast; ring
      rw [this]
      ext <;> simp [cos_add, sin_add]
    have c2 : Props.Shapes.corner ⟨0, 0⟩ 2 4 180 2 = ⟨1, 0⟩ := by
      unfold Props.Shapes.corner
      have : ((180 : ℝ) + ((2 : ℕ) : ℝ) * (360 / ((4 : ℕ) : ℝ))) * π / 180 = 2 * π := by push_cast; ring
      rw [this]
      ext <;> simp
    show Shape.polygonSegments ⟨0, 0⟩ 2 4 180 = _
    rw [q3]
    simp [List.range_succ, c0, c1, c2]
  simp only [Mark.shapes, Compiler.polygon] at h1
  rw [if_neg (by norm_num), q3'] at h1
  simp only [Compiler.shapeOf, bind, Except.bind, pure, Except.pure, Except.ok.injEq] at h1
  subst h1
  cases h2 with
  | cons h3 _ =>
  have htop : (⟨0, 1⟩ : Vec ℝ) ∈ {p : Vec ℝ | Polygon (regularCorners ⟨0, 0⟩ 2 (4 : ℤ).toNat 180) p} := by
    show Polygon _ _
    unfold Polygon
    apply Sim.surrounded_self
    have k0 : 2 * π * 2 / 4 = π := by ring
    have k1 : 2 * π * 3 / 4 = π + π / 2 := by ring
    have k2 : (180 : ℝ) * π / 180 = π := by ring
    refine ⟨(⟨0, 1⟩, ⟨-1, 0⟩), ?_, ⟨0, le_rfl, zero_le_one, by ext <;> simp⟩⟩
    have e3 : (⟨0, 0⟩ : Vec ℝ) + rotCcw ((180 : ℝ) * π / 180) ⟨2 / 2 * cos (2 * π * ((3 : ℕ) : ℝ) / ((4 : ℤ).toNat : ℕ)),
        2 / 2 * sin (2 * π * ((3 : ℕ) : ℝ) / ((4 : ℤ).toNat : ℕ))⟩ = ⟨0, 1⟩ := by
      have : (((4 : ℤ).toNat : ℕ) : ℝ) = 4 := by exact_mod_cast rfl
      rw [this, k2]
      push_cast
      rw [k1]
      ext <;> simp [rotCcw, cos_add, sin_add]
    have e0 : (⟨0, 0⟩ : Vec ℝ) + rotCcw ((180 : ℝ) * π / 180) ⟨2 / 2 * cos (2 * π * ((0 : ℕ) : ℝ) / ((4 : ℤ).toNat : ℕ)),
        2 / 2 * sin (2 * π * ((0 : ℕ) : ℝ) / ((4 : ℤ).toNat : ℕ))⟩ = ⟨-1, 0⟩ := by
      rw [k2]
      ext <;> simp [rotCcw]
    unfold regularCorners
    have hr : List.range (4 : ℤ).toNat = [0, 1, 2, 3] := rfl
    rw [hr]
    simp only [List.map_cons, List.map_nil, List.tail_cons, List.take_succ_cons, List.take_zero, List.cons_append, List.nil_append,
      List.zip_cons_cons, e3, e0]
    simp
  rw [← h3] at htop
  refine Sim.not_surrounded (u := ⟨0, 1⟩) (by simp) ?_ htop
  rintro t ht (⟨g, hg, hp⟩ | ⟨g, hg, l, l0, l1, hl⟩)
  · simp only [Shape.segments, List.mem_cons, List.not_mem_nil, or_false] at hg
    rcases hg with rfl | rfl <;> obtain ⟨l, l0, l1, hl⟩ := hp <;> (have := congrArg Vec.y hl; simp at this; linarith)
  · simp only [Shape.segments, successors, List.tail_cons, List.take_succ_cons, List.take_zero, List.cons_append, List.nil_append,
      List.zip_cons_cons, List.zip_nil_right, List.mem_cons, List.not_mem_nil, or_false] at hg
    rcases hg with rfl | rfl <;> (have := congrArg Vec.y hl; simp [Segment.stop, Segment.start] at this; linarith)

end
end Verif.Props.Sketch
