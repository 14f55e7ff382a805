import Verif.Spec.Bow
import Verif.Lemmas.Bow
import Verif.Props.Enclosed
import Verif.Props.Svg
import Verif.Props.BoardImage
import Mathlib.Analysis.Real.Pi.Bounds

/-!
# C84: vector images show the picture that the file describes
-/

namespace Verif.Props.Vector
open Verif.Geom Verif.Rvmc Verif.Vm Verif.Spec Verif.Crossing Verif.Render Verif.Fine Real

/-! ### The polygon of a shape -/

/-- More room for the loops changes nothing. -/
theorem shapelyLoop_more {n m : ℕ} (hm : n ≤ m) (count : ℝ → ℤ) : ∀ (gs : List Segment) (points pts : List (Vec ℝ)),
    shapelyLoop count n gs points = .ok pts → shapelyLoop count m gs points = .ok pts
  | [], _, _, h => h
  | g :: gs, points, pts, h => by
    unfold shapelyLoop at h ⊢
    obtain ⟨r, h1, h2⟩ := Props.Pixels.ebind.1 h
    refine Props.Pixels.ebind.2 ⟨r, ?_, shapelyLoop_more hm count gs r pts h2⟩
    cases g with
    | line l => exact h1
    | arc a =>
      unfold shapelySegment at h1 ⊢
      obtain ⟨ps, h3, h4⟩ := Props.Pixels.ebind.1 h1
      refine Props.Pixels.ebind.2 ⟨ps, ?_, h4⟩
      unfold shapelyArc at h3 ⊢
      simp only at h3 ⊢
      split_ifs at h3 ⊢
      obtain ⟨angles, h5, h6⟩ := Props.Pixels.ebind.1 h3
      exact Props.Pixels.ebind.2 ⟨angles, Props.Pixels.arcSweep_more hm h5, h6⟩

theorem vertices_follow {count : ℝ → ℤ} {n : ℕ} (hn1 : 1 ≤ n) (hcount : ∀ l, (n : ℤ) ≤ count l) {fuel : ℕ} {s : Shape}
    (hn : ∀ g ∈ s.segments, NotClosed g) {pts : List (Vec ℝ)} (h : shapelyVertices count fuel s = .ok pts) :
    ∃ trs, List.Forall₂ (Follows (2 * π / n)) s.segments trs ∧ SamePath pts (trs.flatten ++ [s.head.start]) := by
  obtain ⟨f, trs, h1, h2⟩ := Props.Arcs.c54_shapely_outline_partial s hn count n (by exact_mod_cast hn1) hcount
  obtain ⟨pts', h3, h4⟩ := h2 (max f fuel) (le_max_left _ _)
  have h5 : shapelyVertices count (max f fuel) s = .ok pts := by
    unfold shapelyVertices at h ⊢
    obtain ⟨r, k1, k2⟩ := Props.Pixels.ebind.1 h
    exact Props.Pixels.ebind.2 ⟨r, shapelyLoop_more (le_max_right _ _) count _ _ _ k1, k2⟩
  rw [h5] at h3
  cases h3
  exact ⟨trs, by simpa using h1, h4⟩

theorem near_on {p : Vec ℝ} {e : Vec ℝ × Vec ℝ} : Near 0 p e ↔ OnSegment e.1 e.2 p := by
  constructor
  · rintro ⟨t, h0, h1, hx, hy⟩
    refine ⟨t, h0, h1, ?_⟩
    have hx := abs_nonpos_iff.1 hx
    have hy := abs_nonpos_iff.1 hy
    ext <;> simp only <;> linarith
  · rintro ⟨t, h0, h1, rfl⟩
    refine ⟨t, h0, h1, ?_, ?_⟩ <;> apply le_of_eq <;> rw [abs_eq_zero] <;> ring

/-- A line that is closed by its first point. -/
theorem within_closed {l : List (Vec ℝ)} {h : Vec ℝ} (hh : l.head? = some h) (p : Vec ℝ) : WithinLine (l ++ [h]) p ↔ WithinLine l p := by
  rw [within_walk, within_walk]
  have e1 : (l ++ [h]).head?.toList = [h] := by rw [List.head?_append, hh]; rfl
  have := alike_repeated p h l []
  simp only [List.append_nil] at this
  rw [e1, hh]
  simp only [Option.toList, List.append_assoc, List.singleton_append]
  rw [this]

theorem sides_closed {l : List (Vec ℝ)} {h : Vec ℝ} (hh : l.head? = some h) {p : Vec ℝ}
    (hp : ∀ e ∈ sides l, ¬ OnSegment e.1 e.2 p) : ∀ e ∈ sides (l ++ [h]), ¬ OnSegment e.1 e.2 p := by
  intro e he
  have e1 : (l ++ [h]).head?.toList = [h] := by rw [List.head?_append, hh]; rfl
  rw [sides_pairs, e1, List.append_assoc, List.singleton_append, Props.Enclosed.pairs_split, List.mem_append] at he
  have e2 : sides l = pairs (l ++ [h]) := by rw [sides_pairs, hh]; rfl
  rcases he with he | he
  · exact hp e (by rw [e2]; exact he)
  · simp only [pairs, List.mem_cons, List.not_mem_nil, or_false] at he
    subst he
    rintro ⟨t, -, -, rfl⟩
    obtain ⟨y, z, rfl, hy⟩ : ∃ y z, l = h :: z ∧ (h, y) ∈ pairs (l ++ [h]) := by
      cases l with
      | nil => simp at hh
      | cons x z =>
        cases hh
        cases z with
        | nil => exact ⟨h, [], rfl, by simp [pairs]⟩
        | cons y z => exact ⟨y, y :: z, rfl, by simp [pairs]⟩
    exact hp (h, y) (by rw [e2]; exact hy) ⟨0, le_rfl, zero_le_one, by ext <;> simp⟩

/-- Clear of the outline, the points of the polygon are those of the shape. -/
theorem region_clear {count : ℝ → ℤ} {n : ℕ} (hn3 : 3 ≤ n) (hcount : ∀ l, (n : ℤ) ≤ count l) {fuel : ℕ} {s : Shape}
    (hn : ∀ g ∈ s.segments, NotClosed g) (hs : GoesRoundOnce s) {pts : List (Vec ℝ)} (h : shapelyVertices count fuel s = .ok pts)
    {region : Set (Vec ℝ)} (hr : EvenOddInside region pts) {p : Vec ℝ} (hp : ClearOf n s p) : p ∈ region ↔ p ∈ areaOf s := by
  obtain ⟨trs, h1, h2⟩ := vertices_follow (by omega) hcount hn h
  have hh : trs.flatten.head? = some s.head.start := by
    unfold Shape.segments at h1
    cases h1 with
    | cons h1 _ => rw [List.flatten_cons, List.head?_append, Props.Arcs.follows_head h1]; rfl
  have hc : ∀ e ∈ sides trs.flatten, ¬ OnSegment e.1 e.2 p := fun e he => Bow.sides_clear hn hn3 h1 hp he
  have hc' := sides_closed hh hc
  rw [hr p fun e he ho => ?_, within_samePath h2, within_closed hh, Bow.area_clear hn hs hn3 h1 hp]
  obtain ⟨e', he', ho'⟩ := (Props.Enclosed.near_samePath h2).1 ⟨e, he, near_on.2 ho⟩
  exact hc' e' he' (near_on.1 ho')

/-! ### The polygons of the image -/

variable {ι : Type} {layers : List (Spec.Layer ι)}

open Props.Painting in
/-- Polygons and areas cover the same points clear of outlines. -/
theorem polygons_agree {G : Geos} {count : ℝ → ℤ} {n : ℕ} (hn3 : 3 ≤ n) (hcount : ∀ l, (n : ℤ) ≤ count l) {fuel : ℕ}
    (hs : ∀ l ∈ layers, ∀ s, .shape s ∈ l.cmds → Sound s)
    (hG : ∀ l ∈ layers, ∀ s, .shape s ∈ l.cmds → ∀ pts, shapelyVertices count fuel s = .ok pts → EvenOddInside (G.region pts) pts)
    {id : ι} {os : List (Painted (Vec ℝ))} (h : Shows (shapelyOutline G count fuel) layers id os) :
    ∃ os', Shows within layers id os' ∧ ∀ p, ClearOfOutlines n layers id p → (Covered os p ↔ Covered os' p) := by
  refine Shows.rec
    (motive_1 := fun id os _ => ∃ os', Shows within layers id os' ∧
      ∀ p, ClearOfOutlines n layers id p → (Covered os p ↔ Covered os' p))
    (motive_2 := fun ds os _ => ∀ l ∈ layers, (∀ d ∈ ds, d ∈ l.cmds) → ∃ os', ShowsAll within layers ds os' ∧
      ∀ p, ClearOfOutlines n layers l.id p →
        List.Forall₂ (fun o o' => o.dark = o'.dark ∧ (p ∈ o.points ↔ p ∈ o'.points)) os os') ?_ ?_ ?_ ?_ h
  · intro l os mem _ ih
    obtain ⟨os', h1, h2⟩ := ih l mem (fun _ h => h)
    exact ⟨os', .layer l os' mem h1, fun p hp => Props.Pixels.covered_congr (h2 p hp)⟩
  · intro l _ _
    exact ⟨[], .nil, fun _ _ => .nil⟩
  · intro s points ds os inside _ ih l mem hc
    obtain ⟨os', h1, h2⟩ := ih l mem (fun x hx => hc x (List.mem_cons_of_mem _ hx))
    refine ⟨⟨!s.negative, areaOf s⟩ :: os', .shape s _ ds os' rfl h1, fun p hp => .cons ⟨rfl, ?_⟩ (h2 p hp)⟩
    have hd := hc _ (List.mem_cons_self ..)
    unfold shapelyOutline at inside
    cases hv : shapelyVertices count fuel s with
    | error x => rw [hv] at inside; cases inside
    | ok vs =>
      simp only [hv] at inside
      split_ifs at inside
      cases inside
      have := hp 0 s ⟨0, 0⟩ (.shape l mem s hd)
      have e : p - (⟨0, 0⟩ : Vec ℝ) = p := by ext <;> simp
      rw [e] at this
      exact region_clear hn3 hcount (hs l mem s hd).1 (hs l mem s hd).2 hv (hG l mem s hd vs hv) this
  · intro source center negative objects ds os _ _ ih1 ih2 l mem hc
    obtain ⟨os1, h1, h2⟩ := ih1
    obtain ⟨os2, h3, h4⟩ := ih2 l mem (fun x hx => hc x (List.mem_cons_of_mem _ hx))
    refine ⟨⟨!negative, {p | Covered os1 (p - center)}⟩ :: os2, .paste source center negative os1 ds os2 h1 h3,
      fun p hp => .cons ⟨rfl, h2 (p - center) fun n s c hs => ?_⟩ (h4 p hp)⟩
    have := hp (n + 1) s (c + center) (.paste l mem source center negative (hc _ (List.mem_cons_self ..)) n s c hs)
    have e : p - center - c = p - (c + center) := by ext <;> simp <;> ring
    rw [e]
    exact this

/-! ### The picture -/

open Verif.Compiler Verif.Props.Picture Verif.Props.Image in
/-- **C84** (partial: as in C82, the constructs in which the code is known to deviate do not occur, apertures have a size, circles are
not moved along arcs that they outsize, and the contours of regions and outlines in macros go round once). The geometry that the
Shapely backend gives is the picture that the file describes.  Let arcs be divided into at least `n` parts, and let the library give
for the polygon of each outline its inside by the even-odd rule.  Then a point that is further away from the outlines than the
chords of the arcs are belongs to the geometry exactly when the picture covers it. -/
theorem c84_geometry_partial (env : Env) (ignore : Bool) (file : List Visitor.Cmd) (prog : List (Command LayerId))
    (hc : compile env ignore file = .ok prog) (G : Geos) (count : ℝ → ℤ) (n : ℕ) (hn : 3 ≤ n) (hcount : ∀ l, (n : ℤ) ≤ count l)
    (fuel : ℕ) (fail : Bool) (e : Eager (List (Set (Vec ℝ)))) (hr : Vm.run (shapely G count fuel) fail .main prog = .ok (some e))
    (s : Sheet) (picture : List (Painted (Vec ℝ))) (hp : Pictured (executed (!ignore) file) s)
    (hl : s.drawn.getLast? = some picture) (ha : Avoids (executed (!ignore) file)) (ho : PlainOutlines (executed (!ignore) file)) :
    ∃ c layers, compiled env (executed (!ignore) file) = .ok c ∧ (∀ l ∈ layers, c.buffers.get? l.id = some l.cmds) ∧
      ((∀ l ∈ layers, ∀ s, .shape s ∈ l.cmds → ∀ pts, shapelyVertices count fuel s = .ok pts → EvenOddInside (G.region pts) pts) →
        ∀ p, ClearOfOutlines n layers .main p → (p ∈ shapelyResult e ↔ Covered picture p)) := by
  obtain ⟨c, layers, objects, k1, k2, -, k4, k5⟩ := c64_image env ignore file prog hc G count fuel fail e hr
  refine ⟨c, layers, k1, k2, fun hG p hA => ?_⟩
  have hs : ∀ l ∈ layers, ∀ s, .shape s ∈ l.cmds → Sound s := fun l hl s hs =>
    SoundLayers.kept hp c (compile_exn hc) k1 (Props.FlashImage.c17_files_nested (!ignore) file _ [] (List.append_nil _).symm)
      ha ho l.id l.cmds (k2 l hl) s hs
  obtain ⟨os, h1, h2⟩ := polygons_agree hn hcount hs hG k4
  have h3 := shows_more (ms := layersOf c) (fun l hl => mem_layersOf.2 (k2 l hl)) h1
  rw [k5, h2 p hA, Props.Enclosed.picture_shown hc k1 h3 hp hl ha p]

open Verif.Compiler Verif.Props.Picture Verif.Props.Image in
/-- **C84** (the default). With the division that is used if none is asked for, the chords of an arc are at most nine thousandths
of its radius away from it. -/
theorem c84_default_partial (env : Env) (ignore : Bool) (file : List Visitor.Cmd) (prog : List (Command LayerId))
    (hc : compile env ignore file = .ok prog) (G : Geos)
    (fuel : ℕ) (fail : Bool) (e : Eager (List (Set (Vec ℝ)))) (hr : Vm.run (shapely G shapelyCount fuel) fail .main prog = .ok (some e))
    (s : Sheet) (picture : List (Painted (Vec ℝ))) (hp : Pictured (executed (!ignore) file) s)
    (hl : s.drawn.getLast? = some picture) (ha : Avoids (executed (!ignore) file)) (ho : PlainOutlines (executed (!ignore) file)) :
    ∃ c layers, compiled env (executed (!ignore) file) = .ok c ∧ (∀ l ∈ layers, c.buffers.get? l.id = some l.cmds) ∧
      ((∀ l ∈ layers, ∀ s, .shape s ∈ l.cmds → ∀ pts, shapelyVertices shapelyCount fuel s = .ok pts → EvenOddInside (G.region pts) pts) →
        ∀ p, (∀ m s v, ShapeAt layers .main m s v →
            (∀ l, .line l ∈ s.segments → ¬ OnSegment l.start l.stop (p - v)) ∧
            (∀ a, .arc a ∈ s.segments → ∀ q, OnPiece q (.arc a) → 9 / 1000 * vlen (a.start - a.center) < vlen (p - v - q)) ∧
            ∀ g ∈ successors s.segments, ¬ OnSegment g.1.stop g.2.start (p - v)) →
          (p ∈ shapelyResult e ↔ Covered picture p)) := by
  obtain ⟨c, layers, h1, h2, h3⟩ := c84_geometry_partial env ignore file prog hc G shapelyCount 24 (by norm_num)
    (fun l => by exact_mod_cast Props.Arcs.shapelyCount_ge l) fuel fail e hr s picture hp hl ha ho
  refine ⟨c, layers, h1, h2, fun hG p hA => h3 hG p fun m s v hs => ?_⟩
  obtain ⟨a1, a2, a3⟩ := hA m s v hs
  refine ⟨fun g hg q hq => ?_, a3⟩
  cases g with
  | line l =>
    refine vlen_pos fun ⟨hx, hy⟩ => a1 l hg ?_
    have : p - v = q := by
      simp only [Vec.sub_x, Vec.sub_y] at hx hy
      ext <;> simp only [Vec.sub_x, Vec.sub_y] <;> linarith
    rw [this]
    exact hq
  | arc a =>
    refine lt_of_le_of_lt ?_ (a2 a hg q hq)
    show vlen (a.start - a.center) * (1 - cos (π / (24 : ℕ))) ≤ _
    have h := one_sub_sq_div_two_le_cos (x := π / 24)
    have hpi := pi_lt_d2
    have : π ^ 2 ≤ 3.15 ^ 2 := by nlinarith [pi_pos]
    have hv : 0 ≤ vlen (a.start - a.center) := sqrt_nonneg _
    push_cast
    rw [mul_comm]
    refine mul_le_mul_of_nonneg_right ?_ hv
    rw [div_pow] at h
    linarith

open Verif.Compiler Verif.Props.Picture Verif.Props.Image Verif.Svg Verif.Console Verif.Props.Svg in
/-- **C84** (the drawing; partial as above and as in C77). Whatever file is rendered and saved as an SVG file: if the library gives
the union of the shapes as polygons `g`, the drawing is painted, clear of the outlines, exactly where the picture is covered. -/
theorem c84_svg_partial {Byte : Type} {text : ℝ → Peg.Text} (encode : Peg.Text → List Byte) (he : ∀ a b, encode (a ++ b) = encode a ++ encode b)
    (destination : Destination) (hd : destination ≠ .openFile) (g : Geometry) (color : Style) (hg : Proper g)
    (hne : ∃ p, InGeometry g p) (xmin ymin xmax ymax : ℝ) (hf : Frames g xmin ymin xmax ymax)
    (ht : ∀ x, Printed g xmin ymin xmax ymax x → readNumber (text x) = some x)
    (env : Env) (ignore : Bool) (file : List Visitor.Cmd) (prog : List (Command LayerId))
    (hc : compile env ignore file = .ok prog) (G : Geos) (count : ℝ → ℤ) (n : ℕ) (hn : 3 ≤ n) (hcount : ∀ l, (n : ℤ) ≤ count l)
    (fuel : ℕ) (fail : Bool) (e : Eager (List (Set (Vec ℝ)))) (hr : Vm.run (shapely G count fuel) fail .main prog = .ok (some e))
    (s : Sheet) (picture : List (Painted (Vec ℝ))) (hp : Pictured (executed (!ignore) file) s)
    (hl : s.drawn.getLast? = some picture) (ha : Avoids (executed (!ignore) file)) (ho : PlainOutlines (executed (!ignore) file)) :
    ∃ t d c layers, saveSvg text encode destination g color = some (encode t) ∧ readDrawing t = some d ∧
      compiled env (executed (!ignore) file) = .ok c ∧ (∀ l ∈ layers, c.buffers.get? l.id = some l.cmds) ∧
      ((∀ l ∈ layers, ∀ s, .shape s ∈ l.cmds → ∀ pts, shapelyVertices count fuel s = .ok pts → EvenOddInside (G.region pts) pts) →
        (∀ p, ClearOfOutlines n layers .main p → (InGeometry g p ↔ p ∈ shapelyResult e)) →
        ∀ q, ClearOfOutlines n layers .main ⟨xmin + q.x, ymax - q.y⟩ →
          (Covered picture ⟨xmin + q.x, ymax - q.y⟩ → d.paint q = [(color.foreground, 6 / 10)]) ∧
          (¬ Covered picture ⟨xmin + q.x, ymax - q.y⟩ → d.paint q = [])) := by
  obtain ⟨t, d, h1, h2, -, -, h3, h4, -, -⟩ := c77_shown_partial encode he destination hd g color hg hne xmin ymin xmax ymax hf ht
  obtain ⟨c, layers, k1, k2, k3⟩ := c84_geometry_partial env ignore file prog hc G count n hn hcount fuel fail e hr s picture hp hl ha ho
  refine ⟨t, d, c, layers, h1, h2, k1, k2, fun hG hgeo q hq => ⟨fun hcov => h3 q ?_, fun hcov => h4 q ?_⟩⟩
  · rw [hgeo _ hq, k3 hG _ hq]; exact hcov
  · rw [hgeo _ hq, k3 hG _ hq]; exact hcov

section
open Verif.Visitor Verif.Compiler Verif.Console Verif.Spec.Board Verif.GerberBuilder
  Verif.View Verif.Grammar Verif.Dump Verif.BoardPicture Verif.Props.Picture Verif.Props.FlashImage Verif.Props.Image Verif.Props.State
  Verif.Props.BoardImage

/-- **C84** (boards; partial as above and as in C83). The geometry of a board made with the builder, printed, parsed, compiled and
rendered consists, clear of the outlines, of the objects asked for. -/
theorem c84_board_partial (rd : Peg.Text → Option Peg.Text) (cs : List Call) (hok : ∀ e ∈ (execAll {} cs).2, e = none)
    (hw : ∀ c ∈ cs, Writable c) (ht : ∀ c ∈ cs, ¬ IsThermal c) (hst : Steady (wishOf cs).objects)
    (hs : ∀ s ∈ (wishOf cs).pads, FineShape s) (ho : ∀ o ∈ (wishOf cs).objects, PlainObject o)
    (picture : List (Painted (Vec ℝ))) (hp : List.Forall₂ Asked (wishOf cs).objects picture) :
    ∃ f, parseCode rd (dumps (execAll {} cs).1) = .file f ∧
      ∀ env ignore prog, compile env ignore (commands f) = .ok prog →
        ∀ (G : Geos) count (n : ℕ) fuel fail e, 3 ≤ n → (∀ l, (n : ℤ) ≤ count l) →
        Vm.run (shapely G count fuel) fail .main prog = .ok (some e) →
        ∃ c layers, compiled env (executed (!ignore) (commands f)) = .ok c ∧ (∀ l ∈ layers, c.buffers.get? l.id = some l.cmds) ∧
          ((∀ l ∈ layers, ∀ s, .shape s ∈ l.cmds → ∀ pts, shapelyVertices count fuel s = .ok pts → EvenOddInside (G.region pts) pts) →
            ∀ p, ClearOfOutlines n layers .main p → (p ∈ shapelyResult e ↔ Covered picture p)) := by
  have hi := execAll_ids cs Ids.init
  have hr := execAll_rel cs Rel.init fun e he => by rw [hok e he]; trivial
  rw [Props.Board.succeeded_all cs hok] at hr
  have hm := execAll_made cs Rel.init (w := {}) ⟨nofun, .nil⟩ hok
  have hh := Props.Dump.holds_plain hw ht
  have hu := (Props.Board.c37_codes cs).1
  obtain ⟨s, I⟩ := board_pictured hr hi hm hs ho hst hp
  have ha := board_avoids hi hu hh hm hs ho I.conds
  refine ⟨_, parse_dumps rd hi hh, fun env ignore prog hc G count n fuel fail e hn hcount h => ?_⟩
  rw [Rewrite.compile_nodes keeps_signed, commands_file hi hh] at hc
  rw [compiled_nodes, commands_file hi hh]
  have ex := board_executed hi (!ignore)
  have hexn := compile_exn hc
  have hnest := c17_files_nested (!ignore) ((execAll {} cs).1.getCode.map Cmd.leaf) _ [] (List.append_nil _).symm
  obtain ⟨c, -, -, h1, -⟩ := c64_image env ignore _ prog hc G count fuel fail e h
  have hout := board_outlines hi hm hs ho I.conds ha (by rw [← ex]; exact hnest) (by rw [← ex]; exact hexn) (by rw [← ex]; exact h1)
  exact c84_geometry_partial env ignore _ prog hc G count n hn hcount fuel fail e h s picture
    (by rw [ex]; exact I.pic) (by rw [I.drawn]; rfl) (by rw [ex]; exact ha) (by rw [ex]; exact hout)

end

/-! ### A sample -/

section
open Verif.Visitor Verif.Compiler Verif.Console Verif.Svg Verif.Props.Picture Verif.Props.Image Verif.Props.Compiler
  Verif.Props.State Verif.Props.Svg Verif.Props.Enclosed

theorem within_shift (l : List (Vec ℝ)) (v p : Vec ℝ) : WithinLine (l.map (· + v)) p ↔ WithinLine l (p - v) := by
  classical
  have h : ∀ e : Vec ℝ × Vec ℝ, Crosses p (Prod.map (· + v) (· + v) e) ↔ Crosses (p - v) e := by
    rintro ⟨a, b⟩
    simp only [Crosses, Prod.map, Vec.add_x, Vec.add_y, Vec.sub_x, Vec.sub_y, sub_lt_iff_lt_add]
    have e : a.x + (p.y - v.y - a.y) * (b.x - a.x) / (b.y - a.y) + v.x =
        a.x + v.x + (p.y - (a.y + v.y)) * (b.x + v.x - (a.x + v.x)) / (b.y + v.y - (a.y + v.y)) := by
      rw [add_sub_add_right_eq_sub, add_sub_add_right_eq_sub, show p.y - (a.y + v.y) = p.y - v.y - a.y by ring]
      ring
    rw [e]
  unfold WithinLine crossings
  rw [sides_map, List.countP_map]
  have : ((fun e => decide (Crosses p e)) ∘ Prod.map (· + v) (· + v)) = fun e => decide (Crosses (p - v) e) := by
    funext e
    simp [h]
  rw [this]

/-- Polygons filled by the even-odd rule satisfy what is assumed of the geometry library. -/
noncomputable def evenOdd : Geos where
  region pts := {p | WithinLine pts p}
  meets _ _ := true
  region_move pts v := by ext p; exact within_shift pts v p
  meets_complete _ _ h := by cases h

/-- The file with a pad is rendered. -/
theorem pad_geometry (G : Geos) : ∃ prog, compile env0 false (.leaf (.mo .metric) :: padFile) = .ok prog ∧
    ∃ pts, shapelyVertices shapelyCount 1 (Shape.newRectangle ⟨0, 0⟩ 4 2 false) = .ok pts ∧
    ∃ e, Vm.run (shapely G shapelyCount 1) false .main prog = .ok (some e) ∧ ∀ p, p ∈ shapelyResult e ↔ p ∈ G.region pts := by
  eval_compiler [compile, finish, file_is_run, executed, isStop, atomsOf, atomsOfAll, padFile, Compiler.convert, resolve_step, resolve.loop,
    dependsOn, Draw.sources, List.dedup_cons_of_mem, List.dedup_cons_of_notMem, Props.Raster.rect_same]
  obtain ⟨pts, h1, h2⟩ := Props.Painting.rect_vertices shapelyCount 1 ⟨0, 0⟩ 4 2 false
  refine ⟨pts, h1, ?_⟩
  simp [layerCommands, Vm.run, Vm.exec, Vm.step, onStart, Machine.init, Dict.get?_set, onDraw, record, onEnd, deferredBox, commandBox,
    boxLoop, bind, Except.bind, pure, Except.pure, replay, paint, target, shapely, settle, shapelyShape, addPolygon, h1, h2, Props.Raster.rect_box]
  intro p
  have e1 : pts.map (fun x => x + -(⟨0, 0⟩ : Vec ℝ)) = pts := by
    have : (fun x : Vec ℝ => x + -⟨0, 0⟩) = _root_.id := by funext v; ext <;> simp
    rw [this, List.map_id]
  have e2 : p - (-⟨0, 0⟩ + ⟨0, 0⟩) = p := by ext <;> simp
  have e3 : (Shape.newRectangle (⟨0, 0⟩ : Vec ℝ) 4 2 false).negative = false := rfl
  have e4 : (Visitor.Polarity.dark == Visitor.Polarity.clear) = false := rfl
  simp [shapelyResult, shapelyPaste, pasteGeometries, addGeometry, e1, e2, e3, e4]

theorem pad_clear {c : CState} {layers : List (Spec.Layer LayerId)} (h9 : ∀ l ∈ layers, c.buffers.get? l.id = some l.cmds)
    (g2 : ∀ id cmds, c.buffers.get? id = some cmds →
      (id = .main → cmds = [.paste (.xform (.ap ['D','1','0']) (transformMatrix {})) ⟨0, 0⟩ false]) ∧
      (id ≠ .main → cmds = [.shape (Shape.newRectangle ⟨0, 0⟩ 4 2 false)])) (n : ℕ) : ClearOfOutlines n layers .main ⟨0, 0⟩ := by
  intro m s v hs
  obtain ⟨rfl, rfl, -, -⟩ := pad_shapes h9 g2 _ _ _ _ hs
  have e : (⟨0, 0⟩ : Vec ℝ) - ⟨0, 0⟩ = ⟨0, 0⟩ := by ext <;> simp
  rw [e]
  have hrim : ∀ v, OnRim (Shape.newRectangle ⟨0, 0⟩ 4 2 false) v → v ≠ ⟨0, 0⟩ := by
    rintro v hv rfl
    rw [Lemmas.ShapeArea.rectangle_rim _ _ (by norm_num) (by norm_num)] at hv
    norm_num at hv
  constructor
  · intro g hg v hv
    have := hrim v (.inl ⟨g, hg, hv⟩)
    have hb : bow n g = 0 := by
      simp only [Shape.segments, Shape.newRectangle, List.mem_cons, List.not_mem_nil, or_false] at hg
      rcases hg with rfl | rfl | rfl | rfl <;> rfl
    rw [hb]
    refine vlen_pos fun ⟨hx, hy⟩ => this ?_
    simp only [Vec.sub_x, Vec.sub_y, zero_sub, neg_eq_zero] at hx hy
    ext <;> assumption
  · intro g hg ho
    exact hrim ⟨0, 0⟩ (.inr ⟨g, hg, ho⟩) rfl

theorem pad_commands {c : CState} (hc : compiled env0 padAtoms = .ok c) : ∀ id cmds, c.buffers.get? id = some cmds →
    (id = .main → cmds = [.paste (.xform (.ap ['D','1','0']) (transformMatrix {})) ⟨0, 0⟩ false]) ∧
    (id ≠ .main → cmds = [.shape (Shape.newRectangle ⟨0, 0⟩ 4 2 false)]) := by
  obtain ⟨c', g1, g2⟩ := pad_compiled
  have : Except.ok c' = Except.ok c := g1.symm.trans hc
  cases this
  exact g2

/-- The middle of a pad belongs to the geometry. -/
example : ∃ prog e, compile env0 false (.leaf (.mo .metric) :: padFile) = .ok prog ∧
    Vm.run (shapely evenOdd shapelyCount 1) false .main prog = .ok (some e) ∧ ⟨0, 0⟩ ∈ shapelyResult e := by
  obtain ⟨prog, h1, pts, -, e, h2, -⟩ := pad_geometry evenOdd
  obtain ⟨s, h5, picture, h6, h7⟩ := pad_pictured
  obtain ⟨c, layers, h8, h9, h10⟩ := c84_geometry_partial env0 false _ prog h1 evenOdd shapelyCount 24 (by norm_num)
    (fun l => by exact_mod_cast Props.Arcs.shapelyCount_ge l) 1 false e h2 s picture h5 h6 pad_avoids pad_outlines
  exact ⟨prog, e, h1, h2, (h10 (fun _ _ _ _ _ _ _ _ => Iff.rfl) _ (pad_clear h9 (pad_commands h8) 24)).2 h7⟩

/-- The pad, as the library gives it. -/
def padShape : Geometry := .polygon ⟨Props.Svg.ring (-2) (-1) 2 1, []⟩

theorem pad_ring {pts : List (Vec ℝ)} (h : shapelyVertices shapelyCount 1 (Shape.newRectangle ⟨0, 0⟩ 4 2 false) = .ok pts) (p : Vec ℝ) :
    WithinLine pts p ↔ InGeometry padShape p := by
  obtain ⟨trs, h1, h2⟩ := vertices_follow (n := 24) (by norm_num) (fun l => by exact_mod_cast Props.Arcs.shapelyCount_ge l)
    (s := Shape.newRectangle ⟨0, 0⟩ 4 2 false) (by
      intro g hg
      simp only [Shape.segments, Shape.newRectangle, List.mem_cons, List.not_mem_nil, or_false] at hg
      rcases hg with rfl | rfl | rfl | rfl <;> trivial) h
  rw [within_samePath h2]
  simp only [Shape.segments, Shape.newRectangle] at h1
  rcases h1 with _ | ⟨h3, _ | ⟨h4, _ | ⟨h5, _ | ⟨h6, _ | _⟩⟩⟩⟩
  simp only [Follows, Shape.ln] at h3 h4 h5 h6
  subst h3 h4 h5 h6
  norm_num [Shape.newRectangle, Shape.ln, Segment.start]
  have e : InGeometry padShape p ↔ WithinLine (Props.Svg.ring (-2) (-1) 2 1) p := by
    simp [InGeometry, padShape, Geometry.polygons, InPolygon]
  rw [e]
  refine within_samePath ?_
  refine .trans (.repeated [⟨-2, -1⟩] ⟨2, -1⟩ [⟨2, 1⟩, ⟨2, 1⟩, ⟨-2, 1⟩, ⟨-2, 1⟩, ⟨-2, -1⟩, ⟨-2, -1⟩]) ?_
  refine .trans (.repeated [⟨-2, -1⟩, ⟨2, -1⟩] ⟨2, 1⟩ [⟨-2, 1⟩, ⟨-2, 1⟩, ⟨-2, -1⟩, ⟨-2, -1⟩]) ?_
  refine .trans (.repeated [⟨-2, -1⟩, ⟨2, -1⟩, ⟨2, 1⟩] ⟨-2, 1⟩ [⟨-2, -1⟩, ⟨-2, -1⟩]) ?_
  exact .repeated [⟨-2, -1⟩, ⟨2, -1⟩, ⟨2, 1⟩, ⟨-2, 1⟩] ⟨-2, -1⟩ []

theorem pad_proper : Proper padShape := by
  have hP : ∀ P ∈ padShape.polygons, P = ⟨Props.Svg.ring (-2) (-1) 2 1, []⟩ := by simp [padShape, Geometry.polygons]
  constructor
  · intro P h r hr
    rw [hP P h] at hr
    simp only [List.mem_cons, List.not_mem_nil, or_false] at hr
    subst hr
    exact ⟨by simp [Props.Svg.ring], rfl⟩
  · intro P h hole hh
    rw [hP P h] at hh
    simp at hh
  · intro P h
    rw [hP P h]
    simp
  · simp [padShape, Geometry.polygons]

theorem pad_frames : Frames padShape (-2) (-1) 2 1 := by
  have hm : ∀ p : Vec ℝ, p ∈ Props.Svg.ring (-2) (-1) 2 1 → -2 ≤ p.x ∧ -1 ≤ p.y ∧ p.x ≤ 2 ∧ p.y ≤ 1 := by
    intro p hp
    simp only [Props.Svg.ring, List.mem_cons, List.not_mem_nil, or_false] at hp
    rcases hp with rfl | rfl | rfl | rfl | rfl <;> norm_num
  have hP : ∀ P ∈ padShape.polygons, P.exterior = Props.Svg.ring (-2) (-1) 2 1 := by simp [padShape, Geometry.polygons]
  have hi : (⟨Props.Svg.ring (-2) (-1) 2 1, []⟩ : Poly) ∈ padShape.polygons := by simp [padShape, Geometry.polygons]
  refine ⟨⟨⟨_, hi, ⟨-2, -1⟩, by simp [Props.Svg.ring], rfl⟩, ?_⟩, ⟨⟨_, hi, ⟨-2, -1⟩, by simp [Props.Svg.ring], rfl⟩, ?_⟩,
    ⟨⟨_, hi, ⟨2, 1⟩, by simp [Props.Svg.ring], rfl⟩, ?_⟩, ⟨⟨_, hi, ⟨2, 1⟩, by simp [Props.Svg.ring], rfl⟩, ?_⟩⟩
  all_goals
    rintro x ⟨P, h, p, hp, rfl⟩
    rw [hP P h] at hp
    have := hm p hp
  · exact this.1
  · exact this.2.1
  · exact this.2.2.1
  · exact this.2.2.2

open Classical in
/-- Numbers as Python prints them. -/
noncomputable def padText (x : ℝ) : Peg.Text :=
  if x = 0 then t!"0.0" else if x = 1 then t!"1.0" else if x = -1 then t!"-1.0" else if x = 2 then t!"2.0" else if x = -2 then t!"-2.0"
  else t!"4.0"

theorem pad_printed (x : ℝ) (h : Printed padShape (-2) (-1) 2 1 x) : readNumber (padText x) = some x := by
  have key : ∀ x : ℝ, x = 0 ∨ x = 1 ∨ x = -1 ∨ x = 2 ∨ x = -2 ∨ x = 4 → readNumber (padText x) = some x := by
    have n0 : number t!"0.0" = some 0 := by decide +kernel
    have n1 : number t!"1.0" = some 1 := by decide +kernel
    have n2 : number t!"2.0" = some 2 := by decide +kernel
    have n4 : number t!"4.0" = some 4 := by decide +kernel
    have m1 : number t!"-1.0" = some (-1) := by decide +kernel
    have m2 : number t!"-2.0" = some (-2) := by decide +kernel
    rintro x (rfl | rfl | rfl | rfl | rfl | rfl) <;> norm_num [padText, readNumber, n0, n1, n2, n4, m1, m2]
  apply key
  rcases h with rfl | rfl | rfl | rfl | rfl | rfl | ⟨P, hP, r, hr, p, hp, h⟩
  all_goals try norm_num
  simp only [padShape, Geometry.polygons, List.mem_singleton] at hP
  subst hP
  simp only [List.mem_cons, List.not_mem_nil, or_false] at hr
  subst hr
  simp only [Props.Svg.ring, List.mem_cons, List.not_mem_nil, or_false] at hp
  rcases hp with rfl | rfl | rfl | rfl | rfl <;> rcases h with rfl | rfl <;> norm_num

/-- The middle of a pad is painted. -/
example (color : Style) : ∃ t d, saveSvg padText (fun t => t) .bytesIO padShape color = some t ∧ readDrawing t = some d ∧
    d.paint ⟨2, 1⟩ = [(color.foreground, 6 / 10)] := by
  obtain ⟨prog, h1, pts, h2, e, h3, h4⟩ := pad_geometry evenOdd
  obtain ⟨s, h5, picture, h6, h7⟩ := pad_pictured
  have hin : InGeometry padShape ⟨0, 0⟩ := by
    have e : InGeometry padShape ⟨0, 0⟩ ↔ WithinLine (Props.Svg.ring (-2) (-1) 2 1) ⟨0, 0⟩ := by
      simp [InGeometry, padShape, Geometry.polygons, InPolygon]
    rw [e, within_ring (by norm_num) (by norm_num)]
    norm_num
  obtain ⟨t, d, c, layers, k1, k2, h8, h9, h10⟩ := c84_svg_partial (text := padText) (fun t => t) (fun _ _ => rfl) .bytesIO (by decide)
    padShape color pad_proper ⟨⟨0, 0⟩, hin⟩ (-2) (-1) 2 1 pad_frames pad_printed env0 false _ prog h1 evenOdd shapelyCount 24 (by norm_num)
    (fun l => by exact_mod_cast Props.Arcs.shapelyCount_ge l) 1 false e h3 s picture h5 h6 pad_avoids pad_outlines
  have e0 : (⟨-2 + (⟨2, 1⟩ : Vec ℝ).x, 1 - (⟨2, 1⟩ : Vec ℝ).y⟩ : Vec ℝ) = ⟨0, 0⟩ := by norm_num
  have := h10 (fun _ _ _ _ _ _ _ _ => Iff.rfl) (fun p _ => by rw [h4, ← pad_ring h2]; rfl) ⟨2, 1⟩
  rw [e0] at this
  exact ⟨t, d, k1, k2, (this (pad_clear h9 (pad_commands h8) 24)).1 h7⟩

end

section
open Verif.Visitor Verif.Compiler Verif.Console Verif.Spec.Board Verif.GerberBuilder Verif.GerberBuilder.Builder
  Verif.View Verif.Grammar Verif.Dump Verif.BoardPicture Verif.Props.Picture Verif.Props.Image Verif.Props.State Verif.Props.Compiler
  Verif.Props.BoardImage Verif.Props.Enclosed

theorem padBoard_geometry (G : Geos) : ∃ prog, compile env0 false ((execAll {} padBoard).1.getCode.map Cmd.leaf) = .ok prog ∧
    ∃ e, Vm.run (shapely G shapelyCount 1) false .main prog = .ok (some e) := by
  rw [padBoard_code]
  have hx : (format.unpack .x ['0']) = .ok 0 := by decide +kernel
  have hy : (format.unpack .y ['0']) = .ok 0 := by decide +kernel
  eval_compiler [compile, finish, file_is_run, executed, isStop, atomsOf, atomsOfAll, Compiler.convert, resolve_step, resolve.loop,
    dependsOn, Draw.sources, List.dedup_cons_of_mem, List.dedup_cons_of_notMem, Props.Raster.rect_same, VState.dispatch, VState.putX,
    VState.putY, hx, hy]
  obtain ⟨pts, h1, h2⟩ := Props.Painting.rect_vertices shapelyCount 1 ⟨0, 0⟩ 4 2 false
  simp [layerCommands, Vm.run, Vm.exec, Vm.step, onStart, Machine.init, Dict.get?_set, onDraw, record, onEnd, deferredBox, commandBox,
    boxLoop, bind, Except.bind, pure, Except.pure, replay, paint, target, shapely, settle, shapelyShape, addPolygon, h1, h2, Props.Raster.rect_box]

/-- The middle of the pad of a board belongs to the geometry. -/
example (rd : Peg.Text → Option Peg.Text) : ∃ f prog e, parseCode rd (dumps (execAll {} padBoard).1) = .file f ∧
    compile env0 false (commands f) = .ok prog ∧ Vm.run (shapely evenOdd shapelyCount 1) false .main prog = .ok (some e) ∧
    ⟨0, 0⟩ ∈ shapelyResult e := by
  have hi := execAll_ids padBoard Ids.init
  have e : (wishOf padBoard).objects = [.pad (.standard (.rect 4 2 none)) (0, 0) {}] := rfl
  have e' : (wishOf padBoard).pads = [.standard (.rect 4 2 none)] := rfl
  have hw : ∀ c ∈ padBoard, Writable c := by
    simp only [padBoard, List.mem_cons, List.not_mem_nil, or_false, forall_eq_or_imp, forall_eq, Writable]
    exact ⟨⟨written 4 0 (by norm_num) (by norm_num), written 2 0 (by norm_num) (by norm_num), by intro q h; simp at h⟩,
      ⟨written 0 0 (by norm_num) (by norm_num), written 1 0 (by norm_num) (by norm_num)⟩⟩
  have ht : ∀ c ∈ padBoard, ¬ IsThermal c := by simp [padBoard, IsThermal]
  have hh := Props.Dump.holds_plain hw ht
  obtain ⟨f, h1, h2⟩ := c84_board_partial rd padBoard (by decide +kernel) hw ht (by
      rw [e]
      intro before between after k w b e c w' b' e' c' h
      have := congrArg List.length h
      simp at this
      omega) (by rw [e']; simp only [List.mem_singleton, forall_eq]; exact fine_rect)
    (by rw [e]; simp only [List.mem_singleton, forall_eq]; exact .pad (by norm_num)) _
    (by rw [e]; exact .cons (.pad (.standard nofun (.rect (by norm_num) (by norm_num)))) .nil)
  obtain ⟨prog, g1, geo, g2⟩ := padBoard_geometry evenOdd
  have hf : f = Rewrite.nodes signed (file (execAll {} padBoard).1) := by
    have := h1.symm.trans (parse_dumps rd hi hh)
    cases this
    rfl
  have g1' : compile env0 false (commands f) = .ok prog := by
    rw [hf, Rewrite.compile_nodes keeps_signed, commands_file hi hh, g1]
  obtain ⟨c, layers, h3, h4, h5⟩ := h2 env0 false prog g1' evenOdd shapelyCount 24 1 false geo (by norm_num)
    (fun l => by exact_mod_cast Props.Arcs.shapelyCount_ge l) g2
  refine ⟨f, prog, geo, h1, g1', g2, (h5 (fun _ _ _ _ _ _ _ _ => Iff.rfl) _ ?_).2 ?_⟩
  · obtain ⟨c', k1, k2⟩ := padBoard_compiled
    rw [hf, compiled_nodes, commands_file hi hh, board_executed hi] at h3
    have : Except.ok c' = Except.ok c := k1.symm.trans h3
    cases this
    exact pad_clear h4 k2 24
  · refine ⟨[], _, [], rfl, ⟨⟨0, 0⟩, ⟨[], _, [], rfl, ?_, nofun, rfl⟩, ?_⟩, nofun, rfl⟩
    · show Rectangle _ _ _
      norm_num [Rectangle, Spec.point]
    · have : onGrid (0, 0) = (0, 0) := by decide +kernel
      rw [this]
      ext <;> simp [placed, vec, rotCcw]

end

end Verif.Props.Vector
