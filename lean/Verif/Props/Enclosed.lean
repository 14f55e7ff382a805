import Verif.Spec.Enclosed
import Verif.Lemmas.Fine
import Verif.Props.Picture
import Verif.Lemmas.SoundLayers

/-!
# C82: raster images show the picture that the file describes
-/

namespace Verif.Props.Enclosed
open Verif.Geom Verif.Rvmc Verif.Vm Verif.Spec Verif.Crossing Verif.Render Verif.Fine

/-! ### Polygons along an outline -/

theorem along_mono {ε ε' : ℝ} (h : ε ≤ ε') {g : Segment} (hn : NotClosed g) {tr : List (Vec ℝ)} (ha : Along ε g tr) : Along ε' g tr := by
  have hr := radius_pos hn
  cases g with
  | line l => exact ha
  | arc a =>
    obtain ⟨t, offs, h1, h2, h3, h4⟩ := ha
    exact ⟨t, offs, h1, Props.Arcs.discretises_mono h2 (div_le_div_of_nonneg_right h hr.le), h3, h4⟩

theorem forall₂_along_mono {ε ε' : ℝ} (h : ε ≤ ε') {gs : List Segment} {trs : List (List (Vec ℝ))} (ha : List.Forall₂ (Along ε) gs trs) :
    (∀ g ∈ gs, NotClosed g) → List.Forall₂ (Along ε') gs trs := by
  induction ha with
  | nil => exact fun _ => .nil
  | cons h1 _ ih => exact fun hn => .cons (along_mono h (hn _ (by simp)) h1) (ih fun g hg => hn g (by simp [hg]))

/-- Away from the outline, the points of the polygon are those of the shape. -/
theorem area_iff {s : Shape} (hn : ∀ g ∈ s.segments, NotClosed g) (hs : GoesRoundOnce s) {ε : ℝ} (hε : 0 < ε) {trs : List (List (Vec ℝ))}
    (h : List.Forall₂ (Along ε) s.segments trs) {p : Vec ℝ} (hp : ∀ v, OnRim s v → ¬ Close ε p v) :
    WithinLine trs.flatten p ↔ p ∈ areaOf s := by
  obtain ⟨V, rfl, hV, hW⟩ := refinements hn h
  have hle : ∀ k : ℕ, ε / 2 ^ k ≤ ε := fun k => div_le_self hε.le (one_le_pow₀ (by norm_num))
  have all : ∀ k, WithinLine (V 0).flatten p ↔ WithinLine (V k).flatten p := by
    intro k
    induction k with
    | zero => exact Iff.rfl
    | succ k ih =>
      rw [ih]
      exact hW k p fun g hg v hv hc => hp v (.inl ⟨g, hg, hv⟩) (close_mono hc (hle k))
  constructor
  · intro h0
    exact enclosed hn hε hV hW (k₀ := 0) fun k _ => (all k).1 h0
  · intro hA
    have hnr : ¬ OnRim s p := fun hr => hp p hr (by simp [Close, hε.le])
    obtain ⟨δ, hδ, hd⟩ := hs p hA hnr
    obtain ⟨K, hK⟩ := exists_pow_lt_of_lt_one (div_pos hδ hε) (by norm_num : (1 / 2 : ℝ) < 1)
    rw [div_pow, one_pow, lt_div_iff₀ hε] at hK
    rw [all K]
    refine hd _ (forall₂_along_mono ?_ (hV K) hn)
    calc ε / 2 ^ K = 1 / 2 ^ K * ε := by ring
      _ ≤ δ := hK.le

/-! ### Sides of lines with repeated points -/

theorem pairs_split : ∀ (x : List (Vec ℝ)) (q : Vec ℝ) (y : List (Vec ℝ)), pairs (x ++ q :: y) = pairs (x ++ [q]) ++ pairs (q :: y)
  | [], q, y => by simp [pairs]
  | [a], q, y => by simp [pairs]
  | a :: b :: x, q, y => by
    have := pairs_split (b :: x) q y
    simp only [List.cons_append, pairs] at this ⊢
    rw [this]

theorem near_repeated {δ : ℝ} {p : Vec ℝ} (b : List (Vec ℝ)) (q : Vec ℝ) (a : List (Vec ℝ)) :
    (∃ e ∈ sides (b ++ q :: q :: a), Near δ p e) ↔ ∃ e ∈ sides (b ++ q :: a), Near δ p e := by
  rw [sides_pairs, sides_pairs]
  obtain ⟨h, hh⟩ : ∃ h, ∀ c : List (Vec ℝ), (b ++ q :: c).head?.toList = [h] := by
    cases b with
    | nil => exact ⟨q, fun _ => rfl⟩
    | cons x b => exact ⟨x, fun _ => rfl⟩
  rw [hh, hh]
  have e1 : b ++ q :: q :: a ++ [h] = b ++ q :: (q :: (a ++ [h])) := by simp
  have e2 : b ++ q :: a ++ [h] = b ++ q :: (a ++ [h]) := by simp
  rw [e1, e2, pairs_split, pairs_split b q (a ++ [h])]
  obtain ⟨y, z, hy⟩ : ∃ y z, a ++ [h] = y :: z := by cases a <;> simp
  rw [hy]
  simp only [pairs]
  constructor
  · rintro ⟨e, he, hn⟩
    rcases List.mem_append.1 he with he | he
    · exact ⟨e, List.mem_append_left _ he, hn⟩
    · rcases List.mem_cons.1 he with rfl | he
      · refine ⟨(q, y), by simp, ?_⟩
        obtain ⟨t, -, -, h1, h2⟩ := hn
        refine ⟨0, le_rfl, zero_le_one, ?_, ?_⟩
        · simp only at h1 ⊢; rw [show (1 - 0) * q.x + 0 * y.x = (1 - t) * q.x + t * q.x by ring]; exact h1
        · simp only at h2 ⊢; rw [show (1 - 0) * q.y + 0 * y.y = (1 - t) * q.y + t * q.y by ring]; exact h2
      · exact ⟨e, List.mem_append_right _ he, hn⟩
  · rintro ⟨e, he, hn⟩
    rcases List.mem_append.1 he with he | he
    · exact ⟨e, List.mem_append_left _ he, hn⟩
    · exact ⟨e, List.mem_append_right _ (List.mem_cons_of_mem _ he), hn⟩

theorem near_samePath {δ : ℝ} {p : Vec ℝ} {l m : List (Vec ℝ)} (h : SamePath l m) :
    (∃ e ∈ sides l, Near δ p e) ↔ ∃ e ∈ sides m, Near δ p e := by
  induction h with
  | refl => exact Iff.rfl
  | symm _ ih => exact ih.symm
  | trans _ _ ih1 ih2 => exact ih1.trans ih2
  | repeated b q a => exact near_repeated b q a

/-! ### The polygons of the image -/

open Props.Painting in
theorem outline_along {dpmm : ℤ} (hd : 0 < dpmm) {fuel : ℕ} {s : Shape} (hn : ∀ g ∈ s.segments, NotClosed g) {corners : List (Vec ℝ)}
    (h : pillowOutline dpmm fuel s = .ok corners) :
    ∃ trs, List.Forall₂ (Along (1 / dpmm)) s.segments trs ∧ SamePath corners trs.flatten := by
  unfold pillowOutline at h
  cases hv : pillowVertices dpmm fuel s with
  | error x => rw [hv] at h; cases h
  | ok pts =>
    rw [hv] at h
    cases h
    obtain ⟨f, traces, h1, h2⟩ := Props.Arcs.c54_pillow_outline_partial s hn dpmm
    obtain ⟨pts', h3, h4⟩ := h2 (max f fuel) (le_max_left _ _)
    have h5 := Props.Pixels.pillowLoop_more (le_max_right f fuel) dpmm _ _ _ hv
    unfold pillowVertices at h3
    rw [h5] at h3
    cases h3
    exact ⟨traces, h1.imp fun _ _ h => h.2 hd, h4⟩

variable {ι : Type} {layers : List (Spec.Layer ι)}

/-- No arcs that start where they end. -/
def NoTurns (layers : List (Spec.Layer ι)) : Prop := ∀ l ∈ layers, ∀ s, .shape s ∈ l.cmds → ∀ g ∈ s.segments, NotClosed g

theorem polygon_shape {outline : Shape → Except VErr (List (Vec ℝ))} {id : ι} {n : ℕ} {corners : List (Vec ℝ)}
    (h : PolygonAt outline layers id n corners) :
    ∃ s c vs, ShapeAt layers id n s c ∧ outline s = .ok vs ∧ corners = vs.map (· + c) := by
  induction h with
  | shape l mem s drawn corners outlined =>
    refine ⟨s, ⟨0, 0⟩, corners, .shape l mem s drawn, outlined, ?_⟩
    have : (fun v : Vec ℝ => v + ⟨0, 0⟩) = _root_.id := by funext v; ext <;> simp
    rw [this, List.map_id]
  | paste l mem source center negative drawn n corners _ ih =>
    obtain ⟨s, c, vs, h1, h2, rfl⟩ := ih
    refine ⟨s, c + center, vs, .paste l mem source center negative drawn n s c h1, h2, ?_⟩
    rw [List.map_map]
    apply List.map_congr_left
    intro v _
    ext <;> simp [add_assoc]

theorem shape_drawn {id : ι} {n : ℕ} {s : Shape} {c : Vec ℝ} (h : ShapeAt layers id n s c) : ∃ l ∈ layers, .shape s ∈ l.cmds := by
  induction h with
  | shape l mem s drawn => exact ⟨l, mem, drawn⟩
  | paste _ _ _ _ _ _ _ _ _ _ ih => exact ih

theorem close_shift {ε : ℝ} {p v c : Vec ℝ} : Close ε (p - c) v ↔ Close ε p (v + c) := by
  unfold Close
  simp only [Vec.sub_x, Vec.sub_y, Vec.add_x, Vec.add_y, sub_sub, add_comm]

open Props.Painting in
/-- Away from outlines, a point is away from the sides of the polygons. -/
theorem away_sides {dpmm : ℤ} (hd : 0 < dpmm) {fuel : ℕ} {ρ : ℝ} (hn : NoTurns layers) {id : ι} {p : Vec ℝ}
    (h : AwayFromOutlines layers dpmm ρ id p) : AwayFromSides (pillowOutline dpmm fuel) layers dpmm ρ id p := by
  have hd' : (0 : ℝ) < dpmm := by exact_mod_cast hd
  intro n corners hc e he hne
  obtain ⟨s, c, vs, h1, h2, rfl⟩ := polygon_shape hc
  obtain ⟨l, hl, hs⟩ := shape_drawn h1
  obtain ⟨trs, h3, h4⟩ := outline_along hd (hn l hl s hs) h2
  rw [sides_map, List.mem_map] at he
  obtain ⟨e', he', rfl⟩ := he
  have hne' : Near ((n + 1 + ρ) / dpmm) (p - c) e' := by
    obtain ⟨t, t0, t1, h1, h2⟩ := hne
    refine ⟨t, t0, t1, ?_, ?_⟩
    · refine le_trans (le_of_eq ?_) h1
      congr 1
      simp only [Prod.map, Vec.add_x, Vec.sub_x]; ring
    · refine le_trans (le_of_eq ?_) h2
      congr 1
      simp only [Prod.map, Vec.add_y, Vec.sub_y]; ring
  obtain ⟨e'', he'', hne''⟩ := (near_samePath h4).1 ⟨e', he', hne'⟩
  obtain ⟨v, hv, hcl⟩ := side_near (by positivity) (hn l hl s hs) h3 he'' hne''
  refine h n s c h1 v hv (close_shift.1 (close_mono hcl (le_of_eq ?_)))
  field_simp
  ring

open Props.Painting in
/-- Polygons and areas cover the same points away from outlines. -/
theorem polygons_agree {dpmm : ℤ} (hd : 0 < dpmm) {fuel : ℕ} {ρ : ℝ} (hρ : 0 ≤ ρ) (hn : NoTurns layers)
    (ho : ∀ l ∈ layers, ∀ s, .shape s ∈ l.cmds → GoesRoundOnce s) {id : ι} {os : List (Painted (Vec ℝ))}
    (h : Shows (polygonOf (pillowOutline dpmm fuel)) layers id os) :
    ∃ os', Shows within layers id os' ∧ ∀ p, AwayFromOutlines layers dpmm ρ id p → (Covered os p ↔ Covered os' p) := by
  have hd' : (0 : ℝ) < dpmm := by exact_mod_cast hd
  refine Shows.rec
    (motive_1 := fun id os _ => ∃ os', Shows within layers id os' ∧
      ∀ p, AwayFromOutlines layers dpmm ρ id p → (Covered os p ↔ Covered os' p))
    (motive_2 := fun ds os _ => ∀ l ∈ layers, (∀ d ∈ ds, d ∈ l.cmds) → ∃ os', ShowsAll within layers ds os' ∧
      ∀ p, AwayFromOutlines layers dpmm ρ l.id p →
        List.Forall₂ (fun o o' => o.dark = o'.dark ∧ (p ∈ o.points ↔ p ∈ o'.points)) os os') ?_ ?_ ?_ ?_ h
  · intro l os mem _ ih
    obtain ⟨os', h1, h2⟩ := ih l mem (fun _ h => h)
    exact ⟨os', .layer l os' mem h1, fun p hp => Props.Pixels.covered_congr (h2 p hp)⟩
  · intro l _ _
    exact ⟨[], .nil, fun _ _ => .nil⟩
  · intro s points ds os inside _ ih l mem hc
    obtain ⟨os', h1, h2⟩ := ih l mem (fun x hx => hc x (List.mem_cons_of_mem _ hx))
    refine ⟨⟨!s.negative, areaOf s⟩ :: os', .shape s _ ds os' rfl h1, fun p hp => .cons ⟨rfl, ?_⟩ (h2 p hp)⟩
    unfold polygonOf at inside
    cases hv : pillowOutline dpmm fuel s with
    | error x => rw [hv] at inside; cases inside
    | ok vs =>
      rw [hv] at inside
      cases inside
      have hs := hc _ (List.mem_cons_self ..)
      obtain ⟨trs, h3, h4⟩ := outline_along hd (hn l mem s hs) hv
      refine (within_samePath h4).trans (area_iff (hn l mem s hs) (ho l mem s hs) (by positivity) h3 fun v hv hcl => ?_)
      refine hp 0 s ⟨0, 0⟩ (.shape l mem s hs) v hv (close_mono (δ := 1 / dpmm) ?_ ?_)
      · have : v + (⟨0, 0⟩ : Vec ℝ) = v := by ext <;> simp
        rw [this]; exact hcl
      · apply div_le_div_of_nonneg_right _ hd'.le
        push_cast; linarith
  · intro source center negative objects ds os _ _ ih1 ih2 l mem hc
    obtain ⟨os1, h1, h2⟩ := ih1
    obtain ⟨os2, h3, h4⟩ := ih2 l mem (fun x hx => hc x (List.mem_cons_of_mem _ hx))
    refine ⟨⟨!negative, {p | Covered os1 (p - center)}⟩ :: os2, .paste source center negative os1 ds os2 h1 h3,
      fun p hp => .cons ⟨rfl, h2 (p - center) fun n s c hs v hv hcl => ?_⟩ (h4 p hp)⟩
    refine hp (n + 1) s (c + center) (.paste l mem source center negative (hc _ (List.mem_cons_self ..)) n s c hs) v hv ?_
    rw [close_shift] at hcl
    have : v + c + center = v + (c + center) := by ext <;> simp [add_assoc]
    rw [this] at hcl
    refine close_mono hcl ?_
    apply div_le_div_of_nonneg_right _ hd'.le
    push_cast; linarith


/-! ### The picture -/

open Verif.Compiler Verif.Props.Compiler Verif.Props.Picture Verif.Props.FlashImage Verif.Props.Image in
/-- What the layers of a program show is the picture. -/
theorem picture_shown {env : Env} {ignore : Bool} {file : List Visitor.Cmd} {prog : List (Command LayerId)}
    (hc : compile env ignore file = .ok prog) {c : CState} (h1 : compiled env (executed (!ignore) file) = .ok c)
    {os : List (Painted (Vec ℝ))} (hs : Shows within (layersOf c) .main os)
    {s : Sheet} {picture : List (Painted (Vec ℝ))} (hp : Pictured (executed (!ignore) file) s)
    (hl : s.drawn.getLast? = some picture) (ha : Avoids (executed (!ignore) file)) (p : Vec ℝ) : Covered os p ↔ Covered picture p := by
  have hexn := compile_exn hc
  have hn := c17_files_nested (!ignore) file _ [] (List.append_nil _).symm
  have A := agrees hp c hexn h1 hn ha
  obtain ⟨front, e1, -⟩ := (tidy _ hexn c h1 ha.once hn ha.thermals).stack
  have hd := A.drawn
  rw [e1] at hd
  obtain ⟨os', s1, s2⟩ := forall₂_last hd hl
  rw [shows_unique hs s1]
  exact s2.covered p

open Verif.Compiler Verif.Console Verif.Raster Verif.ImageSpace Verif.Props.Picture Verif.Props.Image in
/-- **C82** (partial: as in C74, the constructs in which the code is known to deviate do not occur and draws are made with solid
circles; no arcs that start where they end; the outlines go round what they enclose once). Raster images show the picture that
the file describes.  Let the library fill polygons by the even-odd rule, for pixels more than `ρ` pixels away from their sides.
Then a pixel whose place is more than `n + 2 + ρ` pixels away from every outline that is pasted through `n` layers has the
foreground colour if the picture covers this place, and the background colour otherwise. -/
theorem c82_image_partial (env : Env) (ignore : Bool) (Ra : Raster) (fuel : ℕ) (fail : Bool) (style : Style) (dpmm : ℤ) (hd : 0 < dpmm)
    (file : List Visitor.Cmd) (space : Space) (image : Picture)
    (h : renderWithPillow env ignore Ra fuel fail style dpmm file = .ok (space, image))
    (ρ : ℝ) (hρ : 0 ≤ ρ) (hf : FillsEvenOdd ρ Ra.fill)
    (s : Sheet) (picture : List (Painted (Vec ℝ))) (hp : Pictured (executed (!ignore) file) s)
    (hl : s.drawn.getLast? = some picture) (ha : Avoids (executed (!ignore) file)) :
    ∃ c layers, compiled env (executed (!ignore) file) = .ok c ∧ (∀ l ∈ layers, c.buffers.get? l.id = some l.cmds) ∧
      ((∀ l ∈ layers, ∀ s, .shape s ∈ l.cmds → (∀ g ∈ s.segments, NotClosed g) ∧ GoesRoundOnce s) →
        ∀ column row, (column, row) ∈ image.frame → ∀ P,
          P = pixelPlace (lowerLeft ⟨space.minX, space.minY, space.maxX, space.maxY⟩) dpmm
            (towardZero (|space.maxY - space.minY| * dpmm)) column row →
          AwayFromOutlines layers dpmm ρ .main P →
          (Covered picture P → image.pixel (column, row) = style.foreground) ∧
          (¬ Covered picture P → image.pixel (column, row) = style.background)) := by
  obtain ⟨prog, e, hc, -⟩ := Props.Pixels.rendered h
  obtain ⟨c, layers, boxes, g1, g2, -, -, g5, -, g7⟩ :=
    Props.Pixels.c81_pixels_partial env ignore Ra fuel fail style dpmm hd file space image h ρ hρ hf
  refine ⟨c, layers, g1, g2, fun hs column row hq P hP hA => ?_⟩
  have hn : NoTurns layers := fun l hl s h => (hs l hl s h).1
  obtain ⟨objects, k1, k2⟩ := g7 hn
  obtain ⟨os, k3, k4⟩ := polygons_agree hd hρ hn (fun l hl s h => (hs l hl s h).2) k1
  have k5 := shows_more (ms := layersOf c) (fun l hl => mem_layersOf.2 (g2 l hl)) k3
  have k6 := picture_shown hc g1 k5 hp hl ha P
  have k7 := k2 column row hq P (by rw [hP, g5]) (away_sides hd hn hA)
  rw [k4 P hA, k6] at k7
  exact k7

open Verif.Compiler Verif.Console Verif.Raster Verif.ImageSpace Verif.Props.Picture Verif.Props.Image in
/-- **C82** (partial: the constructs in which the code is known to deviate do not occur; apertures have a size; circles are not moved
along arcs that they outsize; the contours of regions and outlines in macros go round once). Raster images show the
picture that the file describes, away from the outlines. -/
theorem c82_plain_partial (env : Env) (ignore : Bool) (Ra : Raster) (fuel : ℕ) (fail : Bool) (style : Style) (dpmm : ℤ) (hd : 0 < dpmm)
    (file : List Visitor.Cmd) (space : Space) (image : Picture)
    (h : renderWithPillow env ignore Ra fuel fail style dpmm file = .ok (space, image))
    (ρ : ℝ) (hρ : 0 ≤ ρ) (hf : FillsEvenOdd ρ Ra.fill)
    (s : Sheet) (picture : List (Painted (Vec ℝ))) (hp : Pictured (executed (!ignore) file) s)
    (hl : s.drawn.getLast? = some picture) (ha : Avoids (executed (!ignore) file)) (ho : PlainOutlines (executed (!ignore) file)) :
    ∃ c layers, compiled env (executed (!ignore) file) = .ok c ∧ (∀ l ∈ layers, c.buffers.get? l.id = some l.cmds) ∧
      ∀ column row, (column, row) ∈ image.frame → ∀ P,
        P = pixelPlace (lowerLeft ⟨space.minX, space.minY, space.maxX, space.maxY⟩) dpmm
          (towardZero (|space.maxY - space.minY| * dpmm)) column row →
        AwayFromOutlines layers dpmm ρ .main P →
        (Covered picture P → image.pixel (column, row) = style.foreground) ∧
        (¬ Covered picture P → image.pixel (column, row) = style.background) := by
  obtain ⟨prog, e, hc, -⟩ := Props.Pixels.rendered h
  obtain ⟨c, layers, g1, g2, g3⟩ := c82_image_partial env ignore Ra fuel fail style dpmm hd file space image h ρ hρ hf s picture hp hl ha
  refine ⟨c, layers, g1, g2, g3 fun l hl s hs => ?_⟩
  exact SoundLayers.kept hp c (Props.Picture.compile_exn hc) g1 (Props.FlashImage.c17_files_nested (!ignore) file _ [] (List.append_nil _).symm)
    ha ho l.id l.cmds (g2 l hl) s hs

/-! ### A sample -/

section
open Verif.Visitor Verif.Compiler Verif.Console Verif.Raster Verif.ImageSpace Verif.Props.Picture Verif.Props.Image Verif.Props.Compiler
  Verif.Props.State Verif.Props.Pixels Verif.Props.Raster Verif.Props.FlashImage Verif.Props.MacroShape

/-- What the file with a pad executes. -/
def padAtoms : List Atom :=
  [.leaf (.mo .metric), .leaf (.fs {}), .leaf (.ad ['D','1','0'] (.rect 4 2 none)), .leaf (.dnn ['D','1','0']), .leaf (.d03 none none)]

theorem pad_executed : executed true (.leaf (.mo .metric) :: padFile) = padAtoms := rfl

theorem pad_avoids : Avoids padAtoms := by
  refine ⟨?_, by decide +kernel, ?_, ?_, ?_, ?_, ?_, ?_⟩
  · intro id
    simp only [padAtoms, opensCode, List.countP_cons, List.countP_nil]
    by_cases h1 : (['D','1','0'] : Name) = id
    · subst h1; decide +kernel
    · simp [h1]
  · intro p id d q e
    exact throughout (P := fun p a => ∀ id d, a = .leaf (.ad id d) → SoundAperture (fun name => latest (givesMacro name) none p) d)
      (rest := padAtoms) (done := []) (by simp [Throughout, padAtoms, SoundAperture]) p _ q e id d rfl
  · intro p x y q e
    exact throughout (P := fun p a => ∀ x y, a = .leaf (.d03 x y) →
      latest setsScaling 1 p ≠ 0) (rest := padAtoms) (done := [])
      (by simp [Throughout, padAtoms, latest, List.findSome?, setsRotation, setsScaling]) p _ q e x y rfl
  · intro p x y q id e _ _
    exact throughout (P := fun p a => ∀ x y, a = .leaf (.d03 x y) → latest setsPolarity .dark p = .dark)
      (rest := padAtoms) (done := []) (by simp [Throughout, padAtoms, latest, List.findSome?, setsPolarity]) p _ q e x y rfl
  · intro p x y i j q e _
    exact throughout (P := fun p a => ∀ x y i j, a = .leaf (.d01 x y i j) → latest setsScaling 1 p = 1)
      (rest := padAtoms) (done := []) (by simp [Throughout, padAtoms]) p _ q e x y i j rfl
  · intro p r q e
    exact throughout (P := fun p a => ∀ r, a = .srClose r → At p ⟨0, 0⟩)
      (rest := padAtoms) (done := []) (by simp [Throughout, padAtoms]) p _ q e r rfl
  · intro p q e
    have : ∀ n ≤ 5, (openBlocks (padAtoms.take n)).count none ≤ 1 := by decide +kernel
    have hp : p = padAtoms.take p.length := by rw [e]; simp
    have hl : p.length ≤ 5 := by
      have := congrArg List.length e
      simp [padAtoms] at this
      omega
    rw [hp]
    exact this _ hl

/-- The outline of a square goes round once. -/
theorem square_once : OnceAround (point (-1) (-1) :: List.zipWith point [1, 1, -1, -1] [-1, 1, 1, -1]) := by
  refine SoundMacro.once_closed (l := [point 1 (-1), point 1 1, point (-1) 1]) ?_
  refine SoundMacro.once_of_sound (s := Shape.newRectangle ⟨0, 0⟩ 2 2 false) ?_ (by simp)
    (Halves.round_rectangle ⟨0, 0⟩ (by norm_num) (by norm_num) false).sound
  norm_num [Shape.segments, Shape.newRectangle, Lemmas.MacroShape.polygonSides, Shape.ln, point]

/-- A macro with a variable, a circle whose size it is, and the outline of a square. -/
example : PlainAperture (fun _ => some [.assign ['$','2'] (.bin .add (.var ['$','1']) [.const 1]),
    .code1 (.const 1) (.var ['$','2']) (.const 0) (.const 0) none,
    .code4 (.const 1) (.const 4) (.const (-1)) (.const (-1)) [(.const 1, .const (-1)), (.const 1, .const 1), (.const (-1), .const 1),
      (.const (-1), .const (-1))] (.const 0)]) (.macro ['M'] [1]) := by
  refine .macro _ _ fun body hb => ?_
  cases hb
  intro v hv
  have hv2 : v = 2 := value_unique hv (.bin (.var rfl) (.add (.const 1) (by norm_num; exact .done _ _)))
  subst hv2
  refine ⟨fun d hd => ?_, fun x y xs ys hx hy hxs hys => ?_, trivial⟩
  · rw [value_unique hd (.var rfl)]; norm_num
  · cases hx; cases hy
    rcases hxs with _ | ⟨⟨⟩, _ | ⟨⟨⟩, _ | ⟨⟨⟩, _ | ⟨⟨⟩, _ | _⟩⟩⟩⟩
    rcases hys with _ | ⟨⟨⟩, _ | ⟨⟨⟩, _ | ⟨⟨⟩, _ | ⟨⟨⟩, _ | _⟩⟩⟩⟩
    exact square_once

theorem pad_outlines : PlainOutlines padAtoms := by
  refine ⟨?_, ?_, ?_⟩
  · intro p id d q e
    refine throughout (P := fun p a => ∀ id d, a = .leaf (.ad id d) → PlainAperture (fun name => latest (givesMacro name) none p) d)
      (rest := padAtoms) (done := []) ?_ p _ q e id d rfl
    simp only [Throughout, padAtoms, Atom.leaf.injEq, reduceCtorEq, false_implies, implies_true, true_and, and_true, Leaf.ad.injEq]
    rintro id d ⟨-, rfl⟩
    exact .rect _ _ _ (by norm_num) (by norm_num)
  · intro p x y ti tj q i j id d objects s e
    exact (throughout (P := fun p a => ∀ x y i j, a ≠ .leaf (.d01 x y i j)) (rest := padAtoms) (done := [])
      (by simp [Throughout, padAtoms]) p _ q e _ _ _ _ rfl).elim
  · intro p l q s g gs e hl
    have := throughout (P := fun p a => (∀ x y, a ≠ .leaf (.d02 x y)) ∧ a ≠ .leaf .g37) (rest := padAtoms) (done := [])
      (by simp [Throughout, padAtoms]) p _ q e
    rcases hl with ⟨x, y, rfl⟩ | rfl
    · exact absurd rfl (this.1 x y)
    · exact absurd rfl this.2

theorem placedIn_origin (h : List Atom) : placedIn h ⟨0, 0⟩ = ⟨0, 0⟩ := by
  unfold placedIn placed
  cases latest setsMirroring .none h <;> ext <;> simp [rotCcw]

theorem pad_pictured : ∃ s, Pictured padAtoms s ∧ ∃ picture, s.drawn.getLast? = some picture ∧ Covered picture ⟨0, 0⟩ := by
  have a5 := at_run (h := padAtoms) (by decide +kernel)
  have e1 : (run {} padAtoms).st.currentX = 0 := by decide +kernel
  have e2 : (run {} padAtoms).st.currentY = 0 := by decide +kernel
  rw [e1, e2, Rat.cast_zero] at a5
  have h1 := Pictured.other (l := .mo .metric) .start rfl
  have h2 := Pictured.other (l := .fs {}) h1 rfl
  have h3 := Pictured.aperture (id := ['D','1','0']) (d := .rect 4 2 none) h2 rfl (.standard nofun (.rect (by norm_num) (by norm_num)))
  have h4 := Pictured.other (l := .dnn ['D','1','0']) h3 rfl
  have h5 := Pictured.flash (x := none) (y := none) h4 rfl rfl rfl a5
  refine ⟨_, h5, _, rfl, [], _, [], rfl, ⟨⟨0, 0⟩, ⟨[], _, [], rfl, ?_, nofun, rfl⟩, ?_⟩, nofun, rfl⟩
  · show Rectangle _ _ _
    norm_num [Rectangle, point]
  · rw [placedIn_origin]; ext <;> simp

theorem pad_compiled : ∃ c, compiled env0 padAtoms = .ok c ∧ ∀ id cmds, c.buffers.get? id = some cmds →
    (id = .main → cmds = [.paste (.xform (.ap ['D','1','0']) (transformMatrix {})) ⟨0, 0⟩ false]) ∧
    (id ≠ .main → cmds = [.shape (Shape.newRectangle ⟨0, 0⟩ 4 2 false)]) := by
  eval_compiler [padAtoms, rect_same]
  intro id cmds h
  split at h
  · next e =>
    cases h
    exact ⟨fun _ => rfl, fun he => absurd e.symm he⟩
  · next e =>
    refine ⟨fun he => absurd he.symm e, fun _ => ?_⟩
    split at h
    · cases h; rfl
    · split at h
      · cases h; rfl
      · cases h

/-- The only shape of a pad. -/
theorem pad_shapes {c : CState} {layers : List (Spec.Layer LayerId)} (h9 : ∀ l ∈ layers, c.buffers.get? l.id = some l.cmds)
    (g2 : ∀ id cmds, c.buffers.get? id = some cmds →
      (id = .main → cmds = [.paste (.xform (.ap ['D','1','0']) (transformMatrix {})) ⟨0, 0⟩ false]) ∧
      (id ≠ .main → cmds = [.shape (Shape.newRectangle ⟨0, 0⟩ 4 2 false)])) :
    ∀ id n s v, ShapeAt layers id n s v → s = Shape.newRectangle ⟨0, 0⟩ 4 2 false ∧ v = ⟨0, 0⟩ ∧ n ≤ 1 ∧ (n = 0 ∨ id = .main) := by
  intro id n s v h
  induction h with
  | shape l mem s drawn =>
    have := g2 _ _ (h9 l mem)
    by_cases hm : l.id = .main
    · rw [this.1 hm] at drawn; simp at drawn
    · rw [this.2 hm] at drawn
      simp only [List.mem_singleton, Draw.shape.injEq] at drawn
      exact ⟨drawn, rfl, by omega, .inl rfl⟩
  | paste l mem source center negative drawn n s v _ ih =>
    have := g2 _ _ (h9 l mem)
    by_cases hm : l.id = .main
    · rw [this.1 hm] at drawn
      simp only [List.mem_singleton, Draw.paste.injEq] at drawn
      obtain ⟨rfl, rfl, rfl⟩ := drawn
      obtain ⟨i1, i2, i3, i4⟩ := ih
      rcases i4 with rfl | i4
      · exact ⟨i1, by rw [i2]; ext <;> simp, by omega, .inr hm⟩
      · cases i4
    · rw [this.2 hm] at drawn; simp at drawn

/-- The middle of the image of a pad is away from the outline. -/
theorem pad_away {c : CState} {layers : List (Spec.Layer LayerId)} (h9 : ∀ l ∈ layers, c.buffers.get? l.id = some l.cmds)
    (g2 : ∀ id cmds, c.buffers.get? id = some cmds →
      (id = .main → cmds = [.paste (.xform (.ap ['D','1','0']) (transformMatrix {})) ⟨0, 0⟩ false]) ∧
      (id ≠ .main → cmds = [.shape (Shape.newRectangle ⟨0, 0⟩ 4 2 false)])) : AwayFromOutlines layers (20 : ℤ) 0 .main ⟨0, 0⟩ := by
  intro n s v hs w hw hcl
  obtain ⟨rfl, rfl, hn, -⟩ := pad_shapes h9 g2 _ _ _ _ hs
  rw [Lemmas.ShapeArea.rectangle_rim _ _ (by norm_num) (by norm_num)] at hw
  obtain ⟨c1, c2⟩ := hcl
  simp only [Vec.add_x, Vec.add_y, add_zero, zero_sub, abs_neg] at c1 c2
  have hn' : ((n : ℝ) + 2 + 0) / (20 : ℤ) ≤ 3 / 20 := by
    have : (n : ℝ) ≤ 1 := by exact_mod_cast hn
    push_cast
    linarith
  rw [abs_le] at c1 c2
  rcases hw with ⟨h | h, -⟩ | ⟨h | h, -⟩ <;> norm_num at h <;> linarith [c1.1, c1.2, c2.1, c2.2]

/-- A pixel of the image of a pad. -/
theorem pad_pixel (style : Style) : ∃ space image,
    renderWithPillow env0 false exactRaster 1 false style 20 (.leaf (.mo .metric) :: padFile) = .ok (space, image) ∧
      image.pixel (40, 19) = style.foreground := by
  obtain ⟨space, image, h1, h2, h3, h4⟩ := pad_rendered exactRaster style .metric
  obtain ⟨s, h5, picture, h6, h7⟩ := pad_pictured
  obtain ⟨c, layers, h8, h9, h10⟩ := c82_plain_partial env0 false exactRaster 1 false style 20 (by norm_num) _ space image h1 0 le_rfl
    (fun _ _ _ => Iff.rfl) s picture h5 h6 pad_avoids pad_outlines
  refine ⟨space, image, h1, (h10 40 19 ⟨by norm_num, by rw [h3]; norm_num, by norm_num, by rw [h4]; norm_num⟩ ⟨0, 0⟩ ?_ ?_).1 h7⟩
  · have : towardZero (|(1 : ℝ) - -1| * (20 : ℤ)) = 40 := by unfold towardZero; norm_num
    rw [h2]
    simp only [this]
    norm_num [pixelPlace, lowerLeft]
  · obtain ⟨c', g1, g2⟩ := pad_compiled
    have : Except.ok c' = Except.ok c := g1.symm.trans h8
    cases this
    exact pad_away h9 g2

end

end Verif.Props.Enclosed
