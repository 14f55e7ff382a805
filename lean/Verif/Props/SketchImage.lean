import Verif.Lemmas.SketchBroad
import Verif.Props.Rendered

/-!
# C90: images of what is asked for with the RVMC builder
-/

namespace Verif.Props.Sketch
open Verif.Rvmc Verif.Geom Verif.Vm Verif.Spec Verif.RvmcBuilder Verif.Sketch Verif.Render Verif.Sim Verif.Props.Painting
  Verif.Props.Pixels Verif.Props.Rendered Verif.Lemmas.Collinear Verif.SolidLayers Verif.Props.Enclosed Verif.Raster Verif.Props.Raster Verif.Console Real
noncomputable section
variable {ι : Type}

/-! ### Images of layers -/

/-- What is covered is covered by a shape in the box. -/
def Fits (h : List (Deed ι)) (d : Plates ι) (k : ℕ) (os : List (Painted (Vec ℝ))) (b : Box ℝ) : Prop :=
  ∀ o ∈ os, ∀ X ∈ o.points, ∃ n s v, OutlineThrough h d k n s v ∧ X - v ∈ areaOf s ∧ ∀ w, OnRim s w → InBox (w + v) b

/-- The objects on an image are what is asked for, `free` being the layers that may be cut off. -/
def Right (h : List (Deed ι)) (d : Plates ι) (dpmm : ℤ) (ρ : ℝ) (free : ℕ → Prop) (i : ι) (e : Eager (List (Painted (ℤ × ℤ)))) : Prop :=
  ∃ k x, Done d k i x ∧ e.origin = x.1 ∧ Wide e.box ∧ (¬ free k → Fits h d k x.2 e.box) ∧
    ∀ q X δ, 0 ≤ δ → At dpmm e.box δ q X → AwayFromFigures h d dpmm (ρ + δ) k X → (Covered e.content q ↔ Covered x.2 X)

theorem boxIn_inBox {p : Vec ℝ} {a b : Box ℝ} (h1 : InBox p a) (h2 : BoxIn a b) : InBox p b := Props.Geom.inBox_of_boxIn h1 h2

theorem wide_mono {a b : Box ℝ} (h : Wide a) (hb : BoxIn a b) : Wide b :=
  ⟨lt_of_le_of_lt hb.1 (lt_of_lt_of_le h.1 hb.2.2.1), lt_of_le_of_lt hb.2.1 (lt_of_lt_of_le h.2 hb.2.2.2)⟩

/-- What an image of objects has drawn on it. -/
def PixelMatch (dpmm : ℤ) (outline : Shape → Except VErr (List (Vec ℝ))) (fill : List (ℤ × ℤ) → Set (ℤ × ℤ))
    (Good : ι → Eager (List (Painted (ℤ × ℤ))) → Prop) (box : Box ℝ) : Draw ι → Painted (ℤ × ℤ) → Prop
  | .shape s, o => ∃ vs, outline s = .ok vs ∧ o = ⟨!s.negative, fill (vs.map fun p => pixel dpmm (p - lowerLeft box))⟩
  | .paste src c neg, o => ∃ x shift, Good src x ∧ shift = pixel dpmm (c + lowerLeft x.box - x.origin - lowerLeft box) ∧
      o = ⟨!neg, {q | (q.1 - shift.1, q.2 - shift.2) ∈ imageOf dpmm x.box ∧ Covered x.content (q.1 - shift.1, q.2 - shift.2)}⟩

theorem paints_pixels {dpmm : ℤ} {outline : Shape → Except VErr (List (Vec ℝ))} {fill : List (ℤ × ℤ) → Set (ℤ × ℤ)}
    {Good : ι → Eager (List (Painted (ℤ × ℤ))) → Prop} {ds : List (Draw ι)} {e e' : Eager (List (Painted (ℤ × ℤ)))}
    (h : Paints (pixelPainting dpmm outline fill) Good ds e e') : e'.origin = e.origin ∧ e'.box = e.box ∧
      ∃ os, e'.content = e.content ++ os ∧ List.Forall₂ (PixelMatch dpmm outline fill Good e.box) ds os := by
  induction h with
  | nil e => exact ⟨rfl, rfl, [], by simp, .nil⟩
  | shape s ds e c e' hs _ ih =>
    obtain ⟨h1, h2, os, h3, h4⟩ := ih
    obtain ⟨vs, k1, k2⟩ := ebind.1 hs
    cases k2
    exact ⟨h1, h2, _ :: os, by rw [h3, List.append_assoc]; rfl, .cons ⟨vs, k1, rfl⟩ h4⟩
  | paste src c neg ds e x k e' hx hp _ ih =>
    obtain ⟨h1, h2, os, h3, h4⟩ := ih
    cases hp
    exact ⟨h1, h2, _ :: os, by rw [h3, List.append_assoc]; rfl, .cons ⟨x, _, hx, rfl, rfl⟩ h4⟩

/-- Pasted layers, moved. -/
theorem away_pasted {h : List (Deed ι)} {d : Plates ι} {dpmm : ℤ} {ρ δ : ℝ} {k src : ℕ} {c : Vec ℝ} {neg : Bool} {pl : Plate ι}
    (hp : .paste k src c neg ∈ h) (hs : d.plates[src]? = some pl) {X : Vec ℝ} (hX : AwayFromFigures h d dpmm (ρ + δ) k X) :
    AwayFromFigures h d dpmm (ρ + (δ + 1)) src (X - c + pl.origin) := by
  intro n s v hv w hw hcl
  refine hX (n + 1) s _ (.paste k src c neg pl n s v hp hs hv) w hw ?_
  have hcong : ((n : ℝ) + 2 + (ρ + (δ + 1))) / dpmm = (((n + 1 : ℕ) : ℝ) + 2 + (ρ + δ)) / dpmm := by push_cast; ring
  rw [← hcong]
  obtain ⟨a, b⟩ := hcl
  constructor
  · refine le_trans (le_of_eq ?_) a
    congr 1; simp only [Vec.add_x, Vec.sub_x]; ring
  · refine le_trans (le_of_eq ?_) b
    congr 1; simp only [Vec.add_y, Vec.sub_y]; ring

/-- An object of an image and an object that is asked for. -/
theorem matched_pixels {h : List (Deed ι)} {d : Plates ι} (hn : (d.plates.map Plate.name).Nodup) {dpmm : ℤ} (hd : 0 < dpmm)
    {fill : List (ℤ × ℤ) → Set (ℤ × ℤ)} {ρ : ℝ} (hρ : 0 ≤ ρ) (hf : FillsEvenOdd ρ fill) {fuel : ℕ} {free : ℕ → Prop}
    (hfree : ∀ r src c neg, .paste r src c neg ∈ h → ¬ free src)
    (hsound : ∀ r figure negative ss, .mark r figure negative ∈ h → figure.shapes negative = .ok ss → ∀ s ∈ ss, Spec.Sound s)
    {k : ℕ} {box : Box ℝ} {q : ℤ × ℤ} {X : Vec ℝ} {δ : ℝ} (hδ : 0 ≤ δ) (hq : At dpmm box δ q X) (hX : AwayFromFigures h d dpmm (ρ + δ) k X)
    {c : Draw ι} {o : Painted (Vec ℝ)} {o' : Painted (ℤ × ℤ)} (h1 : MatchR h (Done d) k c o)
    (h2 : PixelMatch dpmm (pillowOutline dpmm fuel) fill (Right h d dpmm ρ free) box c o') :
    o'.dark = o.dark ∧ (q ∈ o'.points ↔ X ∈ o.points) := by
  have hd' : (0 : ℝ) < dpmm := by exact_mod_cast hd
  cases c with
  | shape s =>
    obtain ⟨vs, hv, rfl⟩ := h2
    obtain ⟨rfl, f, neg, ss, k1, -, k3, k4⟩ := h1
    refine ⟨rfl, shape_pixels hd hρ hf (hsound k f neg ss k1 k3 s k4) hv hδ hq ?_⟩
    intro w hw hcl
    refine hX 0 s _ (.mark k f neg ss s k1 k3 k4) w hw ?_
    have e : w + (⟨0, 0⟩ : Vec ℝ) = w := by ext <;> simp
    rw [e]
    simpa using hcl
  | paste id center neg =>
    obtain ⟨src, x, h3, h4, rfl⟩ := h1
    obtain ⟨e, shift, ⟨k', y, g1, g2, g3, g4, g5⟩, moved, rfl⟩ := h2
    obtain ⟨rfl, rfl⟩ := done_unique hn h3 g1
    obtain ⟨pl, p1, -, -, rfl⟩ := h3
    refine ⟨rfl, ?_⟩
    simp only at g2 g4 g5
    have hat : At dpmm e.box (δ + 1) (q.1 - shift.1, q.2 - shift.2) (X - center + pl.origin) := by
      subst moved
      obtain ⟨a, b⟩ := hq
      simp only [Pixels.At, pixel, Vec.sub_x, Vec.sub_y, Vec.add_x, Vec.add_y, g2]
      constructor
      · have c := towardZero_near ((center.x + (lowerLeft e.box).x - pl.origin.x - (lowerLeft box).x) * dpmm)
        push_cast
        rw [abs_le] at *
        constructor <;> linarith
      · have c := towardZero_near ((center.y + (lowerLeft e.box).y - pl.origin.y - (lowerLeft box).y) * dpmm)
        push_cast
        rw [abs_le] at *
        constructor <;> linarith
    have haway := away_pasted h4 p1 hX
    have hcov := g5 (q.1 - shift.1, q.2 - shift.2) _ (δ + 1) (by linarith) hat haway
    show ((q.1 - shift.1, q.2 - shift.2) ∈ imageOf dpmm e.box ∧ Covered e.content (q.1 - shift.1, q.2 - shift.2)) ↔
      Covered pl.objects (X - center + pl.origin)
    rw [hcov]
    refine and_iff_right_of_imp fun hc' => ?_
    -- what is covered lies within the image
    obtain ⟨o, ho1, ho2⟩ := covered_point hc'
    obtain ⟨n, s, v, hO, hin, hrim⟩ := g4 (hfree _ _ _ _ h4) o ho1 _ ho2
    have hn0 : (0 : ℝ) ≤ n := Nat.cast_nonneg n
    have hδ' : 0 ≤ ((n : ℝ) + 2 + (ρ + (δ + 1))) / (dpmm : ℝ) := div_nonneg (by linarith) hd'.le
    obtain ⟨m1, m2, m3, m4⟩ := area_margin hin (haway n s v hO) hrim hδ'
    obtain ⟨ε, hεe⟩ : ∃ ε, ε = ((n : ℝ) + 2 + (ρ + (δ + 1))) / (dpmm : ℝ) := ⟨_, rfl⟩
    have hεd : ε * dpmm = n + 2 + (ρ + (δ + 1)) := by rw [hεe]; field_simp
    rw [← hεe] at m1 m2 m3 m4
    have wx : e.box.minX ≤ e.box.maxX := g3.1.le
    have wy : e.box.minY ≤ e.box.maxY := g3.2.le
    obtain ⟨a, b⟩ := hat
    rw [lowerLeft_eq wx wy] at a b
    simp only at a b
    push_cast at a b
    rw [abs_le] at a b
    have e1 := mul_le_mul_of_nonneg_right m1 hd'.le
    have e2 := mul_le_mul_of_nonneg_right m2 hd'.le
    have e3 := mul_le_mul_of_nonneg_right m3 hd'.le
    have e4 := mul_le_mul_of_nonneg_right m4 hd'.le
    have p1 : (0 : ℝ) ≤ ((q.1 - shift.1 : ℤ) : ℝ) := by push_cast; nlinarith [a.1, a.2]
    have p2 : (0 : ℝ) ≤ ((q.2 - shift.2 : ℤ) : ℝ) := by push_cast; nlinarith [b.1, b.2]
    have p1' : 0 ≤ q.1 - shift.1 := by exact_mod_cast p1
    have p2' : 0 ≤ q.2 - shift.2 := by exact_mod_cast p2
    refine ⟨p1', lt_towardZero ?_ p1', p2', lt_towardZero ?_ p2'⟩
    · rw [abs_of_nonneg (by linarith)]
      push_cast
      nlinarith [a.1, a.2]
    · rw [abs_of_nonneg (by linarith)]
      push_cast
      nlinarith [b.1, b.2]

theorem forall₂_some_right {α β : Type} {R : α → β → Prop} {as : List α} {bs : List β} (h : List.Forall₂ R as bs) {b : β} (hb : b ∈ bs) :
    ∃ a ∈ as, R a b := forall₂_some (R := fun b a => R a b) h.flip hb

/-- Boxes around commands. -/
theorem fits_around {κ : Type} {h : List (Deed ι)} {d : Plates ι} (hn : (d.plates.map Plate.name).Nodup) {free : ℕ → Prop} {Good : ι → Eager κ → Prop}
    (hG : ∀ i e, Good i e → ∃ k x, Done d k i x ∧ e.origin = x.1 ∧ (¬ free k → Fits h d k x.2 e.box))
    (hfree : ∀ r src c neg, .paste r src c neg ∈ h → ¬ free src)
    (hsound : ∀ r figure negative ss, .mark r figure negative ∈ h → figure.shapes negative = .ok ss → ∀ s ∈ ss, Spec.Sound s)
    {k : ℕ} {ds : List (Draw ι)} {os : List (Painted (Vec ℝ))} {b : Box ℝ} (hm : List.Forall₂ (MatchR h (Done d) k) ds os)
    (hb : Around Good ds b) : Fits h d k os b := by
  intro o ho X hX
  obtain ⟨c, hc, hco⟩ := forall₂_some_right hm ho
  obtain ⟨b', hb', hin⟩ := hb c hc
  cases c with
  | shape s =>
    obtain ⟨rfl, f, neg, ss, k1, -, k3, k4⟩ := hco
    subst hb'
    refine ⟨0, s, _, .mark k f neg ss s k1 k3 k4, ?_, fun w hw => ?_⟩
    · have e : X - (⟨0, 0⟩ : Vec ℝ) = X := by ext <;> simp
      rw [e]; exact hX
    · have e : w + (⟨0, 0⟩ : Vec ℝ) = w := by ext <;> simp
      rw [e]
      exact boxIn_inBox (rim_inBox (hsound k f neg ss k1 k3 s k4).1 hw) hin
  | paste id center neg =>
    obtain ⟨src, x, h3, h4, rfl⟩ := hco
    obtain ⟨e, he, rfl⟩ := hb'
    obtain ⟨k', y, g1, g2, g4⟩ := hG id e he
    obtain ⟨rfl, rfl⟩ := done_unique hn h3 g1
    obtain ⟨pl, p1, -, -, rfl⟩ := h3
    simp only at g2 g4
    obtain ⟨o', ho', hX'⟩ := covered_point hX
    obtain ⟨n, s, v, q1, q2, q3⟩ := g4 (hfree _ _ _ _ h4) o' ho' _ hX'
    refine ⟨n + 1, s, _, .paste k src center neg pl n s v h4 p1 q1, ?_, fun w hw => ?_⟩
    · have : X - (v + center - pl.origin) = X - center + pl.origin - v := by ext <;> simp <;> ring
      rw [this]; exact q2
    · obtain ⟨a1, a2, a3, a4⟩ := q3 w hw
      obtain ⟨b1, b2, b3, b4⟩ := hin
      simp only [Vec.add_x, Vec.add_y] at a1 a2 a3 a4
      simp only [g2] at b1 b2 b3 b4
      refine ⟨?_, ?_, ?_, ?_⟩ <;> simp only [Vec.add_x, Vec.add_y, Vec.sub_x, Vec.sub_y] <;> linarith

/-- Boxes around commands have a width and a height. -/
theorem wide_around {κ : Type} {h : List (Deed ι)} {P : ℕ → ι → Vec ℝ × List (Painted (Vec ℝ)) → Prop} {Good : ι → Eager κ → Prop}
    (hw : ∀ i e, Good i e → Wide e.box)
    (hshape : ∀ r figure negative ss, .mark r figure negative ∈ h → figure.shapes negative = .ok ss → ∀ s ∈ ss, Wide s.outerBox)
    {k : ℕ} {ds : List (Draw ι)} {os : List (Painted (Vec ℝ))} {b : Box ℝ} (hm : List.Forall₂ (MatchR h P k) ds os) (hne : ds ≠ [])
    (hb : Around Good ds b) : Wide b := by
  cases ds with
  | nil => exact absurd rfl hne
  | cons c ds =>
    obtain ⟨b', hb', hin⟩ := hb c (by simp)
    refine wide_mono ?_ hin
    obtain ⟨o, -, ho⟩ := forall₂_some hm (a := c) (by simp)
    cases c with
    | shape s =>
      obtain ⟨-, f, neg, ss, k1, -, k3, k4⟩ := ho
      subst hb'
      exact hshape k f neg ss k1 k3 s k4
    | paste id center neg =>
      obtain ⟨e, he, rfl⟩ := hb'
      obtain ⟨w1, w2⟩ := hw id e he
      exact ⟨by simp only; linarith, by simp only; linarith⟩

theorem paints_box {κ : Type} {B : Backend κ} {Good : ι → Eager κ → Prop} {ds : List (Draw ι)} {e e' : Eager κ} (h : Paints B Good ds e e') :
    e'.box = e.box ∧ e'.origin = e.origin := by
  induction h with
  | nil => exact ⟨rfl, rfl⟩
  | shape _ _ _ _ _ _ _ ih => exact ih
  | paste _ _ _ _ _ _ _ _ _ _ _ ih => exact ih

variable [DecidableEq ι]

/-- **C90** (Pillow; partial: likewise; nested layers are sized automatically, and the box of the main layer has a width and a height
if it is given). If the figures have an area, the program is rendered by the Pillow backend: to an image of the given box, or of one
around all that is drawn. Let the library fill polygons by the even-odd rule, for pixels more than `ρ` pixels away from their sides.
Then a pixel whose place is more than `n + 2 + ρ` pixels away from every outline that is pasted through `n` layers has the foreground
color if what was asked for covers this place, and the background color otherwise. -/
theorem c90_raster_partial (main : ι) (script : List (Deed ι)) (d : Plates ι) (ha : AskedFor main script d) (ho : d.opened = [])
    (hs : ∀ r figure negative, .mark r figure negative ∈ script → Broad figure)
    (hmain : ∀ b o, .layer (some b) o ∈ script → b.minX < b.maxX ∧ b.minY < b.maxY)
    (hnest : ∀ r id b o, .nested r id (some b) o ∉ script)
    (Ra : Raster) (dpmm : ℤ) (hd : 0 < dpmm) (fail : Bool) :
    ∃ s pl, performAll main script State.init = .ok s ∧ d.plates[0]? = some pl ∧ ∃ fuel, ∀ more, fuel ≤ more → ∃ e,
      run (pillow Ra dpmm more) fail main s.commands = .ok (some e) ∧ e.origin = pl.origin ∧
      (∀ b o, .layer (some b) o ∈ script → e.box = b) ∧
      (∀ o, .layer none o ∈ script → ∀ p, Covered pl.objects p → InBox p e.box) ∧
      ∀ style, ∃ p, getImage (some (resultImage (some e))) style = some p ∧ p.frame = imageOf dpmm e.box ∧
        ∀ ρ, 0 ≤ ρ → FillsEvenOdd ρ Ra.fill → ∀ column row, (column, row) ∈ p.frame → ∀ P,
          P = pixelPlace (lowerLeft e.box) dpmm (towardZero (|e.box.maxY - e.box.minY| * dpmm)) column row →
          AwayFromFigures script d dpmm ρ 0 P →
          (Covered pl.objects P → p.pixel (column, row) = style.foreground) ∧
          (¬ Covered pl.objects P → p.pixel (column, row) = style.background) := by
  obtain ⟨s, nss, h1, h2⟩ := built ha
  obtain ⟨pl, p1, p2⟩ := h2.first
  have hmark := marks_plausible ha
  have hsound : ∀ r figure negative ss, .mark r figure negative ∈ script → figure.shapes negative = .ok ss → ∀ s ∈ ss, Spec.Sound s :=
    fun r f neg ss hm hss s hs' => (shapes_sound f (hmark _ _ _ hm) (broad_ample (hs _ _ _ hm)) neg hss s hs').1
  have hwide : ∀ r figure negative ss, .mark r figure negative ∈ script → figure.shapes negative = .ok ss → ∀ s ∈ ss, Wide s.outerBox :=
    fun r f neg ss hm hss => shapes_wide f (hmark _ _ _ hm) (hs _ _ _ hm) neg hss
  obtain ⟨fuel, hfuel⟩ := same_fuel (fun m g => ∃ pts, pillowVertices dpmm m g = .ok pts) (drawnShapes script) (by
    intro g hg
    obtain ⟨r, f, neg, ss, m1, m2, m3⟩ := mem_drawnShapes.1 hg
    obtain ⟨fuel, _, -, h⟩ := Arcs.c54_pillow_outline_partial g (hsound r f neg ss m1 m2 g m3).1 dpmm
    exact ⟨fuel, fun more hm => (h more hm).imp fun _ h => h.1⟩)
  refine ⟨s, pl, h1, p1, fuel, fun more hmore => ?_⟩
  -- the boxes of layers
  obtain ⟨-, b0, o0, rest, hscript, hlay, hnames⟩ := asked_begins ha
  have hF : ∀ id box o, Command.start id box o ∈ s.commands → (id = main ∧ box = b0) ∨ (id ≠ main ∧ box = none) := by
    refine (begun_all (T := fun id box => (id = main ∧ box = b0) ∨ (id ≠ main ∧ box = none)) script State.init s ⟨by simp [State.init], by simp [State.init]⟩ ?_ ?_ h1).1
    · intro b o hm
      rw [hscript, List.mem_cons] at hm
      rcases hm with hm | hm
      · cases hm; exact .inl ⟨rfl, rfl⟩
      · exact absurd hm (hlay b o)
    · intro r id b o hm
      cases b with
      | some b => exact absurd hm (hnest r id b o)
      | none =>
        rw [hscript, List.mem_cons] at hm
        rcases hm with hm | hm
        · cases hm
        · exact .inr ⟨hnames r id none o hm, rfl⟩
  have hb0 : ∀ b, b0 = some b → Wide b := by
    rintro b rfl
    exact hmain b o0 (by rw [hscript]; simp)
  have hshape : ∀ k g o, MatchR script (Done d) k (.shape g) o → ∃ pts, pillowVertices dpmm more g = .ok pts := by
    rintro k g o ⟨-, f, neg, ss, m1, -, m2, m3⟩
    exact hfuel more hmore g (mem_drawnShapes.2 ⟨k, f, neg, ss, m1, m2, m3⟩)
  -- whether the box of a layer is wide
  have hbox : ∀ {κ : Type} {Good : ι → Eager κ → Prop}, (∀ i e, Good i e → Wide e.box) → ∀ k id (x : Vec ℝ × List (Painted (Vec ℝ))) box b ds,
      ((id = main ∧ box = b0) ∨ (id ≠ main ∧ box = none)) → List.Forall₂ (MatchR script (Done d) k) ds x.2 → (∀ b', box = some b' → b = b') →
      (box = none → ds ≠ [] ∧ Around Good ds b) → Wide b := by
    intro κ Good hG k id x box b ds hFb hm hb1 hb2
    cases box with
    | none => exact wide_around hG hwide hm (hb2 rfl).1 (hb2 rfl).2
    | some b' =>
      rcases hFb with ⟨-, e⟩ | ⟨-, e⟩
      · rw [hb1 b' rfl]; exact hb0 b' e.symm
      · cases e
  have hzero : Done d 0 main (pl.origin, pl.objects) := ⟨pl, p1, by rw [ho]; simp, p2, rfl⟩
  have hfree : ∀ r src c neg, .paste r src c neg ∈ script → ¬ (src = 0 ∧ b0 ≠ none) :=
    fun r src c neg hm hz => (asked_pastes ha).2 r src c neg hm hz.1
  have hfits : ∀ {κ : Type} {Good : ι → Eager κ → Prop},
      (∀ i e, Good i e → ∃ k x, Done d k i x ∧ e.origin = x.1 ∧ (¬ (k = 0 ∧ b0 ≠ none) → Fits script d k x.2 e.box)) → ∀ k id (x : Vec ℝ × List (Painted (Vec ℝ))) box b ds,
      Done d k id x → ((id = main ∧ box = b0) ∨ (id ≠ main ∧ box = none)) → List.Forall₂ (MatchR script (Done d) k) ds x.2 →
      (box = none → ds ≠ [] ∧ Around Good ds b) → ¬ (k = 0 ∧ b0 ≠ none) → Fits script d k x.2 b := by
    intro κ Good hG k id x box b ds hx hFb hm hb2 hk
    have hnone : box = none := by
      rcases hFb with ⟨e1, e2⟩ | ⟨-, e2⟩
      · subst e1
        have : k = 0 := (done_unique h2.names hx hzero).1
        by_contra hne
        exact hk ⟨this, e2 ▸ hne⟩
      · exact e2
    exact fits_around h2.names hG hfree hsound hm (hb2 hnone).2
  obtain ⟨e, k1, k2, k2', kk, kx, k7, k8, k9⟩ := runs_with (h2.out ho) ho (B := pillow Ra dpmm more)
    (Good := fun i e => Wide e.box ∧ (i = main → ∀ b, b0 = some b → e.box = b) ∧ ∃ k x, Done d k i x ∧ e.origin = x.1 ∧
      (¬ (k = 0 ∧ b0 ≠ none) → Fits script d k x.2 e.box)) (fun _ _ _ _ => ⟨_, rfl⟩) hF (by
      intro k id x box b ds hx hFb hm hb1 hb2
      have hw := hbox (fun _ _ h => h.1) k id x box b ds hFb hm hb1 hb2
      obtain ⟨c, hc⟩ := (pillow_able Ra hd more).create x.1 b hw
      refine ⟨c, hc, fun e he => ?_⟩
      obtain ⟨q1, q2⟩ := paints_box he
      simp only at q1 q2
      rw [q1]
      refine ⟨hw, fun hi b' hb' => ?_, k, x, hx, q2, hfits (fun _ _ h => h.2.2) k id x box b ds hx hFb hm hb2⟩
      rcases hFb with ⟨-, e⟩ | ⟨e, -⟩
      · exact hb1 b' (e.trans hb')
      · exact absurd hi e) (by
      intro k g o hm e
      exact (pillow_able Ra hd more).shape e g (hshape k g o hm)) fail
  obtain ⟨rfl, rfl⟩ := done_unique h2.names k7 hzero
  refine ⟨e, k1, k8, fun b o hb => ?_, fun o hb p hp => ?_, fun style => ?_⟩
  · rw [hscript, List.mem_cons] at hb
    rcases hb with hb | hb
    · cases hb; exact k2' rfl b rfl
    · exact absurd hb (hlay _ o)
  · rw [hscript, List.mem_cons] at hb
    rcases hb with hb | hb
    · cases hb
      obtain ⟨x, hx, hpx⟩ := covered_point hp
      obtain ⟨n, g, v, -, g2, g3⟩ := k9 (by simp) x hx p hpx
      exact area_in g2 g3
    · exact absurd hb (hlay _ o)
  obtain ⟨o, p, k3, k4, k5, k6, k10⟩ := c78_program Ra dpmm more fail main s.commands e k1 style
  -- what is drawn
  have hgood : ∀ ρ, 0 ≤ ρ → FillsEvenOdd ρ Ra.fill → Right script d dpmm ρ (fun k => k = 0 ∧ b0 ≠ none) main o := by
    intro ρ hρ hf
    obtain ⟨o', j1, j2⟩ := runs_with (h2.out ho) ho (B := pixelPainting dpmm (pillowOutline dpmm more) Ra.fill)
      (Good := Right script d dpmm ρ (fun k => k = 0 ∧ b0 ≠ none)) (fun _ _ _ _ => ⟨_, rfl⟩) hF (by
        intro k id x box b ds hx hFb hm hb1 hb2
        have hw := hbox (Good := Right script d dpmm ρ (fun k => k = 0 ∧ b0 ≠ none)) (by rintro _ _ ⟨_, _, _, _, h, _⟩; exact h) k id x box b ds hFb hm hb1 hb2
        refine ⟨[], rfl, fun e he => ?_⟩
        obtain ⟨q1, q2, os, q3, q4⟩ := paints_pixels he
        simp only [List.nil_append] at q1 q2 q3
        refine ⟨k, x, hx, q1, by rw [q2]; exact hw, fun hk => ?_, ?_⟩
        · rw [q2]
          exact hfits (by rintro _ _ ⟨k, x, h1, h2, _, h3, _⟩; exact ⟨k, x, h1, h2, h3⟩) k id x box b ds hx hFb hm hb2 hk
        · intro q X δ hδ hq hX
          rw [q2] at hq
          rw [q3]
          exact covered_congr (forall₂_pair (R := PixelMatch dpmm (pillowOutline dpmm more) Ra.fill (Right script d dpmm ρ (fun k => k = 0 ∧ b0 ≠ none)) b)
            (S := MatchR script (Done d) k) (T := fun (o' : Painted (ℤ × ℤ)) (o : Painted (Vec ℝ)) => o'.dark = o.dark ∧ (q ∈ o'.points ↔ X ∈ o.points))
            (fun c o' o m2 m1 => matched_pixels h2.names hd hρ hf hfree hsound hδ hq hX m1 m2) q4 hm)) (by
        intro k g o hm e
        obtain ⟨pts, hp⟩ := hshape k g o hm
        exact ⟨_, by simp only [pixelPainting, pillowOutline, hp, bind, Except.bind]; rfl⟩) fail
    rw [k3] at j1
    cases j1
    exact j2
  refine ⟨p, k4, k6, fun ρ hρ hf column row hq P hP hA => ?_⟩
  obtain ⟨k, x, r1, r2, r3, -, r4⟩ := hgood ρ hρ hf
  obtain ⟨rfl, rfl⟩ := done_unique h2.names r1 hzero
  rw [k5] at r4
  have hd' : (dpmm : ℝ) ≠ 0 := by exact_mod_cast hd.ne'
  have key := r4 (column, towardZero (|e.box.maxY - e.box.minY| * dpmm) - 1 - row) P 0 le_rfl (by
    rw [hP]
    have a1 : ∀ x y : ℝ, (x + y / dpmm - x) * dpmm = y := by intro x y; field_simp; ring
    constructor
    · simp only [pixelPlace, a1, sub_self, abs_zero, le_refl]
    · simp only [pixelPlace, a1]
      push_cast
      simp) (by simpa using hA)
  obtain ⟨q1, q2⟩ := k10 column row hq
  rw [key] at q1 q2
  exact ⟨q1, q2⟩

/-- A ring on a layer that is sized automatically, pasted between a cross and an x. -/
def washerScript : List (Deed ℕ) :=
  [.layer none ⟨0, 0⟩, .nested 0 1 none ⟨0, 0⟩, .mark 1 (.circle ⟨0, 0⟩ 2) false, .mark 1 (.circle ⟨0, 0⟩ 1) true, .leave,
    .mark 0 (.cross ⟨0, 0⟩ 2 2 1) false, .paste 0 1 ⟨3, 0⟩ false, .mark 0 (.x ⟨6, 0⟩ 2 1) false, .leave, .getRvmc]

theorem washer_asked : ∃ d, AskedFor 0 washerScript d ∧ d.opened = [] ∧ ∃ pl, d.plates[0]? = some pl ∧ pl.origin = ⟨0, 0⟩ ∧
    pl.objects.length = 5 := by
  have a1 := AskedFor.layer (main := 0) none ⟨0, 0⟩
  have a2 := AskedFor.nested 0 [] 1 none ⟨0, 0⟩ a1 rfl (by simp)
  have a3 := AskedFor.mark 1 _ (.circle ⟨0, 0⟩ 2) false a2 (by simp) rfl (by simp [Plausible])
  have a4 := AskedFor.mark 1 _ (.circle ⟨0, 0⟩ 1) true a3 (by simp) rfl (by simp [Plausible])
  have a5 := AskedFor.leave 1 [0] _ a4 rfl rfl (by simp [parts])
  have a6 := AskedFor.mark 0 _ (.cross ⟨0, 0⟩ 2 2 1) false a5 (by simp) rfl (by simp [Plausible])
  have a7 := AskedFor.paste 0 [] _ 1 _ ⟨3, 0⟩ false a6 rfl rfl rfl (by simp)
  have a8 := AskedFor.mark 0 _ (.x ⟨6, 0⟩ 2 1) false a7 (by simp) rfl (by simp [Plausible])
  have a9 := AskedFor.leave 0 [] _ a8 rfl rfl (by simp [parts])
  exact ⟨_, AskedFor.getRvmc a9 rfl, rfl, _, rfl, rfl, by simp [parts]⟩

/-- The hypotheses are met. -/
example : ∃ d s, AskedFor 0 washerScript d ∧ performAll 0 washerScript State.init = .ok s ∧ ∃ fuel, ∀ more, fuel ≤ more → ∃ e,
    run (pillow exactRaster 20 more) false 0 s.commands = .ok (some e) := by
  obtain ⟨d, h1, h2, -⟩ := washer_asked
  obtain ⟨s, pl, k1, -, fuel, k3⟩ := c90_raster_partial 0 washerScript d h1 h2 (by
    intro r f neg hm
    simp only [washerScript, List.mem_cons, List.not_mem_nil, reduceCtorEq, or_false, false_or, Deed.mark.injEq] at hm
    rcases hm with ⟨-, rfl, -⟩ | ⟨-, rfl, -⟩ | ⟨-, rfl, -⟩ | ⟨-, rfl, -⟩ <;> simp [Broad])
    (by intro b o hm; simp [washerScript] at hm) (by intro r id b o hm; simp [washerScript] at hm)
    exactRaster 20 (by norm_num) false
  exact ⟨d, s, h1, k1, fuel, fun more hm => (k3 more hm).imp fun e h => h.1⟩

end
end Verif.Props.Sketch
