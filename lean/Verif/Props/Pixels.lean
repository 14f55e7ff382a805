import Verif.Spec.Pixels
import Verif.Lemmas.Crossing
import Verif.Props.Raster
import Verif.Props.Svg
import Verif.Props.Arcs
import Verif.Model.ImageSpace

/-!
# C81: raster images are right away from outlines
-/

namespace Verif.Props.Pixels
open Verif.Geom Verif.Rvmc Verif.Vm Verif.Spec Verif.Crossing Verif.Render

/-! ### Lines that are moved, and scaled -/

theorem crosses_scaled {k : ℝ} (hk : 0 < k) (c p : Vec ℝ) (e : Vec ℝ × Vec ℝ) (f : Vec ℝ → Vec ℝ)
    (hf : ∀ v, f v = ⟨(v.x - c.x) * k, (v.y - c.y) * k⟩) : Crosses (f p) (f e.1, f e.2) ↔ Crosses p e := by
  have h1 : ∀ a b : Vec ℝ, (f a).y < (f b).y ↔ a.y < b.y := by
    intro a b
    rw [hf, hf]
    simp only [mul_lt_mul_iff_left₀ hk]
    constructor <;> intro h <;> linarith
  unfold Crosses
  simp only [h1]
  refine and_congr_right fun h => ?_
  have hne : e.2.y - e.1.y ≠ 0 := by
    intro h0
    have : e.2.y = e.1.y := by linarith
    rw [this] at h
    tauto
  simp only [hf]
  have : (e.1.x - c.x) * k + ((p.y - c.y) * k - (e.1.y - c.y) * k) * ((e.2.x - c.x) * k - (e.1.x - c.x) * k) /
      ((e.2.y - c.y) * k - (e.1.y - c.y) * k) = (e.1.x + (p.y - e.1.y) * (e.2.x - e.1.x) / (e.2.y - e.1.y) - c.x) * k := by
    have h2 : (e.2.y - c.y) * k - (e.1.y - c.y) * k = (e.2.y - e.1.y) * k := by ring
    rw [h2]
    field_simp
    ring
  rw [this]
  constructor <;> intro h
  · have := lt_of_mul_lt_mul_right h hk.le
    linarith
  · exact mul_lt_mul_of_pos_right (by linarith) hk

theorem within_scaled {k : ℝ} (hk : 0 < k) (c : Vec ℝ) (l : List (Vec ℝ)) (p : Vec ℝ) (f : Vec ℝ → Vec ℝ)
    (hf : ∀ v, f v = ⟨(v.x - c.x) * k, (v.y - c.y) * k⟩) : WithinLine (l.map f) (f p) ↔ WithinLine l p := by
  classical
  unfold WithinLine crossings
  rw [sides_map, List.countP_map]
  have : (sides l).countP ((fun e => decide (Crosses (f p) e)) ∘ Prod.map f f) = (sides l).countP fun e => decide (Crosses p e) := by
    apply List.countP_congr
    intro e _
    simp only [Function.comp, decide_eq_true_eq]
    exact crosses_scaled hk c p e f hf
  rw [this]

theorem within_translated (c : Vec ℝ) (l : List (Vec ℝ)) (p : Vec ℝ) : WithinLine (l.map (· + c)) p ↔ WithinLine l (p - c) := by
  have := within_scaled (k := 1) one_pos c (l.map (· + c)) p (fun v => v - c) (by intro v; ext <;> simp)
  rw [← this, List.map_map]
  have e : ((fun v : Vec ℝ => v - c) ∘ fun v => v + c) = id := by
    funext v; ext <;> simp
  rw [e, List.map_id]

/-- Corners that move by at most `δ`, relative to the point, do not pass over a point that is further away from the sides. -/
theorem within_near {δ : ℝ} (vs : List (Vec ℝ)) (f g : Vec ℝ → Vec ℝ) (p p' : Vec ℝ)
    (h : ∀ v ∈ vs, |(f v).x - p.x - ((g v).x - p'.x)| ≤ δ ∧ |(f v).y - p.y - ((g v).y - p'.y)| ≤ δ)
    (hn : ∀ e ∈ sides vs, ¬ Near δ p (f e.1, f e.2)) : WithinLine (vs.map f) p ↔ WithinLine (vs.map g) p' := by
  have t : ∀ (l : List (Vec ℝ)) (c : Vec ℝ), WithinLine l c ↔ WithinLine (l.map (· - c)) ⟨0, 0⟩ := by
    intro l c
    rw [← within_scaled (k := 1) one_pos c l c (fun v => v - c) (by intro v; ext <;> simp)]
    have : c - c = ⟨0, 0⟩ := by ext <;> simp
    rw [this]
  rw [t, t _ p', List.map_map, List.map_map]
  have key := within_moved ⟨0, 0⟩ (vs.map fun v => (f v - p, g v - p')) ?_
  · simpa [List.map_map, Function.comp_def] using key
  · intro e he
    rw [← List.map_tail, List.head?_map,
      show (Option.map (fun v => (f v - p, g v - p')) vs.head?).toList = vs.head?.toList.map (fun v => (f v - p, g v - p')) by
        cases vs.head? <;> rfl, ← List.map_append, List.zip_map, List.mem_map] at he
    obtain ⟨⟨a, b⟩, hm, rfl⟩ := he
    obtain ⟨ha, hb⟩ := Props.Svg.sides_mem hm
    have hab := hn _ hm
    obtain ⟨a1, a2⟩ := h a ha
    obtain ⟨b1, b2⟩ := h b hb
    have δ0 : 0 ≤ δ := (abs_nonneg _).trans a1
    simp only [Prod.map] at *
    constructor
    · rintro ⟨u, v, w, hu, hv, hw, h1, h2, h3⟩
      apply hab
      refine ⟨v + w, by linarith, by linarith, ?_, ?_⟩
      · have : p.x - ((1 - (v + w)) * (f a).x + (v + w) * (f b).x) = - (w * ((f b).x - p.x - ((g b).x - p'.x))) := by
          have : u = 1 - (v + w) := by linarith
          subst this
          simp only [Vec.sub_x] at h2
          linear_combination h2
        rw [this, abs_neg, abs_mul, abs_of_nonneg hw]
        nlinarith
      · have : p.y - ((1 - (v + w)) * (f a).y + (v + w) * (f b).y) = - (w * ((f b).y - p.y - ((g b).y - p'.y))) := by
          have : u = 1 - (v + w) := by linarith
          subst this
          simp only [Vec.sub_y] at h3
          linear_combination h3
        rw [this, abs_neg, abs_mul, abs_of_nonneg hw]
        nlinarith
    · rintro ⟨u, v, w, hu, hv, hw, h1, h2, h3⟩
      apply hab
      refine ⟨v, by linarith, by linarith, ?_, ?_⟩
      · have : p.x - ((1 - v) * (f a).x + v * (f b).x) =
            - (v * ((f b).x - p.x - ((g b).x - p'.x)) + w * ((f a).x - p.x - ((g a).x - p'.x))) := by
          have : u = 1 - (v + w) := by linarith
          subst this
          simp only [Vec.sub_x] at h2
          linear_combination h2
        rw [this, abs_neg]
        refine (abs_add_le _ _).trans ?_
        rw [abs_mul, abs_mul, abs_of_nonneg hw, abs_of_nonneg hv]
        nlinarith
      · have : p.y - ((1 - v) * (f a).y + v * (f b).y) =
            - (v * ((f b).y - p.y - ((g b).y - p'.y)) + w * ((f a).y - p.y - ((g a).y - p'.y))) := by
          have : u = 1 - (v + w) := by linarith
          subst this
          simp only [Vec.sub_y] at h3
          linear_combination h3
        rw [this, abs_neg]
        refine (abs_add_le _ _).trans ?_
        rw [abs_mul, abs_mul, abs_of_nonneg hw, abs_of_nonneg hv]
        nlinarith

theorem near_mono {δ ε : ℝ} {p : Vec ℝ} {e : Vec ℝ × Vec ℝ} (h : Near δ p e) (hd : δ ≤ ε) : Near ε p e := by
  obtain ⟨t, t0, t1, h1, h2⟩ := h
  exact ⟨t, t0, t1, h1.trans hd, h2.trans hd⟩

/-- A point within a line lies far within every box around the line. -/
theorem within_margin {δ : ℝ} (hδ : 0 ≤ δ) {vs : List (Vec ℝ)} {p : Vec ℝ} {b : Box ℝ} (h : WithinLine vs p)
    (hn : ∀ e ∈ sides vs, ¬ Near δ p e) (hb : ∀ v ∈ vs, InBox v b) :
    b.minX + δ ≤ p.x ∧ p.x + δ ≤ b.maxX ∧ b.minY + δ ≤ p.y ∧ p.y + δ ≤ b.maxY := by
  have key : ∀ d : Vec ℝ, |d.x| ≤ δ → |d.y| ≤ δ → InBox (p + d) b := by
    intro d h1 h2
    have h3 : WithinLine (vs.map id) (p + d) := by
      rw [← within_near (δ := δ) vs id id p (p + d) ?_ hn, List.map_id]
      · exact h
      · intro v _
        simp only [id, Vec.add_x, Vec.add_y]
        rw [show v.x - p.x - (v.x - (p.x + d.x)) = d.x by ring, show v.y - p.y - (v.y - (p.y + d.y)) = d.y by ring]
        exact ⟨h1, h2⟩
    rw [List.map_id] at h3
    obtain ⟨⟨a, ha, a1⟩, ⟨c, hc, c1⟩, ⟨e, he, e1⟩, ⟨g, hg, g1⟩⟩ := Props.Svg.within_bounds h3
    exact ⟨(hb c hc).1.trans c1, a1.le.trans (hb a ha).2.1, (hb g hg).2.2.1.trans g1, e1.le.trans (hb e he).2.2.2⟩
  have h1 := key ⟨δ, δ⟩ (by simp [abs_of_nonneg hδ]) (by simp [abs_of_nonneg hδ])
  have h2 := key ⟨-δ, -δ⟩ (by simp [abs_of_nonneg hδ]) (by simp [abs_of_nonneg hδ])
  obtain ⟨-, b1, -, b2⟩ := h1
  obtain ⟨a1, -, a2, -⟩ := h2
  simp only [Vec.add_x, Vec.add_y] at *
  exact ⟨by linarith, by linarith, by linarith, by linarith⟩

/-! ### Layers -/

variable {ι : Type} {outline : Shape → Except VErr (List (Vec ℝ))} {layers : List (Spec.Layer ι)} {boxes : ι → Box ℝ}

theorem towardZero_near (x : ℝ) : |x - towardZero x| ≤ 1 := by
  unfold towardZero
  split
  · rw [abs_le]
    constructor <;> linarith [Int.floor_le x, Int.lt_floor_add_one x]
  · push_cast
    rw [abs_le]
    constructor <;> linarith [Int.floor_le (-x), Int.lt_floor_add_one (-x)]

/-- Corners are in the box of the layer. -/
theorem corner_in (hs : SmallestBoxes layers boxes) (ho : OutlinesInBoxes outline layers) {id : ι} {n : ℕ} {vs : List (Vec ℝ)}
    (h : PolygonAt outline layers id n vs) : ∀ v ∈ vs, InBox v (boxes id) := by
  have drawn : ∀ l ∈ layers, ∀ d ∈ l.cmds, DrawIn boxes (boxes l.id) d := by
    intro l hl d hd
    have hne : l.cmds ≠ [] := by intro e; rw [e] at hd; cases hd
    exact (hs l hl hne (boxes l.id)).1 ⟨le_rfl, le_rfl, le_rfl, le_rfl⟩ d hd
  induction h with
  | shape l mem s hd corners outlined =>
    intro v hv
    exact Props.Geom.inBox_of_boxIn (ho l mem s hd corners outlined v hv) (drawn l mem _ hd)
  | paste l mem source center negative hd n corners inner ih =>
    intro v hv
    obtain ⟨w, hw, rfl⟩ := List.mem_map.1 hv
    obtain ⟨a, b, c, d⟩ := ih w hw
    obtain ⟨a', b', c', d'⟩ := drawn l mem _ hd
    simp only at a' b' c' d'
    refine ⟨?_, ?_, ?_, ?_⟩ <;> simp only [Vec.add_x, Vec.add_y] <;> linarith

theorem covered_point {α : Type} {os : List (Painted α)} {p : α} (h : Covered os p) : ∃ o ∈ os, p ∈ o.points := by
  obtain ⟨before, o, after, rfl, h, -, -⟩ := h
  exact ⟨o, by simp, h⟩

/-- What is painted is painted by a polygon. -/
theorem inside_polygon {id : ι} {os : List (Painted (Vec ℝ))} (h : Shows (polygonOf outline) layers id os) :
    ∀ o ∈ os, ∀ X ∈ o.points, ∃ n vs, PolygonAt outline layers id n vs ∧ WithinLine vs X := by
  refine Shows.rec
    (motive_1 := fun id os _ => ∀ o ∈ os, ∀ X ∈ o.points, ∃ n vs, PolygonAt outline layers id n vs ∧ WithinLine vs X)
    (motive_2 := fun ds os _ => ∀ l ∈ layers, (∀ d ∈ ds, d ∈ l.cmds) → ∀ o ∈ os, ∀ X ∈ o.points,
      ∃ n vs, PolygonAt outline layers l.id n vs ∧ WithinLine vs X) ?_ ?_ ?_ ?_ h
  · intro l os mem _ ih
    exact ih l mem (fun _ h => h)
  · intro l _ _ o ho; cases ho
  · intro s points ds os inside _ ih l mem hd o ho X hX
    rcases List.mem_cons.1 ho with rfl | ho
    · unfold polygonOf at inside
      cases hv : outline s with
      | error x => rw [hv] at inside; cases inside
      | ok vs =>
        rw [hv] at inside
        cases inside
        exact ⟨0, vs, .shape l mem s (hd _ (by simp)) vs hv, hX⟩
    · exact ih l mem (fun d h => hd d (List.mem_cons_of_mem _ h)) o ho X hX
  · intro source center negative objects ds os _ _ ih1 ih2 l mem hd o ho X hX
    rcases List.mem_cons.1 ho with rfl | ho
    · obtain ⟨o', ho', hX'⟩ := covered_point hX
      obtain ⟨n, vs, h1, h2⟩ := ih1 o' ho' _ hX'
      refine ⟨n + 1, vs.map (· + center), .paste l mem source center negative (hd _ (by simp)) n vs h1, ?_⟩
      rw [within_translated]
      exact h2
    · exact ih2 l mem (fun d h => hd d (List.mem_cons_of_mem _ h)) o ho X hX

theorem covered_congr {α β : Type} {p : α} {q : β} {os : List (Painted α)} {os' : List (Painted β)}
    (h : List.Forall₂ (fun o o' => o.dark = o'.dark ∧ (p ∈ o.points ↔ q ∈ o'.points)) os os') :
    Covered os p ↔ Covered os' q := by
  induction h with
  | nil =>
    constructor <;> rintro ⟨b, o, a, h, -⟩ <;> exact absurd h (by simp)
  | @cons o o' os os' hd hs ih =>
    have step : ∀ {γ : Type} (o : Painted γ) (os : List (Painted γ)) (p : γ),
        Covered (o :: os) p ↔ Covered os p ∨ (o.dark = true ∧ p ∈ o.points ∧ ∀ o' ∈ os, p ∉ o'.points) := by
      intro γ o os p
      constructor
      · rintro ⟨b, x, a, h, h1, h2, h3⟩
        cases b with
        | nil =>
          simp only [List.nil_append, List.cons.injEq] at h
          obtain ⟨rfl, rfl⟩ := h
          exact .inr ⟨h3, h1, h2⟩
        | cons y b =>
          simp only [List.cons_append, List.cons.injEq] at h
          exact .inl ⟨b, x, a, h.2, h1, h2, h3⟩
      · rintro (⟨b, x, a, h, h1, h2, h3⟩ | ⟨h3, h1, h2⟩)
        · exact ⟨o :: b, x, a, by rw [h]; rfl, h1, h2, h3⟩
        · exact ⟨[], o, os, rfl, h1, h2, h3⟩
    have none : (∀ x ∈ os, p ∉ x.points) ↔ ∀ x ∈ os', q ∉ x.points := by
      clear ih
      induction hs with
      | nil => simp
      | cons h _ ih => simp only [List.forall_mem_cons, ih, h.2]
    rw [step, step, ih, hd.1, hd.2, none]

/-- The point is near the place of the pixel. -/
def At (dpmm : ℤ) (b : Box ℝ) (d : ℝ) (q : ℤ × ℤ) (X : Vec ℝ) : Prop :=
  |(X.x - (lowerLeft b).x) * dpmm - q.1| ≤ d ∧ |(X.y - (lowerLeft b).y) * dpmm - q.2| ≤ d

theorem lowerLeft_eq {b : Box ℝ} (hx : b.minX ≤ b.maxX) (hy : b.minY ≤ b.maxY) : lowerLeft b = ⟨b.minX, b.minY⟩ := by
  unfold lowerLeft
  rw [min_eq_left hx, min_eq_left hy]

theorem lt_towardZero {a : ℤ} {x : ℝ} (h : (a : ℝ) + 1 ≤ x) (ha : 0 ≤ a) : a < towardZero x := by
  have hx : 0 ≤ x := by have : (0 : ℝ) ≤ a := by exact_mod_cast ha
                        linarith
  unfold towardZero
  rw [if_pos hx]
  have : a + 1 ≤ ⌊x⌋ := Int.le_floor.2 (by push_cast; exact h)
  omega

/-- Pixels and points agree on every layer. -/
theorem pixels_agree {dpmm : ℤ} (hd : 0 < dpmm) {fill : List (ℤ × ℤ) → Set (ℤ × ℤ)} {ρ : ℝ} (hρ : 0 ≤ ρ) (hf : FillsEvenOdd ρ fill)
    (hs : SmallestBoxes layers boxes) (ho : OutlinesInBoxes outline layers) {id : ι} {os : List (Painted (ℤ × ℤ))}
    (h : ShowsPixels dpmm outline fill layers boxes id os) :
    ∃ os', Shows (polygonOf outline) layers id os' ∧ ∀ q X d, 0 ≤ d → At dpmm (boxes id) d q X →
      AwayFromSides outline layers dpmm (ρ + d) id X → (Covered os q ↔ Covered os' X) := by
  have hd' : (0 : ℝ) < dpmm := by exact_mod_cast hd
  refine ShowsPixels.rec
    (motive_1 := fun id os _ => ∃ os', Shows (polygonOf outline) layers id os' ∧ ∀ q X d, 0 ≤ d → At dpmm (boxes id) d q X →
      AwayFromSides outline layers dpmm (ρ + d) id X → (Covered os q ↔ Covered os' X))
    (motive_2 := fun box ds os _ => ∀ l ∈ layers, boxes l.id = box → (∀ x ∈ ds, x ∈ l.cmds) →
      ∃ os', ShowsAll (polygonOf outline) layers ds os' ∧ ∀ q X d, 0 ≤ d → At dpmm box d q X →
        AwayFromSides outline layers dpmm (ρ + d) l.id X →
        List.Forall₂ (fun o o' => o.dark = o'.dark ∧ (q ∈ o.points ↔ X ∈ o'.points)) os os') ?_ ?_ ?_ ?_ h
  · intro l os mem _ ih
    obtain ⟨os', h1, h2⟩ := ih l mem rfl (fun _ h => h)
    exact ⟨os', .layer l os' mem h1, fun q X d hd hq hX => covered_congr (h2 q X d hd hq hX)⟩
  · intro box l _ _ _
    exact ⟨[], .nil, fun _ _ _ _ _ _ => .nil⟩
  · intro box s vs ds os inside _ ih l mem hb hc
    obtain ⟨os', h1, h2⟩ := ih l mem hb (fun x hx => hc x (List.mem_cons_of_mem _ hx))
    refine ⟨⟨!s.negative, {p | WithinLine vs p}⟩ :: os', .shape s _ ds os' (by unfold polygonOf; rw [inside]) h1, ?_⟩
    intro q X d hd hq hX
    refine .cons ⟨rfl, ?_⟩ (h2 q X d hd hq hX)
    have far := hX 0 vs (.shape l mem s (hc _ (by simp)) vs inside)
    -- in units of pixels
    obtain ⟨f, hf'⟩ : ∃ f : Vec ℝ → Vec ℝ, ∀ v, f v = ⟨(v.x - (lowerLeft box).x) * dpmm, (v.y - (lowerLeft box).y) * dpmm⟩ := ⟨_, fun _ => rfl⟩
    have far' : ∀ e ∈ sides vs, ¬ Near (1 + ρ + d) (f X) (f e.1, f e.2) := by
      rintro e he ⟨t, t0, t1, n1, n2⟩
      refine far e he ⟨t, t0, t1, ?_, ?_⟩
      · rw [le_div_iff₀ hd', ← abs_of_pos hd', ← abs_mul]
        refine le_trans (le_of_eq ?_) (n1.trans (by push_cast; linarith))
        congr 1
        simp only [hf']; ring
      · rw [le_div_iff₀ hd', ← abs_of_pos hd', ← abs_mul]
        refine le_trans (le_of_eq ?_) (n2.trans (by push_cast; linarith))
        congr 1
        simp only [hf']; ring
    have near : ∀ v, |(f v).x - (f X).x - ((place (pixel dpmm (v - lowerLeft box))).x - (place q).x)| ≤ 1 + d ∧
        |(f v).y - (f X).y - ((place (pixel dpmm (v - lowerLeft box))).y - (place q).y)| ≤ 1 + d := by
      intro v
      simp only [hf', place, pixel, Vec.sub_x, Vec.sub_y]
      constructor
      · have a := towardZero_near ((v.x - (lowerLeft box).x) * dpmm)
        have b := hq.1
        rw [abs_le] at *
        constructor <;> linarith
      · have a := towardZero_near ((v.y - (lowerLeft box).y) * dpmm)
        have b := hq.2
        rw [abs_le] at *
        constructor <;> linarith
    show q ∈ fill (vs.map fun p => pixel dpmm (p - lowerLeft box)) ↔ WithinLine vs X
    rw [hf]
    · rw [← within_scaled hd' (lowerLeft box) vs X f hf', List.map_map]
      symm
      exact within_near (δ := 1 + d) vs f (place ∘ fun p => pixel dpmm (p - lowerLeft box)) (f X) (place q) (fun v _ => near v)
        (fun e he hn => far' e he (near_mono hn (by linarith)))
    · intro e he hn
      rw [List.map_map, sides_map, List.mem_map] at he
      obtain ⟨e, he, rfl⟩ := he
      obtain ⟨t, t0, t1, n1, n2⟩ := hn
      refine far' e he ⟨t, t0, t1, ?_, ?_⟩
      · obtain ⟨a, -⟩ := near e.1
        obtain ⟨b, -⟩ := near e.2
        simp only [Prod.map, Function.comp] at n1 ⊢
        rw [abs_le] at *
        constructor <;> nlinarith
      · obtain ⟨-, a⟩ := near e.1
        obtain ⟨-, b⟩ := near e.2
        simp only [Prod.map, Function.comp] at n2 ⊢
        rw [abs_le] at *
        constructor <;> nlinarith
  · intro box source center negative objects ds os shift moved _ _ ih1 ih2 l mem hb hc
    obtain ⟨os1, h1, h2⟩ := ih1
    obtain ⟨os2, h3, h4⟩ := ih2 l mem hb (fun x hx => hc x (List.mem_cons_of_mem _ hx))
    refine ⟨_, .paste source center negative os1 ds os2 h1 h3, ?_⟩
    intro q X d hd0 hq hX
    refine .cons ⟨rfl, ?_⟩ (h4 q X d hd0 hq hX)
    have hat : At dpmm (boxes source) (d + 1) (q.1 - shift.1, q.2 - shift.2) (X - center) := by
      subst moved
      obtain ⟨a, b⟩ := hq
      simp only [At, pixel, Vec.sub_x, Vec.sub_y, Vec.add_x, Vec.add_y]
      constructor
      · have c := towardZero_near ((center.x + (lowerLeft (boxes source)).x - (lowerLeft box).x) * dpmm)
        push_cast
        rw [abs_le] at *
        constructor <;> linarith
      · have c := towardZero_near ((center.y + (lowerLeft (boxes source)).y - (lowerLeft box).y) * dpmm)
        push_cast
        rw [abs_le] at *
        constructor <;> linarith
    have haway : AwayFromSides outline layers dpmm (ρ + (d + 1)) source (X - center) := by
      intro n vs hv e he hn
      refine hX (n + 1) _ (.paste l mem source center negative (hc _ (by simp)) n vs hv) (e.1 + center, e.2 + center)
        (by rw [sides_map]; exact List.mem_map.2 ⟨e, he, rfl⟩) ?_
      obtain ⟨t, t0, t1, n1, n2⟩ := hn
      have hcong : ((n + 1 + (ρ + (d + 1))) / dpmm : ℝ) = (((n + 1 : ℕ) : ℝ) + 1 + (ρ + d)) / dpmm := by push_cast; ring
      rw [← hcong]
      refine ⟨t, t0, t1, le_trans (le_of_eq ?_) n1, le_trans (le_of_eq ?_) n2⟩
      · congr 1; simp only [Vec.add_x, Vec.sub_x]; ring
      · congr 1; simp only [Vec.add_y, Vec.sub_y]; ring
    have hcov := h2 (q.1 - shift.1, q.2 - shift.2) (X - center) (d + 1) (by linarith) hat haway
    show ((q.1 - shift.1, q.2 - shift.2) ∈ imageOf dpmm (boxes source) ∧ Covered objects (q.1 - shift.1, q.2 - shift.2)) ↔
      Covered os1 (X - center)
    rw [hcov]
    refine and_iff_right_of_imp fun hc' => ?_
    -- what is covered lies within the image
    obtain ⟨o, ho1, ho2⟩ := covered_point hc'
    obtain ⟨n, vs, hv, hw⟩ := inside_polygon h1 o ho1 _ ho2
    have hbox := corner_in hs ho hv
    have hn0 : (0 : ℝ) ≤ n := Nat.cast_nonneg n
    have hδ : 0 ≤ (n + 1 + (ρ + (d + 1))) / (dpmm : ℝ) := div_nonneg (by linarith) hd'.le
    obtain ⟨m1, m2, m3, m4⟩ := within_margin hδ hw (haway n vs hv) hbox
    obtain ⟨δ, hδe⟩ : ∃ δ, δ = (n + 1 + (ρ + (d + 1))) / (dpmm : ℝ) := ⟨_, rfl⟩
    have hδd : δ * dpmm = n + 1 + (ρ + (d + 1)) := by rw [hδe]; field_simp
    rw [← hδe] at m1 m2 m3 m4 hδ
    have wx : (boxes source).minX ≤ (boxes source).maxX := by linarith
    have wy : (boxes source).minY ≤ (boxes source).maxY := by linarith
    obtain ⟨a, b⟩ := hat
    rw [lowerLeft_eq wx wy] at a b
    simp only at a b
    push_cast at a b
    rw [abs_le] at a b
    have e1 := mul_le_mul_of_nonneg_right m1 hd'.le
    have e2 := mul_le_mul_of_nonneg_right m2 hd'.le
    have e3 := mul_le_mul_of_nonneg_right m3 hd'.le
    have e4 := mul_le_mul_of_nonneg_right m4 hd'.le
    have p1 : (0 : ℝ) ≤ ((q.1 - shift.1 : ℤ) : ℝ) := by push_cast; nlinarith [a.1, a.2]
    have p2 : (0 : ℝ) ≤ ((q.2 - shift.2 : ℤ) : ℝ) := by push_cast; nlinarith [b.1, b.2]
    have p1' : 0 ≤ q.1 - shift.1 := by exact_mod_cast p1
    have p2' : 0 ≤ q.2 - shift.2 := by exact_mod_cast p2
    refine ⟨p1', lt_towardZero ?_ p1', p2', lt_towardZero ?_ p2'⟩
    · rw [abs_of_nonneg (by linarith)]
      push_cast
      nlinarith [a.1, a.2]
    · rw [abs_of_nonneg (by linarith)]
      push_cast
      nlinarith [b.1, b.2]

/-! ### Outlines lie in boxes -/

theorem ebind {ε α β : Type} {x : Except ε α} {f : α → Except ε β} {b : β} : (x >>= f) = .ok b ↔ ∃ a, x = .ok a ∧ f a = .ok b := by
  cases x <;> simp [bind, Except.bind]

theorem arcAngles_more (inc : Bool) (stop delta : ℝ) : ∀ (n m : ℕ) (c : ℝ) (l : List ℝ), n ≤ m →
    arcAngles inc stop delta n c = .ok l → arcAngles inc stop delta m c = .ok l
  | 0, _, _, _, _, h => by cases h
  | n + 1, 0, _, _, hm, _ => by omega
  | n + 1, m + 1, c, l, hm, h => by
    unfold arcAngles at h ⊢
    by_cases hc : (if inc then c < stop else c > stop)
    · rw [if_pos hc] at h ⊢
      obtain ⟨r, h1, h2⟩ := ebind.1 h
      exact ebind.2 ⟨r, arcAngles_more inc stop delta n m _ r (by omega) h1, h2⟩
    · rw [if_neg hc] at h ⊢
      exact h

theorem arcSweep_more {n m : ℕ} (hm : n ≤ m) {start stop delta : ℝ} {cw : Bool} {l : List ℝ}
    (h : arcSweep n start stop delta cw = .ok l) : arcSweep m start stop delta cw = .ok l := by
  unfold arcSweep at h ⊢
  split_ifs at h ⊢ <;> exact arcAngles_more _ _ _ _ _ _ _ hm h

theorem pillowLoop_more {n m : ℕ} (hm : n ≤ m) (dpmm : ℤ) : ∀ (gs : List Segment) (points pts : List (Vec ℝ)),
    pillowLoop dpmm n gs points = .ok pts → pillowLoop dpmm m gs points = .ok pts
  | [], _, _, h => h
  | g :: gs, points, pts, h => by
    unfold pillowLoop at h ⊢
    obtain ⟨r, h1, h2⟩ := ebind.1 h
    refine ebind.2 ⟨r, ?_, pillowLoop_more hm dpmm gs r pts h2⟩
    cases g with
    | line l => exact h1
    | arc a =>
      unfold pillowSegment at h1 ⊢
      obtain ⟨ps, h3, h4⟩ := ebind.1 h1
      refine ebind.2 ⟨ps, ?_, h4⟩
      unfold pillowArc at h3 ⊢
      simp only at h3 ⊢
      split_ifs at h3 ⊢
      obtain ⟨angles, h5, h6⟩ := ebind.1 h3
      exact ebind.2 ⟨angles, arcSweep_more hm h5, h6⟩

theorem samePath_mem {l m : List (Vec ℝ)} (h : SamePath l m) (v : Vec ℝ) : v ∈ l ↔ v ∈ m := by
  induction h with
  | refl => rfl
  | symm _ ih => exact ih.symm
  | trans _ _ ih1 ih2 => exact ih1.trans ih2
  | repeated => simp

theorem discretises_mem {t step : ℝ} {offs : List ℝ} (h : Discretises t step offs) : ∀ τ ∈ offs, 0 ≤ τ ∧ τ ≤ t := by
  obtain ⟨h1, h2, h3⟩ := h
  have h4 : offs.IsChain (· < ·) := h3.imp fun _ _ h => h.1
  have h5 := List.isChain_iff_pairwise.1 h4
  intro τ hτ
  constructor
  · cases offs with
    | nil => cases hτ
    | cons a l =>
      simp only [List.head?_cons, Option.some.injEq] at h1
      subst h1
      rcases List.mem_cons.1 hτ with rfl | h
      · exact le_rfl
      · exact ((List.pairwise_cons.1 h5).1 τ h).le
  · obtain ⟨l, rfl⟩ : ∃ l, offs = l ++ [t] := by
      rw [List.getLast?_eq_some_iff] at h2
      exact h2
    rcases List.mem_append.1 hτ with h | h
    · exact ((List.pairwise_append.1 h5).2.2 τ h t (by simp)).le
    · simp only [List.mem_singleton] at h
      rw [h]

theorem follows_on {step : ℝ} {g : Segment} {pts : List (Vec ℝ)} (h : Follows step g pts) : ∀ v ∈ pts, Props.Geom.OnSegmentOf g v := by
  intro v hv
  cases g with
  | line l =>
    rw [show pts = [l.start, l.stop] from h] at hv
    simp only [List.mem_cons, List.not_mem_nil, or_false] at hv
    rcases hv with rfl | rfl
    · exact ⟨0, le_rfl, zero_le_one, by simp⟩
    · exact ⟨1, zero_le_one, le_rfl, by simp⟩
  | arc a =>
    obtain ⟨t, offs, h1, h2, rfl, -⟩ := h
    obtain ⟨τ, hτ, rfl⟩ := List.mem_map.1 hv
    obtain ⟨h3, h4⟩ := discretises_mem h2 τ hτ
    exact ⟨t, h1, τ, h3, h4, rfl⟩

/-- The corners of a shape are in its box. -/
theorem vertices_in {dpmm : ℤ} {fuel : ℕ} {s : Shape} (hs : ∀ g ∈ s.segments, NotClosed g) {pts : List (Vec ℝ)}
    (h : pillowVertices dpmm fuel s = .ok pts) : ∀ v ∈ pts, InBox v s.outerBox := by
  obtain ⟨f, traces, h1, h2⟩ := Props.Arcs.c54_pillow_outline_partial s hs dpmm
  obtain ⟨pts', h3, h4⟩ := h2 (max f fuel) (le_max_left _ _)
  have h5 := pillowLoop_more (le_max_right f fuel) dpmm _ _ _ h
  unfold pillowVertices at h3
  rw [h5] at h3
  cases h3
  intro v hv
  rw [samePath_mem h4, List.mem_flatten] at hv
  obtain ⟨tr, ht, hv⟩ := hv
  have key : ∀ {gs : List Segment} {ts : List (List (Vec ℝ))},
      List.Forall₂ (fun g tr => Follows (2 * Real.pi / 12) g tr ∧ (0 < dpmm → Along (1 / dpmm) g tr)) gs ts →
      ∀ tr ∈ ts, ∃ g ∈ gs, Follows (2 * Real.pi / 12) g tr := by
    intro gs ts h
    induction h with
    | nil => simp
    | cons a _ ih =>
      intro tr ht
      rcases List.mem_cons.1 ht with rfl | ht
      · exact ⟨_, by simp, a.1⟩
      · obtain ⟨g, h1, h2⟩ := ih tr ht
        exact ⟨g, by simp [h1], h2⟩
  obtain ⟨g, hg, hf⟩ := key h1 tr ht
  refine Props.Geom.c28_contains_partial s g hg ?_ v (follows_on hf v hv)
  have := hs g hg
  cases g with
  | line l => trivial
  | arc a => exact ⟨this.2.1, .inr this.2.2⟩

theorem outlines_in {ι : Type} {layers : List (Spec.Layer ι)} {dpmm : ℤ} {fuel : ℕ}
    (h : ∀ l ∈ layers, ∀ s, .shape s ∈ l.cmds → ∀ g ∈ s.segments, NotClosed g) :
    OutlinesInBoxes (Props.Painting.pillowOutline dpmm fuel) layers := by
  intro l hl s hs corners hc
  unfold Props.Painting.pillowOutline at hc
  cases hv : pillowVertices dpmm fuel s with
  | error x => rw [hv] at hc; cases hc
  | ok pts =>
    rw [hv] at hc
    cases hc
    exact vertices_in (h l hl s hs) hv

/-! ### The unit of a file -/

open Verif.Visitor in
theorem unit_inv : ∀ h, (run {} h).exn = none → (run {} h).st.unit = latest setsUnit .metric h := by
  refine history_induction rfl ?_
  intro h a h1 h2 ih
  rw [run_snoc_st h1, latest_snoc, ← ih]
  generalize (run {} h).st = s at *
  refine step_elim h2 (P := fun a s' => s'.unit = (setsUnit a).getD s.unit) ?_ ?_ ?_ ?_ ?_
  · intros; rfl
  · intros; rfl
  · intros; rfl
  · intros; rfl
  · intro a hp hs
    clear h2
    cases a with
    | leaf l =>
      cases l <;> try (simp [isPlain] at hp; done)
      all_goals try rfl
      case td m => cases m <;> rfl
    | _ => rfl

/-! ### Rendered files -/

section
open Verif.Compiler Verif.Console Verif.Raster Verif.ImageSpace Verif.Props.Painting Verif.Props.Image Verif.Props.Raster

/-- Every layer of a program is there in the end. -/
theorem exec_has {κ : Type} {ι : Type} [DecidableEq ι] {B : Backend κ} {fail : Bool} : ∀ (todo : List (Spec.Layer ι)) (m m' : Machine ι κ), m.stack = [] →
    exec B fail (program todo) m = .ok m' → ∀ l ∈ todo, m'.layers.get? l.id ≠ none
  | [], _, _, _, _, l, hl => by cases hl
  | l :: todo, m, m', hs, h, l', hl => by
    have e0 : program (l :: todo) = .start l.id none ⟨0, 0⟩ :: (l.cmds.map .draw ++ .stop :: program todo) := by
      simp [program]
    rw [e0] at h
    obtain ⟨h0, n, n1, h1, h2, -, h4, h5, h6⟩ := layer_step hs h
    rcases List.mem_cons.1 hl with rfl | hl
    · have : ∃ x, n1.layers.get? l'.id = some x := by
        rcases h6 with ⟨h6, -⟩ | ⟨box, c, -, -, h6⟩
        · exact ⟨_, h6⟩
        · obtain ⟨⟨e, q⟩, -⟩ := Vm.replay_ok h6 (Dict.get?_set_self _ _ _)
          exact ⟨_, q⟩
      obtain ⟨x, hx⟩ := this
      rw [exec_keeps todo n1 m' h2 h1 _ _ hx]
      simp
    · exact exec_has todo n1 m' h2 h1 l' hl

/-- A compiled program has a main layer. -/
theorem has_main {env : Env} {ignore : Bool} {file : List Visitor.Cmd} {prog : List (Command LayerId)}
    (h : compile env ignore file = .ok prog) : ∃ layers : List (Spec.Layer LayerId), prog = program layers ∧ ∃ l ∈ layers, l.id = .main := by
  unfold compile finish at h
  obtain ⟨c, h1, h2⟩ := Vm.bind_ok.1 h
  split at h2
  · cases h2
  · obtain ⟨order, h3, h4⟩ := Vm.bind_ok.1 h2
    cases h4
    refine ⟨order.map (fun id => ⟨id, (c.buffers.get? id).getD []⟩), by simp [program, layerCommands, List.flatMap_map], ?_⟩
    have hm : LayerId.main ∈ order := by
      cases hn : env.depth with
      | zero => rw [hn] at h3; simp [resolve] at h3
      | succ n =>
        rw [hn] at h3
        obtain ⟨ds, o', hd, hl, rfl⟩ := resolve_succ_ok.1 h3
        simp
    exact ⟨_, List.mem_map.2 ⟨_, hm, rfl⟩, rfl⟩

theorem run_some {κ : Type} {B : Backend κ} {fail : Bool} {env : Env} {ignore : Bool} {file : List Visitor.Cmd} {prog : List (Command LayerId)}
    (h : compile env ignore file = .ok prog) {r : Option (Eager κ)} (hr : Vm.run B fail .main prog = .ok r) : ∃ e, r = some e := by
  obtain ⟨layers, rfl, l, hl, hm⟩ := has_main h
  unfold Vm.run at hr
  obtain ⟨m, h1, h2⟩ := Vm.bind_ok.1 hr
  have := exec_has layers _ m rfl h1 l hl
  rw [hm] at this
  cases hg : m.layers.get? LayerId.main with
  | none => exact absurd hg this
  | some x =>
    rw [hg] at h2
    cases x with
    | deferred _ _ => cases h2
    | eager e => cases h2; exact ⟨e, rfl⟩

/-- What a rendered file consists of. -/
theorem rendered {env : Env} {ignore : Bool} {Ra : Raster} {fuel : ℕ} {fail : Bool} {style : Style} {dpmm : ℤ}
    {file : List Visitor.Cmd} {space : Space} {p : Picture}
    (h : renderWithPillow env ignore Ra fuel fail style dpmm file = .ok (space, p)) :
    ∃ prog e, compile env ignore file = .ok prog ∧ Vm.run (pillow Ra dpmm fuel) fail .main prog = .ok (some e) ∧
      getImage (some (resultImage (some e))) style = some p ∧ space = Space.ofBox (latest setsUnit .metric (executed true file)) e.box dpmm := by
  unfold renderWithPillow at h
  cases h1 : compile env ignore file with
  | error x => rw [h1] at h; cases h
  | ok prog =>
    rw [h1] at h
    cases h2 : Vm.run (pillow Ra dpmm fuel) fail .main prog with
    | error x => simp only [h2] at h; cases h
    | ok r =>
      obtain ⟨e, rfl⟩ := run_some h1 h2
      simp only [h2] at h
      unfold finalState at h
      rw [Props.State.file_is_run] at h
      have hu := unit_inv (executed (!false) file)
      cases h3 : (Visitor.run {} (executed (!false) file)).exn with
      | some x => simp only [h3] at h; cases h
      | none =>
        simp only [h3] at h
        rw [hu h3] at h
        cases h4 : getImage (some (resultImage (some e))) style with
        | none => rw [h4] at h; cases h
        | some q =>
          rw [h4] at h
          cases h
          exact ⟨prog, e, rfl, h2, h4, rfl⟩

/-- **C81** (partial: no arcs that start where they end, and no two polygons closer than the pixels can show). Whatever file is
rendered with Pillow: the image space is the smallest box around what is drawn, in the unit of the file.  Let the library fill
polygons by the even-odd rule, for pixels more than `ρ` pixels away from their sides.  Then a pixel whose place is more than
`n + 1 + ρ` pixels away from every polygon that is pasted through `n` layers has the foreground colour if the file paints this
place, and the background colour otherwise. -/
theorem c81_pixels_partial (env : Env) (ignore : Bool) (Ra : Raster) (fuel : ℕ) (fail : Bool) (style : Style) (dpmm : ℤ) (hd : 0 < dpmm)
    (file : List Visitor.Cmd) (space : Space) (p : Picture)
    (h : renderWithPillow env ignore Ra fuel fail style dpmm file = .ok (space, p))
    (ρ : ℝ) (hρ : 0 ≤ ρ) (hf : FillsEvenOdd ρ Ra.fill) :
    ∃ c layers boxes, compiled env (executed (!ignore) file) = .ok c ∧
      (∀ l ∈ layers, c.buffers.get? l.id = some l.cmds) ∧ (layers.map Spec.Layer.id).Nodup ∧ SmallestBoxes layers boxes ∧
      boxes LayerId.main = ⟨space.minX, space.minY, space.maxX, space.maxY⟩ ∧ p.frame = imageOf dpmm (boxes .main) ∧
      ((∀ l ∈ layers, ∀ s, .shape s ∈ l.cmds → ∀ g ∈ s.segments, NotClosed g) →
        ∃ objects, Shows (polygonOf (pillowOutline dpmm fuel)) layers .main objects ∧
        ∀ column row, (column, row) ∈ p.frame → ∀ P,
          P = pixelPlace (lowerLeft (boxes .main)) dpmm (towardZero (|space.maxY - space.minY| * dpmm)) column row →
          AwayFromSides (pillowOutline dpmm fuel) layers dpmm ρ .main P →
          (Covered objects P → p.pixel (column, row) = style.foreground) ∧
          (¬ Covered objects P → p.pixel (column, row) = style.background)) := by
  obtain ⟨prog, e, h1, h2, h3, rfl⟩ := rendered h
  obtain ⟨c, layers, boxes, pixels, p', g1, g2, g3, g4, g5, g0, g6, g7, g8⟩ :=
    c78_image env ignore file prog h1 Ra dpmm fuel fail e h2 style
  rw [h3] at g6
  cases g6
  refine ⟨c, layers, boxes, g1, g2, g3, g4, g0, g7, fun hn => ?_⟩
  obtain ⟨objects, k1, k2⟩ := pixels_agree hd hρ hf g4 (outlines_in hn) g5
  refine ⟨objects, k1, fun column row hq P hP hA => ?_⟩
  have hd' : (dpmm : ℝ) ≠ 0 := by exact_mod_cast hd.ne'
  have key := k2 (column, towardZero (|e.box.maxY - e.box.minY| * dpmm) - 1 - row) P 0 le_rfl (by
    rw [hP]
    have a1 : ∀ x y : ℝ, (x + y / dpmm - x) * dpmm = y := by intro x y; field_simp; ring
    constructor
    · simp only [pixelPlace, a1, sub_self, abs_zero, le_refl]
    · simp only [pixelPlace, a1, Space.ofBox]
      push_cast
      simp) (by simpa using hA)
  obtain ⟨q1, q2⟩ := g8 column row hq
  rw [g0, key] at q1 q2
  exact ⟨q1, q2⟩

/-- The image space of a box has its sizes in millimetres. -/
theorem c81_millimetres (s : Space) :
    s.minXmm = millimetres s.units * s.minX ∧ s.minYmm = millimetres s.units * s.minY ∧
    s.maxXmm = millimetres s.units * s.maxX ∧ s.maxYmm = millimetres s.units * s.maxY ∧
    s.widthMm = millimetres s.units * (s.maxX - s.minX) ∧ s.heightMm = millimetres s.units * (s.maxY - s.minY) ∧
    s.centerXmm - s.minXmm = s.maxXmm - s.centerXmm ∧ s.centerYmm - s.minYmm = s.maxYmm - s.centerYmm ∧
    s.minXpixels = towardZero (s.minXmm * s.dpmm) ∧ s.minYpixels = towardZero (s.minYmm * s.dpmm) ∧
    s.maxXpixels = towardZero (s.maxXmm * s.dpmm) ∧ s.maxYpixels = towardZero (s.maxYmm * s.dpmm) := by
  have key : ∀ (s : Space) (x : ℝ), (if s.units = .metric then x else x * 25.4) = millimetres s.units * x := by
    intro s x
    cases hu : s.units with
    | metric => simp [millimetres]
    | imperial => simp [millimetres, mul_comm]
  have tr : ∀ (x : ℝ) (d : ℤ), truncate (x * d) = towardZero (x * d) := fun x d => toPixel_eq d x
  unfold Space.widthMm Space.heightMm Space.centerXmm Space.centerYmm Space.minXpixels Space.minYpixels Space.maxXpixels Space.maxYpixels
  rw [tr, tr, tr, tr]
  unfold Space.minXmm Space.minYmm Space.maxXmm Space.maxYmm
  simp only [key]
  refine ⟨trivial, trivial, trivial, trivial, by ring, by ring, by ring, by ring, trivial, trivial, trivial, trivial⟩

/-- **C81** (units and size; partial: files in millimetres). The unit of the image space is the one that the latest `G70`, `G71`
or `MO` of the file sets, and the image of a file in millimetres has `dpmm` pixels per millimetre. -/
theorem c81_size_partial (env : Env) (ignore : Bool) (Ra : Raster) (fuel : ℕ) (fail : Bool) (style : Style) (dpmm : ℤ)
    (file : List Visitor.Cmd) (space : Space) (p : Picture)
    (h : renderWithPillow env ignore Ra fuel fail style dpmm file = .ok (space, p)) :
    space.dpmm = dpmm ∧ space.units = latest setsUnit .metric (executed true file) ∧
      (space.units = .metric → p.frame =
        {q | 0 ≤ q.1 ∧ q.1 < towardZero (|space.widthMm| * dpmm) ∧ 0 ≤ q.2 ∧ q.2 < towardZero (|space.heightMm| * dpmm)}) := by
  obtain ⟨prog, e, h1, h2, h3, hs⟩ := rendered h
  obtain ⟨o, p', -, g2, -, g4, -⟩ := c78_program Ra dpmm fuel fail _ _ e h2 style
  rw [h3] at g2
  cases g2
  refine ⟨by rw [hs]; rfl, by rw [hs]; rfl, fun hu => ?_⟩
  obtain ⟨-, -, -, -, h5, h6, -⟩ := c81_millimetres space
  rw [h5, h6, g4, hu, hs]
  simp [millimetres, imageOf, Space.ofBox]

/-- A library that fills polygons exactly by the even-odd rule. -/
def exactRaster : Raster := ⟨fun corners => {q | WithinLine (corners.map place) (place q)}⟩

example : FillsEvenOdd 0 exactRaster.fill := fun _ _ _ => Iff.rfl

open Visitor Props.Compiler Props.State in
/-- A pad, four units wide and two units high, is rendered as an image of 80 by 40 pixels, whatever the unit. -/
theorem pad_rendered (Ra : Raster) (style : Style) (u : UnitMode) :
    ∃ space p, renderWithPillow env0 false Ra 1 false style 20 (.leaf (.mo u) :: padFile) = .ok (space, p) ∧
      space = ⟨u, -2, -1, 2, 1, 20⟩ ∧ p.width = 80 ∧ p.height = 40 := by
  have hc : ∃ prog, compile env0 false (.leaf (.mo u) :: padFile) = .ok prog ∧
      ∃ e, Vm.run (pillow Ra 20 1) false .main prog = .ok (some e) ∧ e.box = ⟨-2, -1, 2, 1⟩ ∧ e.content.width = 80 ∧ e.content.height = 40 := by
    eval_compiler [compile, finish, file_is_run, executed, isStop, atomsOf, atomsOfAll, padFile, Compiler.convert, resolve_step, resolve.loop,
      dependsOn, Draw.sources, List.dedup_cons_of_mem, List.dedup_cons_of_notMem, rect_same]
    obtain ⟨pts, h1⟩ := pillow_rect 20 1 ⟨0, 0⟩ 4 2 false
    have hm : ((⟨-2, -1, 2, 1⟩ : Box ℝ).translate ⟨0, 0⟩).translateBack ⟨0, 0⟩ = ⟨-2, -1, 2, 1⟩ := by
      simp [Box.translate, Box.translateBack]
    simp [layerCommands, Vm.run, exec, Vm.step, onStart, Machine.init, Dict.get?_set, onDraw, record, onEnd, deferredBox, commandBox,
      boxLoop, bind, Except.bind, pure, Except.pure, replay, paint, target, pillow, settle, pillowShape, h1, rect_box, create_ok, hm]
    exact ⟨rfl, rfl⟩
  obtain ⟨prog, h1, e, h2, h3, h4, h5⟩ := hc
  obtain ⟨p, g1, -⟩ := getImage_frame (resultImage (some e)) style
  obtain ⟨st, hs, hu⟩ : ∃ st, finalState (.leaf (.mo u) :: padFile) = .ok st ∧ st.unit = u := by
    unfold finalState
    rw [file_is_run]
    simp [executed, isStop, atomsOf, atomsOfAll, padFile, Visitor.run, Visitor.step, stepLeaf, Out.ok, Out.andThen, Dict.set, Dict.get?,
      VState.currentAperture, visitXY, coordinate, flashKind, VState.updateCoordinates, storeAttributes, flashCurrent]
  refine ⟨Space.ofBox u e.box 20, p, ?_, ?_⟩
  · unfold renderWithPillow
    simp only [h1, h2, hs, g1, hu]
    rfl
  · have hp : p = compose (Picture.new e.content.width e.content.height style.foreground) (Picture.new e.content.width e.content.height style.background)
        (toMask (resultImage (some e))) := by
      have := g1
      simp only [getImage, Option.some.injEq] at this
      exact this.symm
    rw [hp]
    refine ⟨?_, ?_, ?_⟩
    · rw [h3]; rfl
    · exact h4
    · exact h5

/-- **C81, false of the code** (inches). The image of a file in inches does not have `dpmm` pixels per millimetre: a pad that is
four inches wide gets 80 pixels at 20 pixels per millimetre, not 2032. -/
theorem c81_false_inches (Ra : Raster) (style : Style) :
    ∃ file space p, renderWithPillow Props.Compiler.env0 false Ra 1 false style 20 file = .ok (space, p) ∧ space.units = .imperial ∧
      towardZero (|space.widthMm| * 20) = 2032 ∧ p.width = 80 := by
  obtain ⟨space, p, h1, h2, h3, -⟩ := pad_rendered Ra style .imperial
  refine ⟨_, space, p, h1, by rw [h2], ?_, h3⟩
  obtain ⟨-, -, -, -, h4, -⟩ := c81_millimetres space
  rw [h4, h2]
  unfold towardZero millimetres
  norm_num

/-- The hypotheses of `c81_pixels_partial` and `c81_size_partial` are met. -/
example (style : Style) : ∃ space p, renderWithPillow Props.Compiler.env0 false exactRaster 1 false style 20 (.leaf (.mo .metric) :: padFile) = .ok (space, p) ∧
    space.units = .metric :=
  let ⟨space, p, h, hs, _⟩ := pad_rendered exactRaster style .metric
  ⟨space, p, h, by rw [hs]⟩

end

end Verif.Props.Pixels
