import Verif.Lemmas.ArcArea
import Verif.Props.Compiler

/-!
# C61: what draws paint
-/

namespace Verif.Props.Stroke
open Verif.Geom Verif.Spec Verif.Rvmc Verif.Compiler Verif.Visitor Verif.Props.Compiler Verif.Props.Shapes Verif.Coord Verif.Lemmas.ShapeArea Verif.Lemmas.ArcArea Real

/-- The disc at the start, the straight stroke and the disc at the end together are what a round aperture sweeps. -/
theorem swept_iff (s e p : Vec ℝ) {d : ℝ} (hd : 0 ≤ d) (neg : Bool) :
    (p ∈ areaOf (Shape.newCircle s d neg) ∨ p ∈ areaOf (Shape.newLine s e d neg) ∨ p ∈ areaOf (Shape.newCircle e d neg)) ↔
      Swept s e d p := by
  have hr : 0 ≤ d / 2 := by linarith
  rw [circle_enclosed s p hd, circle_enclosed e p hd, line_enclosed _ _ _ hd]
  have hunit := unit_normalized (e - s)
  constructor
  · rintro (h | ⟨l, m, h0, h1, h2, h3, rfl⟩ | h)
    · exact ⟨s, ⟨0, le_refl _, zero_le_one, by ext <;> simp⟩, h⟩
    · refine ⟨⟨s.x + l * (e.x - s.x), s.y + l * (e.y - s.y)⟩, ⟨l, h0, h1, rfl⟩, ?_⟩
      rw [vlen_le hr]
      have hm : m ^ 2 ≤ 1 := by nlinarith
      simp only [Vec.sub_x, Vec.sub_y]
      have : (s.x + l * (e.x - s.x) - m * ((e - s).normalized.y * (d / 2)) - (s.x + l * (e.x - s.x))) ^ 2 +
          (s.y + l * (e.y - s.y) + m * ((e - s).normalized.x * (d / 2)) - (s.y + l * (e.y - s.y))) ^ 2 =
          m ^ 2 * (d / 2) ^ 2 := by linear_combination (m ^ 2 * (d / 2) ^ 2) * hunit
      rw [this]
      nlinarith [sq_nonneg (d / 2)]
    · exact ⟨e, ⟨1, zero_le_one, le_refl _, by ext <;> simp⟩, h⟩
  · rintro ⟨q, ⟨l, h0, h1, rfl⟩, h⟩
    by_cases hse : e - s = ⟨0, 0⟩
    · left
      have hx : e.x - s.x = 0 := by have := congrArg Vec.x hse; simpa using this
      have hy : e.y - s.y = 0 := by have := congrArg Vec.y hse; simpa using this
      have : (⟨s.x + l * (e.x - s.x), s.y + l * (e.y - s.y)⟩ : Vec ℝ) = s := by rw [hx, hy]; ext <;> simp
      rwa [this] at h
    · obtain ⟨hL, hx, hy⟩ := normalized_scale (e - s) hse
      simp only [Vec.sub_x, Vec.sub_y] at hx hy
      rw [vlen_le hr] at h ⊢
      rw [vlen_le hr]
      simp only [Vec.sub_x, Vec.sub_y] at h ⊢
      generalize vlen (e - s) = L at *
      generalize (e - s).normalized.x = ux at *
      generalize (e - s).normalized.y = uy at *
      -- coordinates along and across the line
      set α := (p.x - s.x) * ux + (p.y - s.y) * uy with hα
      set β := -(p.x - s.x) * uy + (p.y - s.y) * ux with hβ
      have px : p.x - s.x = α * ux - β * uy := by rw [hα, hβ]; linear_combination (-(p.x - s.x)) * hunit
      have py : p.y - s.y = α * uy + β * ux := by rw [hα, hβ]; linear_combination (-(p.y - s.y)) * hunit
      have hd2 : (α - l * L) ^ 2 + β ^ 2 ≤ (d / 2) ^ 2 := by
        have e1 : p.x - (s.x + l * (e.x - s.x)) = (α - l * L) * ux - β * uy := by rw [hx]; linear_combination px
        have e2 : p.y - (s.y + l * (e.y - s.y)) = (α - l * L) * uy + β * ux := by rw [hy]; linear_combination py
        rw [e1, e2] at h
        have : ((α - l * L) * ux - β * uy) ^ 2 + ((α - l * L) * uy + β * ux) ^ 2 = (α - l * L) ^ 2 + β ^ 2 := by
          linear_combination ((α - l * L) ^ 2 + β ^ 2) * hunit
        linarith
      have hlL : 0 ≤ l * L := mul_nonneg h0 hL.le
      have hlL' : l * L ≤ L := by nlinarith
      rcases lt_or_ge α 0 with hneg | hpos
      · left
        rw [px, py]
        have : (α * ux - β * uy) ^ 2 + (α * uy + β * ux) ^ 2 = α ^ 2 + β ^ 2 := by
          linear_combination (α ^ 2 + β ^ 2) * hunit
        rw [this]
        have : 0 ≤ l * L * (l * L - 2 * α) := mul_nonneg hlL (by linarith)
        linarith [show (α - l * L) ^ 2 = α ^ 2 + l * L * (l * L - 2 * α) by ring]
      · rcases lt_or_ge L α with hbig | hsmall
        · right; right
          have e1 : p.x - e.x = (α - L) * ux - β * uy := by linear_combination px - hx
          have e2 : p.y - e.y = (α - L) * uy + β * ux := by linear_combination py - hy
          rw [e1, e2]
          have : ((α - L) * ux - β * uy) ^ 2 + ((α - L) * uy + β * ux) ^ 2 = (α - L) ^ 2 + β ^ 2 := by
            linear_combination ((α - L) ^ 2 + β ^ 2) * hunit
          rw [this]
          have : 0 ≤ (L - l * L) * (2 * α - L - l * L) := mul_nonneg (by linarith) (by linarith)
          linarith [show (α - l * L) ^ 2 = (α - L) ^ 2 + (L - l * L) * (2 * α - L - l * L) by ring]
        · right; left
          have hb : β ^ 2 ≤ (d / 2) ^ 2 := by nlinarith [sq_nonneg (α - l * L)]
          have habs : |β| ≤ d / 2 := by rw [← abs_of_nonneg hr]; exact sq_le_sq.1 hb
          obtain ⟨b1, b2⟩ := abs_le.1 habs
          have hα1 : α / L * L = α := by field_simp
          rcases eq_or_lt_of_le hr with hz | hz
          · have hβ0 : β = 0 := by rw [← hz] at b1 b2; linarith
            refine ⟨α / L, 0, by positivity, by rw [div_le_one hL]; exact hsmall, by norm_num, by norm_num, ?_⟩
            ext
            · simp only; rw [hx]; linear_combination px - ux * hα1 - uy * hβ0
            · simp only; rw [hy]; linear_combination py - uy * hα1 + ux * hβ0
          · have hm : β / (d / 2) * (d / 2) = β := div_mul_cancel₀ _ hz.ne'
            refine ⟨α / L, β / (d / 2), by positivity, by rw [div_le_one hL]; exact hsmall,
              by rw [le_div_iff₀ hz]; linarith, by rw [div_le_one hz]; exact b2, ?_⟩
            ext
            · simp only; rw [hx]; linear_combination px - ux * hα1 + uy * hm
            · simp only; rw [hy]; linear_combination py - uy * hα1 - ux * hm

/-- A straight draw outside of regions, with the thickness that the compiler gives it. -/
theorem stroke_shapes {env : Env} {h : List Atom} {x y i j : Option (List Char)} {c' : CState}
    (hr : (run {} (h ++ [.leaf (.d01 x y i j)])).exn = none)
    (hc : compiled env (h ++ [.leaf (.d01 x y i j)]) = .ok c')
    (hreg : latest setsRegion false h = false) (hp : latest setsPlot .linear h = .linear)
    {t : ℝ} (ht0 : 0 ≤ t) (ht : ∀ v, lineThickness (seen h x y i j) v = .ok t)
    {s e : Vec ℝ} (hs : At h s) (he : At (h ++ [.leaf (.d01 x y i j)]) e) :
    ∃ new, Draws env h (.leaf (.d01 x y i j)) new ∧
      (∀ g ∈ new, isClear g = decide (latest setsPolarity .dark h = .clear)) ∧
      (∀ p, Inked new p ↔ Swept s e t p) ∧ ∃ ss : List Shape, new = ss.map .shape := by
  obtain ⟨h1, h2⟩ := run_snoc_none.1 hr
  obtain ⟨ss, e1, e2⟩ := d01_outside hr hc hreg
  have hst := at_unique hs (startPoint_at h1 x y i j)
  have hen := at_unique he (endPoint_at (Or.inr rfl) hr (Or.inl rfl))
  have hn : (seen h x y i j).isNegative = decide (latest setsPolarity .dark h = .clear) := isNegative_inv h h1
  have hkind : drawingOf (latest setsPlot .linear h) (latest setsQuad .single h) = .line := by
    rw [hp]; cases latest setsQuad .single h <;> rfl
  rw [hkind] at e1
  simp only [drawShapes, lineShapes, ht] at e1
  change Except.ok _ = _ at e1
  cases e1
  rw [← hst, ← hen, hn] at e2
  refine ⟨_, e2, ?_, ?_, _, rfl⟩
  · intro g hg
    simp only [List.map_cons, List.map_nil, List.mem_cons, List.not_mem_nil, or_false] at hg
    rcases hg with rfl | rfl | rfl <;> rfl
  · intro p
    rw [← swept_iff s e p (d := t) ht0 (decide (latest setsPolarity .dark h = .clear))]
    unfold Inked
    constructor
    · rintro ⟨g, hg, hp⟩
      simp only [List.map_cons, List.map_nil, List.mem_cons, List.not_mem_nil, or_false, Draw.shape.injEq] at hg
      rcases hg with rfl | rfl | rfl
      · exact Or.inl hp
      · exact Or.inr (Or.inl hp)
      · exact Or.inr (Or.inr hp)
    · rintro (hp | hp | hp)
      · exact ⟨_, by simp, hp⟩
      · exact ⟨_, by simp, hp⟩
      · exact ⟨_, by simp, hp⟩

theorem stroke {env : Env} {h : List Atom} {x y i j : Option (List Char)} {c' : CState}
    (hr : (run {} (h ++ [.leaf (.d01 x y i j)])).exn = none)
    (hc : compiled env (h ++ [.leaf (.d01 x y i j)]) = .ok c')
    (hreg : latest setsRegion false h = false) (hp : latest setsPlot .linear h = .linear)
    {t : ℝ} (ht0 : 0 ≤ t) (ht : ∀ v, lineThickness (seen h x y i j) v = .ok t)
    {s e : Vec ℝ} (hs : At h s) (he : At (h ++ [.leaf (.d01 x y i j)]) e) :
    ∃ new, Draws env h (.leaf (.d01 x y i j)) new ∧
      (∀ g ∈ new, isClear g = decide (latest setsPolarity .dark h = .clear)) ∧
      ∀ p, Inked new p ↔ Swept s e t p := by
  obtain ⟨new, h1, h2, h3, -⟩ := stroke_shapes hr hc hreg hp ht0 ht hs he
  exact ⟨new, h1, h2, h3⟩

/-- **C61** (partial: circular apertures that are not scaled; arcs are C22). For every history, a straight draw outside of
regions with a circular aperture of diameter `d` paints exactly the points that the aperture touches on its way from the
current point to the end point, in the polarity in force. -/
theorem c61_stroke_partial (env : Env) (h : List Atom) (x y i j : Option (List Char)) (c' : CState)
    (hr : (run {} (h ++ [.leaf (.d01 x y i j)])).exn = none)
    (hc : compiled env (h ++ [.leaf (.d01 x y i j)]) = .ok c')
    (hreg : latest setsRegion false h = false) (hp : latest setsPlot .linear h = .linear)
    (id : Name) (d : ℚ) (hole : Option ℚ) (hd : 0 ≤ d)
    (hap : (run {} h).st.currentAperture = .ok (.ad id (.circle d hole)))
    (hscale : latest setsScaling 1 h = 1)
    (s e : Vec ℝ) (hs : At h s) (he : At (h ++ [.leaf (.d01 x y i j)]) e) :
    ∃ new, Draws env h (.leaf (.d01 x y i j)) new ∧
      (∀ g ∈ new, isClear g = decide (latest setsPolarity .dark h = .clear)) ∧
      ∀ p, Inked new p ↔ Swept s e (d * latest setsScaling 1 h : ℚ) p := by
  rw [hscale, mul_one]
  exact stroke hr hc hreg hp (by exact_mod_cast hd) (thickness_circle hap) hs he

/-- A circular draw outside of regions, in multi-quadrant mode, with the thickness that the compiler gives it. -/
theorem arc_shapes {env : Env} {h : List Atom} {x y : Option (List Char)} {ti tj : List Char} {c' : CState}
    (hr : (run {} (h ++ [.leaf (.d01 x y (some ti) (some tj))])).exn = none)
    (hc : compiled env (h ++ [.leaf (.d01 x y (some ti) (some tj))]) = .ok c')
    (hreg : latest setsRegion false h = false) (hp : latest setsPlot .linear h ≠ .linear)
    (hq : latest setsQuad .single h = .multi)
    {t : ℝ} (ht0 : 0 ≤ t) (ht : ∀ v, lineThickness (seen h x y (some ti) (some tj)) v = .ok t)
    {s e : Vec ℝ} (hs : At h s) (he : At (h ++ [.leaf (.d01 x y (some ti) (some tj))]) e)
    {i j : ℚ} (hi : Offset h .x ti i) (hj : Offset h .y tj j) (hsc : s ≠ s + ⟨i, j⟩)
    (hrad : vlen (s - (s + ⟨i, j⟩)) = vlen (e - (s + ⟨i, j⟩))) :
    ∃ new, Draws env h (.leaf (.d01 x y (some ti) (some tj))) new ∧
      (∀ g ∈ new, isClear g = decide (latest setsPolarity .dark h = .clear)) ∧
      (∀ p, Inked new p ↔ SweptAlong (decide (latest setsPlot .linear h = .arc)) s e (s + ⟨i, j⟩) t p) ∧
      ∃ ss : List Shape, new = ss.map .shape := by
  obtain ⟨h1, h2⟩ := run_snoc_none.1 hr
  obtain ⟨ss, e1, e2⟩ := d01_outside hr hc hreg
  obtain ⟨o1, o2⟩ := seen_offsets hr hi hj
  have hst := at_unique hs (startPoint_at h1 x y (some ti) (some tj))
  have hen := at_unique he (endPoint_at (Or.inr rfl) hr (Or.inl rfl))
  have hn : (seen h x y (some ti) (some tj)).isNegative = decide (latest setsPolarity .dark h = .clear) := isNegative_inv h h1
  have hcen : arcCenter (seen h x y (some ti) (some tj)) = s + ⟨i, j⟩ := by
    rw [hst]; unfold arcCenter startPoint pt
    rw [o1, o2]; ext <;> simp
  have hlen : (pt (seen h x y (some ti) (some tj)).coordinateI (seen h x y (some ti) (some tj)).coordinateJ).length =
      vlen (s - (s + ⟨i, j⟩)) := by
    rw [o1, o2, length_eq_norm]
    unfold vlen
    congr 1
    simp only [Vec.sub_x, Vec.sub_y, Vec.add_x, Vec.add_y, pt]; ring
  generalize decide (latest setsPolarity .dark h = .clear) = neg at *
  rw [hq, arc_kind hp] at e1
  have key : ∀ cw, arcShapes cw (seen h x y (some ti) (some tj)) = .ok ss →
      (∀ g ∈ ss, g.negative = neg) ∧ ∀ p, (∃ g ∈ ss, p ∈ areaOf g) ↔ SweptAlong cw s e (s + ⟨i, j⟩) t p := by
    intro cw hcw
    rw [arcShapes_ok (ht _), hcen, hlen, ← hst, ← hen, hn] at hcw
    have negs : ∀ a b c : Vec ℝ, (arcShape cw a b c t neg).negative = neg := by intro a b c; cases cw <;> rfl
    by_cases hcl : s = e
    · subst hcl
      rw [if_pos (by rw [closed_iff, ← hst, ← hen])] at hcw
      cases hcw
      refine ⟨?_, fun p => ?_⟩
      · intro g hg
        simp only [List.mem_cons, List.not_mem_nil, or_false] at hg
        rcases hg with rfl | rfl | rfl | rfl
        · rfl
        · exact negs _ _ _
        · exact negs _ _ _
        · rfl
      · rw [← circle_swept cw neg ht0 hsc p]
        simp only [List.mem_cons, List.not_mem_nil, or_false, exists_eq_or_imp, exists_eq_left]
        rfl
    · rw [if_neg (by rw [closed_iff, ← hst, ← hen]; exact hcl)] at hcw
      cases hcw
      refine ⟨?_, fun p => ?_⟩
      · intro g hg
        simp only [List.mem_cons, List.not_mem_nil, or_false] at hg
        rcases hg with rfl | rfl | rfl
        · rfl
        · exact negs _ _ _
        · rfl
      · rw [← arc_swept cw neg ht0 hrad hcl p]
        simp only [List.mem_cons, List.not_mem_nil, or_false, exists_eq_or_imp, exists_eq_left]
        rfl
  have main := key (decide (latest setsPlot .linear h = .arc)) (by
    cases hb : decide (latest setsPlot .linear h = .arc) <;> rw [hb] at e1 <;> exact e1)
  refine ⟨_, e2, ?_, fun p => ?_, ss, rfl⟩
  · intro g hg
    obtain ⟨g', hg', rfl⟩ := List.mem_map.1 hg
    exact main.1 g' hg'
  · rw [← main.2 p]
    unfold Inked
    constructor
    · rintro ⟨g, hg, hp⟩
      obtain ⟨g', hg', e⟩ := List.mem_map.1 hg
      cases e
      exact ⟨_, hg', hp⟩
    · rintro ⟨g, hg, hp⟩
      exact ⟨g, List.mem_map_of_mem hg, hp⟩

/-- **C61** (partial: circular apertures that are not scaled, multi-quadrant mode). For every history, a circular draw
outside of regions whose ends are at one distance from the centre, with a circular aperture of diameter `d`, paints exactly
the points that the aperture touches on its way along the arc from the current point to the end point, or around the whole
circle if these are the same, in the polarity in force. -/
theorem c61_arc_partial (env : Env) (h : List Atom) (x y : Option (List Char)) (ti tj : List Char) (c' : CState)
    (hr : (run {} (h ++ [.leaf (.d01 x y (some ti) (some tj))])).exn = none)
    (hc : compiled env (h ++ [.leaf (.d01 x y (some ti) (some tj))]) = .ok c')
    (hreg : latest setsRegion false h = false) (hp : latest setsPlot .linear h ≠ .linear)
    (hq : latest setsQuad .single h = .multi) (id : Name) (d : ℚ) (hole : Option ℚ) (hd : 0 ≤ d)
    (hap : (run {} h).st.currentAperture = .ok (.ad id (.circle d hole)))
    (hscale : latest setsScaling 1 h = 1)
    (s e : Vec ℝ) (hs : At h s) (he : At (h ++ [.leaf (.d01 x y (some ti) (some tj))]) e)
    (i j : ℚ) (hi : Offset h .x ti i) (hj : Offset h .y tj j) (hsc : s ≠ s + ⟨i, j⟩)
    (hrad : vlen (s - (s + ⟨i, j⟩)) = vlen (e - (s + ⟨i, j⟩))) :
    ∃ new, Draws env h (.leaf (.d01 x y (some ti) (some tj))) new ∧
      (∀ g ∈ new, isClear g = decide (latest setsPolarity .dark h = .clear)) ∧
      ∀ p, Inked new p ↔ SweptAlong (decide (latest setsPlot .linear h = .arc)) s e (s + ⟨i, j⟩)
        (d * latest setsScaling 1 h : ℚ) p := by
  rw [hscale, mul_one]
  obtain ⟨new, h1, h2, h3, -⟩ := arc_shapes hr hc hreg hp hq (by exact_mod_cast hd) (thickness_circle hap) hs he hi hj hsc hrad
  exact ⟨new, h1, h2, h3⟩

/-! ### Witnesses -/

/-- A file that selects an aperture, possibly after scaling it. -/
def strokeSample (d : ApDef) (k : List Atom) : List Atom :=
  .leaf (.fs {}) :: .leaf (.ad ['D','1','1'] d) :: .leaf (.dnn ['D','1','1']) :: k

/-- A draw from the origin to (1, 0). -/
def strokeDraw : Atom := .leaf (.d01 (some ['1','0','0','0','0','0','0']) none none none)

theorem unpack1x : ({} : CoordinateFormat).unpack .x ['1','0','0','0','0','0','0'] = .ok 1 := by decide +kernel

/-- The aperture of the sample with a round aperture. -/
def round : ApDef := .circle 1 none

/-- The draw of a sample goes from the origin to (1, 0). -/
theorem sample_at (d : ApDef) (k : List Atom) (hk : ∀ a ∈ k, ∃ q, a = .leaf (.ls q)) :
    At (strokeSample d k) ⟨0, 0⟩ ∧ At (strokeSample d k ++ [strokeDraw]) ⟨1, 0⟩ := by
  have hg : ∀ a ∈ k, ∀ ax, gives ax a = none := by
    intro a ha ax; obtain ⟨q, rfl⟩ := hk a ha; cases ax <;> rfl
  have hg' : ∀ a ∈ strokeSample d k, ∀ ax, gives ax a = none := by
    intro a ha ax
    simp only [strokeSample, List.mem_cons] at ha
    rcases ha with rfl | rfl | rfl | ha
    · cases ax <;> rfl
    · cases ax <;> rfl
    · cases ax <;> rfl
    · exact hg a ha ax
  constructor
  · exact ⟨0, 0, Or.inr ⟨fun b hb => hg' b hb _, rfl⟩, Or.inr ⟨fun b hb => hg' b hb _, rfl⟩, by ext <;> simp⟩
  · refine ⟨1, 0, Or.inl ⟨_, strokeDraw, [], _, {}, rfl, rfl, by simp, ?_, unpack1x⟩, Or.inr ⟨?_, rfl⟩, by ext <;> simp⟩
    · left
      have hf : k.filterMap setsFormat = [] := by
        rw [List.filterMap_eq_nil_iff]
        intro a ha; obtain ⟨q, rfl⟩ := hk a ha; rfl
      have : (strokeSample d k).filterMap setsFormat = {} :: k.filterMap setsFormat := rfl
      rw [this, hf]
      rfl
    · intro b hb
      rcases List.mem_append.1 hb with hb | hb
      · exact hg' b hb _
      · cases List.mem_singleton.1 hb; rfl

/-- Non-vacuity of C61. -/
theorem round_ok : (run {} (strokeSample round [] ++ [strokeDraw])).exn = none ∧
    (∃ c', compiled env0 (strokeSample round [] ++ [strokeDraw]) = .ok c') ∧
    latest setsRegion false (strokeSample round []) = false ∧ latest setsPlot .linear (strokeSample round []) = .linear ∧
    (run {} (strokeSample round [])).st.currentAperture = .ok (.ad ['D','1','1'] round) ∧
    latest setsScaling 1 (strokeSample round []) = 1 ∧
    At (strokeSample round []) ⟨0, 0⟩ ∧ At (strokeSample round [] ++ [strokeDraw]) ⟨1, 0⟩ := by
  refine ⟨by decide +kernel, ?_, by decide +kernel, by decide +kernel, by decide +kernel, by decide +kernel,
    sample_at _ _ (by simp)⟩
  eval_compiler [strokeSample, strokeDraw, round, unpack1x, VState.dispatch, VState.drawTable, draw, drawShapes, lineShapes,
    lineThickness, VState.putX]

/-- A draw about (1, 0) from the origin to (2, 0). -/
def arcDraw : Atom :=
  .leaf (.d01 (some ['2','0','0','0','0','0','0']) none (some ['1','0','0','0','0','0','0']) (some ['0']))

theorem unpack2x : ({} : CoordinateFormat).unpack .x ['2','0','0','0','0','0','0'] = .ok 2 := by decide +kernel

theorem unpack0y : ({} : CoordinateFormat).unpack .y ['0'] = .ok 0 := by decide +kernel

/-- Non-vacuity of C61 for arcs: half a circle, counter-clockwise. -/
example : (run {} (arcSample ++ [arcDraw])).exn = none ∧
    (∃ c', compiled env0 (arcSample ++ [arcDraw]) = .ok c') ∧
    latest setsRegion false arcSample = false ∧ latest setsPlot .linear arcSample ≠ .linear ∧
    latest setsQuad .single arcSample = .multi ∧
    (run {} arcSample).st.currentAperture = .ok (.ad ['D','1','1'] (.circle 1 none)) ∧
    latest setsScaling 1 arcSample = 1 ∧ At arcSample ⟨0, 0⟩ ∧ At (arcSample ++ [arcDraw]) ⟨2, 0⟩ ∧
    Offset arcSample .x ['1','0','0','0','0','0','0'] 1 ∧ Offset arcSample .y ['0'] 0 ∧
    (⟨0, 0⟩ : Vec ℝ) ≠ ⟨0, 0⟩ + ⟨(1 : ℚ), (0 : ℚ)⟩ ∧
    vlen ((⟨0, 0⟩ : Vec ℝ) - (⟨0, 0⟩ + ⟨(1 : ℚ), (0 : ℚ)⟩)) = vlen (⟨2, 0⟩ - (⟨0, 0⟩ + ⟨(1 : ℚ), (0 : ℚ)⟩)) := by
  have hg : ∀ a ∈ arcSample, ∀ ax, gives ax a = none := by
    intro a ha ax
    simp only [arcSample, List.mem_cons, List.not_mem_nil, or_false] at ha
    rcases ha with rfl | rfl | rfl | rfl | rfl <;> cases ax <;> rfl
  have hf : FormatInForce arcSample {} := Or.inl rfl
  refine ⟨by decide +kernel, ?_, by decide +kernel, by decide +kernel, by decide +kernel, by decide +kernel,
    by decide +kernel, ?_, ?_, ⟨_, hf, unpack1x⟩, ⟨_, hf, unpack0y⟩, ?_, ?_⟩
  · eval_compiler [arcSample, arcDraw, VState.dispatch, VState.drawTable, draw, drawShapes, arcShapes,
      lineThickness, closed, VState.coordinateI, VState.coordinateJ, unpack0y, unpack1x, unpack2x, VState.putI, VState.putJ,
      VState.putX, show ¬ ((0 : ℚ) = 2) by decide +kernel]
  · exact ⟨0, 0, Or.inr ⟨fun b hb => hg b hb _, rfl⟩, Or.inr ⟨fun b hb => hg b hb _, rfl⟩, by ext <;> simp⟩
  · refine ⟨2, 0, Or.inl ⟨_, arcDraw, [], _, {}, rfl, rfl, by simp, hf, unpack2x⟩, Or.inr ⟨?_, rfl⟩, by ext <;> simp⟩
    intro b hb
    rcases List.mem_append.1 hb with hb | hb
    · exact hg b hb _
    · cases List.mem_singleton.1 hb; rfl
  · intro h
    have := congrArg Vec.x h
    simp at this
  · unfold vlen; simp; norm_num

theorem between_x {p : Vec ℝ} (h : OnSegment ⟨0, 0⟩ ⟨1, 0⟩ p) : 0 ≤ p.x ∧ p.y = 0 := by
  obtain ⟨l, h0, -, rfl⟩ := h
  simp [h0]

/-- **C61 does not hold** for scaled apertures: the scale (`LS`) does not change what a draw paints. -/
theorem c61_false_scaled :
    ¬ ∀ (env : Env) (h : List Atom) (x : Option (List Char)) (c' : CState),
      (run {} (h ++ [.leaf (.d01 x none none none)])).exn = none →
      compiled env (h ++ [.leaf (.d01 x none none none)]) = .ok c' →
      latest setsRegion false h = false → latest setsPlot .linear h = .linear →
      ∀ (id : Name) (d : ℚ) (hole : Option ℚ), 0 ≤ d →
      (run {} h).st.currentAperture = .ok (.ad id (.circle d hole)) →
      ∀ (s e : Vec ℝ), At h s → At (h ++ [.leaf (.d01 x none none none)]) e →
      ∃ new, Draws env h (.leaf (.d01 x none none none)) new ∧
        ∀ p, Inked new p ↔ Swept s e (d * latest setsScaling 1 h : ℚ) p := by
  intro hall
  obtain ⟨a1, a2⟩ := sample_at round [.leaf (.ls 2)] (by simp)
  obtain ⟨c, h1, h2, h3⟩ : ∃ c, compiled env0 (strokeSample round [.leaf (.ls 2)]) = .ok c ∧
      c.stack.head? = some .main ∧ c.buffers.get? .main = some [] := by
    eval_compiler [strokeSample, round]
  obtain ⟨c', h4⟩ : ∃ c', compiled env0 (strokeSample round [.leaf (.ls 2)] ++ [strokeDraw]) = .ok c' := by
    eval_compiler [strokeSample, strokeDraw, round, unpack1x, VState.dispatch, VState.drawTable, draw, drawShapes, lineShapes,
      lineThickness, VState.putX]
  have hr : (run {} (strokeSample round [.leaf (.ls 2)] ++ [strokeDraw])).exn = none := by decide +kernel
  have hap : (run {} (strokeSample round [.leaf (.ls 2)])).st.currentAperture = .ok (.ad ['D','1','1'] (.circle 1 none)) := by
    decide +kernel
  obtain ⟨new, n1, n2⟩ := hall env0 _ _ c' hr h4 (by decide +kernel) (by decide +kernel) _ _ _ zero_le_one hap _ _ a1 a2
  obtain ⟨new', m1, -, m2⟩ := stroke hr h4 (by decide +kernel) (by decide +kernel) zero_le_one
    (fun v => by simpa using thickness_circle hap v) a1 a2
  cases draws_unique h1 h2 h3 n1 m1
  have hp : Swept ⟨0, 0⟩ ⟨1, 0⟩ ((1 * latest setsScaling 1 (strokeSample round [.leaf (.ls 2)]) : ℚ) : ℝ) ⟨-1, 0⟩ := by
    have : latest setsScaling 1 (strokeSample round [.leaf (.ls 2)]) = 2 := by decide +kernel
    rw [this]
    exact ⟨⟨0, 0⟩, ⟨0, le_refl _, zero_le_one, by ext <;> simp⟩, by rw [vlen_le] <;> norm_num⟩
  obtain ⟨q, hq, hq'⟩ := (m2 _).1 ((n2 _).2 hp)
  obtain ⟨b1, b2⟩ := between_x hq
  rw [vlen_le (by norm_num)] at hq'
  simp only [Vec.sub_x, Vec.sub_y] at hq'
  nlinarith [sq_nonneg (0 - q.y)]

/-- The thickness of draws with a square aperture is its side. -/
theorem thickness_square {h : List Atom} {x y i j : Option (List Char)} {id : Name} {w : ℚ} {hole : Option ℚ} (hw : 0 ≤ w)
    (hap : (run {} h).st.currentAperture = .ok (.ad id (.rect w w hole))) (v : Vec ℝ) :
    lineThickness (seen h x y i j) v = .ok (w : ℝ) := by
  have : (seen h x y i j).currentAperture = .ok (.ad id (.rect w w hole)) := hap
  unfold lineThickness
  rw [this]
  simp only [lineThickness.sized, Except.ok.injEq]
  generalize radians _ = a
  unfold Vec.length
  simp only
  rw [show (w : ℝ) * cos a * (w * cos a) + w * sin a * (w * sin a) = (w : ℝ) ^ 2 by
    linear_combination (w : ℝ) ^ 2 * sin_sq_add_cos_sq a]
  exact sqrt_sq (by exact_mod_cast hw)

/-- **C61 does not hold** for rectangular apertures: the corners of the aperture at the ends of the path are not
painted. -/
theorem c61_false_rectangle :
    ¬ ∀ (env : Env) (h : List Atom) (x : Option (List Char)) (c' : CState),
      (run {} (h ++ [.leaf (.d01 x none none none)])).exn = none →
      compiled env (h ++ [.leaf (.d01 x none none none)]) = .ok c' →
      latest setsRegion false h = false → latest setsPlot .linear h = .linear →
      ∀ (id : Name) (w k : ℚ) (hole : Option ℚ), 0 ≤ w → 0 ≤ k →
      (run {} h).st.currentAperture = .ok (.ad id (.rect w k hole)) → latest setsScaling 1 h = 1 →
      ∀ (s e : Vec ℝ), At h s → At (h ++ [.leaf (.d01 x none none none)]) e →
      ∃ new, Draws env h (.leaf (.d01 x none none none)) new ∧
        ∀ p, Inked new p ↔ ∃ q, OnSegment s e q ∧ |(p - q).x| ≤ w / 2 ∧ |(p - q).y| ≤ k / 2 := by
  intro hall
  obtain ⟨a1, a2⟩ := sample_at (.rect 1 1 none) [] (by simp)
  obtain ⟨c, h1, h2, h3⟩ : ∃ c, compiled env0 (strokeSample (.rect 1 1 none) []) = .ok c ∧
      c.stack.head? = some .main ∧ c.buffers.get? .main = some [] := by
    eval_compiler [strokeSample]
  obtain ⟨c', h4⟩ : ∃ c', compiled env0 (strokeSample (.rect 1 1 none) [] ++ [strokeDraw]) = .ok c' := by
    eval_compiler [strokeSample, strokeDraw, unpack1x, VState.dispatch, VState.drawTable, draw, drawShapes, lineShapes,
      lineThickness, VState.putX]
  have hr : (run {} (strokeSample (.rect 1 1 none) [] ++ [strokeDraw])).exn = none := by decide +kernel
  have hap : (run {} (strokeSample (.rect 1 1 none) [])).st.currentAperture = .ok (.ad ['D','1','1'] (.rect 1 1 none)) := by
    decide +kernel
  obtain ⟨new, n1, n2⟩ := hall env0 _ _ c' hr h4 (by decide +kernel) (by decide +kernel) _ _ _ _ zero_le_one zero_le_one hap
    (by decide +kernel) _ _ a1 a2
  obtain ⟨new', m1, -, m2⟩ := stroke hr h4 (by decide +kernel) (by decide +kernel) zero_le_one
    (fun v => by simpa using thickness_square zero_le_one hap v) a1 a2
  cases draws_unique h1 h2 h3 n1 m1
  obtain ⟨q, hq, hq'⟩ := (m2 ⟨-1/2, 1/2⟩).1 ((n2 _).2 ⟨⟨0, 0⟩, ⟨0, le_refl _, zero_le_one, by ext <;> simp⟩,
    by norm_num [abs_of_nonneg, abs_of_neg], by norm_num [abs_of_nonneg]⟩)
  obtain ⟨b1, b2⟩ := between_x hq
  rw [vlen_le (by norm_num)] at hq'
  simp only [Vec.sub_x, Vec.sub_y] at hq'
  rw [b2] at hq'
  nlinarith

/-- A file that does not ask for multi-quadrant mode. -/
def quadSample : List Atom :=
  [.leaf (.fs {}), .leaf (.ad ['D','1','1'] (.circle 1 none)), .leaf (.dnn ['D','1','1']), .leaf .g74, .leaf .g03]

/-- **C61 does not hold** in single-quadrant mode: a circular draw does not even paint the point where it ends. -/
theorem c61_false_single_quadrant :
    ¬ ∀ (env : Env) (h : List Atom) (x y i j : Option (List Char)) (c' : CState),
      (run {} (h ++ [.leaf (.d01 x y i j)])).exn = none →
      compiled env (h ++ [.leaf (.d01 x y i j)]) = .ok c' →
      latest setsRegion false h = false → latest setsPlot .linear h ≠ .linear → latest setsQuad .single h = .single →
      ∀ (id : Name) (d : ℚ) (hole : Option ℚ), 0 < d →
      (run {} h).st.currentAperture = .ok (.ad id (.circle d hole)) → latest setsScaling 1 h = 1 →
      ∀ (e : Vec ℝ), At (h ++ [.leaf (.d01 x y i j)]) e →
      ∃ new, Draws env h (.leaf (.d01 x y i j)) new ∧ Inked new e := by
  intro hall
  obtain ⟨c, h1, h2, h3⟩ : ∃ c, compiled env0 quadSample = .ok c ∧
      c.stack.head? = some .main ∧ c.buffers.get? .main = some [] := by
    eval_compiler [quadSample]
  have hr : (run {} (quadSample ++ [arcDraw])).exn = none := by decide +kernel
  obtain ⟨c', h4⟩ : ∃ c', compiled env0 (quadSample ++ [arcDraw]) = .ok c' := by
    eval_compiler [quadSample, arcDraw, VState.dispatch, VState.drawTable, draw, drawShapes,
      VState.coordinateI, VState.coordinateJ, unpack0y, unpack1x, unpack2x, VState.putI, VState.putJ, VState.putX]
  obtain ⟨ss, e1, e2⟩ := d01_outside hr h4 (by decide +kernel)
  have hkind : drawingOf (latest setsPlot .linear quadSample) (latest setsQuad .single quadSample) = .ccwSq := by
    decide +kernel
  rw [hkind] at e1
  cases e1
  obtain ⟨hx, hy⟩ := run_snoc_none.1 hr
  obtain ⟨new, n1, n2⟩ := hall env0 _ _ _ _ _ c' hr h4 (by decide +kernel) (by decide +kernel) (by decide +kernel) _ _ _
    zero_lt_one (show (run {} quadSample).st.currentAperture = .ok (.ad ['D','1','1'] (.circle 1 none)) by decide +kernel)
    (by decide +kernel) _ (endPoint_at (Or.inr rfl) hr (Or.inl rfl))
  cases draws_unique h1 h2 h3 n1 e2
  obtain ⟨g, hg, -⟩ := n2
  cases hg

end Verif.Props.Stroke
