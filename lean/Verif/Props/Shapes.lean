import Verif.Props.Geom

/-!
# C32: outlines of the standard apertures
-/

namespace Verif.Props.Shapes
open Verif.Geom Verif.Spec Verif.Props.Geom Real

/-- The segments form a closed chain: each ends where the next one starts, the last ends where the first starts (the
list of end points is the list of start points rotated by one place). -/
def ClosedChain (gs : List Segment) : Prop := gs.map Segment.stop = (gs.map Segment.start).rotate 1

theorem box_antisymm {a b : Box ℝ} (h : BoxIn a b) (g : BoxIn b a) : a = b := by
  ext
  · exact le_antisymm g.1 h.1
  · exact le_antisymm g.2.1 h.2.1
  · exact le_antisymm h.2.2.1 g.2.2.1
  · exact le_antisymm h.2.2.2 g.2.2.2

/-- The requested extents. -/
noncomputable def extents (c : Vec ℝ) (w h : ℝ) : Box ℝ := ⟨c.x - w / 2, c.y - h / 2, c.x + w / 2, c.y + h / 2⟩

/-- **C32** (rectangle). -/
theorem c32_rectangle (c : Vec ℝ) (w h : ℝ) (hw : 0 ≤ w) (hh : 0 ≤ h) (neg : Bool) :
    ClosedChain (Shape.newRectangle c w h neg).segments ∧
    (Shape.newRectangle c w h neg).outerBox = extents c w h ∧
    (Shape.newRectangle c w h neg).negative = neg := by
  refine ⟨?_, ?_, rfl⟩
  · rfl
  · have a1 : c.x - w / 2 ≤ c.x + w / 2 := by linarith
    have a2 : c.y - h / 2 ≤ c.y + h / 2 := by linarith
    ext <;> simp [Shape.outerBox, Shape.newRectangle, Shape.ln, Segment.outerBox, Line.outerBox, Box.fromVectors,
      Box.extend, Box.union, extents, a1, a2]

/-- A half turn from `c + u` to `c - u`. -/
theorem half_sweep (cw : Bool) (u : Vec ℝ) : Sweep cw u ⟨-u.x, -u.y⟩ π := by
  have hl : vlen (⟨-u.x, -u.y⟩ : Vec ℝ) = vlen u := by unfold vlen; simp
  refine ⟨pi_pos, by linarith [pi_pos], ?_, ?_⟩ <;> rw [hl] <;> cases cw <;> simp [turn, rotCcw]

/-- Box of a half circle: it contains the two end points and the point a quarter turn after the start, and stays
within the radius of the centre. -/
theorem half_arc_box (a : Arc) (hr : a.relStop = ⟨-a.relStart.x, -a.relStart.y⟩) :
    InBox a.start a.outerBox ∧ InBox a.stop a.outerBox ∧
    InBox (a.center + turn a.clockwise (π / 2) a.relStart) a.outerBox := by
  have hs := half_sweep a.clockwise a.relStart
  rw [← hr] at hs
  have hvalid : vlen a.relStart = vlen a.relStop := by rw [hr]; unfold vlen; simp
  have key := fun τ h0 h1 => arc_inBox a π hvalid hs (Or.inr (by linarith [pi_pos])) (a.center + turn a.clockwise τ
    a.relStart) ⟨τ, h0, h1, rfl⟩
  refine ⟨?_, ?_, key _ (by positivity) (by linarith [pi_pos])⟩
  · have := inBox_candidate a a.relStart (mem_candidates a _ Vec.unitX (Or.inl rfl) (Or.inl rfl))
    have e : a.relStart + a.center = a.start := by ext <;> simp [Arc.relStart]
    rwa [e] at this
  · have := inBox_candidate a a.relStop (mem_candidates a _ Vec.unitX (Or.inl rfl) (Or.inr (Or.inl rfl)))
    have e : a.relStop + a.center = a.stop := by ext <;> simp [Arc.relStop]
    rwa [e] at this

/-- The box of a half circle is within its radius. -/
theorem half_arc_box_le (a : Arc) (hr : a.relStop = ⟨-a.relStart.x, -a.relStart.y⟩) (b : Box ℝ)
    (hc : InBox a.center b)
    (hb : ∀ τ, 0 ≤ τ → τ ≤ π → InBox (a.center + turn a.clockwise τ a.relStart) b) : BoxIn a.outerBox b := by
  have hs := half_sweep a.clockwise a.relStart
  rw [← hr] at hs
  have hvalid : vlen a.relStart = vlen a.relStop := by rw [hr]; unfold vlen; simp
  refine arc_box_least a π hvalid hs (Or.inr (by linarith [pi_pos])) b hc ?_
  rintro p ⟨τ, h0, h1, rfl⟩
  exact hb τ h0 h1

theorem union_le {a b c : Box ℝ} (h1 : BoxIn a c) (h2 : BoxIn b c) : BoxIn (a.union b) c :=
  (c27_union_least a b).2.2 c h1 h2

theorem abs_cos_mul {r : ℝ} (hr : 0 ≤ r) (τ : ℝ) : -r ≤ cos τ * r ∧ cos τ * r ≤ r := by
  have h1 := neg_one_le_cos τ
  have h2 := cos_le_one τ
  constructor <;> nlinarith

theorem abs_sin_mul {r : ℝ} (hr : 0 ≤ r) (τ : ℝ) : -r ≤ sin τ * r ∧ sin τ * r ≤ r := by
  have h1 := neg_one_le_sin τ
  have h2 := sin_le_one τ
  constructor <;> nlinarith

/-- **C32** (circle). -/
theorem c32_circle (c : Vec ℝ) (d : ℝ) (hd : 0 ≤ d) (neg : Bool) :
    ClosedChain (Shape.newCircle c d neg).segments ∧
    (Shape.newCircle c d neg).outerBox = extents c d d ∧ (Shape.newCircle c d neg).negative = neg := by
  refine ⟨?_, ?_, rfl⟩
  · rfl
  · set a1 : Arc := ⟨⟨c.x - d / 2, c.y⟩, ⟨c.x + d / 2, c.y⟩, c, true⟩ with ha1
    set a2 : Arc := ⟨⟨c.x + d / 2, c.y⟩, ⟨c.x - d / 2, c.y⟩, c, true⟩ with ha2
    have hbox : (Shape.newCircle c d neg).outerBox = a1.outerBox.union a2.outerBox := rfl
    have r1 : a1.relStart = ⟨-(d / 2), 0⟩ := by ext <;> simp [ha1, Arc.relStart]
    have r2 : a2.relStart = ⟨d / 2, 0⟩ := by ext <;> simp [ha2, Arc.relStart]
    have s1 : a1.relStop = ⟨-a1.relStart.x, -a1.relStart.y⟩ := by rw [r1]; ext <;> simp [ha1, Arc.relStop]
    have s2 : a2.relStop = ⟨-a2.relStart.x, -a2.relStart.y⟩ := by rw [r2]; ext <;> simp [ha2, Arc.relStop]
    have hd2 : 0 ≤ d / 2 := by linarith
    rw [hbox]
    apply box_antisymm
    · apply union_le
      · apply half_arc_box_le a1 s1
        · simp [InBox, extents, ha1]; linarith
        · intro τ h0 h1
          have h1 := abs_cos_mul hd2 τ
          have h2 := abs_sin_mul hd2 τ
          rw [r1]
          simp [InBox, extents, turn, rotCcw, ha1]
          refine ⟨?_, ?_, ?_, ?_⟩ <;> linarith
      · apply half_arc_box_le a2 s2
        · simp [InBox, extents, ha2]; linarith
        · intro τ h0 h1
          have h1 := abs_cos_mul hd2 τ
          have h2 := abs_sin_mul hd2 τ
          rw [r2]
          simp [InBox, extents, turn, rotCcw, ha2]
          refine ⟨?_, ?_, ?_, ?_⟩ <;> linarith
    · obtain ⟨b1, b2, b3⟩ := half_arc_box a1 s1
      obtain ⟨-, -, b4⟩ := half_arc_box a2 s2
      have u1 := (c27_union_least a1.outerBox a2.outerBox).1
      have u2 := (c27_union_least a1.outerBox a2.outerBox).2.1
      have i1 := inBox_of_boxIn b1 u1
      have i2 := inBox_of_boxIn b2 u1
      have i3 := inBox_of_boxIn b3 u1
      have i4 := inBox_of_boxIn b4 u2
      refine ⟨i1.1, ?_, i2.2.1, ?_⟩
      · have := i4.2.2.1
        rw [r2] at this
        simp [turn, rotCcw, ha2, extents] at this ⊢
        linarith
      · have := i3.2.2.2
        rw [r1] at this
        simpa [turn, rotCcw, ha1, extents] using this

theorem boxIn_extents_arc (a : Arc) (r : ℝ) (hr : 0 ≤ r) (ha : ∀ τ, 0 ≤ τ → τ ≤ π →
    -r ≤ (turn a.clockwise τ a.relStart).x ∧ (turn a.clockwise τ a.relStart).x ≤ r ∧
    -r ≤ (turn a.clockwise τ a.relStart).y ∧ (turn a.clockwise τ a.relStart).y ≤ r)
    (hs : a.relStop = ⟨-a.relStart.x, -a.relStart.y⟩) (c : Vec ℝ) (w h : ℝ)
    (h1 : c.x - w / 2 ≤ a.center.x - r) (h2 : a.center.x + r ≤ c.x + w / 2)
    (h3 : c.y - h / 2 ≤ a.center.y - r) (h4 : a.center.y + r ≤ c.y + h / 2) :
    BoxIn a.outerBox (extents c w h) := by
  apply half_arc_box_le a hs
  · exact ⟨by simp [extents]; linarith, by simp [extents]; linarith, by simp [extents]; linarith,
      by simp [extents]; linarith⟩
  · intro τ t0 t1
    obtain ⟨g1, g2, g3, g4⟩ := ha τ t0 t1
    exact ⟨by simp [extents]; linarith, by simp [extents]; linarith, by simp [extents]; linarith,
      by simp [extents]; linarith⟩

/-- **C32** (obround). -/
theorem c32_obround (c : Vec ℝ) (w h : ℝ) (hw : 0 ≤ w) (hh : 0 ≤ h) (neg : Bool) :
    ClosedChain (Shape.newObround c w h neg).segments ∧
    (Shape.newObround c w h neg).outerBox = extents c w h ∧ (Shape.newObround c w h neg).negative = neg := by
  by_cases hwh : w ≤ h
  · have e : Shape.newObround c w h neg =
        { head := .arc ⟨⟨c.x - w / 2, c.y - h / 2 + w / 2⟩, ⟨c.x + w / 2, c.y - h / 2 + w / 2⟩,
            ⟨c.x, c.y - h / 2 + w / 2⟩, false⟩
          tail := [Shape.ln (c.x + w / 2) (c.y - h / 2 + w / 2) (c.x + w / 2) (c.y + h / 2 - w / 2),
            .arc ⟨⟨c.x + w / 2, c.y + h / 2 - w / 2⟩, ⟨c.x - w / 2, c.y + h / 2 - w / 2⟩,
              ⟨c.x, c.y + h / 2 - w / 2⟩, false⟩,
            Shape.ln (c.x - w / 2) (c.y + h / 2 - w / 2) (c.x - w / 2) (c.y - h / 2 + w / 2)]
          negative := neg } := by
      unfold Shape.newObround; rw [if_pos hwh]
    rw [e]
    refine ⟨?_, ?_, rfl⟩
    · rfl
    · set a1 : Arc := ⟨⟨c.x - w / 2, c.y - h / 2 + w / 2⟩, ⟨c.x + w / 2, c.y - h / 2 + w / 2⟩,
            ⟨c.x, c.y - h / 2 + w / 2⟩, false⟩ with ha1
      set a2 : Arc := ⟨⟨c.x + w / 2, c.y + h / 2 - w / 2⟩, ⟨c.x - w / 2, c.y + h / 2 - w / 2⟩,
              ⟨c.x, c.y + h / 2 - w / 2⟩, false⟩ with ha2
      set l1 : Line := ⟨⟨c.x + w / 2, c.y - h / 2 + w / 2⟩, ⟨c.x + w / 2, c.y + h / 2 - w / 2⟩⟩ with hl1
      set l2 : Line := ⟨⟨c.x - w / 2, c.y + h / 2 - w / 2⟩, ⟨c.x - w / 2, c.y - h / 2 + w / 2⟩⟩ with hl2
      show (((a1.outerBox.union l1.outerBox).union a2.outerBox).union l2.outerBox) = _
      have r1 : a1.relStart = ⟨-(w / 2), 0⟩ := by ext <;> simp [ha1, Arc.relStart]
      have r2 : a2.relStart = ⟨w / 2, 0⟩ := by ext <;> simp [ha2, Arc.relStart]
      have s1 : a1.relStop = ⟨-a1.relStart.x, -a1.relStart.y⟩ := by rw [r1]; ext <;> simp [ha1, Arc.relStop]
      have s2 : a2.relStop = ⟨-a2.relStart.x, -a2.relStart.y⟩ := by rw [r2]; ext <;> simp [ha2, Arc.relStop]
      have hw2 : 0 ≤ w / 2 := by linarith
      apply box_antisymm
      · refine union_le (union_le (union_le ?_ ?_) ?_) ?_
        · refine boxIn_extents_arc a1 (w / 2) hw2 ?_ s1 c w h ?_ ?_ ?_ ?_
          · intro τ h0 h1
            have g1 := abs_cos_mul hw2 τ
            have g2 := abs_sin_mul hw2 τ
            rw [r1]
            simp [turn, rotCcw, ha1]
            refine ⟨?_, ?_, ?_, ?_⟩ <;> linarith
          all_goals simp [ha1]
          all_goals linarith
        · apply fromVectors_le
          rintro p (rfl | hp)
          · refine ⟨?_, ?_, ?_, ?_⟩ <;> simp only [hl1, extents] <;> linarith
          · rw [List.mem_singleton.mp hp]
            refine ⟨?_, ?_, ?_, ?_⟩ <;> simp only [hl1, extents] <;> linarith
        · refine boxIn_extents_arc a2 (w / 2) hw2 ?_ s2 c w h ?_ ?_ ?_ ?_
          · intro τ h0 h1
            have g1 := abs_cos_mul hw2 τ
            have g2 := abs_sin_mul hw2 τ
            rw [r2]
            simp [turn, rotCcw, ha2]
            refine ⟨?_, ?_, ?_, ?_⟩ <;> linarith
          all_goals simp [ha2]
          all_goals linarith
        · apply fromVectors_le
          rintro p (rfl | hp)
          · refine ⟨?_, ?_, ?_, ?_⟩ <;> simp only [hl2, extents] <;> linarith
          · rw [List.mem_singleton.mp hp]
            refine ⟨?_, ?_, ?_, ?_⟩ <;> simp only [hl2, extents] <;> linarith
      · have u3 := c27_union_least ((a1.outerBox.union l1.outerBox).union a2.outerBox) l2.outerBox
        have u2 := c27_union_least (a1.outerBox.union l1.outerBox) a2.outerBox
        have u1 := c27_union_least a1.outerBox l1.outerBox
        obtain ⟨b1, b2, b3⟩ := half_arc_box a1 s1
        obtain ⟨-, -, b4⟩ := half_arc_box a2 s2
        have i1 := inBox_of_boxIn (inBox_of_boxIn (inBox_of_boxIn b1 u1.1) u2.1) u3.1
        have i2 := inBox_of_boxIn (inBox_of_boxIn (inBox_of_boxIn b2 u1.1) u2.1) u3.1
        have i3 := inBox_of_boxIn (inBox_of_boxIn (inBox_of_boxIn b3 u1.1) u2.1) u3.1
        have i4 := inBox_of_boxIn (inBox_of_boxIn b4 u2.2.1) u3.1
        refine ⟨i1.1, ?_, i2.2.1, ?_⟩
        · have := i3.2.2.1
          rw [r1] at this
          simpa [turn, rotCcw, ha1, extents] using this
        · have := i4.2.2.2
          rw [r2] at this
          simpa [turn, rotCcw, ha2, extents] using this
  · have e : Shape.newObround c w h neg =
        { head := Shape.ln (c.x - w / 2 + h / 2) (c.y - h / 2) (c.x + w / 2 - h / 2) (c.y - h / 2)
          tail := [.arc ⟨⟨c.x + w / 2 - h / 2, c.y - h / 2⟩, ⟨c.x + w / 2 - h / 2, c.y + h / 2⟩,
              ⟨c.x + w / 2 - h / 2, c.y⟩, false⟩,
            Shape.ln (c.x + w / 2 - h / 2) (c.y + h / 2) (c.x - w / 2 + h / 2) (c.y + h / 2),
            .arc ⟨⟨c.x - w / 2 + h / 2, c.y + h / 2⟩, ⟨c.x - w / 2 + h / 2, c.y - h / 2⟩,
              ⟨c.x - w / 2 + h / 2, c.y⟩, false⟩]
          negative := neg } := by
      unfold Shape.newObround; rw [if_neg hwh]
    push Not at hwh
    rw [e]
    refine ⟨?_, ?_, rfl⟩
    · rfl
    · set a1 : Arc := ⟨⟨c.x + w / 2 - h / 2, c.y - h / 2⟩, ⟨c.x + w / 2 - h / 2, c.y + h / 2⟩,
              ⟨c.x + w / 2 - h / 2, c.y⟩, false⟩ with ha1
      set a2 : Arc := ⟨⟨c.x - w / 2 + h / 2, c.y + h / 2⟩, ⟨c.x - w / 2 + h / 2, c.y - h / 2⟩,
              ⟨c.x - w / 2 + h / 2, c.y⟩, false⟩ with ha2
      set l1 : Line := ⟨⟨c.x - w / 2 + h / 2, c.y - h / 2⟩, ⟨c.x + w / 2 - h / 2, c.y - h / 2⟩⟩ with hl1
      set l2 : Line := ⟨⟨c.x + w / 2 - h / 2, c.y + h / 2⟩, ⟨c.x - w / 2 + h / 2, c.y + h / 2⟩⟩ with hl2
      show (((l1.outerBox.union a1.outerBox).union l2.outerBox).union a2.outerBox) = _
      have r1 : a1.relStart = ⟨0, -(h / 2)⟩ := by ext <;> simp [ha1, Arc.relStart]
      have r2 : a2.relStart = ⟨0, h / 2⟩ := by ext <;> simp [ha2, Arc.relStart]
      have s1 : a1.relStop = ⟨-a1.relStart.x, -a1.relStart.y⟩ := by rw [r1]; ext <;> simp [ha1, Arc.relStop]
      have s2 : a2.relStop = ⟨-a2.relStart.x, -a2.relStart.y⟩ := by rw [r2]; ext <;> simp [ha2, Arc.relStop]
      have hh2 : 0 ≤ h / 2 := by linarith
      apply box_antisymm
      · refine union_le (union_le (union_le ?_ ?_) ?_) ?_
        · apply fromVectors_le
          rintro p (rfl | hp)
          · refine ⟨?_, ?_, ?_, ?_⟩ <;> simp only [hl1, extents] <;> linarith
          · rw [List.mem_singleton.mp hp]
            refine ⟨?_, ?_, ?_, ?_⟩ <;> simp only [hl1, extents] <;> linarith
        · refine boxIn_extents_arc a1 (h / 2) hh2 ?_ s1 c w h ?_ ?_ ?_ ?_
          · intro τ h0 h1
            have g1 := abs_cos_mul hh2 τ
            have g2 := abs_sin_mul hh2 τ
            rw [r1]
            simp [turn, rotCcw, ha1]
            refine ⟨?_, ?_, ?_, ?_⟩ <;> linarith
          all_goals simp [ha1]
          all_goals linarith
        · apply fromVectors_le
          rintro p (rfl | hp)
          · refine ⟨?_, ?_, ?_, ?_⟩ <;> simp only [hl2, extents] <;> linarith
          · rw [List.mem_singleton.mp hp]
            refine ⟨?_, ?_, ?_, ?_⟩ <;> simp only [hl2, extents] <;> linarith
        · refine boxIn_extents_arc a2 (h / 2) hh2 ?_ s2 c w h ?_ ?_ ?_ ?_
          · intro τ h0 h1
            have g1 := abs_cos_mul hh2 τ
            have g2 := abs_sin_mul hh2 τ
            rw [r2]
            simp [turn, rotCcw, ha2]
            refine ⟨?_, ?_, ?_, ?_⟩ <;> linarith
          all_goals simp [ha2]
          all_goals linarith
      · have u3 := c27_union_least ((l1.outerBox.union a1.outerBox).union l2.outerBox) a2.outerBox
        have u2 := c27_union_least (l1.outerBox.union a1.outerBox) l2.outerBox
        have u1 := c27_union_least l1.outerBox a1.outerBox
        obtain ⟨b1, b2, b3⟩ := half_arc_box a1 s1
        obtain ⟨-, -, b4⟩ := half_arc_box a2 s2
        have i1 := inBox_of_boxIn (inBox_of_boxIn (inBox_of_boxIn b1 u1.2.1) u2.1) u3.1
        have i2 := inBox_of_boxIn (inBox_of_boxIn (inBox_of_boxIn b2 u1.2.1) u2.1) u3.1
        have i3 := inBox_of_boxIn (inBox_of_boxIn (inBox_of_boxIn b3 u1.2.1) u2.1) u3.1
        have i4 := inBox_of_boxIn b4 u3.2.1
        refine ⟨?_, i1.2.2.1, ?_, i2.2.2.2⟩
        · have := i4.1
          rw [r2] at this
          simp [turn, rotCcw, ha2, extents] at this ⊢
          linarith
        · have := i3.2.1
          rw [r1] at this
          simp [turn, rotCcw, ha1, extents] at this ⊢
          linarith

example : (0 : ℝ) ≤ 3 ∧ (0 : ℝ) ≤ 2 := by norm_num

/-- **C32** (thick line). The four corners are the two end points moved by `±p`, where `p` is perpendicular to the line
and half a thickness long; a line of zero length degenerates to a segment of the given thickness. -/
theorem c32_line (s e : Vec ℝ) (th : ℝ) (neg : Bool) :
    ∃ p : Vec ℝ, p.x * (e - s).x + p.y * (e - s).y = 0 ∧ vlen p = |th| / 2 ∧
      (Shape.newLine s e th neg).segments = [.line ⟨s + p, e + p⟩, .line ⟨e - p, s - p⟩] := by
  refine ⟨_, ?_, ?_, rfl⟩
  · by_cases h : (e - s).x = 0 ∧ (e - s).y = 0
    · simp [h.1, h.2]
    · obtain ⟨hx, hy⟩ := scale_norm h
      rw [hx, hy]; simp only [Vec.scale]; ring
  · have hn := normalized_unit (e - s)
    have : (-(e - s).normalized.y * (th / 2)) ^ 2 + ((e - s).normalized.x * (th / 2)) ^ 2 = (th / 2) ^ 2 := by
      linear_combination ((th / 2) ^ 2) * hn
    unfold vlen Vec.scale
    rw [this, sqrt_sq_eq_abs, abs_div, abs_of_pos (by norm_num : (0 : ℝ) < 2)]

/-- **C32** (thick arc). The outline of a thick clockwise arc consists of an outer clockwise arc half a thickness
further from the centre and an inner arc run backwards half a thickness nearer, both about the given centre. -/
theorem c32_thick_arc (s e c : Vec ℝ) (th : ℝ) (neg : Bool) (hs : s ≠ c) (he : e ≠ c) (hth : 0 ≤ th) :
    ∃ o i : Arc, (Shape.newCwArc s e c th neg).segments = [.arc o, .arc i] ∧
      o.center = c ∧ i.center = c ∧ o.clockwise = true ∧ i.clockwise = false ∧
      vlen (o.start - c) = vlen (s - c) + th / 2 ∧ vlen (o.stop - c) = vlen (e - c) + th / 2 ∧
      vlen (i.start - c) = |vlen (e - c) - th / 2| ∧ vlen (i.stop - c) = |vlen (s - c) - th / 2| := by
  have key : ∀ q : Vec ℝ, q ≠ c → ∀ k : ℝ,
      vlen (q + (q - c).normalized.scale k - c) = |vlen (q - c) + k| := by
    intro q hq k
    have hne : ¬ ((q - c).x = 0 ∧ (q - c).y = 0) := by
      rintro ⟨h1, h2⟩; apply hq; simp only [Vec.sub_x, Vec.sub_y] at h1 h2
      ext <;> linarith
    obtain ⟨hx, hy⟩ := scale_norm hne
    have hn := normalized_unit (q - c)
    have e1 : (q + (q - c).normalized.scale k - c).x = (q - c).normalized.x * (vlen (q - c) + k) := by
      simp only [Vec.sub_x, Vec.add_x, Vec.scale] at hx ⊢; linear_combination hx
    have e2 : (q + (q - c).normalized.scale k - c).y = (q - c).normalized.y * (vlen (q - c) + k) := by
      simp only [Vec.sub_y, Vec.add_y, Vec.scale] at hy ⊢; linear_combination hy
    conv_lhs => unfold vlen
    rw [e1, e2, ← sqrt_sq_eq_abs]
    congr 1
    linear_combination ((vlen (q - c) + k) ^ 2) * hn
  have hsub : ∀ q : Vec ℝ, ∀ k : ℝ, q - (q - c).normalized.scale k = q + (q - c).normalized.scale (-k) := by
    intro q k; ext <;> simp [Vec.scale] <;> ring
  refine ⟨_, _, rfl, rfl, rfl, rfl, rfl, ?_, ?_, ?_, ?_⟩
  · show vlen (s + (s - c).normalized.scale (th / 2) - c) = _
    rw [key s hs, abs_of_nonneg]; have := vlen_nonneg (s - c); linarith
  · show vlen (e + (e - c).normalized.scale (th / 2) - c) = _
    rw [key e he, abs_of_nonneg]; have := vlen_nonneg (e - c); linarith
  · show vlen (e - (e - c).normalized.scale (th / 2) - c) = _
    rw [hsub, key e he, sub_eq_add_neg]
  · show vlen (s - (s - c).normalized.scale (th / 2) - c) = _
    rw [hsub, key s hs, sub_eq_add_neg]

example : (⟨1, 0⟩ : Vec ℝ) ≠ ⟨0, 0⟩ ∧ (0 : ℝ) ≤ 1 / 2 := by
  refine ⟨fun h => ?_, by norm_num⟩
  have := congrArg Vec.x h; simp at this

/-- **C32** (outline through given points). Connected points form a closed chain through the points in order. -/
theorem c32_connected_points (p : Vec ℝ) (ps : List (Vec ℝ)) :
    ClosedChain (Shape.connectedPoints p ps) ∧
    (Shape.connectedPoints p ps).map Segment.start = p :: ps := by
  have key : ∀ (l : List (Vec ℝ)) (a : Vec ℝ), (Shape.connect (a :: l)).map Segment.stop = l ∧
      (Shape.connect (a :: l)).map Segment.start = (a :: l).dropLast := by
    intro l
    induction l with
    | nil => intro a; simp [Shape.connect]
    | cons b r ih => intro a; obtain ⟨h1, h2⟩ := ih b; simp [Shape.connect, h1, h2, Segment.stop, Segment.start]
  obtain ⟨h1, h2⟩ := key ps p
  have hs : (Shape.connectedPoints p ps).map Segment.start = p :: ps := by
    simp only [Shape.connectedPoints, List.map_append, h2, List.map_cons, List.map_nil, Segment.start]
    exact List.dropLast_append_getLast (by simp)
  refine ⟨?_, hs⟩
  unfold ClosedChain
  rw [hs]
  simp only [Shape.connectedPoints, List.map_append, h1, List.map_cons, List.map_nil, Segment.stop]
  simp

/-! ### Regular polygons -/

/-- The `k`-th corner of the regular polygon with `n` corners on a circle of diameter `d`, the first one at `rot`
degrees. -/
noncomputable def corner (c : Vec ℝ) (d : ℝ) (n : Nat) (rot : ℝ) (k : Nat) : Vec ℝ :=
  ⟨c.x + d / 2 * cos ((rot + k * (360 / n)) * π / 180), c.y + d / 2 * sin ((rot + k * (360 / n)) * π / 180)⟩

/-- The loop draws sides as long as the running angle is below a full turn. -/
theorem polygonLoop_eq (c : Vec ℝ) (d : ℝ) (n : Nat) (rot : ℝ) (fuel k : Nat) (off : Vec ℝ)
    (hoff : c + off = corner c d n rot k) :
    ∃ m, m ≤ fuel ∧ (m < fuel → 360 ≤ rot + ((k + m : ℕ) : ℝ) * (360 / n)) ∧
      (∀ j < m, rot + ((k + j : ℕ) : ℝ) * (360 / n) < 360) ∧
      Shape.polygonLoop c (360 / n) fuel (rot + k * (360 / n)) off =
        (List.range m).map (fun j => .line ⟨corner c d n rot (k + j), corner c d n rot (k + j + 1)⟩) := by
  induction fuel generalizing k off with
  | zero => exact ⟨0, le_refl _, by simp, by simp, rfl⟩
  | succ fuel ih =>
    unfold Shape.polygonLoop
    by_cases hlt : rot + k * (360 / n) < 360
    · rw [if_pos hlt]
      have hoff' : c + (Mat.newRotate (360 / n)).apply off = corner c d n rot (k + 1) := by
        rw [(c29_rotation (360 / n) 0 off off).2.1]
        have ox : off.x = d / 2 * cos ((rot + k * (360 / n)) * π / 180) := by
          have := congrArg Vec.x hoff; simp [corner] at this; linarith
        have oy : off.y = d / 2 * sin ((rot + k * (360 / n)) * π / 180) := by
          have := congrArg Vec.y hoff; simp [corner] at this; linarith
        have harg : (rot + ((k + 1 : ℕ) : ℝ) * (360 / n)) * π / 180
            = (rot + k * (360 / n)) * π / 180 + 360 / n * π / 180 := by push_cast; ring
        unfold corner
        rw [harg, cos_add, sin_add]
        ext <;> simp only [rotCcw, Vec.add_x, Vec.add_y, ox, oy] <;> ring
      obtain ⟨m, h1, h2, h3, h4⟩ := ih (k + 1) _ hoff'
      refine ⟨m + 1, by omega, ?_, ?_, ?_⟩
      · intro hm
        have := h2 (by omega)
        have e : ((k + (m + 1) : ℕ) : ℝ) = ((k + 1 + m : ℕ) : ℝ) := by push_cast; ring
        rw [e]; exact this
      · intro j hj
        cases j with
        | zero => simpa using hlt
        | succ j =>
          have := h3 j (by omega)
          have e : ((k + (j + 1) : ℕ) : ℝ) = ((k + 1 + j : ℕ) : ℝ) := by push_cast; ring
          rw [e]; exact this
      · have e : rot + k * (360 / n) + 360 / n = rot + ((k + 1 : ℕ) : ℝ) * (360 / n) := by push_cast; ring
        simp only [e]
        rw [h4, List.range_succ_eq_map, List.map_cons, List.map_map, hoff, hoff']
        congr 1
        apply List.map_congr_left
        intro j _
        simp only [Function.comp]
        have e1 : k + 1 + j = k + (j + 1) := by omega
        rw [e1]
    · rw [if_neg hlt]
      refine ⟨0, by omega, fun _ => ?_, by simp, rfl⟩
      push Not at hlt; simpa using hlt

/-- **C32** (regular polygon, number of sides). The sides drawn join consecutive corners starting with the corner at
the base rotation (taken modulo 360); side `j` is drawn exactly while `rotation + j * 360 / n` is below 360. -/
theorem c32_polygon_sides (c : Vec ℝ) (d : ℝ) (n : Nat) (hn : 3 ≤ n) (rot : ℝ) :
    ∃ m, m ≤ n ∧ (∀ j, j < m ↔ pyMod rot 360 + (j : ℝ) * (360 / n) < 360) ∧
      Shape.polygonSegments c d n rot = (List.range m).map
        (fun j => .line ⟨corner c d n (pyMod rot 360) j, corner c d n (pyMod rot 360) (j + 1)⟩) := by
  have hoff : c + (Mat.newRotate (pyMod rot 360)).apply ((Vec.unitX.scale d).divBy 2)
      = corner c d n (pyMod rot 360) 0 := by
    rw [(c29_rotation (pyMod rot 360) 0 c _).2.1]
    ext <;> simp [rotCcw, corner, Vec.scale, Vec.divBy, Vec.unitX] <;> ring
  obtain ⟨m, h1, h2, h3, h4⟩ := polygonLoop_eq c d n (pyMod rot 360) n 0 _ hoff
  have hr := (pyMod_range (a := rot) (by norm_num : (0 : ℝ) < 360)).1
  have hnpos : (0 : ℝ) < n := by exact_mod_cast (by omega : 0 < n)
  have hend : 360 ≤ pyMod rot 360 + ((0 + m : ℕ) : ℝ) * (360 / n) := by
    rcases h1.lt_or_eq with h | h
    · exact h2 h
    · rw [h]
      have : ((0 + n : ℕ) : ℝ) * (360 / n) = 360 := by push_cast; field_simp; ring
      linarith
  refine ⟨m, h1, ?_, ?_⟩
  · intro j
    constructor
    · intro hj; simpa using h3 j hj
    · intro hj
      by_contra hge
      push Not at hge
      have : ((0 + m : ℕ) : ℝ) * (360 / n) ≤ (j : ℝ) * (360 / n) := by
        apply mul_le_mul_of_nonneg_right
        · push_cast; rw [zero_add]; exact_mod_cast hge
        · positivity
      linarith
  · have h5 : Shape.polygonSegments c d n rot =
        Shape.polygonLoop c (360 / n) n (pyMod rot 360 + ((0 : ℕ) : ℝ) * (360 / n))
          ((Mat.newRotate (pyMod rot 360)).apply ((Vec.unitX.scale d).divBy 2)) := by
      simp [Shape.polygonSegments]
    rw [h5, h4]
    apply List.map_congr_left
    intro j _
    simp

/-- **C32** (regular polygon, partial). If the base rotation (modulo 360) is less than one angular step, the outline is
the closed chain through all `n` corners.
Missing: larger base rotations, for which corners are lost (`c32_polygon_loses_corners`). -/
theorem c32_polygon_partial (c : Vec ℝ) (d : ℝ) (n : Nat) (hn : 3 ≤ n) (rot : ℝ) (hrot : pyMod rot 360 < 360 / n) :
    Shape.polygonSegments c d n rot = (List.range n).map
        (fun j => .line ⟨corner c d n (pyMod rot 360) j, corner c d n (pyMod rot 360) (j + 1)⟩) ∧
    corner c d n (pyMod rot 360) n = corner c d n (pyMod rot 360) 0 := by
  have hnpos : (0 : ℝ) < n := by exact_mod_cast (by omega : 0 < n)
  obtain ⟨m, h1, h2, h3⟩ := c32_polygon_sides c d n hn rot
  have hm : n - 1 < m := by
    rw [h2]
    have : ((n - 1 : ℕ) : ℝ) = n - 1 := by rw [Nat.cast_sub (by omega)]; simp
    rw [this]
    have : ((n : ℝ) - 1) * (360 / n) = 360 - 360 / n := by field_simp
    rw [this]; linarith
  have : m = n := by omega
  refine ⟨by rw [h3, this], ?_⟩
  unfold corner
  have e : (pyMod rot 360 + (n : ℝ) * (360 / n)) * π / 180 = (pyMod rot 360 + ((0 : ℕ) : ℝ) * (360 / n)) * π / 180
      + 2 * π := by
    push_cast; field_simp; ring
  rw [e, cos_add_two_pi, sin_add_two_pi]

example : pyMod 45 360 < 360 / (4 : ℕ) := by
  rw [pyMod_of_mem] <;> norm_num

/-- **C32** fails for regular polygons whose base rotation exceeds one step: a square aperture rotated by 180 degrees
is drawn with two sides only (three corners, that is a triangle). -/
theorem c32_polygon_loses_corners (c : Vec ℝ) (d : ℝ) : (Shape.polygonSegments c d 4 180).length = 2 := by
  obtain ⟨m, -, h2, h3⟩ := c32_polygon_sides c d 4 (by norm_num) 180
  have hmod : pyMod 180 360 = 180 := pyMod_of_mem (by norm_num) (by norm_num) (by norm_num)
  rw [hmod] at h2
  have a := (h2 1).mpr (by norm_num)
  have b : ¬ 2 < m := fun h => by have := (h2 2).mp h; norm_num at this
  rw [h3, List.length_map, List.length_range]; omega

end Verif.Props.Shapes
