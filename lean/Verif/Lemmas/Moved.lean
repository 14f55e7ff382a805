import Verif.Lemmas.Rounds

/-!
# Outlines that go round once, turned, scaled, mirrored and moved
-/

namespace Verif.Halves
open Verif.Geom Verif.Rvmc Verif.Spec Verif.Crossing Verif.Fine Verif.Lemmas.ShapeArea Verif.Lemmas.ArcArea Verif.Sim Real

/-- The plane mirrored. -/
def flip (v : Vec ℝ) : Vec ℝ := ⟨v.x, -v.y⟩

theorem crosses_flip {p a b : Vec ℝ} (ha : a.y ≠ p.y) (hb : b.y ≠ p.y) : Crosses (flip p) (flip a, flip b) ↔ Crosses p (a, b) := by
  unfold Crosses flip
  simp only
  have h1 : (-p.y < -a.y ↔ ¬ -p.y < -b.y) ↔ (p.y < a.y ↔ ¬ p.y < b.y) := by
    rcases lt_or_gt_of_ne ha with h | h <;> rcases lt_or_gt_of_ne hb with h' | h' <;>
      simp [h, h', not_lt.2 h.le, not_lt.2 h'.le]
  rw [h1]
  refine and_congr_right fun _ => ?_
  have : (-p.y - -a.y) * (b.x - a.x) / (-b.y - -a.y) = (p.y - a.y) * (b.x - a.x) / (b.y - a.y) := by
    rw [show -b.y - -a.y = -(b.y - a.y) by ring, div_neg, ← neg_div]
    congr 1; ring
  rw [this]

theorem sides_mem {L : List (Vec ℝ)} {e : Vec ℝ × Vec ℝ} (he : e ∈ sides L) : e.1 ∈ L ∧ e.2 ∈ L := by
  unfold sides at he
  have h := List.of_mem_zip (show (e.1, e.2) ∈ _ from he)
  refine ⟨h.1, ?_⟩
  rcases List.mem_append.1 h.2 with h | h
  · exact List.mem_of_mem_tail h
  · rw [Option.mem_toList] at h
    exact List.mem_of_mem_head? h

theorem within_shift (L : List (Vec ℝ)) (p q : Vec ℝ) {δ : ℝ} (hc : ∀ v, (∃ e ∈ sides L, OnSegment e.1 e.2 v) → ¬ Close δ p v) (hq : Close δ p q) :
    WithinLine L p ↔ WithinLine L q := by
  have h := Props.Pixels.within_near (δ := δ) L _root_.id _root_.id p q (fun v _ => ?_) fun e he hne => ?_
  · rw [List.map_id] at h; exact h
  · constructor
    · rw [show (_root_.id v).x - p.x - ((_root_.id v).x - q.x) = -(p.x - q.x) by ring, abs_neg]; exact hq.1
    · rw [show (_root_.id v).y - p.y - ((_root_.id v).y - q.y) = -(p.y - q.y) by ring, abs_neg]; exact hq.2
  · obtain ⟨l, l0, l1, h1, h2⟩ := hne
    refine hc ⟨(1 - l) * e.1.x + l * e.2.x, (1 - l) * e.1.y + l * e.2.y⟩ ⟨e, he, l, l0, l1, ?_⟩ ⟨h1, h2⟩
    ext <;> simp only <;> ring

theorem flip_flip (v : Vec ℝ) : flip (flip v) = v := by ext <;> simp [flip]

theorem onSegment_flip {a b v : Vec ℝ} (h : OnSegment (flip a) (flip b) v) : OnSegment a b (flip v) := by
  obtain ⟨l, l0, l1, rfl⟩ := h
  exact ⟨l, l0, l1, by ext <;> simp only [flip]; ring⟩

theorem within_flip (L : List (Vec ℝ)) (p : Vec ℝ) (hp : ∀ e ∈ sides L, ¬ OnSegment e.1 e.2 p) :
    WithinLine (L.map flip) (flip p) ↔ WithinLine L p := by
  classical
  obtain ⟨δ, hδ, hd⟩ := away (sides_compact L) (p := p) (by rintro ⟨e, he, h⟩; exact hp e he h)
  obtain ⟨η, ⟨h0, h1⟩, h2⟩ := (Set.Ioo_infinite hδ).exists_notMem_finset ((L.map fun v => v.y - p.y).toFinset)
  have hne : ∀ v ∈ L, v.y ≠ p.y + η := by
    intro v hv e
    refine h2 (List.mem_toFinset.2 (List.mem_map.2 ⟨v, hv, ?_⟩))
    rw [e]; ring
  have hcl : Close δ p ⟨p.x, p.y + η⟩ := by
    refine ⟨by simp [hδ.le], ?_⟩
    simp only [sub_add_cancel_left, abs_neg, abs_of_pos h0]
    exact h1.le
  rw [within_shift L p ⟨p.x, p.y + η⟩ hd hcl, within_shift (L.map flip) (flip p) (flip ⟨p.x, p.y + η⟩) (δ := δ) ?_ ?_]
  · unfold WithinLine crossings
    rw [sides_map, List.countP_map]
    have : (sides L).countP ((fun e => decide (Crosses (flip ⟨p.x, p.y + η⟩) e)) ∘ Prod.map flip flip) =
        (sides L).countP fun e => decide (Crosses ⟨p.x, p.y + η⟩ e) := by
      apply List.countP_congr
      intro e he
      obtain ⟨m1, m2⟩ := sides_mem he
      simp only [Function.comp, Prod.map, decide_eq_true_eq]
      exact crosses_flip (hne _ m1) (hne _ m2)
    rw [this]
  · rintro v ⟨e, he, h⟩ hcv
    rw [sides_map, List.mem_map] at he
    obtain ⟨e', he', rfl⟩ := he
    refine hd (flip v) ⟨e', he', onSegment_flip h⟩ ⟨?_, ?_⟩
    · exact hcv.1
    · have := hcv.2
      simp only [flip] at this ⊢
      rw [show p.y - -v.y = -(-p.y - v.y) by ring, abs_neg]
      exact this
  · refine ⟨hcl.1, ?_⟩
    have := hcl.2
    simp only [flip] at this ⊢
    rw [show -p.y - -(p.y + η) = -(p.y - (p.y + η)) by ring, abs_neg]
    exact this

/-- Points within a line, under similarities. -/
theorem within_similar {m : Mat ℝ} {e k : ℝ} (hm : Similar m e k) (L : List (Vec ℝ)) (p : Vec ℝ) (hp : ∀ e ∈ sides L, ¬ OnSegment e.1 e.2 p) :
    WithinLine (L.map m.apply) (m.apply p) ↔ WithinLine L p := by
  have hk := abs_pos.2 hm.pos
  obtain ⟨φ, -, -, hφ⟩ := exists_angle (u := ⟨|k|, 0⟩) (v := ⟨m.m 0 0, m.m 1 0⟩) (by simp [nsq, hm.scale])
  have hx := congrArg Vec.x hφ
  have hy := congrArg Vec.y hφ
  simp only [rotCcw, mul_zero, sub_zero, add_zero] at hx hy
  let f : Vec ℝ → Vec ℝ := fun v => ⟨(v.x - -(m.m 0 2 / |k|)) * |k|, (v.y - -(m.m 1 2 / |k|)) * |k|⟩
  have hf : ∀ v : Vec ℝ, f v = ⟨|k| * v.x + m.m 0 2, |k| * v.y + m.m 1 2⟩ := by
    intro v; ext <;> simp only [f] <;> field_simp <;> ring
  have key : ∀ w : Vec ℝ → Vec ℝ, (∀ v, m.apply v = f (rotCcw φ (w v))) → (∀ e ∈ sides (L.map w), ¬ OnSegment e.1 e.2 (w p)) →
      (WithinLine (L.map m.apply) (m.apply p) ↔ WithinLine (L.map w) (w p)) := by
    intro w hw hs
    have e1 : L.map m.apply = ((L.map w).map (rotCcw φ)).map f := by
      rw [List.map_map, List.map_map]
      exact List.map_congr_left fun v _ => hw v
    rw [e1, hw, Props.Pixels.within_scaled hk ⟨-(m.m 0 2 / |k|), -(m.m 1 2 / |k|)⟩ _ _ f (fun _ => rfl), within_rot _ _ hs]
  rcases hm.sign with he | he
  · rw [key _root_.id ?_ (by rw [List.map_id]; exact hp), List.map_id]
    · rfl
    · intro v
      rw [hf]
      ext
      · simp only [Mat.apply, rotCcw, hm.first, he, id]; rw [← hx, ← hy]; ring
      · simp only [Mat.apply, rotCcw, hm.second, he, id]; rw [← hx, ← hy]; ring
  · rw [key flip ?_ ?_, within_flip L p hp]
    · intro v
      rw [hf]
      ext
      · simp only [Mat.apply, rotCcw, hm.first, he, flip]; rw [← hx, ← hy]; ring
      · simp only [Mat.apply, rotCcw, hm.second, he, flip]; rw [← hx, ← hy]; ring
    · intro x hx hs
      rw [sides_map, List.mem_map] at hx
      obtain ⟨x', hx', rfl⟩ := hx
      have := onSegment_flip hs
      rw [flip_flip] at this
      exact hp x' hx' this

theorem notClosed_transform {m : Mat ℝ} {e k : ℝ} (hm : Similar m e k) {g : Segment} (h : NotClosed g) : NotClosed (g.transform m) := by
  cases g with
  | line l => trivial
  | arc a =>
    obtain ⟨h1, h2, h3⟩ := h
    refine ⟨fun h => h1 (hm.injective h), ?_, fun h => h3 (hm.injective h)⟩
    show vlen (m.apply a.start - m.apply a.center) = vlen (m.apply a.stop - m.apply a.center)
    rw [hm.vlen, hm.vlen, h2]

/-- Points along a piece that is turned, scaled, mirrored or moved. -/
theorem along_similar {m : Mat ℝ} {e k ε : ℝ} (hm : Similar m e k) {g : Segment} {tr : List (Vec ℝ)} (h : Along (|k| * ε) (g.transform m) tr) :
    ∃ tr', Along ε g tr' ∧ tr = tr'.map m.apply := by
  cases g with
  | line l => exact ⟨[l.start, l.stop], rfl, h⟩
  | arc a =>
    obtain ⟨t, offs, h1, h2, h3, h4⟩ := h
    have hsw := (hm.sweep a t).1 h1
    have hmap : tr = (offs.map fun τ => a.center + turn a.clockwise τ (a.start - a.center)).map m.apply := by
      rw [h3, List.map_map]
      exact List.map_congr_left fun τ _ => (hm.image a τ).symm
    refine ⟨_, ⟨t, offs, hsw, ?_, rfl, ?_⟩, hmap⟩
    · have hk : |k| ≠ 0 := abs_ne_zero.2 hm.pos
      have : |k| * ε / arcRadius ((Segment.arc a).transform m) = ε / arcRadius (.arc a) := by
        show |k| * ε / vlen (m.apply a.start - m.apply a.center) = ε / vlen (a.start - a.center)
        rw [hm.vlen, mul_div_mul_left _ _ hk]
      rw [← this]; exact h2
    · rw [hmap, List.getLast?_map] at h4
      obtain ⟨v, hv, h5⟩ := Option.map_eq_some_iff.1 h4
      rw [hv]
      exact congrArg some (hm.injective h5)

theorem forall₂_similar {m : Mat ℝ} {e k ε : ℝ} (hm : Similar m e k) : ∀ {gs : List Segment} {trs : List (List (Vec ℝ))},
    List.Forall₂ (Along (|k| * ε)) (gs.map (·.transform m)) trs →
    ∃ trs', List.Forall₂ (Along ε) gs trs' ∧ trs = trs'.map (List.map m.apply)
  | [], _, h => by cases h; exact ⟨[], .nil, rfl⟩
  | g :: gs, _, h => by
    cases h with
    | cons h1 h2 =>
      obtain ⟨tr, g1, rfl⟩ := along_similar hm h1
      obtain ⟨trs, g2, rfl⟩ := forall₂_similar hm h2
      exact ⟨tr :: trs, .cons g1 g2, rfl⟩

/-- What goes round once does so after being turned, scaled, mirrored or moved. -/
theorem once_transform {m : Mat ℝ} {e k : ℝ} (hm : Similar m e k) {s : Shape} (hn : ∀ g ∈ s.segments, NotClosed g) (h : GoesRoundOnce s) :
    GoesRoundOnce (s.transform m) := by
  intro p hp hr
  rw [hm.enclosed] at hp
  obtain ⟨q, hq, rfl⟩ := hp
  rw [hm.rim] at hr
  obtain ⟨ε, hε, h1⟩ := h q hq hr
  obtain ⟨δ, hδ, hd⟩ := away (rim_compact hn) hr
  have hk := abs_pos.2 hm.pos
  refine ⟨|k| * min ε (δ / 2), mul_pos hk (lt_min hε (by linarith)), fun traces ht => ?_⟩
  obtain ⟨trs, h2, rfl⟩ := forall₂_similar hm (show List.Forall₂ _ (s.segments.map (·.transform m)) traces from ht)
  rw [← List.map_flatten, within_similar hm]
  · exact h1 _ (h2.imp fun _ _ h => along_mono (min_le_left _ _) h)
  · intro x hx hs
    obtain ⟨l, l0, l1, hl⟩ := hs
    obtain ⟨v, hv, hc⟩ := side_near (δ := 0) (p := q) (by linarith : 0 ≤ δ / 2) hn (h2.imp fun _ _ h => along_mono (min_le_right _ _) h) hx
      ⟨l, l0, l1, by rw [hl]; simp only; rw [abs_nonpos_iff]; ring, by rw [hl]; simp only; rw [abs_nonpos_iff]; ring⟩
    exact hd v hv (close_mono hc (by linarith))

theorem sound_transform {m : Mat ℝ} {e k : ℝ} (hm : Similar m e k) {s : Shape} (h : Sound s) : Sound (s.transform m) := by
  refine ⟨fun g hg => ?_, once_transform hm h.1 h.2⟩
  obtain ⟨g', hg', rfl⟩ := List.mem_map.1 (show g ∈ s.segments.map (·.transform m) from hg)
  exact notClosed_transform hm (h.1 g' hg')

theorem sound_negative {g : Segment} {gs : List Segment} {a : Bool} (b : Bool) (h : Sound ⟨g, gs, a⟩) : Sound ⟨g, gs, b⟩ := h

theorem Round.sound {s : Shape} (h : Round s) : Sound s := ⟨h.pieces, h.once⟩

end Verif.Halves
