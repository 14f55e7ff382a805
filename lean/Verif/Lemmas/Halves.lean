import Verif.Lemmas.Fine
import Verif.Lemmas.ShapeArea
import Mathlib.Topology.MetricSpace.Thickening

/-!
# Outlines that go round a point once
-/

namespace Verif.Halves
open Verif.Geom Verif.Rvmc Verif.Spec Verif.Crossing Verif.Fine Verif.Lemmas.ShapeArea Verif.Sim

/-! ### Turning a line -/

theorem rot_inj (t : ℝ) (u v : Vec ℝ) (h : rotCcw t u = rotCcw t v) : u = v := by
  rw [← rot_back' t u, h, rot_back']


/-- The plane turned about a point. -/
noncomputable def spin (c : Vec ℝ) (t : ℝ) (v : Vec ℝ) : Vec ℝ := c + rotCcw t (v - c)

theorem spin_lipschitz (c v : Vec ℝ) (s t : ℝ) {ε : ℝ} (h : vlen (v - c) * |s - t| ≤ ε) : Close ε (spin c s v) (spin c t v) := by
  have := turn_lipschitz false s t c (v - c) h
  simpa [turn, spin] using this

theorem sides_compact (L : List (Vec ℝ)) : IsCompact (pairsOf fun v => ∃ e ∈ sides L, OnSegment e.1 e.2 v) := by
  have : (pairsOf fun v => ∃ e ∈ sides L, OnSegment e.1 e.2 v) = ⋃ e ∈ {e | e ∈ sides L}, pairsOf (OnSegment e.1 e.2) := by
    ext q
    simp [pairsOf]
  rw [this]
  exact (List.finite_toSet (sides L)).isCompact_biUnion fun e _ => segment_compact _ _

/-- A line turned about a point that is on none of its sides. -/
theorem within_spin (L : List (Vec ℝ)) (c : Vec ℝ) (hc : ∀ e ∈ sides L, ¬ OnSegment e.1 e.2 c) (t : ℝ) :
    WithinLine (L.map (spin c t)) c ↔ WithinLine L c := by
  obtain ⟨δ, hδ, hd⟩ := away (sides_compact L) (p := c) (by rintro ⟨e, he, h⟩; exact hc e he h)
  -- the sides stay away
  have far : ∀ t, ∀ e ∈ sides L, ¬ Near (δ / 2) c (spin c t e.1, spin c t e.2) := by
    rintro t e he ⟨l, l0, l1, h1, h2⟩
    obtain ⟨v, hv⟩ : ∃ v : Vec ℝ, v = ⟨e.1.x + l * (e.2.x - e.1.x), e.1.y + l * (e.2.y - e.1.y)⟩ := ⟨_, rfl⟩
    have e1 : c.x - ((1 - l) * (spin c t e.1).x + l * (spin c t e.2).x) = - (rotCcw t (v - c)).x := by
      rw [hv]; simp only [spin, rotCcw, Vec.add_x, Vec.sub_x, Vec.sub_y]; ring
    have e2 : c.y - ((1 - l) * (spin c t e.1).y + l * (spin c t e.2).y) = - (rotCcw t (v - c)).y := by
      rw [hv]; simp only [spin, rotCcw, Vec.add_y, Vec.sub_x, Vec.sub_y]; ring
    simp only at h1 h2
    rw [e1, abs_neg] at h1
    rw [e2, abs_neg] at h2
    have h3 : (rotCcw t (v - c)).x ^ 2 + (rotCcw t (v - c)).y ^ 2 = (v - c).x ^ 2 + (v - c).y ^ 2 := nsq_rot t (v - c)
    have h4 : (rotCcw t (v - c)).x ^ 2 ≤ (δ / 2) ^ 2 := sq_le_sq' (by linarith [(abs_le.1 h1).1]) (abs_le.1 h1).2
    have h5 : (rotCcw t (v - c)).y ^ 2 ≤ (δ / 2) ^ 2 := sq_le_sq' (by linarith [(abs_le.1 h2).1]) (abs_le.1 h2).2
    refine hd v ⟨e, he, l, l0, l1, hv⟩ ⟨?_, ?_⟩
    · rw [abs_sub_comm]
      refine abs_le_of_sq_le_sq ?_ hδ.le
      simp only [Vec.sub_x, Vec.sub_y] at h3
      nlinarith [sq_nonneg (v.y - c.y)]
    · rw [abs_sub_comm]
      refine abs_le_of_sq_le_sq ?_ hδ.le
      simp only [Vec.sub_x, Vec.sub_y] at h3
      nlinarith [sq_nonneg (v.x - c.x)]
  -- how far the corners are from the point
  obtain ⟨D, hD, hDv⟩ : ∃ D > 0, ∀ v ∈ L, vlen (v - c) ≤ D := by
    clear hc hd far
    induction L with
    | nil => exact ⟨1, one_pos, by simp⟩
    | cons v L ih =>
      obtain ⟨D, h1, h2⟩ := ih
      refine ⟨max D (vlen (v - c)), lt_of_lt_of_le h1 (le_max_left _ _), fun w hw => ?_⟩
      rcases List.mem_cons.1 hw with rfl | hw
      · exact le_max_right _ _
      · exact (h2 w hw).trans (le_max_left _ _)
  have near : ∀ s t, |s - t| < δ / 2 / D → (WithinLine (L.map (spin c s)) c ↔ WithinLine (L.map (spin c t)) c) := by
    intro s t hst
    refine Props.Pixels.within_near (δ := δ / 2) L (spin c s) (spin c t) c c (fun v hv => ?_) (far s)
    have := spin_lipschitz c v s t (ε := δ / 2) ?_
    · rw [show ∀ a b d : ℝ, a - d - (b - d) = a - b from fun a b d => by ring, show ∀ a b d : ℝ, a - d - (b - d) = a - b from fun a b d => by ring]
      exact this
    · rw [lt_div_iff₀ hD] at hst
      calc vlen (v - c) * |s - t| ≤ D * |s - t| := mul_le_mul_of_nonneg_right (hDv v hv) (abs_nonneg _)
        _ ≤ δ / 2 := by linarith
  let S : Set ℝ := {t | WithinLine (L.map (spin c t)) c ↔ WithinLine (L.map (spin c 0)) c}
  have r0 : 0 < δ / 2 / D := by positivity
  have hS : IsClopen S := by
    constructor
    · rw [← isOpen_compl_iff, Metric.isOpen_iff]
      intro t ht
      refine ⟨_, r0, fun s hs hSs => ht ?_⟩
      rw [Metric.mem_ball, Real.dist_eq] at hs
      exact (near s t hs).symm.trans hSs
    · rw [Metric.isOpen_iff]
      intro t ht
      refine ⟨_, r0, fun s hs => ?_⟩
      rw [Metric.mem_ball, Real.dist_eq] at hs
      exact (near s t hs).trans ht
  have hu : S = Set.univ := hS.eq_univ ⟨0, Iff.rfl⟩
  have ht : t ∈ S := by rw [hu]; trivial
  have e : L.map (spin c 0) = L := by
    have : spin c 0 = id := by funext v; ext <;> simp [spin, rotCcw]
    rw [this, List.map_id]
  exact ht.trans (by rw [e])

/-! ### Lines in a half plane -/

theorem walk_lower {p : Vec ℝ} : ∀ l : List (Vec ℝ), (∀ v ∈ l, v.y ≤ p.y) → walk p l = 0
  | [], _ => rfl
  | [_], _ => rfl
  | a :: b :: l, h => by
    have ha := h a (by simp)
    have hb := h b (by simp)
    rw [walk, walk_lower (b :: l) fun v hv => h v (by simp [hv]), cr_zero, add_zero]
    exact ⟨fun h => absurd h (not_lt.2 ha), fun h => absurd h (not_lt.2 hb)⟩

open Classical in
/-- Whether a point of the upper half plane is not on the ray to the right. -/
noncomputable def offRay (p v : Vec ℝ) : ZMod 2 := if v.y = p.y ∧ p.x < v.x then 0 else 1

open Classical in
theorem cr_upper {p a b : Vec ℝ} (ha : p.y ≤ a.y) (hb : p.y ≤ b.y) (h : ¬ OnSegment a b p) : cr p a b = offRay p a + offRay p b := by
  have hpa : p ≠ a := by rintro rfl; exact h (onSegment_start _ _)
  have hpb : p ≠ b := by rintro rfl; exact h (onSegment_stop _ _)
  -- a corner on the axis, the other one above
  have one : ∀ a b : Vec ℝ, p ≠ a → p.y = a.y → p.y < b.y → cr p a b = offRay p a + offRay p b := by
    intro a b hpa e1 e2
    have hm : meet p a b = a.x := by unfold meet; rw [e1]; simp
    have hx : p.x ≠ a.x := fun e => hpa (by ext <;> assumption)
    unfold cr offRay
    rw [if_congr crosses_iff rfl rfl, hm]
    have h1 : ¬ p.y < a.y := by rw [e1]; exact lt_irrefl _
    rcases lt_or_gt_of_ne hx with hlt | hgt
    · rw [if_pos ⟨by tauto, hlt⟩, if_pos ⟨e1.symm, hlt⟩, if_neg (by rintro ⟨h, -⟩; linarith)]; rfl
    · rw [if_neg (by rintro ⟨-, h⟩; linarith), if_neg (by rintro ⟨-, h⟩; linarith), if_neg (by rintro ⟨h, -⟩; linarith)]; rfl
  rcases ha.eq_or_lt with ea | la <;> rcases hb.eq_or_lt with eb | lb
  · rw [cr_zero (by rw [← ea, ← eb])]
    have hxa : p.x ≠ a.x := fun e => hpa (by ext <;> assumption)
    have hxb : p.x ≠ b.x := fun e => hpb (by ext <;> assumption)
    have same : (p.x < a.x ↔ p.x < b.x) := by
      by_contra hne
      have key : ∃ l : ℝ, 0 ≤ l ∧ l ≤ 1 ∧ p.x = a.x + l * (b.x - a.x) := by
        have hd : b.x - a.x ≠ 0 := by
          intro e
          have : b.x = a.x := by linarith
          rw [this] at hne
          exact hne Iff.rfl
        refine ⟨(p.x - a.x) / (b.x - a.x), ?_, ?_, by field_simp; ring⟩
        · rcases lt_or_gt_of_ne hxa with h1 | h1 <;> rcases lt_or_gt_of_ne hxb with h2 | h2
          · exact absurd ⟨fun _ => h2, fun _ => h1⟩ hne
          · exact div_nonneg_of_nonpos (by linarith) (by linarith)
          · exact div_nonneg (by linarith) (by linarith)
          · exact absurd ⟨fun h => by linarith, fun h => by linarith⟩ hne
        · rcases lt_or_gt_of_ne hxa with h1 | h1 <;> rcases lt_or_gt_of_ne hxb with h2 | h2
          · exact absurd ⟨fun _ => h2, fun _ => h1⟩ hne
          · rw [div_le_one_of_neg (by linarith)]; linarith
          · rw [div_le_one (by linarith)]; linarith
          · exact absurd ⟨fun h => by linarith, fun h => by linarith⟩ hne
      obtain ⟨l, l0, l1, hl⟩ := key
      exact h ⟨l, l0, l1, by ext <;> simp only [hl]; rw [← ea, ← eb]; ring⟩
    unfold offRay
    by_cases hx : p.x < a.x
    · rw [if_pos ⟨ea.symm, hx⟩, if_pos ⟨eb.symm, same.1 hx⟩]; rfl
    · rw [if_neg (by tauto), if_neg (by tauto)]; rfl
  · exact one a b hpa ea lb
  · rw [cr_symm, one b a hpb eb la, add_comm]
  · rw [cr_zero (by tauto)]
    unfold offRay
    rw [if_neg (by rintro ⟨h, -⟩; linarith), if_neg (by rintro ⟨h, -⟩; linarith)]; rfl

theorem walk_upper {p : Vec ℝ} : ∀ (l : List (Vec ℝ)) (a b : Vec ℝ), (∀ v ∈ l, p.y ≤ v.y) → (∀ e ∈ pairs l, ¬ OnSegment e.1 e.2 p) →
    l.head? = some a → l.getLast? = some b → walk p l = offRay p a + offRay p b
  | [], a, b, _, _, h, _ => by simp at h
  | [c], a, b, _, _, h1, h2 => by
    simp only [List.head?_cons, Option.some.injEq, List.getLast?_singleton] at h1 h2
    subst h1 h2
    rw [walk, two_self]
  | c :: d :: l, a, b, h, hs, h1, h2 => by
    simp only [List.head?_cons, Option.some.injEq] at h1
    subst h1
    rw [List.getLast?_cons_cons] at h2
    rw [walk, walk_upper (d :: l) d b (fun v hv => h v (by simp [hv])) (fun e he => hs e (by simp [pairs, he])) rfl h2,
      cr_upper (h c (by simp)) (h d (by simp)) (hs (c, d) (by simp [pairs]))]
    have := two_self (offRay p d)
    linear_combination this

/-- A closed line that goes from one side of the point to the other above it, and back below it. -/
theorem within_halves {p : Vec ℝ} {A B : List (Vec ℝ)} {a b : Vec ℝ} (hA : A.head? = some a) (hB : B.head? = some b)
    (hu : ∀ v ∈ A, p.y ≤ v.y) (hl : ∀ v ∈ B, v.y ≤ p.y) (ha : a.y = p.y) (hb : b.y = p.y)
    (hab : p.x < a.x ∧ b.x < p.x ∨ a.x < p.x ∧ p.x < b.x) (hs : ∀ e ∈ sides (A ++ B), ¬ OnSegment e.1 e.2 p) : WithinLine (A ++ B) p := by
  rw [within_walk]
  have hh : (A ++ B).head? = some a := by rw [List.head?_append, hA]; rfl
  rw [hh, Option.toList_some]
  obtain ⟨B', rfl⟩ : ∃ B', B = b :: B' := by
    cases B with
    | nil => simp at hB
    | cons x B' => simp only [List.head?_cons, Option.some.injEq] at hB; exact ⟨B', by rw [hB]⟩
  have e : A ++ b :: B' ++ [a] = A ++ b :: (B' ++ [a]) := by simp
  rw [e, walk_append, walk_lower (b :: (B' ++ [a])), add_zero,
    walk_upper (A ++ [b]) a b]
  · unfold offRay
    rcases hab with ⟨h1, h2⟩ | ⟨h1, h2⟩
    · rw [if_pos ⟨ha, h1⟩, if_neg (by rintro ⟨-, h⟩; linarith)]; rfl
    · rw [if_neg (by rintro ⟨-, h⟩; linarith), if_pos ⟨hb, h2⟩]; rfl
  · intro v hv
    rcases List.mem_append.1 hv with hv | hv
    · exact hu v hv
    · simp only [List.mem_singleton] at hv
      rw [hv, hb]
  · intro x hx
    refine hs x ?_
    rw [sides_pairs, hh, Option.toList_some, e]
    have : ∀ (x : List (Vec ℝ)) (q : Vec ℝ) (y : List (Vec ℝ)) (e : Vec ℝ × Vec ℝ), e ∈ pairs (x ++ [q]) → e ∈ pairs (x ++ q :: y) := by
      intro x
      induction x with
      | nil => intro q y e he; simp [pairs] at he
      | cons z x ih =>
        intro q y e he
        cases x with
        | nil =>
          simp only [List.cons_append, List.nil_append, pairs, List.mem_cons, List.not_mem_nil, or_false] at he ⊢
          exact .inl he
        | cons w x =>
          simp only [List.cons_append, pairs, List.mem_cons] at he ⊢
          rcases he with he | he
          · exact .inl he
          · exact .inr (ih q y e he)
    exact this _ _ _ _ hx
  · rw [List.head?_append, hA]; rfl
  · simp
  · intro v hv
    rcases List.mem_cons.1 hv with rfl | hv
    · exact hb.le
    · rcases List.mem_append.1 hv with hv | hv
      · exact hl v (List.mem_cons_of_mem _ hv)
      · simp only [List.mem_singleton] at hv
        rw [hv, ha]

/-! ### Joined points -/

/-- Polygons along an outline contain both ends or none of a path that does not meet the outline. -/
theorem joined {s : Shape} (hn : ∀ g ∈ s.segments, NotClosed g) {path : ℝ → Vec ℝ} (hx : Continuous fun t => (path t).x)
    (hy : Continuous fun t => (path t).y) (hp : ∀ t, 0 ≤ t → t ≤ 1 → ¬ OnRim s (path t)) :
    ∃ ε > 0, ∀ traces, List.Forall₂ (Along ε) s.segments traces → (WithinLine traces.flatten (path 0) ↔ WithinLine traces.flatten (path 1)) := by
  let f : ℝ → ℝ × ℝ := fun t => ((path t).x, (path t).y)
  have hf : Continuous f := hx.prodMk hy
  have hc : IsCompact (f '' Set.Icc 0 1) := isCompact_Icc.image hf
  have hd : Disjoint (f '' Set.Icc 0 1) (pairsOf (OnRim s)) := by
    rw [Set.disjoint_left]
    rintro _ ⟨t, ⟨t0, t1⟩, rfl⟩ h
    exact hp t t0 t1 h
  obtain ⟨δ, hδ, hδd⟩ := hd.exists_thickenings hc (rim_compact hn).isClosed
  have far : ∀ t, 0 ≤ t → t ≤ 1 → ∀ v, OnRim s v → ¬ Close (δ / 2) (path t) v := by
    intro t t0 t1 v hv hcl
    refine (Set.disjoint_left.1 hδd : ∀ ⦃a⦄, _ → _) (Metric.self_subset_thickening hδ _ ⟨t, ⟨t0, t1⟩, rfl⟩) ?_
    rw [Metric.mem_thickening_iff]
    refine ⟨(v.x, v.y), hv, ?_⟩
    rw [Prod.dist_eq, max_lt_iff, Real.dist_eq, Real.dist_eq]
    exact ⟨lt_of_le_of_lt hcl.1 (by linarith), lt_of_le_of_lt hcl.2 (by linarith)⟩
  refine ⟨δ / 4, by linarith, fun traces ht => ?_⟩
  have near : ∀ t, 0 ≤ t → t ≤ 1 → ∀ q, Close (δ / 4) q (path t) → (WithinLine traces.flatten (path t) ↔ WithinLine traces.flatten q) := by
    intro t t0 t1 q hq
    have h2 := Props.Pixels.within_near (δ := δ / 4) traces.flatten id id (path t) q (fun v _ => ?_) fun e he hne => ?_
    · rwa [List.map_id] at h2
    · simp only [id]
      rw [show v.x - (path t).x - (v.x - q.x) = q.x - (path t).x by ring, show v.y - (path t).y - (v.y - q.y) = q.y - (path t).y by ring]
      exact hq
    · obtain ⟨v, hv, hc⟩ := side_near (by linarith) hn ht he hne
      exact far t t0 t1 v hv (close_mono hc (by linarith))
  have hpc : IsPreconnected (Set.Icc (0 : ℝ) 1) := isPreconnected_Icc
  let S : Set ℝ := {t | WithinLine traces.flatten (path (max 0 (min t 1))) ↔ WithinLine traces.flatten (path 0)}
  have hm : ∀ t : ℝ, 0 ≤ max 0 (min t 1) ∧ max 0 (min t 1) ≤ 1 := fun t => ⟨le_max_left _ _, max_le zero_le_one (min_le_right _ _)⟩
  have hcx : Continuous fun t : ℝ => (path (max 0 (min t 1))).x := hx.comp (continuous_const.max (continuous_id.min continuous_const))
  have hcy : Continuous fun t : ℝ => (path (max 0 (min t 1))).y := hy.comp (continuous_const.max (continuous_id.min continuous_const))
  have nbhd : ∀ t, ∃ U, IsOpen U ∧ t ∈ U ∧ ∀ u ∈ U,
      (WithinLine traces.flatten (path (max 0 (min t 1))) ↔ WithinLine traces.flatten (path (max 0 (min u 1)))) := by
    intro t
    refine ⟨{u | |(path (max 0 (min u 1))).x - (path (max 0 (min t 1))).x| < δ / 4} ∩
      {u | |(path (max 0 (min u 1))).y - (path (max 0 (min t 1))).y| < δ / 4},
      (isOpen_lt (hcx.sub continuous_const).abs continuous_const).inter (isOpen_lt (hcy.sub continuous_const).abs continuous_const), ⟨?_, ?_⟩, ?_⟩
    · rw [Set.mem_ofPred_eq, sub_self, abs_zero]; linarith
    · rw [Set.mem_ofPred_eq, sub_self, abs_zero]; linarith
    · intro u hu
      exact near _ (hm t).1 (hm t).2 _ ⟨le_of_lt hu.1, le_of_lt hu.2⟩
  have hS : IsClopen S := by
    constructor
    · rw [← isOpen_compl_iff, isOpen_iff_forall_mem_open]
      intro t ht
      obtain ⟨U, h1, h2, h3⟩ := nbhd t
      exact ⟨U, fun u hu hS => ht ((h3 u hu).trans hS), h1, h2⟩
    · rw [isOpen_iff_forall_mem_open]
      intro t ht
      obtain ⟨U, h1, h2, h3⟩ := nbhd t
      exact ⟨U, fun u hu => (h3 u hu).symm.trans ht, h1, h2⟩
  have hu : S = Set.univ := hS.eq_univ ⟨0, by show _ ↔ _; rw [show max (0 : ℝ) (min 0 1) = 0 by norm_num]⟩
  have h1 : (1 : ℝ) ∈ S := by rw [hu]; trivial
  have h1 : WithinLine traces.flatten (path (max 0 (min 1 1))) ↔ _ := h1
  rw [show max (0 : ℝ) (min 1 1) = 1 by norm_num] at h1
  exact h1.symm

theorem along_mono {ε δ : ℝ} (h : ε ≤ δ) {g : Segment} {tr : List (Vec ℝ)} (ht : Along ε g tr) : Along δ g tr := by
  unfold Along at *
  have : ε / arcRadius g ≤ δ / arcRadius g := by
    apply div_le_div_of_nonneg_right h
    cases g with
    | line _ => exact zero_le_one
    | arc a => exact Real.sqrt_nonneg _
  cases g with
  | line l => exact ht
  | arc a =>
    obtain ⟨t, offs, h1, h2, h3⟩ := ht
    exact ⟨t, offs, h1, Props.Arcs.discretises_mono h2 this, h3⟩

theorem forall₂_split {α β : Type} {R : α → β → Prop} {A B : List α} : ∀ {l : List β}, List.Forall₂ R (A ++ B) l →
    ∃ x y, l = x ++ y ∧ List.Forall₂ R A x ∧ List.Forall₂ R B y := by
  induction A with
  | nil => intro l h; exact ⟨[], l, rfl, .nil, h⟩
  | cons a A ih =>
    intro l h
    cases h with
    | cons h1 h2 =>
      obtain ⟨x, y, rfl, h3, h4⟩ := ih h2
      exact ⟨_ :: x, y, rfl, .cons h1 h3, h4⟩

/-- The outline is cut in two by a line through the point `c` in the direction `u`: the pieces on one side of the line begin on
one side of the point, the pieces on the other side begin on the other side of the point. -/
def Halved (s : Shape) (c u : Vec ℝ) : Prop :=
  ∃ g A h B, s.segments = (g :: A) ++ (h :: B) ∧ (∀ x ∈ g :: A, ∀ v, OnPiece v x → 0 ≤ cross u (v - c)) ∧
    (∀ x ∈ h :: B, ∀ v, OnPiece v x → cross u (v - c) ≤ 0) ∧
    ∃ α β : ℝ, 0 < α * β ∧ g.start - c = ⟨α * u.x, α * u.y⟩ ∧ h.start - c = ⟨-β * u.x, -β * u.y⟩

theorem halved_within {s : Shape} (hn : ∀ g ∈ s.segments, NotClosed g) {c u : Vec ℝ} (hc : ¬ OnRim s c) (h : Halved s c u) :
    ∃ ε > 0, ∀ traces, List.Forall₂ (Along ε) s.segments traces → WithinLine traces.flatten c := by
  obtain ⟨g, A, k, B, hs, hA, hB, α, β, hαβ, hg, hk⟩ := h
  obtain ⟨δ, hδ, hd⟩ := away (rim_compact hn) hc
  refine ⟨δ, hδ, fun traces ht => ?_⟩
  -- the direction is not zero
  have hu : u ≠ ⟨0, 0⟩ := by
    rintro rfl
    apply hc
    have : g.start = c := by
      have h1 := congrArg Vec.x hg
      have h2 := congrArg Vec.y hg
      simp only [mul_zero, Vec.sub_x, Vec.sub_y] at h1 h2
      ext <;> linarith
    obtain ⟨tr, -, h1⟩ : ∃ tr ∈ traces, Along δ g tr := by
      rw [hs, List.cons_append] at ht
      cases ht with
      | cons h1 _ => exact ⟨_, by simp, h1⟩
    have h2 := along_head h1
    rw [← this]
    exact .inl ⟨g, by rw [hs]; simp, along_on h1 (List.mem_of_head? h2)⟩
  have off : ∀ e ∈ sides traces.flatten, ¬ OnSegment e.1 e.2 c := by
    rintro e he ⟨l, l0, l1, h⟩
    obtain ⟨v, hv, hc⟩ := side_near hδ.le hn ht (δ := 0) he (p := c) ⟨l, l0, l1, by rw [h]; simp only; rw [abs_le]; constructor <;> linarith, by rw [h]; simp only; rw [abs_le]; constructor <;> linarith⟩
    exact hd v hv (by rwa [zero_add] at hc)
  -- turn the direction to the right
  have hn0 : 0 < nsq u := by
    unfold nsq
    rcases lt_or_eq_of_le (add_nonneg (sq_nonneg u.x) (sq_nonneg u.y)) with h | h
    · exact h
    · exfalso
      apply hu
      have h1 : u.x = 0 := by nlinarith [sq_nonneg u.x, sq_nonneg u.y]
      have h2 : u.y = 0 := by nlinarith [sq_nonneg u.x, sq_nonneg u.y]
      ext <;> assumption
  obtain ⟨t, -, -, htu⟩ := exists_angle (u := u) (v := ⟨Real.sqrt (nsq u), 0⟩) (by
    rw [show nsq (⟨Real.sqrt (nsq u), 0⟩ : Vec ℝ) = nsq u by
      rw [nsq]; simp only; rw [Real.sq_sqrt hn0.le]; ring])
  rw [← within_spin traces.flatten c off t]
  rw [hs, List.cons_append] at ht
  have hq := Real.sqrt_pos.2 hn0
  obtain ⟨tA, tB, rfl, hAt, hBt⟩ : ∃ tA tB, traces = tA ++ tB ∧ List.Forall₂ (Along δ) (g :: A) tA ∧ List.Forall₂ (Along δ) (k :: B) tB := by
    rw [← List.cons_append] at ht
    exact forall₂_split ht
  have side : ∀ v, (spin c t v).y - c.y = cross u (v - c) / Real.sqrt (nsq u) := by
    intro v
    have h1 : cross (rotCcw t u) (rotCcw t (v - c)) = cross u (v - c) := cross_rot ..
    rw [htu] at h1
    rw [← h1, cross]
    simp only [spin, Vec.add_y]
    field_simp
    ring
  have place : ∀ (v : Vec ℝ) (l : ℝ), v - c = ⟨l * u.x, l * u.y⟩ → spin c t v = c + ⟨l * Real.sqrt (nsq u), 0⟩ := by
    intro v l hv
    have h1 : rotCcw t (v - c) = ⟨l * (rotCcw t u).x, l * (rotCcw t u).y⟩ := by
      rw [hv]; ext <;> simp only [rotCcw] <;> ring
    rw [spin, h1, htu, mul_zero]
  have e0 : ((tA ++ tB).flatten).map (spin c t) = tA.flatten.map (spin c t) ++ tB.flatten.map (spin c t) := by simp
  rw [e0]
  refine within_halves (a := spin c t g.start) (b := spin c t k.start) ?_ ?_ ?_ ?_ ?_ ?_ ?_ ?_
  · rw [List.head?_map, flatten_head (fun _ _ h => along_head h) hAt]; rfl
  · rw [List.head?_map, flatten_head (fun _ _ h => along_head h) hBt]; rfl
  · intro v hv
    obtain ⟨w, hw, rfl⟩ := List.mem_map.1 hv
    obtain ⟨tr, htr, hw⟩ := List.mem_flatten.1 hw
    obtain ⟨x, hx, hx'⟩ := forall₂_mem hAt tr htr
    have := side w
    have h2 : 0 ≤ cross u (w - c) / Real.sqrt (nsq u) := div_nonneg (hA x hx w (along_on hx' hw)) hq.le
    linarith
  · intro v hv
    obtain ⟨w, hw, rfl⟩ := List.mem_map.1 hv
    obtain ⟨tr, htr, hw⟩ := List.mem_flatten.1 hw
    obtain ⟨x, hx, hx'⟩ := forall₂_mem hBt tr htr
    have := side w
    have h2 : cross u (w - c) / Real.sqrt (nsq u) ≤ 0 := div_nonpos_of_nonpos_of_nonneg (hB x hx w (along_on hx' hw)) hq.le
    linarith
  · rw [place _ _ hg]; simp
  · rw [place _ _ hk]; simp
  · rw [place _ _ hg, place _ _ hk]
    simp only [Vec.add_x]
    rcases mul_pos_iff.1 hαβ with ⟨h1, h2⟩ | ⟨h1, h2⟩
    · left; constructor <;> nlinarith
    · right; constructor <;> nlinarith
  · intro e he
    rw [← e0, sides_map, List.mem_map] at he
    obtain ⟨e, he, rfl⟩ := he
    rintro ⟨l, l0, l1, h⟩
    apply off e he
    refine ⟨l, l0, l1, ?_⟩
    obtain ⟨w, hw⟩ : ∃ w : Vec ℝ, w = ⟨e.1.x + l * (e.2.x - e.1.x), e.1.y + l * (e.2.y - e.1.y)⟩ := ⟨_, rfl⟩
    have h1 : spin c t w = c := by
      have h1 := congrArg Vec.x h
      have h2 := congrArg Vec.y h
      rw [hw]
      simp only [spin, rotCcw, Vec.add_x, Vec.add_y, Vec.sub_x, Vec.sub_y, Prod.map] at h1 h2
      ext <;> simp only [spin, rotCcw, Vec.add_x, Vec.add_y, Vec.sub_x, Vec.sub_y]
      · linear_combination -h1
      · linear_combination -h2
    have h2 : rotCcw t (w - c) = ⟨0, 0⟩ := by
      have := congrArg Vec.x h1
      have h3 := congrArg Vec.y h1
      simp only [spin, Vec.add_x, Vec.add_y] at this h3
      ext
      · linarith
      · linarith
    have h3 : w - c = ⟨0, 0⟩ := by
      rw [← rot_back' t (w - c), h2]
      ext <;> simp [rotCcw]
    rw [← hw]
    have h4 := congrArg Vec.x h3
    have h5 := congrArg Vec.y h3
    simp only [Vec.sub_x, Vec.sub_y] at h4 h5
    ext <;> linarith

/-- An outline goes round what it encloses once if the polygons contain a point and the enclosed points can be joined to this point. -/
theorem once {s : Shape} (hn : ∀ g ∈ s.segments, NotClosed g) {c : Vec ℝ}
    (h : ¬ OnRim s c → ∃ ε > 0, ∀ traces, List.Forall₂ (Along ε) s.segments traces → WithinLine traces.flatten c)
    (hj : ∀ p ∈ areaOf s, ¬ OnRim s p → ∃ path : ℝ → Vec ℝ, Continuous (fun t => (path t).x) ∧ Continuous (fun t => (path t).y) ∧
      path 0 = p ∧ path 1 = c ∧ ∀ t, 0 ≤ t → t ≤ 1 → ¬ OnRim s (path t)) : GoesRoundOnce s := by
  intro p hp hr
  obtain ⟨path, hx, hy, h0, h1, hpath⟩ := hj p hp hr
  obtain ⟨ε, hε, h2⟩ := joined hn hx hy hpath
  obtain ⟨δ, hδ, h3⟩ := h (by rw [← h1]; exact hpath 1 zero_le_one le_rfl)
  refine ⟨min ε δ, lt_min hε hδ, fun traces ht => ?_⟩
  rw [← h0, h2 traces (ht.imp fun _ _ h => along_mono (min_le_left _ _) h), h1]
  exact h3 traces (ht.imp fun _ _ h => along_mono (min_le_right _ _) h)

/-! ### Crossing a straight side -/

/-- Disjoint compact curves have a distance. -/
theorem apart {c d : Vec ℝ → Prop} (hc : IsCompact (pairsOf c)) (hd : IsCompact (pairsOf d)) (h : ∀ v, c v → ¬ d v) :
    ∃ δ > 0, ∀ v w, c v → d w → ¬ Close δ v w := by
  have hdis : Disjoint (pairsOf c) (pairsOf d) := by
    rw [Set.disjoint_left]
    intro a h1 h2
    exact h _ h1 h2
  obtain ⟨δ, hδ, hδd⟩ := hdis.exists_thickenings hc hd.isClosed
  refine ⟨δ / 2, by linarith, fun v w hv hw hcl => ?_⟩
  refine (Set.disjoint_left.1 hδd : ∀ ⦃a⦄, _ → _) (Metric.self_subset_thickening hδ _ (show (v.x, v.y) ∈ pairsOf c from hv)) ?_
  rw [Metric.mem_thickening_iff]
  refine ⟨(w.x, w.y), hw, ?_⟩
  rw [Prod.dist_eq, max_lt_iff, Real.dist_eq, Real.dist_eq]
  exact ⟨lt_of_le_of_lt hcl.1 (by linarith), lt_of_le_of_lt hcl.2 (by linarith)⟩

theorem within_rot (L : List (Vec ℝ)) (p : Vec ℝ) (hp : ∀ e ∈ sides L, ¬ OnSegment e.1 e.2 p) (t : ℝ) :
    WithinLine (L.map (rotCcw t)) (rotCcw t p) ↔ WithinLine L p := by
  rw [← within_spin L p hp t]
  have h := Props.Pixels.within_near (δ := 0) L (rotCcw t) (spin p t) (rotCcw t p) p (fun v _ => ?_) fun e he hne => ?_
  · exact h
  · constructor
    · rw [show (rotCcw t v).x - (rotCcw t p).x - ((spin p t v).x - p.x) = 0 by simp only [spin, rotCcw, Vec.add_x, Vec.sub_x, Vec.sub_y]; ring, abs_zero]
    · rw [show (rotCcw t v).y - (rotCcw t p).y - ((spin p t v).y - p.y) = 0 by simp only [spin, rotCcw, Vec.add_y, Vec.sub_x, Vec.sub_y]; ring, abs_zero]
  · obtain ⟨l, l0, l1, h1, h2⟩ := hne
    have h1 := abs_nonpos_iff.1 h1
    have h2 := abs_nonpos_iff.1 h2
    apply hp e he
    refine ⟨l, l0, l1, rot_inj t _ _ ?_⟩
    simp only at h1 h2
    ext
    · rw [sub_eq_zero.1 h1]; simp only [rotCcw]; ring
    · rw [sub_eq_zero.1 h2]; simp only [rotCcw]; ring

open Classical in
/-- A side that a horizontal segment does not meet. -/
theorem cr_same {p p' a b : Vec ℝ} (hy : p.y = p'.y) (hx : p.x ≤ p'.x) (h : ∀ v, OnSegment p p' v → ¬ OnSegment a b v) : cr p a b = cr p' a b := by
  unfold cr
  refine if_congr ?_ rfl rfl
  rw [crosses_iff, crosses_iff, ← hy]
  refine and_congr_right fun hs => ?_
  obtain ⟨t, t0, t1, h1, h2⟩ := meet_mean hs
  have hm : meet p' a b = meet p a b := by unfold meet; rw [hy]
  rw [hm]
  constructor
  · intro h3
    by_contra h4
    push Not at h4
    have hd : p'.x - p.x ≠ 0 := by intro e; linarith
    have hd0 : 0 < p'.x - p.x := lt_of_le_of_ne (by linarith) hd.symm
    refine h ⟨meet p a b, p.y⟩ ⟨(meet p a b - p.x) / (p'.x - p.x), div_nonneg (by linarith) hd0.le, (div_le_one hd0).2 (by linarith), ?_⟩
      ⟨t, t0, t1, ?_⟩
    · ext
      · simp only; field_simp; ring
      · simp only; rw [hy]; ring
    · ext
      · simp only; rw [h1]; ring
      · simp only; linear_combination h2
  · intro h3; linarith

theorem walk_same {p p' : Vec ℝ} (hy : p.y = p'.y) (hx : p.x ≤ p'.x) : ∀ l : List (Vec ℝ),
    (∀ e ∈ pairs l, ∀ v, OnSegment p p' v → ¬ OnSegment e.1 e.2 v) → walk p l = walk p' l
  | [], _ => rfl
  | [_], _ => rfl
  | a :: b :: l, h => by
    rw [walk, walk, cr_same hy hx (h (a, b) (by simp [pairs])), walk_same hy hx (b :: l) fun e he => h e (by simp [pairs, he])]

open Classical in
theorem cr_flip {p p' a b : Vec ℝ} (hy : p.y = p'.y) (hx : p.x < p'.x) {x y : ℝ} (x0 : 0 < x) (x1 : x < 1) (y0 : 0 < y) (y1 : y < 1)
    (hab : a.y ≠ b.y) (h1 : p.x + x * (p'.x - p.x) = a.x + y * (b.x - a.x)) (h2 : p.y = a.y + y * (b.y - a.y)) : cr p a b = 1 ∧ cr p' a b = 0 := by
  have hs : p.y < a.y ↔ ¬ p.y < b.y := by
    rw [h2]
    rcases lt_or_gt_of_ne hab with h | h
    · constructor
      · intro h3; nlinarith
      · intro h3; exact absurd (by nlinarith) h3
    · constructor
      · intro h3 h4; nlinarith
      · intro h3; nlinarith
  have hm : meet p a b = p.x + x * (p'.x - p.x) := by
    rw [h1]
    unfold meet
    have : b.y - a.y ≠ 0 := fun e => hab (by linarith)
    rw [h2]; field_simp; ring
  have hm' : meet p' a b = meet p a b := by unfold meet; rw [hy]
  constructor
  · unfold cr
    rw [if_pos]
    rw [crosses_iff]
    exact ⟨hs, by rw [hm]; nlinarith⟩
  · unfold cr
    rw [if_neg]
    rw [crosses_iff]
    rintro ⟨-, h⟩
    rw [hm', hm] at h
    nlinarith

/-- A straight path from `c` to a point outside crosses the outline once, where its two pieces are joined. -/
structure Crossed (s : Shape) (c c' : Vec ℝ) : Prop where
  out : c' ∉ areaOf s
  pieces : ∃ g h neg, s = ⟨g, [h], neg⟩ ∧ (∀ v, OnSegment c c' v → ¬ OnPiece v g ∧ ¬ OnPiece v h ∧ ¬ OnSegment h.stop g.start v) ∧
    (∃ x y : ℝ, 0 < x ∧ x < 1 ∧ 0 < y ∧ y < 1 ∧ c.x + x * (c'.x - c.x) = g.stop.x + y * (h.start.x - g.stop.x) ∧
      c.y + x * (c'.y - c.y) = g.stop.y + y * (h.start.y - g.stop.y)) ∧ cross (c' - c) (h.start - g.stop) ≠ 0

/-- The polygons do not contain points outside. -/
theorem not_within {s : Shape} (hn : ∀ g ∈ s.segments, NotClosed g) {p : Vec ℝ} (hp : p ∉ areaOf s) :
    ∃ ε > 0, ∀ traces, List.Forall₂ (Along ε) s.segments traces → ¬ WithinLine traces.flatten p := by
  obtain ⟨ε, hε, hd⟩ := away (rim_compact hn) (p := p) fun h => hp (surrounded_self h)
  refine ⟨ε, hε, fun traces ht hw => hp ?_⟩
  obtain ⟨V, rfl, hV, hW⟩ := refinements hn ht
  have hle : ∀ k : ℕ, ε / 2 ^ k ≤ ε := fun k => div_le_self hε.le (one_le_pow₀ (by norm_num))
  have all : ∀ k, WithinLine (V 0).flatten p ↔ WithinLine (V k).flatten p := by
    intro k
    induction k with
    | zero => exact Iff.rfl
    | succ k ih =>
      rw [ih]
      exact hW k p fun g hg v hv hc => hd v (.inl ⟨g, hg, hv⟩) (close_mono hc (hle k))
  exact enclosed hn hε hV hW (k₀ := 0) fun k _ => (all k).1 hw

theorem onSegment_rot {a b v : Vec ℝ} (t : ℝ) : OnSegment (rotCcw t a) (rotCcw t b) v ↔ ∃ w, v = rotCcw t w ∧ OnSegment a b w := by
  constructor
  · rintro ⟨l, l0, l1, rfl⟩
    exact ⟨_, by ext <;> simp only [rotCcw] <;> ring, l, l0, l1, rfl⟩
  · rintro ⟨w, rfl, l, l0, l1, rfl⟩
    exact ⟨l, l0, l1, by ext <;> simp only [rotCcw] <;> ring⟩

theorem pairs_map (f : Vec ℝ → Vec ℝ) : ∀ l : List (Vec ℝ), pairs (l.map f) = (pairs l).map (Prod.map f f)
  | [] => rfl
  | [_] => rfl
  | a :: b :: l => by
    have := pairs_map f (b :: l)
    simp only [List.map_cons, pairs] at this ⊢
    rw [this]; rfl

theorem crossed_within {s : Shape} (hn : ∀ g ∈ s.segments, NotClosed g) {c c' : Vec ℝ} (hc : ¬ OnRim s c) (h : Crossed s c c') :
    ∃ ε > 0, ∀ traces, List.Forall₂ (Along ε) s.segments traces → WithinLine traces.flatten c := by
  obtain ⟨hout, g, k, neg, rfl, hmiss, ⟨x, y, x0, x1, y0, y1, hx, hy⟩, hcr⟩ := h
  have hc' : ¬ OnRim ⟨g, [k], neg⟩ c' := fun h => hout (surrounded_self h)
  have hg : NotClosed g := hn g (by simp [Shape.segments])
  have hk : NotClosed k := hn k (by simp [Shape.segments])
  obtain ⟨δ₁, hδ₁, hd₁⟩ := apart (segment_compact c c') (piece_compact hg) fun v hv => (hmiss v hv).1
  obtain ⟨δ₂, hδ₂, hd₂⟩ := apart (segment_compact c c') (piece_compact hk) fun v hv => (hmiss v hv).2.1
  obtain ⟨δ₃, hδ₃, hd₃⟩ := not_within hn hout
  obtain ⟨δ₄, hδ₄, hd₄⟩ := away (rim_compact hn) hc
  obtain ⟨δ₅, hδ₅, hd₅⟩ := away (rim_compact hn) hc'
  obtain ⟨ε, hε, e1, e2, e3, e4, e5⟩ : ∃ ε > 0, ε ≤ δ₁ ∧ ε ≤ δ₂ ∧ ε ≤ δ₃ ∧ ε ≤ δ₄ ∧ ε ≤ δ₅ :=
    ⟨min δ₁ (min δ₂ (min δ₃ (min δ₄ δ₅))), by positivity, by simp, by simp, by simp, by simp, by simp⟩
  refine ⟨ε, hε, fun traces ht => ?_⟩
  have even := hd₃ traces (ht.imp fun _ _ h => along_mono e3 h)
  have off : ∀ {p : Vec ℝ} {δ : ℝ}, ε ≤ δ → (∀ v, OnRim ⟨g, [k], neg⟩ v → ¬ Close δ p v) → ∀ e ∈ sides traces.flatten, ¬ OnSegment e.1 e.2 p := by
    rintro p δ hδ hd e he ⟨l, l0, l1, h⟩
    obtain ⟨v, hv, hc⟩ := side_near hε.le hn ht (δ := 0) he (p := p) ⟨l, l0, l1, by rw [h]; simp only; rw [abs_le]; constructor <;> linarith, by rw [h]; simp only; rw [abs_le]; constructor <;> linarith⟩
    exact hd v hv (close_mono hc (by linarith))
  -- turn the path to the right
  have hu : c' - c ≠ ⟨0, 0⟩ := by
    intro h
    rw [h] at hcr
    exact hcr (by simp [cross])
  have hn0 : 0 < nsq (c' - c) := by
    unfold nsq
    rcases lt_or_eq_of_le (add_nonneg (sq_nonneg (c' - c).x) (sq_nonneg (c' - c).y)) with h | h
    · exact h
    · exfalso
      apply hu
      have h1 : (c' - c).x = 0 := by nlinarith [sq_nonneg (c' - c).x, sq_nonneg (c' - c).y]
      have h2 : (c' - c).y = 0 := by nlinarith [sq_nonneg (c' - c).x, sq_nonneg (c' - c).y]
      ext <;> assumption
  obtain ⟨t, -, -, htu⟩ := exists_angle (u := c' - c) (v := ⟨Real.sqrt (nsq (c' - c)), 0⟩) (by
    rw [show nsq (⟨Real.sqrt (nsq (c' - c)), 0⟩ : Vec ℝ) = nsq (c' - c) by
      rw [nsq]; simp only; rw [Real.sq_sqrt hn0.le]; ring])
  have hq := Real.sqrt_pos.2 hn0
  rw [← within_rot traces.flatten c (off e4 hd₄) t]
  rw [← within_rot traces.flatten c' (off e5 hd₅) t] at even
  obtain ⟨tg, tk, rfl, hgt, hkt⟩ : ∃ tg tk, traces = [tg, tk] ∧ Along ε g tg ∧ Along ε k tk := by
    cases ht with
    | cons h1 h2 =>
      cases h2 with
      | cons h2 h3 =>
        cases h3
        exact ⟨_, _, rfl, h1, h2⟩
  have hR : ∀ v w : Vec ℝ, rotCcw t v - rotCcw t w = rotCcw t (v - w) := rot_sub t
  have ry : (rotCcw t c).y = (rotCcw t c').y := by
    have := congrArg Vec.y ((hR c' c).trans htu)
    simp only [Vec.sub_y] at this
    linarith
  have rx : (rotCcw t c).x < (rotCcw t c').x := by
    have := congrArg Vec.x ((hR c' c).trans htu)
    simp only [Vec.sub_x] at this
    linarith
  have missed : ∀ {z : Segment} {tr : List (Vec ℝ)} {δ : ℝ}, NotClosed z → Along ε z tr → ε ≤ δ →
      (∀ v w, OnSegment c c' v → OnPiece w z → ¬ Close δ v w) →
      ∀ e ∈ pairs (tr.map (rotCcw t)), ∀ v, OnSegment (rotCcw t c) (rotCcw t c') v → ¬ OnSegment e.1 e.2 v := by
    intro z tr δ hz htr hδ hd e he v hv hve
    rw [pairs_map, List.mem_map] at he
    obtain ⟨e, he, rfl⟩ := he
    rw [onSegment_rot] at hv
    obtain ⟨w, rfl, hw⟩ := hv
    obtain ⟨w', hw', hwe⟩ := (onSegment_rot t).1 hve
    rw [← rot_inj t _ _ hw'] at hwe
    obtain ⟨l, l0, l1, hl⟩ := hwe
    obtain ⟨q, hq, hqc⟩ := along_near hε.le hz htr (δ := 0) he (p := w) ⟨l, l0, l1, by rw [hl]; simp only; rw [abs_le]; constructor <;> linarith, by rw [hl]; simp only; rw [abs_le]; constructor <;> linarith⟩
    exact hd w q hw hq (close_mono hqc (by linarith))
  have w1 := walk_same ry rx.le _ (missed hg hgt e1 hd₁)
  have w2 := walk_same ry rx.le _ (missed hk hkt e2 hd₂)
  have w3 : cr (rotCcw t c) (rotCcw t k.stop) (rotCcw t g.start) = cr (rotCcw t c') (rotCcw t k.stop) (rotCcw t g.start) := by
    refine cr_same ry rx.le fun v hv hve => ?_
    rw [onSegment_rot] at hv hve
    obtain ⟨w, rfl, hw⟩ := hv
    obtain ⟨w', hw', hwe⟩ := hve
    rw [← rot_inj t _ _ hw'] at hwe
    exact (hmiss w hw).2.2 hwe
  obtain ⟨f1, f2⟩ := cr_flip (p := rotCcw t c) (p' := rotCcw t c') (a := rotCcw t g.stop) (b := rotCcw t k.start) ry rx x0 x1 y0 y1 (by
    intro he
    apply hcr
    have h1 : cross (rotCcw t (c' - c)) (rotCcw t (k.start - g.stop)) = cross (c' - c) (k.start - g.stop) := cross_rot ..
    rw [htu] at h1
    rw [← h1, ← hR]
    simp only [cross, Vec.sub_y]
    rw [he]; ring) (by
    simp only [rotCcw]
    linear_combination Real.cos t * hx - Real.sin t * hy) (by
    have h3 : (rotCcw t c).y = (rotCcw t c).y + x * ((rotCcw t c').y - (rotCcw t c).y) := by rw [ry]; ring
    rw [h3]
    simp only [rotCcw]
    linear_combination Real.sin t * hx + Real.cos t * hy)
  -- count
  have count : ∀ p, WithinLine (List.map (rotCcw t) [tg, tk].flatten) p ↔
      walk p (tg.map (rotCcw t)) + cr p (rotCcw t g.stop) (rotCcw t k.start) + walk p (tk.map (rotCcw t)) +
        cr p (rotCcw t k.stop) (rotCcw t g.start) = 1 := by
    intro p
    rw [within_walk]
    have hd := along_head hgt
    have hl := along_last hgt
    have hd' := along_head hkt
    have hl' := along_last hkt
    have h1 : (List.map (rotCcw t) [tg, tk].flatten).head?.toList = [rotCcw t g.start] := by
      simp [List.head?_append, hd]
    rw [h1]
    have e : List.map (rotCcw t) [tg, tk].flatten ++ [rotCcw t g.start] = tg.map (rotCcw t) ++ (tk.map (rotCcw t) ++ [rotCcw t g.start]) := by simp
    have joint : ∀ (l m : List (Vec ℝ)) (a b : Vec ℝ), l.getLast? = some a → m.head? = some b → walk p (l ++ m) = walk p l + cr p a b + walk p m := by
      intro l m a b ha hb
      obtain ⟨l', rfl⟩ : ∃ l', l = l' ++ [a] := ⟨l.dropLast, (List.dropLast_append_getLast? a ha).symm⟩
      obtain ⟨m', rfl⟩ : ∃ m', m = b :: m' := by
        cases m with
        | nil => simp at hb
        | cons z m' => simp only [List.head?_cons, Option.some.injEq] at hb; exact ⟨m', by rw [hb]⟩
      rw [List.append_assoc, List.singleton_append, walk_append, walk, add_assoc]
    rw [e, joint _ _ (rotCcw t g.stop) (rotCcw t k.start) (by simp [hl]) (by simp [List.head?_append, hd']),
      joint (tk.map (rotCcw t)) [rotCcw t g.start] (rotCcw t k.stop) (rotCcw t g.start) (by simp [hl']) rfl]
    simp only [walk, add_zero, add_assoc]
  rw [count, f2, ← w1, ← w2, ← w3] at even
  rw [count, f1]
  generalize walk (rotCcw t c) (tg.map (rotCcw t)) = A at *
  generalize walk (rotCcw t c) (tk.map (rotCcw t)) = B at *
  generalize cr (rotCcw t c) (rotCcw t k.stop) (rotCcw t g.start) = C at *
  clear w1 w2 w3
  revert even
  revert A B C
  decide

end Verif.Halves
