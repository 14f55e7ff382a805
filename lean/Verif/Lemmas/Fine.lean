import Verif.Props.Pixels
import Verif.Spec.Enclosed
import Verif.Lemmas.Area
import Mathlib.Topology.Compactness.Compact
import Mathlib.Topology.MetricSpace.Bounded
import Mathlib.Topology.Instances.Real.Lemmas
import Mathlib.Topology.Connected.Basic
import Mathlib.Analysis.SpecialFunctions.Trigonometric.Basic

/-!
# Outlines and the polygons along them
-/

namespace Verif.Fine
open Verif.Geom Verif.Rvmc Verif.Spec Verif.Crossing

/-! ### Crossings along a line -/

/-- The number of crossings along an open line, modulo two. -/
noncomputable def walk (p : Vec ℝ) : List (Vec ℝ) → ZMod 2
  | [] => 0
  | [_] => 0
  | a :: b :: l => cr p a b + walk p (b :: l)

theorem walk_zip (p : Vec ℝ) : ∀ (m : List (Vec ℝ)) (x y : Vec ℝ),
    (((x :: m).zip (m ++ [y])).map fun e => cr p e.1 e.2).sum = walk p (x :: m ++ [y])
  | [], x, y => by simp [walk]
  | z :: m, x, y => by
    have := walk_zip p m z y
    simp only [List.cons_append, List.zip_cons_cons, List.map_cons, List.sum_cons] at this ⊢
    rw [this]
    simp [walk]

theorem within_walk (l : List (Vec ℝ)) (p : Vec ℝ) : WithinLine l p ↔ walk p (l ++ l.head?.toList) = 1 := by
  rw [within_iff]
  cases l with
  | nil => simp [sides, walk]
  | cons x m =>
    unfold sides
    simp only [List.tail_cons, List.head?_cons, Option.toList_some]
    rw [walk_zip]

theorem walk_append (p : Vec ℝ) : ∀ (l : List (Vec ℝ)) (a : Vec ℝ) (m : List (Vec ℝ)),
    walk p (l ++ a :: m) = walk p (l ++ [a]) + walk p (a :: m)
  | [], a, m => by simp [walk]
  | [x], a, m => by simp [walk]
  | x :: y :: l, a, m => by
    have := walk_append p (y :: l) a m
    simp only [List.cons_append, walk] at this ⊢
    rw [this, add_assoc]

/-- Two lines are crossed alike, whatever they are part of. -/
def Alike (p : Vec ℝ) (l m : List (Vec ℝ)) : Prop := ∀ a b, walk p (a ++ l ++ b) = walk p (a ++ m ++ b)

theorem Alike.refl (p : Vec ℝ) (l : List (Vec ℝ)) : Alike p l l := fun _ _ => rfl

theorem Alike.symm {p : Vec ℝ} {l m : List (Vec ℝ)} (h : Alike p l m) : Alike p m l := fun a b => (h a b).symm

theorem Alike.trans {p : Vec ℝ} {l m n : List (Vec ℝ)} (h : Alike p l m) (h' : Alike p m n) : Alike p l n :=
  fun a b => (h a b).trans (h' a b)

theorem Alike.append {p : Vec ℝ} {l m l' m' : List (Vec ℝ)} (h : Alike p l m) (h' : Alike p l' m') : Alike p (l ++ l') (m ++ m') := by
  intro a b
  have h1 := h a (l' ++ b)
  have h2 := h' (a ++ m) b
  simp only [List.append_assoc] at *
  rw [h1, h2]

theorem alike_repeated (p a : Vec ℝ) : Alike p [a, a] [a] := by
  intro l m
  have e : ∀ x y : List (Vec ℝ), l ++ (a :: x) ++ y = l ++ a :: (x ++ y) := by intro x y; simp
  rw [e, e, walk_append, walk_append p l a ([] ++ m)]
  simp only [List.cons_append, List.nil_append, walk]
  rw [cr_zero Iff.rfl, zero_add]

theorem alike_between {p a c b : Vec ℝ} (h : ¬ InTriangle p a c b) : Alike p [a, c, b] [a, b] := by
  intro l m
  have e : ∀ x y : List (Vec ℝ), l ++ (a :: x) ++ y = l ++ a :: (x ++ y) := by intro x y; simp
  rw [e, e, walk_append, walk_append p l a ([b] ++ m)]
  simp only [List.cons_append, List.nil_append, walk]
  have := triangle h
  rw [cr_symm p b a] at this
  have h2 := two_self (cr p a b)
  congr 1
  rw [← add_assoc]
  congr 1
  linear_combination this - h2

theorem samePath_alike {p : Vec ℝ} {l m : List (Vec ℝ)} (h : SamePath l m) : Alike p l m := by
  induction h with
  | refl => exact .refl _ _
  | symm _ ih => exact ih.symm
  | trans _ _ ih1 ih2 => exact ih1.trans ih2
  | repeated b q a =>
    have := ((Alike.refl p b).append (alike_repeated p q)).append (Alike.refl p a)
    simpa using this

theorem within_alike {p : Vec ℝ} {l m : List (Vec ℝ)} (h : Alike p l m) (hh : l.head? = m.head?) : WithinLine l p ↔ WithinLine m p := by
  rw [within_walk, within_walk, hh]
  have := h [] (m.head?.toList)
  simp only [List.nil_append] at this
  rw [this]

theorem within_samePath {p : Vec ℝ} {l m : List (Vec ℝ)} (h : SamePath l m) : WithinLine l p ↔ WithinLine m p :=
  within_alike (samePath_alike h) (Props.Arcs.path_head h)

/-! ### Finer points -/

/-- Numbers with the mean between each two. -/
noncomputable def bisect : List ℝ → List ℝ
  | [] => []
  | [a] => [a]
  | a :: b :: l => a :: (a + b) / 2 :: bisect (b :: l)

theorem bisect_head : ∀ l, (bisect l).head? = l.head?
  | [] => rfl
  | [_] => rfl
  | _ :: _ :: _ => rfl

theorem bisect_last : ∀ l, (bisect l).getLast? = l.getLast?
  | [] => rfl
  | [_] => rfl
  | a :: b :: l => by
    have h := bisect_last (b :: l)
    have hne : bisect (b :: l) ≠ [] := by cases l <;> simp [bisect]
    obtain ⟨x, m, hm⟩ := List.exists_cons_of_ne_nil hne
    rw [hm] at h
    rw [bisect, hm, List.getLast?_cons_cons, List.getLast?_cons_cons, List.getLast?_cons_cons, h]

theorem bisect_chain {step : ℝ} : ∀ l : List ℝ, l.IsChain (fun a b => a < b ∧ b - a ≤ step) → (bisect l).IsChain (fun a b => a < b ∧ b - a ≤ step / 2)
  | [], _ => by simp [bisect]
  | [_], _ => by simp [bisect]
  | a :: b :: l, h => by
    rw [List.isChain_cons_cons] at h
    have ih := bisect_chain (b :: l) h.2
    have hh := bisect_head (b :: l)
    rw [bisect]
    cases hb : bisect (b :: l) with
    | nil => rw [hb] at hh; simp at hh
    | cons x m =>
      rw [hb] at hh ih
      simp only [List.head?_cons, Option.some.injEq] at hh
      subst hh
      rw [List.isChain_cons_cons, List.isChain_cons_cons]
      refine ⟨⟨by linarith [h.1.1], by linarith [h.1.2]⟩, ⟨by linarith [h.1.1], by linarith [h.1.2]⟩, ih⟩

theorem bisect_discretises {t step : ℝ} {l : List ℝ} (h : Discretises t step l) : Discretises t (step / 2) (bisect l) :=
  ⟨(bisect_head l).trans h.1, (bisect_last l).trans h.2.1, bisect_chain l h.2.2⟩

theorem bisect_alike {p : Vec ℝ} {f : ℝ → Vec ℝ} {step : ℝ} : ∀ l : List ℝ, l.IsChain (fun a b => a < b ∧ b - a ≤ step) →
    (∀ a ∈ l, ∀ b ∈ l, a < b → b - a ≤ step → ¬ InTriangle p (f a) (f ((a + b) / 2)) (f b)) → Alike p (l.map f) ((bisect l).map f)
  | [], _, _ => .refl _ _
  | [_], _, _ => .refl _ _
  | a :: b :: l, h, ht => by
    rw [List.isChain_cons_cons] at h
    have ih := bisect_alike (b :: l) h.2 fun x hx y hy => ht x (by simp [hx]) y (by simp [hy])
    have h1 := alike_between (ht a (by simp) b (by simp) h.1.1 h.1.2)
    have hh := bisect_head (b :: l)
    cases hb : bisect (b :: l) with
    | nil => rw [hb] at hh; simp at hh
    | cons x m =>
      rw [hb] at hh ih
      simp only [List.head?_cons, Option.some.injEq] at hh
      subst hh
      rw [bisect, hb]
      have h2 := (Alike.refl p [f a]).append ih
      have h3 := h1.append (Alike.refl p (m.map f))
      simp only [List.map_cons, List.cons_append, List.nil_append] at h2 h3 ⊢
      exact h2.trans h3.symm

/-! ### Points near a piece -/

theorem turn_lipschitz (cw : Bool) (s t : ℝ) (c v : Vec ℝ) {ε : ℝ} (hε : vlen v * |s - t| ≤ ε) :
    Close ε (c + turn cw s v) (c + turn cw t v) := by
  have h := Props.Arcs.turn_close cw s t c v
  have h0 : 0 ≤ vlen v * |s - t| := mul_nonneg (Real.sqrt_nonneg _) (abs_nonneg _)
  have h1 : (vlen v * (s - t)) ^ 2 ≤ ε ^ 2 := by
    rw [mul_pow, ← sq_abs (s - t), ← mul_pow]
    exact pow_le_pow_left₀ h0 hε 2
  unfold distSq at h
  constructor
  · apply abs_le_of_sq_le_sq _ (h0.trans hε)
    nlinarith [sq_nonneg ((c + turn cw s v).y - (c + turn cw t v).y)]
  · apply abs_le_of_sq_le_sq _ (h0.trans hε)
    nlinarith [sq_nonneg ((c + turn cw s v).x - (c + turn cw t v).x)]

theorem radius_pos {g : Segment} (h : NotClosed g) : 0 < arcRadius g := by
  cases g with
  | line _ => exact one_pos
  | arc a => exact vlen_pos (Props.Arcs.ne_center h.1)

theorem close_mean {ε : ℝ} {p a b c : Vec ℝ} (h : InTriangle p a b c) (hb : Close ε b a) (hc : Close ε c a) : Close ε p a := by
  obtain ⟨u, v, w, hu, hv, hw, h1, h2, h3⟩ := h
  have : u = 1 - v - w := by linarith
  subst this
  have ε0 : 0 ≤ ε := (abs_nonneg _).trans hb.1
  constructor
  · have : p.x - a.x = v * (b.x - a.x) + w * (c.x - a.x) := by rw [h2]; ring
    rw [this]
    refine (abs_add_le _ _).trans ?_
    rw [abs_mul, abs_mul, abs_of_nonneg hv, abs_of_nonneg hw]
    nlinarith [hb.1, hc.1]
  · have : p.y - a.y = v * (b.y - a.y) + w * (c.y - a.y) := by rw [h3]; ring
    rw [this]
    refine (abs_add_le _ _).trans ?_
    rw [abs_mul, abs_mul, abs_of_nonneg hv, abs_of_nonneg hw]
    nlinarith [hb.2, hc.2]

/-- The points along a piece can be refined; a point further away than their distance is crossed alike. -/
theorem along_refine {ε : ℝ} {g : Segment} {pts : List (Vec ℝ)} (hn : NotClosed g) (h : Along ε g pts) :
    ∃ pts', Along (ε / 2) g pts' ∧ ∀ p, (∀ v, OnPiece v g → ¬ Close ε p v) → Alike p pts pts' := by
  have hr := radius_pos hn
  cases g with
  | line l => exact ⟨pts, h, fun p _ => .refl _ _⟩
  | arc a =>
    obtain ⟨t, offs, h1, h2, rfl, h4⟩ := h
    refine ⟨(bisect offs).map fun τ => a.center + turn a.clockwise τ (a.start - a.center), ⟨t, bisect offs, h1, ?_, rfl, ?_⟩, ?_⟩
    · rw [div_right_comm]; exact bisect_discretises h2
    · rw [List.getLast?_map] at h4 ⊢
      rw [bisect_last, h4]
    · intro p hp
      refine bisect_alike offs h2.2.2 fun x hx y hy hxy hs ht => ?_
      obtain ⟨x0, x1⟩ := Props.Pixels.discretises_mem h2 x hx
      refine hp _ ⟨t, h1, x, x0, x1, rfl⟩ (close_mean ht ?_ ?_)
      · refine turn_lipschitz _ _ _ _ _ ?_
        have : |(x + y) / 2 - x| ≤ ε / arcRadius (.arc a) := by
          rw [abs_of_nonneg (by linarith)]; linarith
        calc _ ≤ arcRadius (.arc a) * (ε / arcRadius (.arc a)) := mul_le_mul_of_nonneg_left this hr.le
          _ = ε := by field_simp
      · refine turn_lipschitz _ _ _ _ _ ?_
        have : |y - x| ≤ ε / arcRadius (.arc a) := by
          rw [abs_of_nonneg (by linarith)]; linarith
        calc _ ≤ arcRadius (.arc a) * (ε / arcRadius (.arc a)) := mul_le_mul_of_nonneg_left this hr.le
          _ = ε := by field_simp

theorem flatten_head {gs : List Segment} {R : Segment → List (Vec ℝ) → Prop} (hR : ∀ g tr, R g tr → tr.head? = some g.start)
    {trs : List (List (Vec ℝ))} (h : List.Forall₂ R gs trs) : trs.flatten.head? = gs.head?.map Segment.start := by
  cases h with
  | nil => rfl
  | cons h1 _ => rw [List.flatten_cons, List.head?_append, hR _ _ h1]; rfl

theorem along_head {ε : ℝ} {g : Segment} {tr : List (Vec ℝ)} (h : Along ε g tr) : tr.head? = some g.start := Props.Arcs.follows_head h

theorem refine_all {ε : ℝ} {gs : List Segment} {trs : List (List (Vec ℝ))} (h : List.Forall₂ (Along ε) gs trs) :
    (∀ g ∈ gs, NotClosed g) → ∃ trs', List.Forall₂ (Along (ε / 2)) gs trs' ∧
      ∀ p, (∀ g ∈ gs, ∀ v, OnPiece v g → ¬ Close ε p v) → Alike p trs.flatten trs'.flatten := by
  induction h with
  | nil => exact fun _ => ⟨[], .nil, fun _ _ => .refl _ _⟩
  | cons h1 _ ih =>
    intro hn
    obtain ⟨trs', h2, h3⟩ := ih fun g hg => hn g (by simp [hg])
    obtain ⟨tr', h4, h5⟩ := along_refine (hn _ (by simp)) h1
    refine ⟨tr' :: trs', .cons h4 h2, fun p hp => ?_⟩
    rw [List.flatten_cons, List.flatten_cons]
    exact (h5 p (hp _ (by simp))).append (h3 p fun g hg => hp g (by simp [hg]))

/-! ### The sides of a polygon along an outline -/

/-- The consecutive points of a line. -/
def pairs : List (Vec ℝ) → List (Vec ℝ × Vec ℝ)
  | [] => []
  | [_] => []
  | a :: b :: l => (a, b) :: pairs (b :: l)

theorem sides_pairs (l : List (Vec ℝ)) : sides l = pairs (l ++ l.head?.toList) := by
  cases l with
  | nil => rfl
  | cons x m =>
    unfold sides
    simp only [List.tail_cons, List.head?_cons, Option.toList_some]
    generalize x = y at *
    have key : ∀ (m : List (Vec ℝ)) (x : Vec ℝ), (x :: m).zip (m ++ [y]) = pairs (x :: m ++ [y]) := by
      intro m
      induction m with
      | nil => intro x; rfl
      | cons z m ih => intro x; simpa [pairs] using ih z
    exact key m y

theorem pairs_append : ∀ (l m : List (Vec ℝ)) (e : Vec ℝ × Vec ℝ), e ∈ pairs (l ++ m) →
    e ∈ pairs l ∨ (l.getLast? = some e.1 ∧ m.head? = some e.2) ∨ e ∈ pairs m
  | [], m, e, h => .inr (.inr h)
  | [a], m, e, h => by
    cases m with
    | nil => simp [pairs] at h
    | cons b m =>
      simp only [List.cons_append, List.nil_append, pairs, List.mem_cons] at h
      rcases h with rfl | h
      · exact .inr (.inl ⟨rfl, rfl⟩)
      · exact .inr (.inr h)
  | a :: b :: l, m, e, h => by
    simp only [List.cons_append, pairs, List.mem_cons] at h ⊢
    rcases h with rfl | h
    · exact .inl (.inl rfl)
    · rcases pairs_append (b :: l) m e h with h | h | h
      · exact .inl (.inr h)
      · exact .inr (.inl ⟨by rw [List.getLast?_cons_cons]; exact h.1, h.2⟩)
      · exact .inr (.inr h)

theorem along_last {ε : ℝ} {g : Segment} {tr : List (Vec ℝ)} (h : Along ε g tr) : tr.getLast? = some g.stop := by
  cases g with
  | line l => rw [show tr = [l.start, l.stop] from h]; rfl
  | arc a => obtain ⟨t, offs, -, -, -, h4⟩ := h; exact h4

/-- The sides of the polygon belong to a piece or join two pieces. -/
theorem flatten_pairs {ε : ℝ} (h0 : Segment) {gs : List Segment} {trs : List (List (Vec ℝ))} (h : List.Forall₂ (Along ε) gs trs) :
    ∀ e ∈ pairs (trs.flatten ++ [h0.start]), (∃ g ∈ gs, ∃ tr, Along ε g tr ∧ e ∈ pairs tr) ∨
      ∃ g ∈ gs.zip (gs.tail ++ [h0]), e = (g.1.stop, g.2.start) := by
  induction h with
  | nil => intro e he; simp [pairs] at he
  | @cons g tr gs trs h1 h2 ih =>
    intro e he
    rw [List.flatten_cons, List.append_assoc] at he
    rcases pairs_append _ _ _ he with h | ⟨h3, h4⟩ | h
    · exact .inl ⟨g, by simp, tr, h1, h⟩
    · refine .inr ?_
      rw [along_last h1] at h3
      rw [List.head?_append, flatten_head (fun _ _ => along_head) h2] at h4
      cases gs with
      | nil =>
        refine ⟨(g, h0), by simp, ?_⟩
        simp only [List.head?_nil, Option.map_none, Option.none_or, List.head?_cons, Option.some.injEq] at h3 h4
        exact Prod.ext h3.symm h4.symm
      | cons g' gs =>
        refine ⟨(g, g'), by simp, ?_⟩
        simp only [List.head?_cons, Option.map_some, Option.some_or, Option.some.injEq] at h3 h4
        exact Prod.ext h3.symm h4.symm
    · rcases ih e h with ⟨g', hg, tr', h5, h6⟩ | ⟨g', hg, h5⟩
      · exact .inl ⟨g', by simp [hg], tr', h5, h6⟩
      · refine .inr ⟨g', ?_, h5⟩
        cases gs with
        | nil => simp at hg
        | cons g'' gs => simpa using Or.inr hg

theorem mean_close {ε : ℝ} {a b : Vec ℝ} {t : ℝ} (t0 : 0 ≤ t) (t1 : t ≤ 1) (h : Close ε a b) :
    Close ε ⟨(1 - t) * a.x + t * b.x, (1 - t) * a.y + t * b.y⟩ a := by
  have ε0 : 0 ≤ ε := (abs_nonneg _).trans h.1
  constructor
  · simp only
    rw [show (1 - t) * a.x + t * b.x - a.x = t * (-(a.x - b.x)) by ring, abs_mul, abs_neg, abs_of_nonneg t0]
    nlinarith [h.1]
  · simp only
    rw [show (1 - t) * a.y + t * b.y - a.y = t * (-(a.y - b.y)) by ring, abs_mul, abs_neg, abs_of_nonneg t0]
    nlinarith [h.2]

theorem close_trans {δ ε : ℝ} {p q r : Vec ℝ} (h : Close δ p q) (h' : Close ε q r) : Close (δ + ε) p r := by
  constructor
  · rw [show p.x - r.x = (p.x - q.x) + (q.x - r.x) by ring]
    exact (abs_add_le _ _).trans (add_le_add h.1 h'.1)
  · rw [show p.y - r.y = (p.y - q.y) + (q.y - r.y) by ring]
    exact (abs_add_le _ _).trans (add_le_add h.2 h'.2)

theorem close_mono {δ ε : ℝ} {p q : Vec ℝ} (h : Close δ p q) (h' : δ ≤ ε) : Close ε p q := ⟨h.1.trans h', h.2.trans h'⟩

theorem pairs_chain {R : ℝ → ℝ → Prop} {f : ℝ → Vec ℝ} : ∀ {l : List ℝ}, l.IsChain R → ∀ e ∈ pairs (l.map f),
    ∃ a ∈ l, ∃ b ∈ l, R a b ∧ e = (f a, f b)
  | [], _, e, he => by simp [pairs] at he
  | [_], _, e, he => by simp [pairs] at he
  | a :: b :: l, h, e, he => by
    rw [List.isChain_cons_cons] at h
    simp only [List.map_cons, pairs, List.mem_cons] at he
    rcases he with rfl | he
    · exact ⟨a, by simp, b, by simp, h.1, rfl⟩
    · obtain ⟨x, hx, y, hy, h1, h2⟩ := pairs_chain h.2 e (by simpa using he)
      exact ⟨x, by simp [hx], y, by simp [hy], h1, h2⟩

/-- A point near a side along a piece is near the piece. -/
theorem along_near {ε δ : ℝ} (hε : 0 ≤ ε) {g : Segment} (hn : NotClosed g) {tr : List (Vec ℝ)} (h : Along ε g tr) {e : Vec ℝ × Vec ℝ} (he : e ∈ pairs tr)
    {p : Vec ℝ} (hp : Near δ p e) : ∃ v, OnPiece v g ∧ Close (δ + ε) p v := by
  have hr := radius_pos hn
  obtain ⟨t, t0, t1, h1, h2⟩ := hp
  cases g with
  | line l =>
    rw [show tr = [l.start, l.stop] from h] at he
    simp only [pairs, List.mem_singleton] at he
    subst he
    refine ⟨_, ⟨t, t0, t1, rfl⟩, close_mono (δ := δ) ⟨?_, ?_⟩ (by linarith)⟩
    · simp only; rw [show l.start.x + t * (l.stop.x - l.start.x) = (1 - t) * l.start.x + t * l.stop.x by ring]; exact h1
    · simp only; rw [show l.start.y + t * (l.stop.y - l.start.y) = (1 - t) * l.start.y + t * l.stop.y by ring]; exact h2
  | arc a =>
    obtain ⟨T, offs, g1, g2, rfl, -⟩ := h
    obtain ⟨x, hx, y, hy, ⟨hxy, hs⟩, rfl⟩ := pairs_chain g2.2.2 e he
    obtain ⟨x0, x1⟩ := Props.Pixels.discretises_mem g2 x hx
    refine ⟨_, ⟨T, g1, x, x0, x1, rfl⟩, close_trans (q := ⟨_, _⟩) ⟨h1, h2⟩ (mean_close t0 t1 (turn_lipschitz _ _ _ _ _ ?_))⟩
    have : |x - y| ≤ ε / arcRadius (.arc a) := by
      rw [abs_of_neg (by linarith)]; linarith
    calc _ ≤ arcRadius (.arc a) * (ε / arcRadius (.arc a)) := mul_le_mul_of_nonneg_left this hr.le
      _ = ε := by field_simp

theorem side_near {ε δ : ℝ} (hε : 0 ≤ ε) {s : Shape} (hn : ∀ g ∈ s.segments, NotClosed g) {trs : List (List (Vec ℝ))}
    (h : List.Forall₂ (Along ε) s.segments trs) {e : Vec ℝ × Vec ℝ} (he : e ∈ sides trs.flatten) {p : Vec ℝ} (hp : Near δ p e) :
    ∃ v, OnRim s v ∧ Close (δ + ε) p v := by
  rw [sides_pairs, flatten_head (fun _ _ => along_head) h] at he
  have hh : s.segments.head?.map Segment.start = some s.head.start := rfl
  rw [hh, Option.toList_some] at he
  rcases flatten_pairs s.head h e he with ⟨g, hg, tr, h1, h2⟩ | ⟨g, hg, rfl⟩
  · obtain ⟨v, h3, h4⟩ := along_near hε (hn g hg) h1 h2 hp
    exact ⟨v, .inl ⟨g, hg, h3⟩, h4⟩
  · obtain ⟨t, t0, t1, h1, h2⟩ := hp
    refine ⟨_, .inr ⟨g, ?_, ⟨t, t0, t1, rfl⟩⟩, close_mono (δ := δ) ⟨?_, ?_⟩ (by linarith)⟩
    · simpa [successors, Shape.segments] using hg
    · simp only at h1 ⊢
      rw [show g.1.stop.x + t * (g.2.start.x - g.1.stop.x) = (1 - t) * g.1.stop.x + t * g.2.start.x by ring]; exact h1
    · simp only at h2 ⊢
      rw [show g.1.stop.y + t * (g.2.start.y - g.1.stop.y) = (1 - t) * g.1.stop.y + t * g.2.start.y by ring]; exact h2

/-! ### The rim is compact -/

theorem sweep_same {a : Arc} (hs : a.start ≠ a.center) (he : a.stop ≠ a.center) {t t' : ℝ}
    (h : Sweep a.clockwise (a.start - a.center) (a.stop - a.center) t)
    (h' : Sweep a.clockwise (a.start - a.center) (a.stop - a.center) t') : t = t' := by
  have h1 := sweep_normalized (Props.Arcs.ne_center hs) (Props.Arcs.ne_center he) h
  have h2 := sweep_normalized (Props.Arcs.ne_center hs) (Props.Arcs.ne_center he) h'
  exact Verif.Geom.sweep_unique (normalized_unit _) h.1 h.2.1 h'.1 h'.2.1 (h1.trans h2.symm)

/-- The points of a curve, as pairs. -/
def pairsOf (c : Vec ℝ → Prop) : Set (ℝ × ℝ) := {q | c ⟨q.1, q.2⟩}

theorem compact_image {c : Vec ℝ → Prop} {f : ℝ → Vec ℝ} (hx : Continuous fun t => (f t).x) (hy : Continuous fun t => (f t).y) {T : ℝ}
    (h : ∀ v, c v ↔ ∃ t, 0 ≤ t ∧ t ≤ T ∧ v = f t) : IsCompact (pairsOf c) := by
  have : pairsOf c = (fun t => ((f t).x, (f t).y)) '' Set.Icc 0 T := by
    ext q
    simp only [pairsOf, Set.mem_ofPred_eq, h, Set.mem_image, Set.mem_Icc]
    constructor
    · rintro ⟨t, t0, t1, ht⟩
      exact ⟨t, ⟨t0, t1⟩, by rw [← ht]⟩
    · rintro ⟨t, ⟨t0, t1⟩, rfl⟩
      exact ⟨t, t0, t1, rfl⟩
  rw [this]
  exact isCompact_Icc.image (hx.prodMk hy)

theorem segment_compact (a b : Vec ℝ) : IsCompact (pairsOf (OnSegment a b)) :=
  compact_image (T := 1) (f := fun l => ⟨a.x + l * (b.x - a.x), a.y + l * (b.y - a.y)⟩) (by fun_prop) (by fun_prop) fun _ => Iff.rfl

theorem piece_compact {g : Segment} (hn : NotClosed g) : IsCompact (pairsOf fun p => OnPiece p g) := by
  cases g with
  | line l => exact segment_compact _ _
  | arc a =>
    obtain ⟨he, t, ht, -⟩ := Props.Arcs.sweep_exists a hn.1 hn.2.1 hn.2.2
    refine compact_image (T := t) (f := fun τ => a.center + turn a.clockwise τ (a.start - a.center)) ?_ ?_ fun v => ?_
    · simp only [turn, rotCcw, Vec.add_x]
      cases a.clockwise <;> simp only [Bool.false_eq_true, if_true, if_false] <;> fun_prop
    · simp only [turn, rotCcw, Vec.add_y]
      cases a.clockwise <;> simp only [Bool.false_eq_true, if_true, if_false] <;> fun_prop
    · constructor
      · rintro ⟨t', h1, h2⟩
        rw [sweep_same hn.1 he h1 ht] at h2
        exact h2
      · exact fun h => ⟨t, ht, h⟩

theorem rim_compact {s : Shape} (hn : ∀ g ∈ s.segments, NotClosed g) : IsCompact (pairsOf (OnRim s)) := by
  have : pairsOf (OnRim s) = (⋃ g ∈ {g | g ∈ s.segments}, pairsOf fun p => OnPiece p g) ∪
      ⋃ g ∈ {g | g ∈ successors s.segments}, pairsOf (OnSegment g.1.stop g.2.start) := by
    ext q
    simp [pairsOf, OnRim, OnOutline]
  rw [this]
  refine IsCompact.union ?_ ?_
  · exact (List.finite_toSet s.segments).isCompact_biUnion fun g hg => piece_compact (hn g hg)
  · exact (List.finite_toSet (successors s.segments)).isCompact_biUnion fun g _ => segment_compact _ _

/-- A point that is not on a compact curve has a distance from it. -/
theorem away {c : Vec ℝ → Prop} (hc : IsCompact (pairsOf c)) {p : Vec ℝ} (hp : ¬ c p) : ∃ δ > 0, ∀ v, c v → ¬ Close δ p v := by
  have h1 : IsOpen (pairsOf c)ᶜ := hc.isClosed.isOpen_compl
  obtain ⟨δ, h2, h3⟩ := Metric.isOpen_iff.1 h1 (p.x, p.y) hp
  refine ⟨δ / 2, by linarith, fun v hv hcl => ?_⟩
  have : (v.x, v.y) ∈ Metric.ball (p.x, p.y) δ := by
    rw [Metric.mem_ball, Prod.dist_eq, max_lt_iff]
    simp only [Real.dist_eq]
    rw [abs_sub_comm, abs_sub_comm v.y]
    exact ⟨by linarith [hcl.1], by linarith [hcl.2]⟩
  exact h3 this hv

theorem bounded {c : Vec ℝ → Prop} (hc : IsCompact (pairsOf c)) : ∃ r, ∀ v, c v → |v.x| ≤ r ∧ |v.y| ≤ r := by
  obtain ⟨r, hr⟩ := hc.isBounded.exists_norm_le
  refine ⟨r, fun v hv => ?_⟩
  have := hr (v.x, v.y) hv
  rw [Prod.norm_def, max_le_iff] at this
  exact this

/-! ### Finer and finer polygons -/

theorem refinements {ε : ℝ} {gs : List Segment} (hn : ∀ g ∈ gs, NotClosed g) {trs : List (List (Vec ℝ))} (h : List.Forall₂ (Along ε) gs trs) :
    ∃ V : ℕ → List (List (Vec ℝ)), V 0 = trs ∧ (∀ k, List.Forall₂ (Along (ε / 2 ^ k)) gs (V k)) ∧
      ∀ k p, (∀ g ∈ gs, ∀ v, OnPiece v g → ¬ Close (ε / 2 ^ k) p v) → (WithinLine (V k).flatten p ↔ WithinLine (V (k + 1)).flatten p) := by
  have step : ∀ (k : ℕ) (x : {trs // List.Forall₂ (Along (ε / 2 ^ k)) gs trs}),
      ∃ y : {trs // List.Forall₂ (Along (ε / 2 ^ (k + 1))) gs trs},
        ∀ p, (∀ g ∈ gs, ∀ v, OnPiece v g → ¬ Close (ε / 2 ^ k) p v) → (WithinLine x.1.flatten p ↔ WithinLine y.1.flatten p) := by
    rintro k ⟨x, hx⟩
    obtain ⟨y, h1, h2⟩ := refine_all hx hn
    rw [div_div, ← pow_succ] at h1
    refine ⟨⟨y, h1⟩, fun p hp => within_alike (h2 p hp) ?_⟩
    rw [flatten_head (fun _ _ => along_head) hx, flatten_head (fun _ _ => along_head) h1]
  choose next hnext using step
  let V : ∀ k, {trs // List.Forall₂ (Along (ε / 2 ^ k)) gs trs} := fun k =>
    Nat.rec (motive := fun k => {trs // List.Forall₂ (Along (ε / 2 ^ k)) gs trs}) ⟨trs, by simpa using h⟩ (fun k x => next k x) k
  exact ⟨fun k => (V k).1, rfl, fun k => (V k).2, fun k p hp => hnext k (V k) p hp⟩

/-- A path that avoids the outline does not leave the polygons. -/
theorem path_within {s : Shape} (hn : ∀ g ∈ s.segments, NotClosed g) {ε : ℝ} (hε : 0 < ε) {V : ℕ → List (List (Vec ℝ))}
    (hV : ∀ k, List.Forall₂ (Along (ε / 2 ^ k)) s.segments (V k))
    (hs : ∀ k p, (∀ g ∈ s.segments, ∀ v, OnPiece v g → ¬ Close (ε / 2 ^ k) p v) → (WithinLine (V k).flatten p ↔ WithinLine (V (k + 1)).flatten p))
    {path : ℝ → Vec ℝ} (hx : Continuous fun t => (path t).x) (hy : Continuous fun t => (path t).y) (hp : ∀ t, ¬ OnRim s (path t)) {k₀ : ℕ}
    (h0 : ∀ k, k₀ ≤ k → WithinLine (V k).flatten (path 0)) : ∀ t, ∃ k, WithinLine (V k).flatten (path t) := by
  have small : ∀ δ > 0, ∃ K, ∀ k, K ≤ k → ε / 2 ^ k ≤ δ := by
    intro δ hδ
    obtain ⟨K, hK⟩ := exists_pow_lt_of_lt_one (div_pos hδ hε) (by norm_num : (1 / 2 : ℝ) < 1)
    refine ⟨K, fun k hk => ?_⟩
    have h1 : (1 / 2 : ℝ) ^ k ≤ (1 / 2) ^ K := pow_le_pow_of_le_one (by norm_num) (by norm_num) hk
    have h2 : (1 / 2 : ℝ) ^ k < δ / ε := lt_of_le_of_lt h1 hK
    rw [div_pow, one_pow] at h2
    rw [lt_div_iff₀ hε] at h2
    calc ε / 2 ^ k = 1 / 2 ^ k * ε := by ring
      _ ≤ δ := h2.le
  -- what happens near a point of the path
  have near : ∀ t, ∃ K, ∃ U, IsOpen U ∧ t ∈ U ∧ ∀ k, K ≤ k → ∀ u ∈ U, (WithinLine (V k).flatten (path u) ↔ WithinLine (V K).flatten (path t)) := by
    intro t
    obtain ⟨δ, hδ, hd⟩ := away (rim_compact hn) (hp t)
    obtain ⟨K, hK⟩ := small (δ / 2) (by linarith)
    refine ⟨K, {u | |(path u).x - (path t).x| < δ / 2} ∩ {u | |(path u).y - (path t).y| < δ / 2},
      (isOpen_lt (hx.sub continuous_const).abs continuous_const).inter (isOpen_lt (hy.sub continuous_const).abs continuous_const), ⟨?_, ?_⟩, ?_⟩
    · show |(path t).x - (path t).x| < δ / 2
      simp; linarith
    · show |(path t).y - (path t).y| < δ / 2
      simp; linarith
    · intro k hk u hu
      have h1 : WithinLine (V k).flatten (path t) ↔ WithinLine (V K).flatten (path t) := by
        induction k, hk using Nat.le_induction with
        | base => exact Iff.rfl
        | succ k hk ih =>
          rw [← ih]
          refine (hs k (path t) fun g hg v hv hc => hd v (.inl ⟨g, hg, hv⟩) (close_mono hc ?_)).symm
          linarith [hK k hk]
      rw [← h1]
      have h2 := Props.Pixels.within_near (δ := δ / 2) (V k).flatten id id (path t) (path u) (fun v _ => ?_) fun e he hne => ?_
      · rw [List.map_id] at h2
        exact h2.symm
      · simp only [id]
        rw [show v.x - (path t).x - (v.x - (path u).x) = (path u).x - (path t).x by ring,
          show v.y - (path t).y - (v.y - (path u).y) = (path u).y - (path t).y by ring]
        exact ⟨le_of_lt hu.1, le_of_lt hu.2⟩
      · obtain ⟨v, hv, hc⟩ := side_near (by positivity) hn (hV k) he hne
        exact hd v hv (close_mono hc (by linarith [hK k hk]))
  let S : Set ℝ := {t | ∃ K, ∀ k, K ≤ k → WithinLine (V k).flatten (path t)}
  have hS : IsClopen S := by
    constructor
    · rw [← isOpen_compl_iff, isOpen_iff_forall_mem_open]
      intro t ht
      obtain ⟨K, U, h1, h2, h3⟩ := near t
      refine ⟨U, fun u hu hS => ht ?_, h1, h2⟩
      obtain ⟨K', h4⟩ := hS
      have h5 := (h3 (max K K') (le_max_left _ _) u hu).1 (h4 _ (le_max_right _ _))
      exact ⟨K, fun k hk => (h3 k hk t h2).2 h5⟩
    · rw [isOpen_iff_forall_mem_open]
      intro t ht
      obtain ⟨K, U, h1, h2, h3⟩ := near t
      obtain ⟨K', h4⟩ := ht
      have h5 := (h3 (max K K') (le_max_left _ _) t h2).1 (h4 _ (le_max_right _ _))
      exact ⟨U, fun u hu => ⟨K, fun k hk => (h3 k hk u hu).2 h5⟩, h1, h2⟩
  have : S = Set.univ := hS.eq_univ ⟨0, k₀, h0⟩
  intro t
  obtain ⟨K, hK⟩ : t ∈ S := by rw [this]; trivial
  exact ⟨K, hK K le_rfl⟩

theorem forall₂_mem {α β : Type} {R : α → β → Prop} {as : List α} {bs : List β} (h : List.Forall₂ R as bs) : ∀ b ∈ bs, ∃ a ∈ as, R a b := by
  induction h with
  | nil => simp
  | cons h1 _ ih =>
    intro b hb
    rcases List.mem_cons.1 hb with rfl | hb
    · exact ⟨_, by simp, h1⟩
    · obtain ⟨a, ha, h2⟩ := ih b hb
      exact ⟨a, by simp [ha], h2⟩

theorem along_on {ε : ℝ} {g : Segment} {tr : List (Vec ℝ)} (h : Along ε g tr) {v : Vec ℝ} (hv : v ∈ tr) : OnPiece v g := by
  have := Props.Pixels.follows_on h v hv
  cases g with
  | line l =>
    obtain ⟨t, t0, t1, h1⟩ := this
    exact ⟨t, t0, t1, h1⟩
  | arc a => exact this

/-- The points within all finer polygons are enclosed by the outline. -/
theorem enclosed {s : Shape} (hn : ∀ g ∈ s.segments, NotClosed g) {ε : ℝ} (hε : 0 < ε) {V : ℕ → List (List (Vec ℝ))}
    (hV : ∀ k, List.Forall₂ (Along (ε / 2 ^ k)) s.segments (V k))
    (hs : ∀ k p, (∀ g ∈ s.segments, ∀ v, OnPiece v g → ¬ Close (ε / 2 ^ k) p v) → (WithinLine (V k).flatten p ↔ WithinLine (V (k + 1)).flatten p))
    {p : Vec ℝ} {k₀ : ℕ} (h0 : ∀ k, k₀ ≤ k → WithinLine (V k).flatten p) : p ∈ areaOf s := by
  obtain ⟨r, hr⟩ := bounded (rim_compact hn)
  refine ⟨r, fun path hx hy hp havoid t => ?_⟩
  obtain ⟨k, hk⟩ := path_within hn hε hV hs hx hy havoid (k₀ := k₀) (by rw [hp]; exact h0) t
  have on : ∀ v ∈ (V k).flatten, |v.x| ≤ r ∧ |v.y| ≤ r := by
    intro v hv
    obtain ⟨tr, h1, h2⟩ := List.mem_flatten.1 hv
    obtain ⟨g, h3, h4⟩ := forall₂_mem (hV k) tr h1
    exact hr v (.inl ⟨g, h3, along_on h4 h2⟩)
  obtain ⟨⟨a, ha, a1⟩, ⟨c, hc, c1⟩, ⟨e, he, e1⟩, ⟨g, hg, g1⟩⟩ := Props.Svg.within_bounds hk
  have A := on a ha
  have C := on c hc
  have E := on e he
  have G := on g hg
  simp only [abs_le] at A C E G ⊢
  exact ⟨⟨by linarith, by linarith⟩, ⟨by linarith, by linarith⟩⟩

end Verif.Fine
