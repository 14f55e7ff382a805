import Verif.Spec.Svg
import Mathlib.Data.ZMod.Basic
import Mathlib.Tactic.Linarith
import Mathlib.Tactic.FieldSimp
import Mathlib.Tactic.LinearCombination

/-!
# The even-odd rule does not change when the corners of a closed line are moved a little
-/

namespace Verif.Crossing
open Verif.Geom Verif.Spec
open Classical

/-- Where the edge is at the height of the point. -/
noncomputable def meet (p a b : Vec ℝ) : ℝ := a.x + (p.y - a.y) * (b.x - a.x) / (b.y - a.y)

theorem crosses_iff {p a b : Vec ℝ} : Crosses p (a, b) ↔ (p.y < a.y ↔ ¬ p.y < b.y) ∧ p.x < meet p a b := Iff.rfl

theorem meet_symm {p a b : Vec ℝ} (h : p.y < a.y ↔ ¬ p.y < b.y) : meet p a b = meet p b a := by
  have hne : b.y - a.y ≠ 0 := by
    intro e
    have : b.y = a.y := by linarith
    rw [this] at h
    tauto
  have hne' : a.y - b.y ≠ 0 := by intro e; apply hne; linarith
  unfold meet
  field_simp
  ring

theorem crosses_symm {p a b : Vec ℝ} : Crosses p (a, b) ↔ Crosses p (b, a) := by
  rw [crosses_iff, crosses_iff]
  constructor
  · rintro ⟨h1, h2⟩
    exact ⟨by tauto, by rwa [← meet_symm h1]⟩
  · rintro ⟨h1, h2⟩
    exact ⟨by tauto, by rwa [← meet_symm h1]⟩

/-- A point of a triangle. -/
def InTriangle (p a b c : Vec ℝ) : Prop :=
  ∃ u v w : ℝ, 0 ≤ u ∧ 0 ≤ v ∧ 0 ≤ w ∧ u + v + w = 1 ∧ p.x = u * a.x + v * b.x + w * c.x ∧ p.y = u * a.y + v * b.y + w * c.y

theorem InTriangle.rotate {p a b c : Vec ℝ} : InTriangle p a b c → InTriangle p b c a := by
  rintro ⟨u, v, w, hu, hv, hw, h1, h2, h3⟩
  exact ⟨v, w, u, hv, hw, hu, by linarith, by linarith, by linarith⟩

theorem InTriangle.swap {p a b c : Vec ℝ} : InTriangle p a b c → InTriangle p a c b := by
  rintro ⟨u, v, w, hu, hv, hw, h1, h2, h3⟩
  exact ⟨u, w, v, hu, hw, hv, by linarith, by linarith, by linarith⟩

/-- The place where an edge is met, as a mean of its ends. -/
theorem meet_mean {p a b : Vec ℝ} (h : p.y < a.y ↔ ¬ p.y < b.y) :
    ∃ t, 0 ≤ t ∧ t ≤ 1 ∧ meet p a b = (1 - t) * a.x + t * b.x ∧ p.y = (1 - t) * a.y + t * b.y := by
  have hne : b.y - a.y ≠ 0 := by
    intro e
    have : b.y = a.y := by linarith
    rw [this] at h
    tauto
  refine ⟨(p.y - a.y) / (b.y - a.y), ?_, ?_, ?_, ?_⟩
  · by_cases ha : p.y < a.y
    · exact div_nonneg_of_nonpos (by linarith) (by linarith [not_lt.1 (h.1 ha)])
    · have hb : p.y < b.y := by tauto
      exact div_nonneg (by linarith) (by linarith)
  · by_cases ha : p.y < a.y
    · rw [div_le_one_of_neg (by linarith [not_lt.1 (h.1 ha)])]
      linarith [not_lt.1 (h.1 ha)]
    · have hb : p.y < b.y := by tauto
      rw [div_le_one (by linarith)]
      linarith
  · unfold meet; field_simp; ring
  · field_simp; ring

/-- Two edges from one corner of a triangle to the corners on the other side of the ray. -/
theorem both_cross {p a b c : Vec ℝ} (hb : p.y < a.y ↔ ¬ p.y < b.y) (hc : p.y < a.y ↔ ¬ p.y < c.y)
    (h : ¬ InTriangle p a b c) : (p.x < meet p a b ↔ p.x < meet p a c) := by
  obtain ⟨s, s0, s1, s2, s3⟩ := meet_mean hb
  obtain ⟨t, t0, t1, t2, t3⟩ := meet_mean hc
  have key : ∀ x y, meet p a b = x → meet p a c = y → (x ≤ p.x ∧ p.x < y ∨ y ≤ p.x ∧ p.x < x) → False := by
    rintro x y rfl rfl hxy
    apply h
    have hne : meet p a b ≠ meet p a c := by rintro e; rw [e] at hxy; rcases hxy with h | h <;> linarith
    have hd : meet p a c - meet p a b ≠ 0 := fun e => hne (by linarith)
    -- p = (1-r) M1 + r M2
    obtain ⟨r, r0, r1, r2⟩ : ∃ r, 0 ≤ r ∧ r ≤ 1 ∧ p.x = (1 - r) * meet p a b + r * meet p a c := by
      refine ⟨(p.x - meet p a b) / (meet p a c - meet p a b), ?_, ?_, by field_simp; ring⟩
      · rcases hxy with h | h
        · exact div_nonneg (by linarith) (by linarith)
        · exact div_nonneg_of_nonpos (by linarith) (by linarith)
      · rcases hxy with h | h
        · rw [div_le_one (by linarith)]; linarith
        · rw [div_le_one_of_neg (by linarith)]; linarith
    refine ⟨(1 - r) * (1 - s) + r * (1 - t), (1 - r) * s, r * t, ?_, ?_, ?_, by ring, ?_, ?_⟩
    · exact add_nonneg (mul_nonneg (by linarith) (by linarith)) (mul_nonneg r0 (by linarith))
    · exact mul_nonneg (by linarith) s0
    · exact mul_nonneg r0 t0
    · rw [r2, s2, t2]; ring
    · linear_combination (1 - r) * s3 + r * t3
  constructor
  · intro h1
    by_contra h2
    exact key _ _ rfl rfl (.inr ⟨not_lt.1 h2, h1⟩)
  · intro h1
    by_contra h2
    exact key _ _ rfl rfl (.inl ⟨not_lt.1 h2, h1⟩)

/-- 1 for an edge that is crossed. -/
noncomputable def cr (p a b : Vec ℝ) : ZMod 2 := if Crosses p (a, b) then 1 else 0

theorem cr_symm (p a b : Vec ℝ) : cr p a b = cr p b a := by
  unfold cr
  rw [if_congr crosses_symm rfl rfl]

theorem two_self (x : ZMod 2) : x + x = 0 := by revert x; decide

theorem cr_zero {p a b : Vec ℝ} (h : p.y < a.y ↔ p.y < b.y) : cr p a b = 0 := by
  unfold cr
  rw [if_neg]
  rintro ⟨h1, -⟩
  have h1 : p.y < a.y ↔ ¬ p.y < b.y := h1
  tauto

/-- A ray from a point outside of a triangle crosses two of its sides or none. -/
theorem triangle {p a b c : Vec ℝ} (h : ¬ InTriangle p a b c) : cr p a b + cr p b c + cr p c a = 0 := by
  -- the corner alone on its side of the ray
  have alone : ∀ a b c : Vec ℝ, ¬ InTriangle p a b c → (p.y < a.y ↔ ¬ p.y < b.y) → (p.y < a.y ↔ ¬ p.y < c.y) →
      cr p a b + cr p b c + cr p c a = 0 := by
    intro a b c h hb hc
    have e1 : cr p b c = 0 := cr_zero (by tauto)
    have e2 : cr p a b = cr p a c := by
      unfold cr
      apply if_congr _ rfl rfl
      rw [crosses_iff, crosses_iff, both_cross hb hc h]
      tauto
    rw [e1, e2, cr_symm p c a, add_zero, two_self]
  by_cases ha : p.y < a.y <;> by_cases hb : p.y < b.y <;> by_cases hc : p.y < c.y
  all_goals first
    | exact alone a b c h (by tauto) (by tauto)
    | (have := alone b c a (fun h' => h h'.rotate.rotate) (by tauto) (by tauto)
       rw [← this]; ring)
    | (have := alone c a b (fun h' => h h'.rotate) (by tauto) (by tauto)
       rw [← this]; ring)
    | (rw [cr_zero (by tauto), cr_zero (by tauto), cr_zero (by tauto)]; rfl)

/-- A ray from a point outside of the two triangles of a quadrangle. -/
theorem quad {p a b a' b' : Vec ℝ} (h1 : ¬ InTriangle p a b b') (h2 : ¬ InTriangle p a b' a') :
    cr p a b + cr p a' b' = cr p a a' + cr p b b' := by
  have t1 := triangle h1
  have t2 := triangle h2
  rw [cr_symm p b' a] at t1
  rw [cr_symm p b' a', cr_symm p a' a] at t2
  have h3 := two_self (cr p a b')
  have h4 := two_self (cr p b b')
  have h5 := two_self (cr p a a')
  linear_combination t1 + t2 - h3 - h4 - h5

/-- The quadrangles along two closed lines. -/
theorem chain (p : Vec ℝ) : ∀ (l : List (Vec ℝ × Vec ℝ)) (x y : Vec ℝ × Vec ℝ),
    (∀ e ∈ (x :: l).zip (l ++ [y]), ¬ InTriangle p e.1.1 e.2.1 e.2.2 ∧ ¬ InTriangle p e.1.1 e.2.2 e.1.2) →
    (((x :: l).zip (l ++ [y])).map (fun e => cr p e.1.1 e.2.1 + cr p e.1.2 e.2.2)).sum = cr p x.1 x.2 + cr p y.1 y.2
  | [], x, y, h => by
    simp only [List.nil_append, List.zip_cons_cons, List.zip_nil_right, List.map_cons, List.map_nil, List.sum_cons,
      List.sum_nil, add_zero]
    have := h (x, y) (by simp)
    exact quad this.1 this.2
  | z :: l, x, y, h => by
    rw [List.cons_append, List.zip_cons_cons, List.map_cons, List.sum_cons, chain p l z y
      (fun e he => h e (by rw [List.cons_append, List.zip_cons_cons]; exact List.mem_cons_of_mem _ he))]
    have := h (x, z) (by simp)
    have := quad this.1 this.2
    have h3 := two_self (cr p z.1 z.2)
    linear_combination this + h3

theorem crossings_sum (l : List (Vec ℝ)) (p : Vec ℝ) :
    ((crossings l p : ℕ) : ZMod 2) = ((sides l).map (fun e => cr p e.1 e.2)).sum := by
  unfold crossings
  induction sides l with
  | nil => simp
  | cons e s ih =>
    rw [List.countP_cons, List.map_cons, List.sum_cons, ← ih]
    unfold cr
    by_cases h : Crosses p e
    · simp [h, add_comm]
    · simp [h]

theorem within_iff (l : List (Vec ℝ)) (p : Vec ℝ) :
    WithinLine l p ↔ ((sides l).map (fun e => cr p e.1 e.2)).sum = 1 := by
  rw [← crossings_sum, ZMod.natCast_eq_one_iff_odd]
  rfl

theorem sides_map {f : Vec ℝ → Vec ℝ} (l : List (Vec ℝ)) : sides (l.map f) = (sides l).map (Prod.map f f) := by
  unfold sides
  rw [← List.map_tail, List.head?_map, show (Option.map f l.head?).toList = l.head?.toList.map f by cases l.head? <;> rfl,
    ← List.map_append, List.zip_map]

/-- The point is outside of all triangles between corresponding sides: it is within both lines or within neither. -/
theorem within_moved (p : Vec ℝ) (l : List (Vec ℝ × Vec ℝ))
    (h : ∀ e ∈ l.zip (l.tail ++ l.head?.toList), ¬ InTriangle p e.1.1 e.2.1 e.2.2 ∧ ¬ InTriangle p e.1.1 e.2.2 e.1.2) :
    WithinLine (l.map Prod.fst) p ↔ WithinLine (l.map Prod.snd) p := by
  rw [within_iff, within_iff]
  have e1 : ∀ f : Vec ℝ × Vec ℝ → Vec ℝ, sides (l.map f) = (l.zip (l.tail ++ l.head?.toList)).map (Prod.map f f) := by
    intro f
    unfold sides
    rw [← List.map_tail, List.head?_map, show (Option.map f l.head?).toList = l.head?.toList.map f by cases l.head? <;> rfl,
      ← List.map_append, List.zip_map]
  rw [e1, e1, List.map_map, List.map_map]
  have key : ((l.zip (l.tail ++ l.head?.toList)).map (fun e => cr p e.1.1 e.2.1 + cr p e.1.2 e.2.2)).sum = 0 := by
    cases l with
    | nil => simp
    | cons x l =>
      simp only [List.tail_cons, List.head?_cons, Option.toList_some] at h ⊢
      rw [chain p l x x h, two_self]
  rw [List.sum_map_add] at key
  have conv : ∀ a b : ZMod 2, a + b = 0 → (a = 1 ↔ b = 1) := by decide
  exact conv _ _ key

end Verif.Crossing
