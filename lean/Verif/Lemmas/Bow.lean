import Verif.Lemmas.Fine
import Verif.Spec.Bow

/-!
# Chords and the arcs over them
-/

namespace Verif.Bow
open Verif.Geom Verif.Rvmc Verif.Vm Verif.Spec Verif.Crossing Verif.Fine
open Real

theorem norm_convex {u v w x1 y1 x2 y2 x3 y3 R : ℝ} (hu : 0 ≤ u) (hv : 0 ≤ v) (hw : 0 ≤ w) (h : u + v + w = 1)
    (h1 : x1 ^ 2 + y1 ^ 2 = R) (h2 : x2 ^ 2 + y2 ^ 2 = R) (h3 : x3 ^ 2 + y3 ^ 2 = R) :
    (u * x1 + v * x2 + w * x3) ^ 2 + (u * y1 + v * y2 + w * y3) ^ 2 ≤ R := by
  have e : R - ((u * x1 + v * x2 + w * x3) ^ 2 + (u * y1 + v * y2 + w * y3) ^ 2)
      = u * v * ((x1 - x2) ^ 2 + (y1 - y2) ^ 2) + u * w * ((x1 - x3) ^ 2 + (y1 - y3) ^ 2)
        + v * w * ((x2 - x3) ^ 2 + (y2 - y3) ^ 2) := by
    have hw' : w = 1 - u - v := by linarith
    subst hw'
    linear_combination (-u) * h1 + (-v) * h2 + (-(1 - u - v)) * h3
  have : 0 ≤ u * v * ((x1 - x2) ^ 2 + (y1 - y2) ^ 2) + u * w * ((x1 - x3) ^ 2 + (y1 - y3) ^ 2)
        + v * w * ((x2 - x3) ^ 2 + (y2 - y3) ^ 2) := by positivity
  linarith

/-- A point whose product with a direction is large is near the arc about this direction. -/
theorem polar {x y h : ℝ} (h0 : 0 ≤ h) (h1 : h < π / 2) (hx : cos h ≤ x) (hr : x ^ 2 + y ^ 2 ≤ 1) :
    ∃ φ ρ, |φ| ≤ h ∧ cos h ≤ ρ ∧ ρ ≤ 1 ∧ x = ρ * cos φ ∧ y = ρ * sin φ := by
  have hc : 0 < cos h := cos_pos_of_mem_Ioo ⟨by linarith [pi_pos], h1⟩
  have hx0 : 0 < x := hc.trans_le hx
  let z : ℂ := ⟨x, y⟩
  have hz : z ≠ 0 := fun e => by
    have := congrArg Complex.re e
    simp [z] at this; linarith
  have hn : ‖z‖ ^ 2 = x ^ 2 + y ^ 2 := by
    rw [← Complex.normSq_eq_norm_sq, Complex.normSq_apply]; simp [z]; ring
  have hn0 : 0 < ‖z‖ := norm_pos_iff.2 hz
  have hn1 : ‖z‖ ≤ 1 := by
    by_contra hlt
    push Not at hlt
    nlinarith
  have e1 : x = ‖z‖ * cos z.arg := by rw [Complex.norm_mul_cos_arg]
  have e2 : y = ‖z‖ * sin z.arg := by rw [Complex.norm_mul_sin_arg]
  have hxn : x ≤ ‖z‖ := by
    have := Complex.abs_re_le_norm z
    exact (le_abs_self _).trans this
  refine ⟨z.arg, ‖z‖, ?_, hx.trans hxn, hn1, e1, e2⟩
  by_contra hlt
  push Not at hlt
  have hcos : cos |z.arg| < cos h := cos_lt_cos_of_nonneg_of_le_pi h0 (Complex.abs_arg_le_pi z) hlt
  rw [cos_abs] at hcos
  have : x ≤ cos z.arg := by
    have hp : 0 < cos z.arg := by
      by_contra hnp
      push Not at hnp
      have := mul_nonpos_of_nonneg_of_nonpos hn0.le hnp
      linarith
    calc x = ‖z‖ * cos z.arg := e1
      _ ≤ 1 * cos z.arg := mul_le_mul_of_nonneg_right hn1 hp.le
      _ = _ := one_mul _
  linarith

/-- A point in the triangle of three points of an arc, the second in the middle of the others, is not further away from the
arc between them than the height of the bow. -/
theorem near_arc (cw : Bool) (c w p : Vec ℝ) {a b h : ℝ} (hab : a ≤ b) (hh : (b - a) / 2 ≤ h) (hlt : h < π / 2) (hw : 0 < vlen w)
    (hp : InTriangle p (c + turn cw a w) (c + turn cw ((a + b) / 2) w) (c + turn cw b w)) :
    ∃ τ, a ≤ τ ∧ τ ≤ b ∧ vlen (p - (c + turn cw τ w)) ≤ vlen w * (1 - cos h) := by
  set d := (b - a) / 2 with hd
  have d0 : 0 ≤ d := by rw [hd]; linarith
  have hsq : vlen w ^ 2 = w.x ^ 2 + w.y ^ 2 := Real.sq_sqrt (by positivity)
  set R := vlen w with hR
  set m := (a + b) / 2 with hm
  set M := turn cw m w with hM
  have hMM : M.x ^ 2 + M.y ^ 2 = R ^ 2 := by
    have : vlen M ^ 2 = R ^ 2 := by rw [hM, vlen_turn]
    rw [← this, vlen, Real.sq_sqrt (by positivity)]
  -- the other corners, seen from the middle
  let J : ℝ → Vec ℝ := fun φ => ⟨cos φ * M.x - sin φ * M.y, sin φ * M.x + cos φ * M.y⟩
  have key : ∀ s, turn cw (m + s) w = J (if cw then -s else s) := by
    intro s
    have : turn cw (m + s) w = rotCcw (if cw then -s else s) M := by
      rw [hM]
      unfold turn
      rw [rotCcw_add]
      congr 1
      cases cw <;> simp <;> ring
    rw [this]; rfl
  have ea : turn cw a w = J (if cw then d else -d) := by
    rw [show a = m + -d by rw [hm, hd]; ring, key]; cases cw <;> simp
  have eb : turn cw b w = J (if cw then -d else d) := by
    rw [show b = m + d by rw [hm, hd]; ring, key]
  obtain ⟨u, v, k, hu, hv, hk, h1, h2, h3⟩ := hp
  -- coordinates of the point along the middle direction
  have hRpos : 0 < R ^ 2 := by positivity
  obtain ⟨σ, hσ, ea', eb'⟩ : ∃ σ : ℝ, (σ = 1 ∨ σ = -1) ∧ turn cw a w = J (σ * d) ∧ turn cw b w = J (-(σ * d)) := by
    cases cw
    · exact ⟨-1, .inr rfl, by rw [ea]; simp, by rw [eb]; simp⟩
    · exact ⟨1, .inl rfl, by rw [ea]; simp, by rw [eb]; simp⟩
  have hcd : cos (σ * d) = cos d := by rcases hσ with rfl | rfl <;> simp
  have hdh : cos h ≤ cos d := cos_le_cos_of_nonneg_of_le_pi d0 (by linarith [pi_pos]) hh
  have hd2 : d < π / 2 := lt_of_le_of_lt hh hlt
  set X := u * cos d + v + k * cos d with hX
  set Y := (u - k) * sin (σ * d) with hY
  have hqx : p.x - c.x = X * M.x - Y * M.y := by
    rw [h2, ea', eb', hX, hY]
    simp only [Vec.add_x, J, cos_neg, sin_neg, hcd]
    have hv' : v = 1 - u - k := by linarith
    subst hv'; ring
  have hqy : p.y - c.y = Y * M.x + X * M.y := by
    rw [h3, ea', eb', hX, hY]
    simp only [Vec.add_y, J, cos_neg, sin_neg, hcd]
    have hv' : v = 1 - u - k := by linarith
    subst hv'; ring
  have hXle : cos d ≤ X := by
    have : X - cos d = v * (1 - cos d) := by
      rw [hX]; have hv' : u = 1 - v - k := by linarith
      subst hv'; ring
    have := mul_nonneg hv (sub_nonneg.2 (cos_le_one d))
    linarith
  have hone : cos d ^ 2 + sin (σ * d) ^ 2 = 1 := by rw [← hcd]; exact cos_sq_add_sin_sq _
  have hXY : X ^ 2 + Y ^ 2 ≤ 1 := by
    have := norm_convex hu hv hk h1 (R := 1) (x1 := cos d) (y1 := sin (σ * d)) (x2 := 1) (y2 := 0) (x3 := cos d) (y3 := -sin (σ * d))
      hone (by norm_num) (by rw [neg_sq]; exact hone)
    calc X ^ 2 + Y ^ 2 = (u * cos d + v * 1 + k * cos d) ^ 2 + (u * sin (σ * d) + v * 0 + k * -sin (σ * d)) ^ 2 := by
          rw [hX, hY]; ring
      _ ≤ 1 := this
  obtain ⟨φ, ρ, f1, f2, f3, f4, f5⟩ := polar d0 hd2 hXle hXY
  refine ⟨m + (if cw then -φ else φ), ?_, ?_, ?_⟩
  · have := abs_le.1 f1
    cases cw <;> simp only [Bool.false_eq_true, if_false, if_true] <;> (rw [hm]; linarith [this.1, this.2])
  · have := abs_le.1 f1
    cases cw <;> simp only [Bool.false_eq_true, if_false, if_true] <;> (rw [hm]; linarith [this.1, this.2])
  · have e : turn cw (m + (if cw then -φ else φ)) w = J φ := by
      rw [key]; congr 1; cases cw <;> simp
    rw [e]
    have ex : (p - (c + J φ)).x = (ρ - 1) * (J φ).x := by
      simp only [Vec.sub_x, Vec.add_x]
      rw [← sub_sub, hqx, f4, f5]; simp only [J]; ring
    have ey : (p - (c + J φ)).y = (ρ - 1) * (J φ).y := by
      simp only [Vec.sub_y, Vec.add_y]
      rw [← sub_sub, hqy, f4, f5]; simp only [J]; ring
    have hJ : (J φ).x ^ 2 + (J φ).y ^ 2 = R ^ 2 := by
      rw [← hMM]; simp only [J]; linear_combination (M.x ^ 2 + M.y ^ 2) * sin_sq_add_cos_sq φ
    have hv : vlen (p - (c + J φ)) = R * (1 - ρ) := by
      unfold vlen
      rw [ex, ey, show ((ρ - 1) * (J φ).x) ^ 2 + ((ρ - 1) * (J φ).y) ^ 2 = (R * (1 - ρ)) ^ 2 by
        rw [mul_pow R, ← hJ]; ring]
      exact Real.sqrt_sq (mul_nonneg hw.le (by linarith))
    rw [hv]
    exact mul_le_mul_of_nonneg_left (by linarith) hw.le

/-! ### Finer and finer polygons -/

theorem follows_along {step R : ℝ} (h0 : 0 ≤ step) {g : Segment} (hn : NotClosed g) (hR : arcRadius g ≤ R) {tr : List (Vec ℝ)} (h : Follows step g tr) :
    Along (step * R) g tr := by
  have hr := radius_pos hn
  cases g with
  | line l => exact h
  | arc a =>
    obtain ⟨t, offs, h1, h2, h3, h4⟩ := h
    refine ⟨t, offs, h1, Props.Arcs.discretises_mono h2 ?_, h3, h4⟩
    rw [le_div_iff₀ hr]
    exact mul_le_mul_of_nonneg_left hR h0

/-- Every point is further away from the piece than the chords of `step` radians are. -/
def ClearOfPiece (step : ℝ) (g : Segment) (p : Vec ℝ) : Prop :=
  ∀ v, OnPiece v g → (match g with | .line _ => 0 | .arc a => vlen (a.start - a.center) * (1 - cos (step / 2))) < vlen (p - v)

theorem clear_mono {step step' : ℝ} (h0 : 0 ≤ step) (h1 : step ≤ step') (h2 : step' ≤ π) {g : Segment} {p : Vec ℝ} (h : ClearOfPiece step' g p) : ClearOfPiece step g p := by
  intro v hv
  refine lt_of_le_of_lt ?_ (h v hv)
  cases g with
  | line _ => exact le_rfl
  | arc a =>
    refine mul_le_mul_of_nonneg_left ?_ (Real.sqrt_nonneg _)
    have := cos_le_cos_of_nonneg_of_le_pi (x := step / 2) (y := step' / 2) (by linarith) (by linarith [pi_pos]) (by linarith)
    linarith

theorem vlen_close {ε : ℝ} {p v : Vec ℝ} (h : vlen (p - v) ≤ ε) : Close ε p v := by
  have h0 : 0 ≤ vlen (p - v) := Real.sqrt_nonneg _
  have h1 : vlen (p - v) ^ 2 = (p.x - v.x) ^ 2 + (p.y - v.y) ^ 2 := Real.sq_sqrt (by positivity)
  have h2 : vlen (p - v) ^ 2 ≤ ε ^ 2 := pow_le_pow_left₀ h0 h 2
  constructor
  · apply abs_le_of_sq_le_sq _ (h0.trans h); nlinarith [sq_nonneg (p.y - v.y)]
  · apply abs_le_of_sq_le_sq _ (h0.trans h); nlinarith [sq_nonneg (p.x - v.x)]

theorem bow_le {s : ℝ} (h0 : 0 ≤ s) : 1 - cos (s / 2) ≤ s := by
  have h1 := one_sub_sq_div_two_le_cos (x := s / 2)
  rcases le_total s 2 with h | h
  · nlinarith
  · linarith [neg_one_le_cos (s / 2)]

theorem close_clear {step R : ℝ} (h0 : 0 ≤ step) {g : Segment} (hR : arcRadius g ≤ R) (hR0 : 0 ≤ R) {p : Vec ℝ}
    (h : ∀ v, OnPiece v g → ¬ Close (step * R) p v) : ClearOfPiece step g p := by
  intro v hv
  by_contra hle
  push Not at hle
  refine h v hv (vlen_close (hle.trans ?_))
  cases g with
  | line _ => exact mul_nonneg h0 hR0
  | arc a =>
    calc vlen (a.start - a.center) * (1 - cos (step / 2)) ≤ R * step :=
          mul_le_mul hR (bow_le h0) (by linarith [cos_le_one (step / 2)]) hR0
      _ = step * R := mul_comm _ _

theorem follows_refine {step : ℝ} (hlt : step < π) {g : Segment} {pts : List (Vec ℝ)} (hn : NotClosed g) (h : Follows step g pts) :
    ∃ pts', Follows (step / 2) g pts' ∧ ∀ p, ClearOfPiece step g p → Alike p pts pts' := by
  cases g with
  | line l => exact ⟨pts, h, fun p _ => .refl _ _⟩
  | arc a =>
    obtain ⟨t, offs, h1, h2, rfl, h4⟩ := h
    refine ⟨(bisect offs).map fun τ => a.center + turn a.clockwise τ (a.start - a.center), ⟨t, bisect offs, h1, bisect_discretises h2, rfl, ?_⟩, ?_⟩
    · rw [List.getLast?_map] at h4 ⊢
      rw [bisect_last, h4]
    · intro p hp
      refine bisect_alike offs h2.2.2 fun x hx y hy hxy hs ht => ?_
      obtain ⟨x0, x1⟩ := Props.Pixels.discretises_mem h2 x hx
      obtain ⟨y0, y1⟩ := Props.Pixels.discretises_mem h2 y hy
      obtain ⟨τ, t0, t1, hτ⟩ := near_arc a.clockwise a.center (a.start - a.center) p hxy.le (h := step / 2) (by linarith) (by linarith)
        (vlen_pos (Props.Arcs.ne_center hn.1)) ht
      have := hp _ ⟨t, h1, τ, x0.trans t0, t1.trans y1, rfl⟩
      exact absurd hτ (not_le.2 this)

theorem refine_bows {step : ℝ} (hlt : step < π) {gs : List Segment} {trs : List (List (Vec ℝ))} (h : List.Forall₂ (Follows step) gs trs) :
    (∀ g ∈ gs, NotClosed g) → ∃ trs', List.Forall₂ (Follows (step / 2)) gs trs' ∧
      ∀ p, (∀ g ∈ gs, ClearOfPiece step g p) → Alike p trs.flatten trs'.flatten := by
  induction h with
  | nil => exact fun _ => ⟨[], .nil, fun _ _ => .refl _ _⟩
  | cons h1 _ ih =>
    intro hn
    obtain ⟨trs', h2, h3⟩ := ih fun g hg => hn g (by simp [hg])
    obtain ⟨tr', h4, h5⟩ := follows_refine hlt (hn _ (by simp)) h1
    refine ⟨tr' :: trs', .cons h4 h2, fun p hp => ?_⟩
    rw [List.flatten_cons, List.flatten_cons]
    exact (h5 p (hp _ (by simp))).append (h3 p fun g hg => hp g (by simp [hg]))

theorem bow_refinements {step : ℝ} (h0 : 0 ≤ step) (hlt : step < π) {gs : List Segment} (hn : ∀ g ∈ gs, NotClosed g) {trs : List (List (Vec ℝ))}
    (h : List.Forall₂ (Follows step) gs trs) :
    ∃ V : ℕ → List (List (Vec ℝ)), V 0 = trs ∧ (∀ k, List.Forall₂ (Follows (step / 2 ^ k)) gs (V k)) ∧
      ∀ k p, (∀ g ∈ gs, ClearOfPiece (step / 2 ^ k) g p) → (WithinLine (V k).flatten p ↔ WithinLine (V (k + 1)).flatten p) := by
  have hk : ∀ k : ℕ, step / 2 ^ k < π := fun k => lt_of_le_of_lt (div_le_self h0 (one_le_pow₀ (by norm_num))) hlt
  have next : ∀ (k : ℕ) (x : {trs // List.Forall₂ (Follows (step / 2 ^ k)) gs trs}),
      ∃ y : {trs // List.Forall₂ (Follows (step / 2 ^ (k + 1))) gs trs},
        ∀ p, (∀ g ∈ gs, ClearOfPiece (step / 2 ^ k) g p) → (WithinLine x.1.flatten p ↔ WithinLine y.1.flatten p) := by
    rintro k ⟨x, hx⟩
    obtain ⟨y, h1, h2⟩ := refine_bows (hk k) hx hn
    rw [div_div, ← pow_succ] at h1
    refine ⟨⟨y, h1⟩, fun p hp => within_alike (h2 p hp) ?_⟩
    rw [flatten_head (fun _ _ => Props.Arcs.follows_head) hx, flatten_head (fun _ _ => Props.Arcs.follows_head) h1]
  choose next hnext using next
  let V : ∀ k, {trs // List.Forall₂ (Follows (step / 2 ^ k)) gs trs} := fun k =>
    Nat.rec (motive := fun k => {trs // List.Forall₂ (Follows (step / 2 ^ k)) gs trs}) ⟨trs, by simpa using h⟩ (fun k x => next k x) k
  exact ⟨fun k => (V k).1, rfl, fun k => (V k).2, fun k p hp => hnext k (V k) p hp⟩

theorem radius_bound (gs : List Segment) : ∃ R : ℝ, 0 < R ∧ ∀ g ∈ gs, arcRadius g ≤ R := by
  induction gs with
  | nil => exact ⟨1, one_pos, by simp⟩
  | cons g gs ih =>
    obtain ⟨R, h0, h⟩ := ih
    refine ⟨max R (arcRadius g), lt_of_lt_of_le h0 (le_max_left _ _), fun x hx => ?_⟩
    rcases List.mem_cons.1 hx with rfl | hx
    · exact le_max_right _ _
    · exact (h x hx).trans (le_max_left _ _)

theorem forall₂_follows_along {step R : ℝ} (h0 : 0 ≤ step) {gs : List Segment} {trs : List (List (Vec ℝ))} (h : List.Forall₂ (Follows step) gs trs) :
    (∀ g ∈ gs, NotClosed g) → (∀ g ∈ gs, arcRadius g ≤ R) → List.Forall₂ (Along (step * R)) gs trs := by
  induction h with
  | nil => exact fun _ _ => .nil
  | cons h1 _ ih =>
    exact fun hn hR => .cons (follows_along h0 (hn _ (by simp)) (hR _ (by simp)) h1)
      (ih (fun g hg => hn g (by simp [hg])) fun g hg => hR g (by simp [hg]))

theorem along_le {ε ε' : ℝ} (h : ε ≤ ε') {g : Segment} (hn : NotClosed g) {tr : List (Vec ℝ)} (ha : Along ε g tr) : Along ε' g tr := by
  have hr := radius_pos hn
  cases g with
  | line l => exact ha
  | arc a =>
    obtain ⟨t, offs, h1, h2, h3, h4⟩ := ha
    exact ⟨t, offs, h1, Props.Arcs.discretises_mono h2 (div_le_div_of_nonneg_right h hr.le), h3, h4⟩

theorem forall₂_along_le {ε ε' : ℝ} (h : ε ≤ ε') {gs : List Segment} {trs : List (List (Vec ℝ))} (ha : List.Forall₂ (Along ε) gs trs) :
    (∀ g ∈ gs, NotClosed g) → List.Forall₂ (Along ε') gs trs := by
  induction ha with
  | nil => exact fun _ => .nil
  | cons h1 _ ih => exact fun hn => .cons (along_le h (hn _ (by simp)) h1) (ih fun g hg => hn g (by simp [hg]))

theorem clear_bow {n : ℕ} {g : Segment} {p : Vec ℝ} (h : ∀ v, OnPiece v g → bow n g < vlen (p - v)) : ClearOfPiece (2 * π / n) g p := by
  intro v hv
  have := h v hv
  cases g with
  | line _ => exact this
  | arc a =>
    show _ * (1 - cos (2 * π / n / 2)) < _
    rw [show 2 * π / (n : ℝ) / 2 = π / n by ring]
    exact this

/-- Clear of the outline, the points of the polygon are those of the shape. -/
theorem area_clear {s : Shape} (hn : ∀ g ∈ s.segments, NotClosed g) (hs : GoesRoundOnce s) {n : ℕ} (hn3 : 3 ≤ n) {trs : List (List (Vec ℝ))}
    (h : List.Forall₂ (Follows (2 * π / n)) s.segments trs) {p : Vec ℝ} (hp : ClearOf n s p) :
    WithinLine trs.flatten p ↔ p ∈ areaOf s := by
  have hn0 : (3 : ℝ) ≤ n := by exact_mod_cast hn3
  have hstep0 : 0 < 2 * π / (n : ℝ) := by have := pi_pos; positivity
  have hstep1 : 2 * π / (n : ℝ) < π := by
    rw [div_lt_iff₀ (by linarith)]; nlinarith [pi_pos]
  obtain ⟨R, hR0, hR⟩ := radius_bound s.segments
  obtain ⟨V, rfl, hV, hW⟩ := bow_refinements hstep0.le hstep1 hn h
  have hle : ∀ k : ℕ, 2 * π / (n : ℝ) / 2 ^ k ≤ 2 * π / n := fun k => div_le_self hstep0.le (one_le_pow₀ (by norm_num))
  have hk0 : ∀ k : ℕ, 0 ≤ 2 * π / (n : ℝ) / 2 ^ k := fun k => by positivity
  have all : ∀ k, WithinLine (V 0).flatten p ↔ WithinLine (V k).flatten p := by
    intro k
    induction k with
    | zero => exact Iff.rfl
    | succ k ih =>
      rw [ih]
      exact hW k p fun g hg => clear_mono (hk0 k) (hle k) hstep1.le (clear_bow (hp.1 g hg))
  -- the same, with distances along the arcs
  have hε : 0 < 2 * π / (n : ℝ) * R := mul_pos hstep0 hR0
  have hV' : ∀ k, List.Forall₂ (Along (2 * π / (n : ℝ) * R / 2 ^ k)) s.segments (V k) := fun k => by
    rw [mul_div_right_comm]
    exact forall₂_follows_along (hk0 k) (hV k) hn hR
  have hW' : ∀ k p, (∀ g ∈ s.segments, ∀ v, OnPiece v g → ¬ Close (2 * π / (n : ℝ) * R / 2 ^ k) p v) →
      (WithinLine (V k).flatten p ↔ WithinLine (V (k + 1)).flatten p) := fun k p hc =>
    hW k p fun g hg => close_clear (hk0 k) (hR g hg) hR0.le (by rw [← mul_div_right_comm]; exact hc g hg)
  constructor
  · intro h0
    exact enclosed hn hε hV' hW' (k₀ := 0) fun k _ => (all k).1 h0
  · intro hA
    have hnr : ¬ OnRim s p := by
      rintro (⟨g, hg, hv⟩ | ⟨g, hg, hv⟩)
      · have := hp.1 g hg p hv
        have e : vlen (p - p) = 0 := by unfold vlen; simp
        rw [e] at this
        cases g with
        | line _ => exact lt_irrefl _ this
        | arc a =>
          exact absurd this (not_lt.2 (mul_nonneg (Real.sqrt_nonneg _) (by linarith [cos_le_one (π / n)])))
      · exact hp.2 g hg hv
    obtain ⟨δ, hδ, hd⟩ := hs p hA hnr
    obtain ⟨K, hK⟩ := exists_pow_lt_of_lt_one (div_pos hδ hε) (by norm_num : (1 / 2 : ℝ) < 1)
    rw [div_pow, one_pow, lt_div_iff₀ hε] at hK
    rw [all K]
    refine hd _ (forall₂_along_le ?_ (hV' K) hn)
    calc 2 * π / (n : ℝ) * R / 2 ^ K = 1 / 2 ^ K * (2 * π / n * R) := by ring
      _ ≤ δ := hK.le

theorem follows_last {step : ℝ} {g : Segment} {tr : List (Vec ℝ)} (h : Follows step g tr) : tr.getLast? = some g.stop := by
  cases g with
  | line l => rw [show tr = [l.start, l.stop] from h]; rfl
  | arc a => obtain ⟨t, offs, -, -, -, h4⟩ := h; exact h4

/-- The sides of the polygon belong to a piece or join two pieces. -/
theorem follows_pairs {step : ℝ} (h0 : Segment) {gs : List Segment} {trs : List (List (Vec ℝ))} (h : List.Forall₂ (Follows step) gs trs) :
    ∀ e ∈ pairs (trs.flatten ++ [h0.start]), (∃ g ∈ gs, ∃ tr, Follows step g tr ∧ e ∈ pairs tr) ∨
      ∃ g ∈ gs.zip (gs.tail ++ [h0]), e = (g.1.stop, g.2.start) := by
  induction h with
  | nil => intro e he; simp [pairs] at he
  | @cons g tr gs trs h1 h2 ih =>
    intro e he
    rw [List.flatten_cons, List.append_assoc] at he
    rcases pairs_append _ _ _ he with h | ⟨h3, h4⟩ | h
    · exact .inl ⟨g, by simp, tr, h1, h⟩
    · refine .inr ?_
      rw [follows_last h1] at h3
      rw [List.head?_append, flatten_head (fun _ _ => Props.Arcs.follows_head) h2] at h4
      cases gs with
      | nil =>
        refine ⟨(g, h0), by simp, ?_⟩
        simp only [List.head?_nil, Option.map_none, Option.none_or, List.head?_cons, Option.some.injEq] at h3 h4
        exact Prod.ext h3.symm h4.symm
      | cons g' gs =>
        refine ⟨(g, g'), by simp, ?_⟩
        simp only [List.head?_cons, Option.map_some, Option.some_or, Option.some.injEq] at h3 h4
        exact Prod.ext h3.symm h4.symm
    · rcases ih e h with ⟨g', hg, tr', h5, h6⟩ | ⟨g', hg, h5⟩
      · exact .inl ⟨g', by simp [hg], tr', h5, h6⟩
      · refine .inr ⟨g', ?_, h5⟩
        cases gs with
        | nil => simp at hg
        | cons g'' gs => simpa using Or.inr hg

/-- Clear of the outline, a point is not on the sides of the polygon. -/
theorem sides_clear {s : Shape} (hn : ∀ g ∈ s.segments, NotClosed g) {n : ℕ} (hn3 : 3 ≤ n) {trs : List (List (Vec ℝ))}
    (h : List.Forall₂ (Follows (2 * π / n)) s.segments trs) {p : Vec ℝ} (hp : ClearOf n s p) {e : Vec ℝ × Vec ℝ} (he : e ∈ sides trs.flatten) :
    ¬ OnSegment e.1 e.2 p := by
  have hn0 : (3 : ℝ) ≤ n := by exact_mod_cast hn3
  have hstep0 : 0 < 2 * π / (n : ℝ) := by have := pi_pos; positivity
  have hstep1 : 2 * π / (n : ℝ) < π := by
    rw [div_lt_iff₀ (by linarith)]; nlinarith [pi_pos]
  obtain ⟨R, hR0, hR⟩ := radius_bound s.segments
  have h' := forall₂_follows_along hstep0.le h hn hR
  intro hseg
  rw [sides_pairs, flatten_head (fun _ _ => along_head) h'] at he
  have hh : s.segments.head?.map Segment.start = some s.head.start := rfl
  rw [hh, Option.toList_some] at he
  rcases follows_pairs s.head h e he with ⟨g, hg, tr, h1, h2⟩ | ⟨g, hg, rfl⟩
  · obtain ⟨l, l0, l1, rfl⟩ := hseg
    cases g with
    | line l' =>
      rw [show tr = [l'.start, l'.stop] from h1] at h2
      simp only [pairs, List.mem_singleton] at h2
      subst h2
      have := hp.1 _ hg _ ⟨l, l0, l1, rfl⟩
      have e : ∀ q : Vec ℝ, vlen (q - q) = 0 := by intro q; unfold vlen; simp
      rw [e] at this
      exact lt_irrefl _ this
    | arc a =>
      obtain ⟨T, offs, g1, g2, rfl, -⟩ := h1
      obtain ⟨x, hx, y, hy, ⟨hxy, hs⟩, rfl⟩ := pairs_chain g2.2.2 e h2
      obtain ⟨x0, x1⟩ := Props.Pixels.discretises_mem g2 x hx
      obtain ⟨y0, y1⟩ := Props.Pixels.discretises_mem g2 y hy
      obtain ⟨τ, t0, t1, hτ⟩ := near_arc a.clockwise a.center (a.start - a.center) (a := x) (b := y) (hab := hxy.le) (h := 2 * π / n / 2) (by linarith) (by linarith)
        (vlen_pos (Props.Arcs.ne_center (hn _ hg).1))
        (p := ⟨(a.center + turn a.clockwise x (a.start - a.center)).x + l * ((a.center + turn a.clockwise y (a.start - a.center)).x - (a.center + turn a.clockwise x (a.start - a.center)).x),
          (a.center + turn a.clockwise x (a.start - a.center)).y + l * ((a.center + turn a.clockwise y (a.start - a.center)).y - (a.center + turn a.clockwise x (a.start - a.center)).y)⟩)
        ⟨1 - l, 0, l, by linarith, le_rfl, l0, by ring, by simp only; ring, by simp only; ring⟩
      exact absurd hτ (not_le.2 (clear_bow (hp.1 _ hg) _ ⟨T, g1, τ, x0.trans t0, t1.trans y1, rfl⟩))
  · exact hp.2 g (by simpa [successors, Shape.segments] using hg) hseg

end Verif.Bow
