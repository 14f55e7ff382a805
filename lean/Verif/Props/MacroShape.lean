import Verif.Lemmas.MacroShape
import Verif.Props.Flash

/-!
# C65: the figures of aperture definitions
-/

namespace Verif.Props.MacroShape
open Verif.Geom Verif.Spec Verif.Rvmc Verif.Compiler Verif.Visitor Verif.Math Verif.Macro Verif.Sim Verif.Lemmas.ShapeArea Verif.Lemmas.MacroShape Real

/-! ### Values -/

theorem value_eval {ρ : List Char → Option ℚ} {e : Expr} {v : ℚ} (h : Value ρ e v) : eval ρ e = .ok v := by
  refine Value.rec (motive_1 := fun e v _ => eval ρ e = .ok v)
    (motive_2 := fun op a es v _ => evalTail ρ op a es = .ok v) ?_ ?_ ?_ ?_ ?_ ?_ ?_ ?_ ?_ ?_ ?_ h
  · intro c; rfl
  · intro n v hn; simp [eval, hn]
  · intro e v _ ih; simpa [eval] using ih
  · intro e v _ ih; simp [eval, ih]
  · intro e v _ ih; simpa [eval] using ih
  · intro op h t a v _ _ ih1 ih2; simp [eval, ih1, ih2]
  · intro op a; rfl
  · intro a e b es v _ _ ih1 ih2; simp [evalTail, ih1, Op.step, ih2]
  · intro a e b es v _ _ ih1 ih2; simp [evalTail, ih1, Op.step, ih2]
  · intro a e b es v _ _ ih1 ih2; simp [evalTail, ih1, Op.step, ih2]
  · intro a e b es v _ hb _ ih1 ih2; simp [evalTail, ih1, Op.step, hb, ih2]

theorem value_mono {ρ ρ' : List Char → Option ℚ} (hρ : ∀ n v, ρ n = some v → ρ' n = some v) {e : Expr} {v : ℚ}
    (h : Value ρ e v) : Value ρ' e v := by
  refine Value.rec (motive_1 := fun e v _ => Value ρ' e v)
    (motive_2 := fun op a es v _ => Operated ρ' op a es v) ?_ ?_ ?_ ?_ ?_ ?_ ?_ ?_ ?_ ?_ ?_ h
  · intro c; exact .const c
  · intro n v hn; exact .var (hρ n v hn)
  · intro e v _ ih; exact .paren ih
  · intro e v _ ih; exact .neg ih
  · intro e v _ ih; exact .pos ih
  · intro op h t a v _ _ ih1 ih2; exact .bin ih1 ih2
  · intro op a; exact .done op a
  · intro a e b es v _ _ ih1 ih2; exact .add ih1 ih2
  · intro a e b es v _ _ ih1 ih2; exact .sub ih1 ih2
  · intro a e b es v _ _ ih1 ih2; exact .mul ih1 ih2
  · intro a e b es v _ hb _ ih1 ih2; exact .div ih1 hb ih2

theorem value_evalE {scope : Dict Name ℚ} {e : Expr} {v : ℚ} (h : Value scope.get? e v) : evalE scope e = .ok v := by
  unfold evalE; rw [value_eval h]

theorem values_evalPoints {scope : Dict Name ℚ} : ∀ {ps : List (Expr × Expr)} {xs ys : List ℚ},
    Values scope.get? (ps.map Prod.fst) xs → Values scope.get? (ps.map Prod.snd) ys →
    evalPoints scope ps = .ok (xs.zip ys)
  | [], _, _, hx, hy => by cases hx; cases hy; rfl
  | p :: ps, _, _, hx, hy => by
    rcases hx with _ | ⟨h1, h2⟩
    rcases hy with _ | ⟨h3, h4⟩
    simp only [evalPoints, value_evalE h1, value_evalE h3, values_evalPoints h2 h4]; rfl

/-- The values are determined. -/
theorem value_unique {ρ : List Char → Option ℚ} {e : Expr} {v w : ℚ} (h : Value ρ e v) (h' : Value ρ e w) : v = w := by
  have := value_eval h
  rw [value_eval h'] at this
  cases this; rfl

/-! ### Primitives -/

/-- The rings of a moiré fit: each has room for its hole, or is a disc within the thickness of a ring and the last one. -/
def Roomy (t g : ℚ) : ℕ → ℚ → Prop
  | 0, _ => True
  | n + 1, d => (0 < d ∧ d ≤ t) ∨ (2 * t < d ∧ Roomy t g n (d - 2 * (t + g)))

/-- The cases in which the figures are right: polygons are not rotated (see `c65_false_polygon`), the rings of a moiré
fit (see `c65_false_moire`), and the bars of a thermal leave something of the ring (see `c65_false_thermal`). -/
def Sound (ρ : List Char → Option ℚ) : Prim → Prop
  | .code5 _ _ _ _ _ rotation => ∀ r, Value ρ rotation r → r = 0
  | .code6 _ _ outer thickness gap rings _ _ _ => ∀ d t g (n : ℕ), Value ρ outer d → Value ρ thickness t →
      Value ρ gap g → Value ρ rings n → d ≤ 0 ∨ Roomy t g n d
  | .code7 _ _ _ _ inner gap _ => ∀ k g, Value ρ inner k → Value ρ gap g → (g : ℝ) * √2 < (k : ℝ)
  | _ => True

theorem depicts_area {s : Shape} {dark : Bool} {S : Vec ℝ → Prop} (hn : s.negative = !dark) (h : ∀ p, p ∈ areaOf s ↔ S p) :
    Depicts (dark, S) (.shape s) := ⟨s, rfl, hn, h⟩

theorem exposure_negative (e : ℚ) : (e == 0) = !decide (e ≠ 0) := by
  by_cases h : e = 0 <;> simp [h]

theorem turned_congr {r : ℚ} {S T : Vec ℝ → Prop} (h : ∀ p, S p ↔ T p) (p : Vec ℝ) : Turned r S p ↔ Turned r T p := by
  rw [turned_iff, turned_iff, h]

theorem pt_point (x y : ℚ) : pt x y = point x y := rfl

theorem truncQ_nat (n : ℕ) : truncQ (n : ℚ) = (n : ℤ) := by
  unfold truncQ
  rw [if_neg (by simp)]
  simp

/-- The shape of a vector line. -/
theorem vector_depicts {e w sx sy ex ey r : ℚ} (hw : 0 ≤ w) (hne : (sx, sy) ≠ (ex, ey)) :
    Depicts (decide (e ≠ 0), Turned r (Band (point sx sy) (point ex ey) w))
      (.shape (rotated r (Shape.newLine (pt sx sy) (pt ex ey) (w : ℝ) (e == 0)))) := by
  refine depicts_area (exposure_negative e) fun p => ?_
  rw [enclosed_rotated (straight_line _ _ _ _)]
  refine turned_congr (fun q => band_enclosed ?_ hw _ _) _
  intro h
  apply hne
  have hx := congrArg Vec.x h
  have hy := congrArg Vec.y h
  simp only [pt, Rat.cast_inj] at hx hy
  rw [hx, hy]

theorem rectangle_depicts {e w h x y r : ℚ} (hw : 0 ≤ w) (hh : 0 ≤ h) {a b : Vec ℝ}
    (ha : a = point (x - w / 2) (y - h / 2)) (hb : b = point (x + w / 2) (y + h / 2)) :
    Depicts (decide (e ≠ 0), Turned r (Rectangle a b))
      (.shape (rotated r (Shape.newRectangle (pt x y) (w : ℝ) (h : ℝ) (e == 0)))) := by
  have hw' : (0 : ℝ) ≤ (w : ℝ) := by exact_mod_cast hw
  have hh' : (0 : ℝ) ≤ (h : ℝ) := by exact_mod_cast hh
  refine depicts_area (exposure_negative e) fun p => ?_
  rw [enclosed_rotated (straight_rectangle _ _ _ _)]
  refine turned_congr (fun q => ?_) _
  rw [rectangle_enclosed _ _ hw' hh', ha, hb]
  simp only [Rectangle, pt, point]
  push_cast
  tauto

theorem rings_depicted {x y t g r : ℚ} (ht : 0 < t) : ∀ (n : ℕ) (d : ℚ), Roomy t g n d →
    ∃ ss, rings (pt x y) t (g * 2 + t * 2) n d (d - t * 2) = .ok ss ∧
      List.Forall₂ Depicts (moireRings (point x y) t g r n d) ((ss.map (rotated r)).map .shape) := by
  intro n
  induction n with
  | zero => intro d _; exact ⟨[], rfl, .nil⟩
  | succ n ih =>
    intro d hd
    rcases hd with ⟨h0, h1⟩ | ⟨h0, h1⟩
    · refine ⟨[Shape.newCircle (pt x y) (d : ℝ) false], by simp [rings, h1], ?_⟩
      rw [moireRings, if_neg (by linarith), if_pos (by linarith)]
      exact .cons (depicts_area rfl fun p => disc_rotated r x y d false p) .nil
    · obtain ⟨ss, h2, h3⟩ := ih _ h1
      have hr : ring (pt x y) (d : ℝ) ((d - t * 2 : ℚ) : ℝ) false =
          .ok [(Shape.newRing (pt x y) (d : ℝ) ((d - t * 2 : ℚ) : ℝ) false).1,
            (Shape.newRing (pt x y) (d : ℝ) ((d - t * 2 : ℚ) : ℝ) false).2] := by
        have ht' : (0 : ℝ) < (t : ℝ) := by exact_mod_cast ht
        have h0' : 2 * (t : ℝ) < (d : ℝ) := by exact_mod_cast h0
        unfold ring
        rw [if_pos]
        push_cast
        constructor <;> linarith
      have he : d - (g * 2 + t * 2) = d - 2 * (t + g) := by ring
      have he' : d - t * 2 - (g * 2 + t * 2) = d - 2 * (t + g) - t * 2 := by ring
      refine ⟨[(Shape.newRing (pt x y) (d : ℝ) ((d - t * 2 : ℚ) : ℝ) false).1,
            (Shape.newRing (pt x y) (d : ℝ) ((d - t * 2 : ℚ) : ℝ) false).2] ++ ss, ?_, ?_⟩
      · simp only [rings]
        rw [if_neg (by linarith), hr, he, he', h2]
        rfl
      · rw [moireRings, if_neg (by linarith), if_neg (by linarith), List.map_append, List.map_append]
        have e2 : d - t * 2 = d - 2 * t := by ring
        rw [e2]
        exact List.rel_append (ring_depicted r x y d (d - 2 * t) (by linarith) (by linarith)) h3

theorem cross_depicted {x y ct cl r : ℚ} :
    List.Forall₂ Depicts (moireCross x y ct cl r) (((if cl > 0 ∧ ct > 0 then
      [Shape.newLine (pt x (y - cl / 2)) (pt x (y + cl / 2)) (ct : ℝ) false,
       Shape.newLine (pt (x - cl / 2) y) (pt (x + cl / 2) y) (ct : ℝ) false]
    else []).map (rotated r)).map .shape) := by
  by_cases h : 0 < ct ∧ 0 < cl
  · rw [moireCross, if_pos h, if_pos ⟨h.2, h.1⟩]
    have hl : (0 : ℝ) < (cl : ℝ) := by exact_mod_cast h.2
    refine .cons (depicts_area rfl fun p => ?_) (.cons (depicts_area rfl fun p => ?_) .nil)
    · rw [enclosed_rotated (straight_line _ _ _ _)]
      refine turned_congr (fun q => ?_) _
      rw [band_enclosed _ h.1.le, band_vertical _ _ _ _ h.2]
      intro hh
      have := congrArg Vec.y hh
      simp only [pt] at this
      push_cast at this
      linarith
    · rw [enclosed_rotated (straight_line _ _ _ _)]
      refine turned_congr (fun q => ?_) _
      rw [band_enclosed _ h.1.le, band_horizontal _ _ _ _ h.2]
      intro hh
      have := congrArg Vec.x hh
      simp only [pt] at this
      push_cast at this
      linarith
  · rw [moireCross, if_neg h, if_neg (fun hh => h ⟨hh.2, hh.1⟩)]
    exact .nil

/-- The corners of a regular polygon as the compiler computes them. -/
theorem corner_eq (x y d rot : ℝ) {n : ℕ} (hn : 3 ≤ n) (k : ℕ) : Shapes.corner ⟨x, y⟩ d n rot k =
    (⟨x, y⟩ : Vec ℝ) + rotCcw (rot * π / 180) ⟨d / 2 * cos (2 * π * k / n), d / 2 * sin (2 * π * k / n)⟩ := by
  have hn' : (n : ℝ) ≠ 0 := by
    have : (0 : ℝ) < n := by exact_mod_cast (by omega : 0 < n)
    exact this.ne'
  have : (rot + k * (360 / n)) * π / 180 = rot * π / 180 + 2 * π * k / n := by field_simp; ring
  unfold Shapes.corner
  rw [this, cos_add, sin_add]
  ext <;> simp [rotCcw] <;> ring

theorem pyMod_small {a : ℝ} (h0 : 0 ≤ a) (h1 : a < 360) : pyMod a 360 = a := by
  unfold pyMod
  have : ⌊a / 360⌋ = 0 := by
    rw [Int.floor_eq_zero_iff]
    exact ⟨by positivity, by rw [div_lt_one (by norm_num)]; exact h1⟩
  rw [this]; simp

/-- The sides of a polygon whose rotation is less than one step. -/
theorem polygon_sides {x y d rot : ℝ} {n : ℕ} (hn : 3 ≤ n) (h0 : 0 ≤ rot) (h1 : rot < 360 / n) :
    Shape.polygonSegments ⟨x, y⟩ d n rot = polygonSides ((List.range n).map fun (k : ℕ) =>
      (⟨x, y⟩ : Vec ℝ) + rotCcw (rot * π / 180) ⟨d / 2 * cos (2 * π * k / n), d / 2 * sin (2 * π * k / n)⟩) := by
  have hpos : (1 : ℝ) ≤ n := by exact_mod_cast (by omega : 1 ≤ n)
  have hlt : rot < 360 := lt_of_lt_of_le h1 (div_le_self (by norm_num) hpos)
  have hm := pyMod_small h0 hlt
  obtain ⟨g1, g2⟩ := Shapes.c32_polygon_partial ⟨x, y⟩ d n hn rot (by rw [hm]; exact h1)
  rw [hm] at g1 g2
  have : (fun k : ℕ => (⟨x, y⟩ : Vec ℝ) + rotCcw (rot * π / 180) ⟨d / 2 * cos (2 * π * k / n), d / 2 * sin (2 * π * k / n)⟩) =
      fun k => Shapes.corner ⟨x, y⟩ d n rot k := by funext k; rw [corner_eq _ _ _ _ hn]
  rw [this, polygonSides_range _ g2, g1]

theorem range_map_ne_nil {α : Type} {n : ℕ} (hn : 3 ≤ n) (f : ℕ → α) : (List.range n).map f ≠ [] := by
  intro h
  have := congrArg List.length h
  simp at this
  omega

theorem polygonSides_ne_nil {n : ℕ} (hn : 3 ≤ n) (f : ℕ → Vec ℝ) : polygonSides ((List.range n).map f) ≠ [] := by
  intro h
  have := congrArg List.length h
  simp [polygonSides] at this
  omega

/-- **C65** (primitives; partial, see `Sound`). A macro primitive other than a thermal (see `c65_thermal_partial`) adds,
in order, shapes with the figures and polarities that the format prescribes, whatever the values of its parameters; it
does not change the variables. -/
theorem c65_primitive_partial (now : ℕ) (scope : Dict Name ℚ) (p : Prim) (figures : List (Bool × Figure))
    (h : Prescribed scope.get? p figures) (hs : Sound scope.get? p) :
    ∃ o, primitive now scope p = .ok o ∧ o.scope = scope ∧ o.layer = none ∧ List.Forall₂ Depicts figures o.cmds := by
  cases h with
  | comment => exact ⟨_, rfl, rfl, rfl, .nil⟩
  | circle hv hd =>
    rcases hv with _ | ⟨v1, _ | ⟨v2, _ | ⟨v3, _ | ⟨v4, _ | _⟩⟩⟩⟩
    refine ⟨_, by simp only [primitive, value_evalE v1, value_evalE v2, value_evalE v3, value_evalE v4]; rfl, rfl, rfl, ?_⟩
    exact .cons (depicts_area (exposure_negative _) fun p => disc_plain ..) .nil
  | circleTurned hv hd =>
    rcases hv with _ | ⟨v1, _ | ⟨v2, _ | ⟨v3, _ | ⟨v4, _ | ⟨v5, _ | _⟩⟩⟩⟩⟩
    refine ⟨_, by simp only [primitive, value_evalE v1, value_evalE v2, value_evalE v3, value_evalE v4, value_evalE v5]; rfl,
      rfl, rfl, ?_⟩
    exact .cons (depicts_area (exposure_negative _) fun p => disc_rotated ..) .nil
  | vector2 hv hw hne =>
    rcases hv with _ | ⟨v1, _ | ⟨v2, _ | ⟨v3, _ | ⟨v4, _ | ⟨v5, _ | ⟨v6, _ | ⟨v7, _ | _⟩⟩⟩⟩⟩⟩⟩
    refine ⟨_, by simp only [primitive, vectorLine, value_evalE v1, value_evalE v2, value_evalE v3, value_evalE v4,
      value_evalE v5, value_evalE v6, value_evalE v7]; rfl, rfl, rfl, ?_⟩
    exact .cons (vector_depicts hw hne) .nil
  | vector20 hv hw hne =>
    rcases hv with _ | ⟨v1, _ | ⟨v2, _ | ⟨v3, _ | ⟨v4, _ | ⟨v5, _ | ⟨v6, _ | ⟨v7, _ | _⟩⟩⟩⟩⟩⟩⟩
    refine ⟨_, by simp only [primitive, vectorLine, value_evalE v1, value_evalE v2, value_evalE v3, value_evalE v4,
      value_evalE v5, value_evalE v6, value_evalE v7]; rfl, rfl, rfl, ?_⟩
    exact .cons (vector_depicts hw hne) .nil
  | centerLine hv hw hh =>
    rcases hv with _ | ⟨v1, _ | ⟨v2, _ | ⟨v3, _ | ⟨v4, _ | ⟨v5, _ | ⟨v6, _ | _⟩⟩⟩⟩⟩⟩
    refine ⟨_, by simp only [primitive, value_evalE v1, value_evalE v2, value_evalE v3, value_evalE v4,
      value_evalE v5, value_evalE v6]; rfl, rfl, rfl, ?_⟩
    exact .cons (rectangle_depicts hw hh rfl rfl) .nil
  | lowerLeftLine hv hw hh =>
    rcases hv with _ | ⟨v1, _ | ⟨v2, _ | ⟨v3, _ | ⟨v4, _ | ⟨v5, _ | ⟨v6, _ | _⟩⟩⟩⟩⟩⟩
    refine ⟨_, by simp only [primitive, value_evalE v1, value_evalE v2, value_evalE v3, value_evalE v4,
      value_evalE v5, value_evalE v6]; rfl, rfl, rfl, ?_⟩
    exact .cons (rectangle_depicts hw hh (by congr 1 <;> ring) (by congr 1 <;> ring)) .nil
  | outline hv hx hy =>
    rename_i xs ys r
    rcases hv with _ | ⟨v1, _ | ⟨v2, _ | ⟨v3, _ | ⟨v4, _ | _⟩⟩⟩⟩
    rename_i e sx sy
    have hne : Shape.connectedPoints (pt sx sy) ((xs.zip ys).map fun p => pt p.1 p.2) ≠ [] := by
      simp [Shape.connectedPoints]
    obtain ⟨s, s1, s2, s3⟩ := shapeOf_ok hne (e == 0)
    refine ⟨PrimOut.shapes scope [rotated r s], ?_, rfl, rfl, ?_⟩
    · simp only [primitive, value_evalE v1, value_evalE v2, value_evalE v3, value_evalE v4,
        values_evalPoints hx hy]
      show (do let s ← shapeOf _ (e == 0); _) = _
      rw [s1]; rfl
    · refine .cons ⟨_, rfl, ?_, ?_⟩ .nil
      · exact s3.trans (exposure_negative e)
      · refine fun p => polygon_area ?_ p
        have : (rotated r s).segments = s.segments.map (·.transform (Mat.newRotate r)) := rfl
        rw [this, s2, connectedPoints_sides, polygonSides_rotated]
        have hz : (xs.zip ys).map (fun p => pt p.1 p.2) = List.zipWith point xs ys := by
          rw [List.zip, List.map_zipWith]; rfl
        rw [hz]; rfl
  | polygon hv hn hd =>
    rcases hv with _ | ⟨v1, _ | ⟨v2, _ | ⟨v3, _ | ⟨v4, _ | ⟨v5, _ | ⟨v6, _ | _⟩⟩⟩⟩⟩⟩
    rename_i e n x y d r
    have hr := hs r v6
    subst hr
    have hside := polygon_sides (x := (x : ℝ)) (y := (y : ℝ)) (d := (d : ℝ)) (rot := 0) hn (le_refl _) (by
      have : (0 : ℝ) < n := by exact_mod_cast (by omega : 0 < n)
      positivity)
    have hne : Shape.polygonSegments (pt x y) (d : ℝ) n ((0 : ℚ) : ℝ) ≠ [] := by
      rw [Rat.cast_zero]
      show Shape.polygonSegments ⟨(x : ℝ), (y : ℝ)⟩ (d : ℝ) n 0 ≠ []
      rw [hside]
      exact polygonSides_ne_nil hn _
    obtain ⟨s, s1, s2, s3⟩ := shapeOf_ok hne (e == 0)
    refine ⟨PrimOut.shapes scope [rotated 0 s], ?_, rfl, rfl, ?_⟩
    · have hp : polygon (pt x y) (d : ℝ) (truncQ (n : ℚ)) ((0 : ℚ) : ℝ) (e == 0) = .ok s := by
        unfold polygon
        rw [truncQ_nat, if_neg (by omega), Int.toNat_natCast, s1]
      simp only [primitive, value_evalE v1, value_evalE v2, value_evalE v3, value_evalE v4, value_evalE v5, value_evalE v6]
      show (do let s ← polygon _ _ _ _ _; _) = _
      rw [hp]; rfl
    · refine .cons ⟨_, rfl, ?_, ?_⟩ .nil
      · exact s3.trans (exposure_negative e)
      · refine fun p => polygon_area ?_ p
        have : (rotated 0 s).segments = s.segments.map (·.transform (Mat.newRotate ((0 : ℚ) : ℝ))) := rfl
        rw [this, s2, Rat.cast_zero]
        show (Shape.polygonSegments ⟨(x : ℝ), (y : ℝ)⟩ (d : ℝ) n 0).map _ = _
        rw [hside]
        have h2 := polygonSides_rotated ((List.range n).map fun (k : ℕ) => (⟨(x : ℝ), (y : ℝ)⟩ : Vec ℝ) + rotCcw (0 * π / 180)
          ⟨(d : ℝ) / 2 * cos (2 * π * k / n), (d : ℝ) / 2 * sin (2 * π * k / n)⟩) 0
        rw [Rat.cast_zero] at h2
        rw [h2, List.map_map]
        simp only [zero_mul, zero_div, Function.comp_def, rot_zero]
        rfl
  | moire hv ht hg =>
    rcases hv with _ | ⟨v1, _ | ⟨v2, _ | ⟨v3, _ | ⟨v4, _ | ⟨v5, _ | ⟨v6, _ | ⟨v7, _ | ⟨v8, _ | ⟨v9, _ | _⟩⟩⟩⟩⟩⟩⟩⟩⟩
    rename_i x y d t g n ct cl r
    have hroom := hs d t g n v3 v4 v5 v6
    have key : ∃ ss, (if t > 0 ∧ d > 0 ∧ (n : ℚ) > 0 then
          rings (pt x y) t (g * 2 + t * 2) (truncQ (n : ℚ)).toNat d (d - t * 2) else .ok []) = Except.ok ss ∧
        List.Forall₂ Depicts (moireRings (point x y) t g r n d) ((ss.map (rotated r)).map .shape) := by
      by_cases hcond : t > 0 ∧ d > 0 ∧ (n : ℚ) > 0
      · rw [if_pos hcond, truncQ_nat, Int.toNat_natCast]
        exact rings_depicted ht n d (hroom.resolve_left (by linarith [hcond.2.1]))
      · rw [if_neg hcond]
        refine ⟨[], rfl, ?_⟩
        cases n with
        | zero => exact .nil
        | succ n =>
          have hd : d ≤ 0 := by
            by_contra hd
            exact hcond ⟨ht, by linarith, by positivity⟩
          rw [moireRings, if_pos hd]
          exact .nil
    obtain ⟨ss, k1, k2⟩ := key
    refine ⟨PrimOut.shapes scope (((if cl > 0 ∧ ct > 0 then
      [Shape.newLine (pt x (y - cl / 2)) (pt x (y + cl / 2)) (ct : ℝ) false,
       Shape.newLine (pt (x - cl / 2) y) (pt (x + cl / 2) y) (ct : ℝ) false]
      else []) ++ ss).map (rotated r)), ?_, rfl, rfl, ?_⟩
    · simp only [primitive, moire, value_evalE v1, value_evalE v2, value_evalE v3, value_evalE v4, value_evalE v5,
        value_evalE v6, value_evalE v7, value_evalE v8, value_evalE v9, bind, Except.bind, pure, Except.pure]
      by_cases hcond : t > 0 ∧ d > 0 ∧ (n : ℚ) > 0
      · rw [if_pos hcond] at k1
        simp only [if_pos hcond, k1]
      · rw [if_neg hcond] at k1
        cases k1
        simp only [if_neg hcond]
    · show List.Forall₂ Depicts _ (List.map Draw.shape _)
      rw [List.map_append, List.map_append]
      exact List.rel_append cross_depicted k2

/-! ### Macros -/

/-- The primitives of a macro are sound with the values that the variables have when they are reached. -/
def SoundMacro : (List Char → Option ℚ) → List Prim → Prop
  | _, [] => True
  | ρ, .assign name e :: rest => ∀ v, Value ρ e v → SoundMacro (fun n => if n = name then some v else ρ n) rest
  | ρ, p :: rest => Sound ρ p ∧ SoundMacro ρ rest

theorem soundMacro_prim {ρ : List Char → Option ℚ} {p : Prim} {rest : List Prim} {drawn : List (Bool × Figure)}
    (hp : Prescribed ρ p drawn) (h : SoundMacro ρ (p :: rest)) : Sound ρ p ∧ SoundMacro ρ rest := by
  cases hp <;> exact h

theorem runPrims_depicts (env : Env) (id : LayerId) {ρ : List Char → Option ℚ} {body : List Prim}
    {figures : List (Bool × Figure)} (h : MacroFigures ρ body figures) :
    ∀ (scope : Dict Name ℚ) (cmds : List Compiler.Cmd) (c : CState), scope.get? = ρ → SoundMacro ρ body →
    ∃ c' drawn, runPrims env id body scope cmds c = .ok c' ∧ c'.buffers.get? id = some (cmds ++ drawn) ∧
      List.Forall₂ Depicts figures drawn := by
  induction h with
  | nil ρ => intro scope cmds c _ _; exact ⟨_, [], rfl, by simp [create], .nil⟩
  | assign hv _ ih =>
    rename_i ρ name e v rest figures _
    intro scope cmds c hρ hs
    subst hρ
    obtain ⟨c', drawn, h1, h2, h3⟩ := ih (scope.set name v) cmds c (by
      funext n
      rw [Dict.get?_set]
      by_cases hn : name = n
      · subst hn; simp
      · rw [if_neg hn, if_neg (Ne.symm hn)]) (hs v hv)
    refine ⟨c', drawn, ?_, h2, h3⟩
    simp only [runPrims, primitive, value_evalE hv]
    simpa [PrimOut.shapes, bind, Except.bind, pure, Except.pure] using h1
  | primitive hp _ ih =>
    rename_i ρ p rest drawn figures _
    intro scope cmds c hρ hs
    subst hρ
    obtain ⟨hs1, hs2⟩ := soundMacro_prim hp hs
    obtain ⟨o, o1, o2, o3, o4⟩ := c65_primitive_partial (env.time c.calls) scope p drawn hp hs1
    obtain ⟨c', more, h1, h2, h3⟩ := ih o.scope (cmds ++ o.cmds) { c with calls := c.calls + o.ticks } (by rw [o2]) hs2
    refine ⟨c', o.cmds ++ more, ?_, by rw [h2, List.append_assoc], List.rel_append o4 h3⟩
    simp only [runPrims, o1, bind, Except.bind, o3]
    exact h1

/-! ### Parameters -/

theorem digits_natStr (n : ℕ) : Digits (Text.natStr n) := by
  induction n using Nat.strongRecOn with
  | _ n ih =>
    by_cases h : n < 10
    · rw [Text.natStr_lt h, ← Text.all_isDigit_iff]
      simp [Text.isDigit_digitChar h]
    · rw [Text.natStr_ge h, ← Text.all_isDigit_iff]
      have := (Text.all_isDigit_iff _).2 (ih (n / 10) (by omega))
      simp [List.all_append, this, Text.isDigit_digitChar (Nat.mod_lt n (by norm_num : 10 > 0))]

theorem natStr_head {n : ℕ} (hn : 0 < n) : (Text.natStr n).head? ≠ some '0' := by
  induction n using Nat.strongRecOn with
  | _ n ih =>
    by_cases h : n < 10
    · rw [Text.natStr_lt h]
      interval_cases n <;> decide
    · rw [Text.natStr_ge h, List.head?_append]
      have := ih (n / 10) (by omega) (by omega)
      cases hh : (Text.natStr (n / 10)).head? with
      | none => exact absurd (List.head?_eq_none_iff.1 hh) (Text.natStr_ne_nil _)
      | some c => rw [hh] at this; simpa using this

theorem digitChar_digitVal {c : Char} (h : Text.isDigit c = true) : Text.digitChar (Text.digitVal c) = c := by
  simp only [Text.isDigit, decide_eq_true_eq] at h
  unfold Text.digitChar Text.digitVal
  rw [Nat.add_sub_cancel' h.1, Char.ofNat_toNat]

theorem natStr_numeral {ds : List Char} (hd : Digits ds) (hne : ds ≠ []) (h0 : ds.head? ≠ some '0') :
    Text.natStr (numeral ds) = ds ∧ 0 < numeral ds := by
  induction ds using List.reverseRecOn with
  | nil => exact absurd rfl hne
  | append_singleton ds c ih =>
    have hc : Text.isDigit c = true := (Text.isDigit_iff c).2 (hd c (by simp))
    have hlt := Text.digitVal_lt hc
    rw [← Text.natVal_eq_numeral, Text.natVal_append]
    have e1 : Text.natVal [c] = Text.digitVal c := by simp [Text.natVal]
    rw [e1]
    by_cases hds : ds = []
    · subst hds
      simp only [Text.natVal_nil, zero_mul, zero_add, List.nil_append]
      rw [Text.natStr_lt hlt, digitChar_digitVal hc]
      refine ⟨rfl, ?_⟩
      rcases Nat.eq_zero_or_pos (Text.digitVal c) with hz | hz
      · exfalso
        have := digitChar_digitVal hc
        rw [hz] at this
        apply h0
        rw [← this]; rfl
      · exact hz
    · obtain ⟨i1, i2⟩ := ih (fun x hx => hd x (by simp [hx])) hds (by
        cases ds with
        | nil => exact absurd rfl hds
        | cons a as => simpa using h0)
      rw [← Text.natVal_eq_numeral] at i1 i2
      simp only [List.length_singleton, pow_one]
      refine ⟨?_, by omega⟩
      rw [Text.natStr_ge (by omega)]
      have q1 : (Text.natVal ds * 10 + Text.digitVal c) / 10 = Text.natVal ds := by omega
      have q2 : (Text.natVal ds * 10 + Text.digitVal c) % 10 = Text.digitVal c := by omega
      rw [q1, q2, i1, digitChar_digitVal hc]

theorem paramScope_get (params : List ℚ) (j : ℕ) (name : Name) (v : ℚ) :
    Dict.get? ((params.zipIdx j).map fun p => ('$' :: Text.natStr (p.2 + 1), p.1)) name = some v ↔
      ∃ k, name = '$' :: Text.natStr (j + k + 1) ∧ params[k]? = some v := by
  induction params generalizing j with
  | nil => simp
  | cons a as ih =>
    simp only [List.zipIdx_cons, List.map_cons, Dict.get?]
    by_cases h : '$' :: Text.natStr (j + 1) = name
    · rw [if_pos h]
      constructor
      · intro e; exact ⟨0, h.symm, by simpa using e⟩
      · rintro ⟨k, k1, k2⟩
        have : Text.natStr (j + 1) = Text.natStr (j + k + 1) := by
          rw [← h] at k1; exact (List.cons.inj k1).2
        have := congrArg Text.natVal this
        rw [Text.natVal_natStr, Text.natVal_natStr] at this
        have hk : k = 0 := by omega
        subst hk
        simpa using k2
    · rw [if_neg h, ih]
      constructor
      · rintro ⟨k, k1, k2⟩; exact ⟨k + 1, by rw [k1, show j + 1 + k + 1 = j + (k + 1) + 1 by omega], by simpa using k2⟩
      · rintro ⟨k, k1, k2⟩
        cases k with
        | zero => exact absurd k1.symm h
        | succ k => exact ⟨k, by rw [k1, show j + 1 + k + 1 = j + (k + 1) + 1 by omega], by simpa using k2⟩

theorem parameter_scope (params : List ℚ) : (paramScope params).get? = parameter params := by
  funext name
  apply Option.ext
  intro v
  rw [paramScope, paramScope_get]
  constructor
  · rintro ⟨k, rfl, hk⟩
    have hn : numeral (Text.natStr (0 + k + 1)) = k + 1 := by
      rw [← Text.natVal_eq_numeral, Text.natVal_natStr]; omega
    unfold parameter
    simp only
    rw [if_pos ⟨digits_natStr _, Text.natStr_ne_nil _, natStr_head (by omega)⟩, hn]
    simpa using hk
  · intro h
    unfold parameter at h
    split at h
    · next ds =>
      split at h
      · next hd =>
        obtain ⟨d1, d2⟩ := natStr_numeral hd.1 hd.2.1 hd.2.2
        refine ⟨numeral ds - 1, ?_, h⟩
        have : 0 + (numeral ds - 1) + 1 = numeral ds := by omega
        rw [this, d1]
      · cases h
    · cases h

/-! ### Definitions -/

theorem macros_latest : ∀ h, (run {} h).exn = none → ∀ n, (run {} h).st.macros.get? n = latest (givesMacro n) none h := by
  refine history_induction ?_ ?_
  · intro n; rfl
  · intro h a h1 h2 ih n
    have ih := ih n
    rw [run_snoc_st h1]
    simp only [latest_snoc]
    generalize (run {} h).st = s at *
    rw [← ih]
    refine step_elim h2 (P := fun a s' => s'.macros.get? n = (givesMacro n a).getD _) ?_ ?_ ?_ ?_ ?_
    · intros; rfl
    · intros; rfl
    · intros; rfl
    · intros; rfl
    · intro a hp hs
      clear ih h2
      cases a with
      | leaf l =>
        cases l <;> try (simp [isPlain] at hp; done)
        all_goals try rfl
        case td m => cases m <;> rfl
        case am m body =>
          simp only [Visitor.step, stepLeaf, Out.ok, givesMacro, Dict.get?_set]
          by_cases e : m = n <;> simp [e]
      | _ => rfl

/-- The cases in which the figures of a definition are right: the hole is not larger than the aperture, the rotation of a
polygon is, up to full turns, less than one step (see `c32_false_polygon`), and the primitives of a macro are sound. -/
def SoundAperture (macros : Name → Option (List Prim)) : ApDef → Prop
  | .circle d hole => ∀ k, hole = some k → k ≤ d
  | .rect w h hole => ∀ k, hole = some k → k ≤ w ∧ k ≤ h
  | .obround w h hole => ∀ k, hole = some k → k ≤ w ∧ k ≤ h
  | .polygon d n rotation hole => (∀ k, hole = some k → k ≤ d) ∧
      ∃ j : ℤ, 0 ≤ rotation.getD 0 - 360 * j ∧ rotation.getD 0 - 360 * j < 360 / n
  | .macro name params => ∀ body, macros name = some body → SoundMacro (parameter params) body

theorem hole_depicts {hole : Option ℚ} {limit : ℚ} (h : ∀ k, hole = some k → k ≤ limit) :
    List.Forall₂ Depicts (holeFigure hole) (holeOf hole limit) := by
  cases hole with
  | none => exact .nil
  | some k =>
    simp only [holeFigure, holeOf]
    by_cases hk : 0 < k
    · rw [if_pos hk, if_pos hk, min_eq_left (h k rfl)]
      refine .cons (depicts_area rfl fun p => ?_) .nil
      have := disc_plain 0 0 k true p
      simpa [pt] using this
    · rw [if_neg hk, if_neg hk]; exact .nil

theorem rot_turns (r : ℝ) (j : ℤ) (v : Vec ℝ) : rotCcw ((r - 360 * j) * π / 180) v = rotCcw (r * π / 180) v := by
  have : (r - 360 * j) * π / 180 = r * π / 180 - j * (2 * π) := by ring
  unfold rotCcw
  rw [this, cos_sub_int_mul_two_pi, sin_sub_int_mul_two_pi]

theorem pyMod_turns {r : ℝ} {j : ℤ} (h0 : 0 ≤ r - 360 * j) (h1 : r - 360 * j < 360) : pyMod r 360 = r - 360 * j := by
  unfold pyMod
  have : ⌊r / 360⌋ = j := by
    rw [Int.floor_eq_iff]
    constructor
    · rw [le_div_iff₀ (by norm_num)]; linarith
    · rw [div_lt_iff₀ (by norm_num)]; linarith
  rw [this]

theorem polygon_shape {d rot : ℚ} {n : ℕ} {j : ℤ} (hn : 3 ≤ n) (h0 : 0 ≤ rot - 360 * j) (h1 : rot - 360 * j < 360 / n) :
    ∃ s, polygon ⟨0, 0⟩ (d : ℝ) n (rot : ℝ) false = .ok s ∧ s.negative = false ∧
      s.segments = polygonSides ((List.range n).map fun (k : ℕ) => rotCcw ((rot : ℝ) * π / 180)
        ⟨(d : ℝ) / 2 * cos (2 * π * k / n), (d : ℝ) / 2 * sin (2 * π * k / n)⟩) := by
  have hpos : (1 : ℝ) ≤ n := by exact_mod_cast (by omega : 1 ≤ n)
  have h0' : (0 : ℝ) ≤ (rot : ℝ) - 360 * j := by exact_mod_cast h0
  have h1' : (rot : ℝ) - 360 * j < 360 / n := by
    have h2 : ((rot - 360 * j : ℚ) : ℝ) < ((360 / n : ℚ) : ℝ) := Rat.cast_lt.2 h1
    push_cast at h2
    exact h2
  have hlt : (rot : ℝ) - 360 * j < 360 := lt_of_lt_of_le h1' (div_le_self (by norm_num) hpos)
  have hm := pyMod_turns h0' hlt
  have hside := polygon_sides (x := 0) (y := 0) (d := (d : ℝ)) hn h0' h1'
  obtain ⟨g1, -⟩ := Shapes.c32_polygon_partial ⟨0, 0⟩ (d : ℝ) n hn (rot : ℝ) (by rw [hm]; exact h1')
  obtain ⟨g2, -⟩ := Shapes.c32_polygon_partial ⟨0, 0⟩ (d : ℝ) n hn ((rot : ℝ) - 360 * j) (by
    rw [pyMod_small h0' hlt]; exact h1')
  rw [pyMod_small h0' hlt, ← hm, ← g1, hm] at g2
  rw [g2] at hside
  have hne : Shape.polygonSegments ⟨0, 0⟩ (d : ℝ) n (rot : ℝ) ≠ [] := by
    rw [hside]; exact polygonSides_ne_nil hn _
  obtain ⟨s, s1, s2, s3⟩ := shapeOf_ok hne false
  refine ⟨s, ?_, s3, ?_⟩
  · unfold polygon
    rw [if_neg (by omega), Int.toNat_natCast, s1]
  · rw [s2, hside]
    congr 2
    funext k
    rw [rot_turns]
    ext <;> simp

theorem define_depicts (env : Env) (id : Name) (d : ApDef) (s : VState) (c : CState) (figures : List (Bool × Figure))
    (hf : ApertureFigures s.macros.get? d figures) (hs : SoundAperture s.macros.get? d) :
    ∃ c' drawn, define env id d s c = .ok c' ∧ c'.buffers.get? (.ap id) = some drawn ∧
      List.Forall₂ Depicts figures drawn := by
  cases hf with
  | circle hd =>
    rename_i d hole
    refine ⟨_, _, rfl, Dict.get?_set_self _ _ _, .cons (depicts_area rfl fun p => ?_) (hole_depicts hs)⟩
    have := disc_plain 0 0 d false p
    simpa [pt] using this
  | rect hw hh =>
    rename_i w h hole
    refine ⟨_, _, rfl, Dict.get?_set_self _ _ _, .cons (depicts_area rfl fun p => ?_)
      (hole_depicts fun k hk => le_min (hs k hk).1 (hs k hk).2)⟩
    rw [rectangle_enclosed _ _ (by exact_mod_cast hw) (by exact_mod_cast hh)]
    simp only [Rectangle, point]
    push_cast
    constructor
    · rintro ⟨⟨h1, h2⟩, h3, h4⟩; refine ⟨?_, ?_, ?_, ?_⟩ <;> linarith
    · rintro ⟨h1, h2, h3, h4⟩; refine ⟨⟨?_, ?_⟩, ?_, ?_⟩ <;> linarith
  | obround hw hh =>
    rename_i w h hole
    refine ⟨_, _, rfl, Dict.get?_set_self _ _ _, .cons (depicts_area (by unfold Shape.newObround; split <;> rfl) fun p => ?_)
      (hole_depicts fun k hk => le_min (hs k hk).1 (hs k hk).2)⟩
    have hw' : (0 : ℝ) ≤ (w : ℝ) := by exact_mod_cast hw
    have hh' : (0 : ℝ) ≤ (h : ℝ) := by exact_mod_cast hh
    by_cases hle : w ≤ h
    · have hle' : (w : ℝ) ≤ (h : ℝ) := by exact_mod_cast hle
      rw [obround_vertical _ _ hw' hle', min_eq_left hle]
      have e1 : (⟨0, 0 - ((h : ℝ) - w) / 2⟩ : Vec ℝ) = point (-(w - w) / 2) (-(h - w) / 2) := by
        ext <;> simp only [point] <;> push_cast <;> ring
      have e2 : (⟨0, 0 + ((h : ℝ) - w) / 2⟩ : Vec ℝ) = point ((w - w) / 2) ((h - w) / 2) := by
        ext <;> simp only [point] <;> push_cast <;> ring
      simp only [e1, e2]
    · have hlt : (h : ℝ) < (w : ℝ) := by exact_mod_cast not_le.1 hle
      rw [obround_horizontal _ _ hh' hlt, min_eq_right (not_le.1 hle).le]
      have e1 : (⟨0 - ((w : ℝ) - h) / 2, 0⟩ : Vec ℝ) = point (-(w - h) / 2) (-(h - h) / 2) := by
        ext <;> simp only [point] <;> push_cast <;> ring
      have e2 : (⟨0 + ((w : ℝ) - h) / 2, 0⟩ : Vec ℝ) = point ((w - h) / 2) ((h - h) / 2) := by
        ext <;> simp only [point] <;> push_cast <;> ring
      simp only [e1, e2]
  | polygon hd hn =>
    rename_i d n rotation hole
    obtain ⟨h1, j, h2, h3⟩ := hs
    obtain ⟨sh, s1, s2, s3⟩ := polygon_shape (d := d) hn h2 (by simpa using h3)
    refine ⟨create (.ap id) (.shape sh :: holeOf hole d) c, _, ?_, by simp [create],
      .cons ⟨sh, rfl, by rw [s2]; rfl, fun p => polygon_area s3 p⟩ (hole_depicts h1)⟩
    simp only [define, s1]
    rfl
  | «macro» hm hb =>
    rename_i name params body
    obtain ⟨c', drawn, h1, h2, h3⟩ := runPrims_depicts env (.ap id) hb (paramScope params) [] (create (.ap id) [] c)
      (parameter_scope params) (hs body hm)
    exact ⟨c', drawn, by simp only [define, hm, h1], by simpa using h2, h3⟩

/-- **C65** (definitions; partial, see `SoundAperture`; thermals are in `c65_thermal_partial`). In any file that compiled
so far, an aperture definition compiles, and its layer holds, in order, the figures and polarities that the format
prescribes: those of the standard aperture and its hole, or those of the primitives in the body last given to the macro,
with the parameters of the definition as the first variables. -/
theorem c65_definition_partial (env : Env) (h : List Atom) (id : Name) (d : ApDef) (figures : List (Bool × Figure)) (c : CState)
    (hr : (run {} h).exn = none) (hc : compiled env h = .ok c)
    (hf : ApertureFigures (fun name => latest (givesMacro name) none h) d figures)
    (hs : SoundAperture (fun name => latest (givesMacro name) none h) d) :
    ∃ c' drawn, compiled env (h ++ [.leaf (.ad id d)]) = .ok c' ∧ c'.buffers.get? (.ap id) = some drawn ∧
      List.Forall₂ Depicts figures drawn := by
  have hm : (fun name => latest (givesMacro name) none h) = (run {} h).st.macros.get? := by
    funext name; exact (macros_latest h hr name).symm
  rw [hm] at hf hs
  rw [compiled_snoc hr, hc]
  simp only [bind, Except.bind, Visitor.step, stepLeaf, Out.ok, feed_singleton, Compiler.step]
  exact define_depicts env id d _ c figures hf hs

/-! ### Flashes -/

theorem placed_formula (m : Mirroring) (r k : ℝ) : ∃ a b : ℝ, a ^ 2 + b ^ 2 = k ^ 2 ∧ ∀ v : Vec ℝ,
    placed m r k v = if (match m with | .none => false | .x => true | .y => true | .xy => false) = true
      then ⟨a * v.x + b * v.y, b * v.x - a * v.y⟩ else ⟨a * v.x - b * v.y, b * v.x + a * v.y⟩ := by
  have hsq : ∀ t : ℝ, (k * cos t) ^ 2 + (k * sin t) ^ 2 = k ^ 2 := by
    intro t; have := cos_sq_add_sin_sq t; linear_combination k ^ 2 * this
  cases m with
  | none =>
    refine ⟨k * cos (r * π / 180), k * sin (r * π / 180), hsq _, fun v => ?_⟩
    ext <;> simp [placed, rotCcw] <;> ring
  | x =>
    refine ⟨-(k * cos (r * π / 180)), k * sin (r * π / 180), by rw [neg_sq]; exact hsq _, fun v => ?_⟩
    ext <;> simp [placed, rotCcw] <;> ring
  | y =>
    refine ⟨k * cos (r * π / 180), -(k * sin (r * π / 180)), by rw [neg_sq]; exact hsq _, fun v => ?_⟩
    ext <;> simp [placed, rotCcw] <;> ring
  | xy =>
    refine ⟨-(k * cos (r * π / 180)), -(k * sin (r * π / 180)), by rw [neg_sq, neg_sq]; exact hsq _, fun v => ?_⟩
    ext <;> simp [placed, rotCcw] <;> ring

/-- A similarity about the origin that keeps (`flip = false`) or reverses the sense of rotations. -/
structure Similarity (f : Vec ℝ → Vec ℝ) (flip : Bool) : Prop where
  add : ∀ u v, f (u + v) = f u + f v
  sub : ∀ u v, f (u - v) = f u - f v
  smul : ∀ (c : ℝ) u, f ⟨c * u.x, c * u.y⟩ = ⟨c * (f u).x, c * (f u).y⟩
  turn : ∀ cw t u, f (turn cw t u) = turn (if flip then !cw else cw) t (f u)
  vlen : ∃ κ, 0 < κ ∧ ∀ u, vlen (f u) = κ * vlen u
  inj : ∀ u v, f u = f v → u = v
  affine : Affine f
  inverse : ∃ g, Affine g ∧ (∀ v, f (g v) = v) ∧ ∀ v, g (f v) = v

theorem placed_similarity (m : Mirroring) (r k : ℝ) (hk : k ≠ 0) : Similarity (placed m r k)
    (match m with | .none => false | .x => true | .y => true | .xy => false) := by
  obtain ⟨a, b, hab, hf⟩ := placed_formula m r k
  have hk2 : 0 < k ^ 2 := by positivity
  generalize (match m with | .none => false | .x => true | .y => true | .xy => false) = flip at *
  have hf' : placed m r k = fun v => if flip = true then ⟨a * v.x + b * v.y, b * v.x - a * v.y⟩ else
    ⟨a * v.x - b * v.y, b * v.x + a * v.y⟩ := funext hf
  rw [hf']
  cases flip <;> simp only [Bool.false_eq_true, if_false, if_true]
  · refine ⟨?_, ?_, ?_, ?_, ⟨|k|, abs_pos.2 hk, ?_⟩, ?_, ?_, ?_⟩
    · intro u v; ext <;> simp <;> ring
    · intro u v; ext <;> simp <;> ring
    · intro c u; ext <;> simp <;> ring
    · intro cw t u; cases cw <;> ext <;> simp [Spec.turn, rotCcw] <;> ring
    · intro u
      unfold Spec.vlen
      rw [← Real.sqrt_sq_eq_abs, ← Real.sqrt_mul hk2.le, ← hab]
      congr 1; ring
    · intro u v h
      have hx := congrArg Vec.x h
      have hy := congrArg Vec.y h
      simp only at hx hy
      ext
      · have : k ^ 2 * (u.x - v.x) = 0 := by rw [← hab]; linear_combination a * hx + b * hy
        have := (mul_eq_zero.1 this).resolve_left hk2.ne'
        linarith
      · have : k ^ 2 * (u.y - v.y) = 0 := by rw [← hab]; linear_combination a * hy - b * hx
        have := (mul_eq_zero.1 this).resolve_left hk2.ne'
        linarith
    · exact ⟨a, -b, b, a, 0, 0, fun v => by ext <;> simp only <;> ring⟩
    · refine ⟨fun v => ⟨a / k ^ 2 * v.x + b / k ^ 2 * v.y + 0, -b / k ^ 2 * v.x + a / k ^ 2 * v.y + 0⟩, ⟨_, _, _, _, _, _, fun _ => rfl⟩,
        fun v => ?_, fun v => ?_⟩
      · ext <;> simp only <;> field_simp
        · linear_combination v.x * hab
        · linear_combination v.y * hab
      · ext <;> simp only <;> field_simp
        · linear_combination v.x * hab
        · linear_combination v.y * hab
  · refine ⟨?_, ?_, ?_, ?_, ⟨|k|, abs_pos.2 hk, ?_⟩, ?_, ?_, ?_⟩
    · intro u v; ext <;> simp <;> ring
    · intro u v; ext <;> simp <;> ring
    · intro c u; ext <;> simp <;> ring
    · intro cw t u; cases cw <;> ext <;> simp [Spec.turn, rotCcw] <;> ring
    · intro u
      unfold Spec.vlen
      rw [← Real.sqrt_sq_eq_abs, ← Real.sqrt_mul hk2.le, ← hab]
      congr 1; ring
    · intro u v h
      have hx := congrArg Vec.x h
      have hy := congrArg Vec.y h
      simp only at hx hy
      ext
      · have : k ^ 2 * (u.x - v.x) = 0 := by rw [← hab]; linear_combination a * hx + b * hy
        have := (mul_eq_zero.1 this).resolve_left hk2.ne'
        linarith
      · have : k ^ 2 * (u.y - v.y) = 0 := by rw [← hab]; linear_combination b * hx - a * hy
        have := (mul_eq_zero.1 this).resolve_left hk2.ne'
        linarith
    · exact ⟨a, b, b, -a, 0, 0, fun v => by ext <;> simp only <;> ring⟩
    · refine ⟨fun v => ⟨a / k ^ 2 * v.x + b / k ^ 2 * v.y + 0, b / k ^ 2 * v.x + -a / k ^ 2 * v.y + 0⟩, ⟨_, _, _, _, _, _, fun _ => rfl⟩,
        fun v => ?_, fun v => ?_⟩
      · ext <;> simp only <;> field_simp
        · linear_combination v.x * hab
        · linear_combination v.y * hab
      · ext <;> simp only <;> field_simp
        · linear_combination v.x * hab
        · linear_combination v.y * hab

variable {f : Vec ℝ → Vec ℝ} {flip : Bool}

theorem Similarity.segment (hf : Similarity f flip) (a b p : Vec ℝ) :
    OnSegment (f a) (f b) p ↔ ∃ q, OnSegment a b q ∧ p = f q := by
  have key : ∀ l : ℝ, (⟨(f a).x + l * ((f b).x - (f a).x), (f a).y + l * ((f b).y - (f a).y)⟩ : Vec ℝ) =
      f ⟨a.x + l * (b.x - a.x), a.y + l * (b.y - a.y)⟩ := by
    intro l
    have h1 : (⟨a.x + l * (b.x - a.x), a.y + l * (b.y - a.y)⟩ : Vec ℝ) = a + ⟨l * (b - a).x, l * (b - a).y⟩ := by
      ext <;> simp
    rw [h1, hf.add, hf.smul, hf.sub]
    ext <;> simp
  constructor
  · rintro ⟨l, l0, l1, rfl⟩; exact ⟨_, ⟨l, l0, l1, rfl⟩, key l⟩
  · rintro ⟨q, ⟨l, l0, l1, rfl⟩, rfl⟩; exact ⟨l, l0, l1, (key l).symm⟩

theorem Similarity.sweep (hf : Similarity f flip) (cw : Bool) (u v : Vec ℝ) (t : ℝ) :
    Sweep (if flip then !cw else cw) (f u) (f v) t ↔ Sweep cw u v t := by
  obtain ⟨κ, hκ, hl⟩ := hf.vlen
  unfold Sweep
  rw [← hf.turn, hl, hl]
  generalize Spec.turn cw t u = w
  refine and_congr_right fun _ => and_congr_right fun _ => ?_
  have h1 := hf.smul (Spec.vlen v) w
  have h2 := hf.smul (Spec.vlen u) v
  constructor
  · rintro ⟨hx, hy⟩
    have : f ⟨Spec.vlen v * w.x, Spec.vlen v * w.y⟩ = f ⟨Spec.vlen u * v.x, Spec.vlen u * v.y⟩ := by
      rw [h1, h2]
      ext
      · apply mul_left_cancel₀ hκ.ne'; simp only; linear_combination hx
      · apply mul_left_cancel₀ hκ.ne'; simp only; linear_combination hy
    have := hf.inj _ _ this
    have hx := congrArg Vec.x this
    have hy := congrArg Vec.y this
    simp only at hx hy
    exact ⟨by linarith, by linarith⟩
  · rintro ⟨hx, hy⟩
    have : (⟨Spec.vlen v * w.x, Spec.vlen v * w.y⟩ : Vec ℝ) = ⟨Spec.vlen u * v.x, Spec.vlen u * v.y⟩ := by
      ext <;> simp only <;> linarith
    rw [this, h2] at h1
    have hx := congrArg Vec.x h1
    have hy := congrArg Vec.y h1
    simp only at hx hy
    exact ⟨by linear_combination -κ * hx, by linear_combination -κ * hy⟩

theorem Similarity.piece (hf : Similarity f flip) (g : Segment) (p : Vec ℝ) :
    OnPiece p (imageSegment f flip g) ↔ ∃ q, OnPiece q g ∧ p = f q := by
  cases g with
  | line l => exact hf.segment l.start l.stop p
  | arc a =>
    simp only [imageSegment, OnPiece, ← hf.sub, hf.sweep]
    have key : ∀ τ, f a.center + Spec.turn (if flip then !a.clockwise else a.clockwise) τ (f a.start - f a.center) =
        f (a.center + Spec.turn a.clockwise τ (a.start - a.center)) := by
      intro τ; rw [hf.add, hf.turn, hf.sub]
    constructor
    · rintro ⟨t, ht, τ, h0, h1, rfl⟩
      exact ⟨_, ⟨t, ht, τ, h0, h1, rfl⟩, key τ⟩
    · rintro ⟨q, ⟨t, ht, τ, h0, h1, rfl⟩, rfl⟩
      exact ⟨t, ht, τ, h0, h1, (key τ).symm⟩

/-- The image of a shape. -/
def imageShape (f : Vec ℝ → Vec ℝ) (flip : Bool) (s : Shape) : Shape :=
  ⟨imageSegment f flip s.head, s.tail.map (imageSegment f flip), s.negative⟩

theorem imageShape_segments (s : Shape) : (imageShape f flip s).segments = s.segments.map (imageSegment f flip) := rfl

theorem Similarity.outline (hf : Similarity f flip) (s : Shape) (p : Vec ℝ) :
    OnOutline (imageShape f flip s) p ↔ ∃ q, OnOutline s q ∧ p = f q := by
  unfold OnOutline
  rw [imageShape_segments]
  constructor
  · rintro ⟨g, hg, hp⟩
    obtain ⟨g', hg', rfl⟩ := List.mem_map.1 hg
    obtain ⟨q, h1, h2⟩ := (hf.piece g' p).1 hp
    exact ⟨q, ⟨g', hg', h1⟩, h2⟩
  · rintro ⟨q, ⟨g, hg, h1⟩, h2⟩
    exact ⟨_, List.mem_map_of_mem hg, (hf.piece g p).2 ⟨q, h1, h2⟩⟩

theorem image_start (g : Segment) : (imageSegment f flip g).start = f g.start := by cases g <;> rfl

theorem image_stop (g : Segment) : (imageSegment f flip g).stop = f g.stop := by cases g <;> rfl

theorem Similarity.rim (hf : Similarity f flip) (s : Shape) (v : Vec ℝ) :
    OnRim (imageShape f flip s) (f v) ↔ OnRim s v := by
  unfold OnRim
  rw [hf.outline, imageShape_segments, successors_map]
  simp only [List.mem_map, exists_exists_and_eq_and, Prod.map, image_start, image_stop, affine_segment hf.affine hf.inj]
  refine or_congr ?_ Iff.rfl
  constructor
  · rintro ⟨q, h, e⟩; rw [hf.inj _ _ e]; exact h
  · intro h; exact ⟨v, h, rfl⟩

theorem Similarity.enclosed (hf : Similarity f flip) (s : Shape) (p : Vec ℝ) :
    p ∈ areaOf (imageShape f flip s) ↔ ∃ q, q ∈ areaOf s ∧ p = f q := by
  obtain ⟨g, hg, h1, h2⟩ := hf.inverse
  unfold areaOf
  rw [surrounded_image hf.affine hg h1 h2 (hf.rim s)]
  constructor
  · rintro ⟨q, h, rfl⟩; exact ⟨q, h, rfl⟩
  · rintro ⟨q, h, rfl⟩; exact ⟨q, h, rfl⟩

theorem Similarity.depicts (hf : Similarity f flip) {figure : Bool × Figure} {d d' : Draw LayerId} (h : Depicts figure d)
    (hi : IsImage f flip d d') : Depicts (figure.1, imageFigure f figure.2) d' := by
  obtain ⟨s, rfl, h1, h2⟩ := h
  refine ⟨imageShape f flip s, hi, h1, fun p => ?_⟩
  rw [hf.enclosed]
  simp only [h2, imageFigure]

theorem Similarity.depictsAll (hf : Similarity f flip) {figures : List (Bool × Figure)} {ds ds' : List (Draw LayerId)}
    (h : List.Forall₂ Depicts figures ds) (hi : List.Forall₂ (IsImage f flip) ds ds') :
    List.Forall₂ Depicts (figures.map fun g => (g.1, imageFigure f g.2)) ds' := by
  induction h generalizing ds' with
  | nil => cases hi; exact .nil
  | cons h _ ih =>
    cases hi with
    | cons i is => exact .cons (hf.depicts h i) (ih is)

/-- **C65** (flashes; partial as `c65_definition_partial` and `c19_redefinition_partial`). After an aperture code is
defined, a flash pastes at the flash point, dark or clear by the polarity in force, a layer that holds, in order, the
figures that the format prescribes for the definition, scaled, rotated and mirrored by the load commands in force. -/
theorem c65_flash_partial (env : Env) (pre post : List Atom) (id : Name) (d : ApDef) (figures : List (Bool × Figure))
    (x y : Option (List Char)) (c' : CState)
    (hr : (run {} (pre ++ .leaf (.ad id d) :: post ++ [.leaf (.d03 x y)])).exn = none)
    (hc : compiled env (pre ++ .leaf (.ad id d) :: post ++ [.leaf (.d03 x y)]) = .ok c')
    (hsel : selected (pre ++ .leaf (.ad id d) :: post) = some id)
    (hpost : ∀ a ∈ post, definesCode id a = false) (hab : ∀ a ∈ pre, a ≠ .abOpen id)
    (hfl : ∀ p x' y' q, pre = p ++ .leaf (.d03 x' y') :: q → selected p = some id →
      placedIn p ≠ placedIn (pre ++ .leaf (.ad id d) :: post))
    (hk : latest setsScaling 1 (pre ++ .leaf (.ad id d) :: post) ≠ 0)
    (hf : ApertureFigures (fun name => latest (givesMacro name) none pre) d figures)
    (hs : SoundAperture (fun name => latest (givesMacro name) none pre) d) :
    ∃ layer p image, At (pre ++ .leaf (.ad id d) :: post ++ [.leaf (.d03 x y)]) p ∧
      Draws env (pre ++ .leaf (.ad id d) :: post) (.leaf (.d03 x y)) [.paste layer p
        (decide (latest setsPolarity .dark (pre ++ .leaf (.ad id d) :: post) = .clear))] ∧
      c'.buffers.get? layer = some image ∧
      List.Forall₂ Depicts (figures.map fun g => (g.1, imageFigure (placedIn (pre ++ .leaf (.ad id d) :: post)) g.2))
        image := by
  obtain ⟨cdef, drawn, layer, p, image, k1, k2, -, k3, k4, k5, k6⟩ :=
    Flash.c19_redefinition_partial env pre post id d x y c' hr hc hsel hpost hab hfl hk
  have hrp : (run {} pre).exn = none := by
    rw [List.append_assoc] at hr; exact (run_append_none.1 hr).1
  have hcp : ∃ c, compiled env pre = .ok c := by
    rw [compiled_snoc hrp] at k1
    cases hh : compiled env pre with
    | error e => rw [hh] at k1; cases k1
    | ok c => exact ⟨c, rfl⟩
  obtain ⟨c, hcp⟩ := hcp
  obtain ⟨c2, drawn2, m1, m2, m3⟩ := c65_definition_partial env pre id d figures c hrp hcp hf hs
  rw [m1] at k1
  cases k1
  rw [m2] at k2
  cases k2
  refine ⟨layer, p, image, k3, k4, k5, ?_⟩
  have hsim : Similarity (placedIn (pre ++ .leaf (.ad id d) :: post)) (reverses (pre ++ .leaf (.ad id d) :: post)) :=
    placed_similarity _ _ _ (by exact_mod_cast hk)
  exact hsim.depictsAll m3 k6

/-! ### Thermals -/

/-- **C65** (thermals; partial: the gap times √2 is less than the inner diameter, see `c65_false_thermal`). A thermal pastes, at its centre turned about the origin of the macro, a layer made for it that holds
the ring and, after it, two clear bars of the width of the gap that cross it completely. -/
theorem c65_thermal_partial (now : ℕ) (scope : Dict Name ℚ) (node : ℕ) (centerX centerY outer inner gap rotation : Expr)
    (x y od k g r : ℚ) (hv : Values scope.get? [centerX, centerY, outer, inner, gap, rotation] [x, y, od, k, g, r])
    (hk : 0 < k) (hod : k < od) (hg : 0 ≤ g) (hgap : (g : ℝ) * √2 < (k : ℝ)) :
    ∃ o layer drawn l, primitive now scope (.code7 node centerX centerY outer inner gap rotation) = .ok o ∧ o.scope = scope ∧
      o.cmds = [.paste layer (rotCcw ((r : ℝ) * π / 180) (point x y)) false] ∧ o.layer = some (layer, drawn) ∧
      od ≤ l ∧ List.Forall₂ Depicts (thermalFigures od k g r l) drawn := by
  rcases hv with _ | ⟨v1, _ | ⟨v2, _ | ⟨v3, _ | ⟨v4, _ | ⟨v5, _ | ⟨v6, _ | _⟩⟩⟩⟩⟩⟩
  have hk' : (0 : ℝ) < (k : ℝ) := by exact_mod_cast hk
  have hod' : (k : ℝ) < (od : ℝ) := by exact_mod_cast hod
  have hr : ring ⟨0, 0⟩ (od : ℝ) (k : ℝ) false = .ok [(Shape.newRing ⟨0, 0⟩ (od : ℝ) (k : ℝ) false).1,
      (Shape.newRing ⟨0, 0⟩ (od : ℝ) (k : ℝ) false).2] := by
    unfold ring
    rw [if_pos]
    constructor <;> linarith
  have hl : 0 < 2 * (od / 2 + (od - k) / (199 / 100)) := by
    have : 0 < (od - k) / (199 / 100) := div_pos (by linarith) (by norm_num)
    linarith
  set l := 2 * (od / 2 + (od - k) / (199 / 100)) with hldef
  have hlr : (od : ℝ) / 2 + ((od : ℝ) - (k : ℝ)) / (199 / 100) = ((l / 2 : ℚ) : ℝ) := by
    rw [hldef]; push_cast; ring
  have hp : primitive now scope (.code7 node centerX centerY outer inner gap rotation) = .ok ⟨scope,
      [.paste (.code7 node now) ((Mat.newRotate (r : ℝ)).apply (pt x y)) false],
      some (.code7 node now, (([(Shape.newRing ⟨0, 0⟩ (od : ℝ) (k : ℝ) false).1,
        (Shape.newRing ⟨0, 0⟩ (od : ℝ) (k : ℝ) false).2] ++
        [Shape.newLine ⟨0 - ((l / 2 : ℚ) : ℝ), 0⟩ ⟨0 + ((l / 2 : ℚ) : ℝ), 0⟩ (g : ℝ) true,
         Shape.newLine ⟨0, 0 - ((l / 2 : ℚ) : ℝ)⟩ ⟨0, 0 + ((l / 2 : ℚ) : ℝ)⟩ (g : ℝ) true]).map (rotated r)).map .shape), 1⟩ := by
    simp only [primitive, thermal, value_evalE v1, value_evalE v2, value_evalE v3, value_evalE v4, value_evalE v5,
      value_evalE v6, bind, Except.bind, pure, Except.pure, hr, hlr]
    rw [if_neg (by linarith), if_neg (by linarith)]
  refine ⟨_, .code7 node now, _, l, hp, rfl, by rw [apply_rotate]; rfl, rfl, ?_, ?_⟩
  · have : 0 < (od - k) / (199 / 100) := div_pos (by linarith) (by norm_num)
    linarith
  · simp only [List.map_append, List.map_cons, List.map_nil]
    refine List.rel_append ?_ (.cons (depicts_area rfl fun p => ?_) (.cons (depicts_area rfl fun p => ?_) .nil))
    · have := ring_depicted r 0 0 od k hk hod
      simpa [pt] using this
    · rw [enclosed_rotated (straight_line _ _ _ _)]
      refine turned_congr (fun q => ?_) _
      have h := band_horizontal 0 0 g l hl q
      have e1 : (⟨0 - ((l / 2 : ℚ) : ℝ), 0⟩ : Vec ℝ) = pt (0 - l / 2) 0 := by ext <;> simp [pt]
      have e2 : (⟨0 + ((l / 2 : ℚ) : ℝ), 0⟩ : Vec ℝ) = pt (0 + l / 2) 0 := by ext <;> simp [pt]
      have e3 : (0 : ℚ) - l / 2 = -l / 2 := by ring
      have e4 : (0 : ℚ) - g / 2 = -g / 2 := by ring
      rw [e1, e2, band_enclosed _ hg, h, e3, e4, zero_add, zero_add]
      intro hh
      have := congrArg Vec.x hh
      simp only [pt, Rat.cast_inj] at this
      linarith
    · rw [enclosed_rotated (straight_line _ _ _ _)]
      refine turned_congr (fun q => ?_) _
      have h := band_vertical 0 0 g l hl q
      have e1 : (⟨0, 0 - ((l / 2 : ℚ) : ℝ)⟩ : Vec ℝ) = pt 0 (0 - l / 2) := by ext <;> simp [pt]
      have e2 : (⟨0, 0 + ((l / 2 : ℚ) : ℝ)⟩ : Vec ℝ) = pt 0 (0 + l / 2) := by ext <;> simp [pt]
      have e3 : (0 : ℚ) - l / 2 = -l / 2 := by ring
      have e4 : (0 : ℚ) - g / 2 = -g / 2 := by ring
      rw [e1, e2, band_enclosed _ hg, h, e3, e4, zero_add, zero_add]
      intro hh
      have := congrArg Vec.y hh
      simp only [pt, Rat.cast_inj] at this
      linarith

/-! ### Examples -/

/-- `$1` is 3, and `21,1,$1x2,4,1,0,30` is a rectangle 6 by 4 about (1, 0), turned by 30 degrees. -/
def samplePrim : Prim :=
  .code21 (.const 1) (.bin .mul (.var ['$', '1']) [.const 2]) (.const 4) (.const 1) (.const 0) (.const 30)

theorem samplePrim_figures (ρ : List Char → Option ℚ) (h : ρ ['$', '1'] = some 3) : Prescribed ρ samplePrim
    [(decide ((1 : ℚ) ≠ 0), Turned 30 (Rectangle (point (1 - 3 * 2 / 2) (0 - 4 / 2)) (point (1 + 3 * 2 / 2) (0 + 4 / 2))))] :=
  .centerLine (.cons (.const _) (.cons (.bin (.var h) (.mul (.const _) (.done _ _))) (.cons (.const _) (.cons (.const _)
    (.cons (.const _) (.cons (.const _) .nil)))))) (by norm_num) (by norm_num)

example : ∃ o, primitive 0 [(['$', '1'], 3)] samplePrim = .ok o ∧ o.cmds.length = 1 := by
  obtain ⟨o, h1, -, -, h4⟩ := c65_primitive_partial 0 [(['$', '1'], 3)] samplePrim _ (samplePrim_figures _ rfl) trivial
  exact ⟨o, h1, h4.length_eq.symm⟩

/-- A macro with a variable and two primitives, and its use with a parameter. -/
def sampleFile : List Atom :=
  [.leaf (.am ['B'] [.assign ['$', '1'] (.bin .add (.var ['$', '1']) [.const 1]), samplePrim,
    .code1 (.const 0) (.const 1) (.const 0) (.const 0) none])]

example (env : Env) : ∃ c, compiled env sampleFile = .ok c := ⟨_, rfl⟩

example (env : Env) (c : CState) (hc : compiled env sampleFile = .ok c) :
    ∃ c' a b, compiled env (sampleFile ++ [.leaf (.ad ['D', '1', '0'] (.macro ['B'] [2]))]) = .ok c' ∧
      c'.buffers.get? (.ap ['D', '1', '0']) = some [.shape a, .shape b] ∧ a.negative = false ∧ b.negative = true ∧
      (∀ p, p ∈ areaOf b ↔ p.x ^ 2 + p.y ^ 2 ≤ 1 / 4) := by
  have hm : latest (givesMacro ['B']) none sampleFile = some [.assign ['$', '1'] (.bin .add (.var ['$', '1']) [.const 1]),
    samplePrim, .code1 (.const 0) (.const 1) (.const 0) (.const 0) none] := rfl
  obtain ⟨c', drawn, h1, h2, h3⟩ := c65_definition_partial env sampleFile ['D', '1', '0'] (.macro ['B'] [2]) _ c rfl hc
    (.macro hm (.assign (.bin (.var (v := 2) (by decide +kernel)) (.add (.const _) (.done _ _)))
      (.primitive (samplePrim_figures _ (by rw [if_pos rfl]; norm_num)) (.primitive (.circle (.cons (.const _) (.cons (.const _)
        (.cons (.const _) (.cons (.const _) .nil)))) (by norm_num)) (.nil _)))))
    (by
      intro body hb
      cases hm.symm.trans hb
      exact fun _ _ => ⟨trivial, trivial, trivial⟩)
  obtain ⟨a, l, ha, hl, rfl⟩ := List.forall₂_cons_left_iff.1 h3
  obtain ⟨b, l', hb, hl', rfl⟩ := List.forall₂_cons_left_iff.1 hl
  cases hl'
  obtain ⟨a, rfl, a1, -⟩ := ha
  obtain ⟨b, rfl, b1, b2⟩ := hb
  refine ⟨c', a, b, h1, h2, by simpa using a1, by simpa using b1, fun p => ?_⟩
  rw [b2]
  simp [Disc, point]
  norm_num

/-- The hypotheses for the standard apertures. -/
example : ApertureFigures (fun _ => none) (.obround 3 1 (some 1))
      ((true, Swept (point (-(3 - min 3 1) / 2) (-(1 - min 3 1) / 2)) (point ((3 - min 3 1) / 2) ((1 - min 3 1) / 2))
        ((min 3 1 : ℚ) : ℝ)) :: holeFigure (some 1)) ∧
    SoundAperture (fun _ => none) (.obround 3 1 (some 1)) ∧ SoundAperture (fun _ => none) (.polygon 3 6 (some 390) none) := by
  refine ⟨.obround (by norm_num) (by norm_num), ?_, nofun, 1, by norm_num, by norm_num⟩
  rintro k ⟨⟩; norm_num

/-- A rectangle with a hole, flashed mirrored and three times as large. -/
theorem flashSample_ok : ∃ c', compiled Compiler.env0 ([] ++ .leaf (.ad ['D', '1', '0'] (.rect 2 1 (some 1))) ::
    [.leaf (.lm .x), .leaf (.ls 3), .leaf (.dnn ['D', '1', '0'])] ++ [.leaf (.d03 none none)]) = .ok c' := by
  eval_compiler [Compiler.env0, Compiler.bwt_step]

example : ∃ c' layer a b, compiled Compiler.env0 ([] ++ .leaf (.ad ['D', '1', '0'] (.rect 2 1 (some 1))) ::
    [.leaf (.lm .x), .leaf (.ls 3), .leaf (.dnn ['D', '1', '0'])] ++ [.leaf (.d03 none none)]) = .ok c' ∧
    c'.buffers.get? layer = some [a, b] := by
  obtain ⟨c', hc⟩ := flashSample_ok
  obtain ⟨layer, p, image, -, -, h3, h4⟩ := c65_flash_partial Compiler.env0 [] [.leaf (.lm .x), .leaf (.ls 3),
    .leaf (.dnn ['D', '1', '0'])] ['D', '1', '0'] (.rect 2 1 (some 1)) _ none none c' (by decide +kernel) hc
    (by decide +kernel) (by decide +kernel) (by simp) (by simp)
    (by decide +kernel) (.rect (by norm_num) (by norm_num)) (by rintro k ⟨⟩; norm_num)
  simp only [holeFigure, if_pos (by norm_num : (0 : ℚ) < 1), List.map_cons, List.map_nil] at h4
  obtain ⟨a, l, -, hl, rfl⟩ := List.forall₂_cons_left_iff.1 h4
  obtain ⟨b, l', -, hl', rfl⟩ := List.forall₂_cons_left_iff.1 hl
  cases hl'
  exact ⟨c', layer, a, b, hc, h3⟩

/-- The hypotheses for a thermal. -/
example : Values (Dict.get? (ν := ℚ) []) [.const 0, .const 1, .const 10, .const 6, .const 1, .const 45] [0, 1, 10, 6, 1, 45] ∧
    ((1 : ℚ) : ℝ) * √2 < ((6 : ℚ) : ℝ) := by
  refine ⟨.cons (.const _) (.cons (.const _) (.cons (.const _) (.cons (.const _) (.cons (.const _) (.cons (.const _) .nil))))),
    ?_⟩
  have : √2 ≤ 2 := Real.sqrt_le_iff.2 ⟨by norm_num, by norm_num⟩
  push_cast; linarith

/-- The hypotheses for a moiré of two rings. -/
example : Roomy 1 1 2 10 := .inr ⟨by norm_num, .inr ⟨by norm_num, trivial⟩⟩

/-! ### Where the figures are wrong -/

/-- **C65 does not hold** for polygons with a rotation: they are rotated twice. A square with a corner at the right,
rotated by 45 degrees, is drawn with a corner at the top. -/
theorem c65_false_polygon : ¬ ∀ (now : ℕ) (scope : Dict Name ℚ) (p : Prim) (figures : List (Bool × Figure)),
    Prescribed scope.get? p figures →
    ∃ o, primitive now scope p = .ok o ∧ List.Forall₂ Depicts figures o.cmds := by
  intro hall
  have hv : Values (Dict.get? (ν := ℚ) []) [.const 1, .const ((4 : ℕ) : ℚ), .const 0, .const 0, .const 2, .const 45]
      [1, ((4 : ℕ) : ℚ), 0, 0, 2, 45] := .cons (.const _) (.cons (.const _) (.cons (.const _) (.cons (.const _)
      (.cons (.const _) (.cons (.const _) .nil)))))
  obtain ⟨o, h1, h2⟩ := hall 0 [] (.code5 (.const 1) (.const ((4 : ℕ) : ℚ)) (.const 0) (.const 0) (.const 2) (.const 45)) _
    (.polygon hv (by norm_num) (by norm_num))
  obtain ⟨s, s1, s2, s3⟩ := polygon_shape (d := 2) (rot := 45) (n := 4) (j := 0) (by norm_num) (by norm_num) (by norm_num)
  have hp : primitive 0 [] (.code5 (.const 1) (.const ((4 : ℕ) : ℚ)) (.const 0) (.const 0) (.const 2) (.const 45)) =
      .ok (PrimOut.shapes [] [rotated 45 s]) := by
    have h0 : pt 0 0 = (⟨0, 0⟩ : Vec ℝ) := by ext <;> simp [pt]
    simp only [primitive, evalE, eval]
    show (do let s ← polygon _ _ _ _ false; _) = _
    rw [h0, truncQ_nat, s1]
    rfl
  rw [hp] at h1
  cases h1
  obtain ⟨_, ⟨s', e1, -, e2⟩, -⟩ : ∃ _ : Unit, Depicts _ (.shape (rotated 45 s)) ∧ True := by
    cases h2 with | cons h _ => exact ⟨(), h, trivial⟩
  cases e1
  have hseg : (rotated 45 s).segments = polygonSides (((List.range 4).map fun (k : ℕ) => rotCcw (((45 : ℚ) : ℝ) * π / 180)
      ⟨((2 : ℚ) : ℝ) / 2 * cos (2 * π * k / (4 : ℕ)), ((2 : ℚ) : ℝ) / 2 * sin (2 * π * k / (4 : ℕ))⟩).map
        (rotCcw (((45 : ℚ) : ℝ) * π / 180))) := by
    have : (rotated 45 s).segments = s.segments.map (·.transform (Mat.newRotate ((45 : ℚ) : ℝ))) := rfl
    rw [this, s3, polygonSides_rotated]
  have a45 : ((45 : ℚ) : ℝ) * π / 180 = π / 4 := by push_cast; ring
  -- the corner at the top is drawn
  have htop : (⟨0, 1⟩ : Vec ℝ) ∈ areaOf (rotated 45 s) := by
    rw [polygon_area hseg]
    apply surrounded_self
    simp only [List.range_succ, List.range_zero, List.nil_append, List.cons_append, List.map_cons, List.map_nil,
      List.tail_cons, List.take_succ_cons, List.take_zero, List.zip_cons_cons]
    refine ⟨_, List.mem_cons_self .., ?_⟩
    have : (⟨0, 1⟩ : Vec ℝ) = rotCcw (((45 : ℚ) : ℝ) * π / 180) (rotCcw (((45 : ℚ) : ℝ) * π / 180)
        ⟨((2 : ℚ) : ℝ) / 2 * cos (2 * π * ((0 : ℕ) : ℝ) / (4 : ℕ)), ((2 : ℚ) : ℝ) / 2 * sin (2 * π * ((0 : ℕ) : ℝ) / (4 : ℕ))⟩) := by
      rw [rot_rot, a45, show π / 4 + π / 4 = π / 2 by ring]
      ext <;> simp [rotCcw]
    rw [this]
    exact onSegment_start _ _
  -- it is above all the points of the square that the format prescribes
  refine not_surrounded (u := ⟨0, 1⟩) (by simp) ?_ ((e2 _).1 htop)
  rintro t ht ⟨side, hside, l, l0, l1, hl⟩
  have hy := congrArg Vec.y hl
  simp only [mul_one] at hy
  have hsq : √2 ^ 2 = 2 := Real.sq_sqrt (by norm_num)
  have hs2 : √2 / 2 < 1 := by
    have : (0 : ℝ) ≤ √2 := by positivity
    nlinarith
  have hcorner : ∀ v ∈ (List.range 4).map fun (k : ℕ) => rotCcw (((45 : ℚ) : ℝ) * π / 180)
      (point 0 0 + ⟨((2 : ℚ) : ℝ) / 2 * cos (2 * π * k / (4 : ℕ)), ((2 : ℚ) : ℝ) / 2 * sin (2 * π * k / (4 : ℕ))⟩), v.y ≤ √2 / 2 := by
    intro v hv
    obtain ⟨k, hk, rfl⟩ := List.mem_map.1 hv
    have hk4 : k < 4 := List.mem_range.1 hk
    have q0 : (0 : ℝ) ≤ √2 := by positivity
    have k0 : 2 * π / 4 = π / 2 := by ring
    have k1 : 2 * π * 2 / 4 = π := by ring
    have k2 : 2 * π * 3 / 4 = π + π / 2 := by ring
    rw [a45]
    interval_cases k <;> simp [rotCcw, point, k0, k1, k2, cos_add, sin_add] <;> linarith
  obtain ⟨m1, m2⟩ := List.of_mem_zip (show (side.1, side.2) ∈ _ from hside)
  have b1 := hcorner _ m1
  have b2 : side.2.y ≤ √2 / 2 := by
    rcases List.mem_append.1 m2 with h | h
    · exact hcorner _ (List.mem_of_mem_tail h)
    · exact hcorner _ (List.mem_of_mem_take h)
  nlinarith

/-- **C65 does not hold** for a moiré with a ring thicker than the room inside: the definition raises. -/
theorem c65_false_moire (now : ℕ) :
    ∃ figures, Prescribed (Dict.get? (ν := ℚ) []) (.code6 (.const 0) (.const 0) (.const 3) (.const 2) (.const 1) (.const ((2 : ℕ) : ℚ))
      (.const 0) (.const 0) (.const 0)) figures ∧ figures ≠ [] ∧
    primitive now [] (.code6 (.const 0) (.const 0) (.const 3) (.const 2) (.const 1) (.const ((2 : ℕ) : ℚ)) (.const 0) (.const 0)
      (.const 0)) = .error .assertion := by
  refine ⟨_, .moire (.cons (.const _) (.cons (.const _) (.cons (.const _) (.cons (.const _) (.cons (.const _)
      (.cons (.const _) (.cons (.const _) (.cons (.const _) (.cons (.const _) .nil))))))))) (by norm_num) (by norm_num), ?_, ?_⟩
  · rw [moireRings, if_neg (by norm_num), if_pos (by norm_num)]
    simp
  · simp only [primitive, moire, evalE, eval, truncQ_nat, bind, Except.bind, pure, Except.pure, Int.toNat_natCast]
    norm_num [rings, ring, bind, Except.bind]

/-- **C65 does not hold** for a moiré with fewer rings than asked for: where no room is left, a disc is drawn. -/
theorem c65_false_moire_room (now : ℕ) :
    ∃ figures o, Prescribed (Dict.get? (ν := ℚ) []) (.code6 (.const 0) (.const 0) (.const 3) (.const 1) (.const 1)
      (.const ((2 : ℕ) : ℚ)) (.const 0) (.const 0) (.const 0)) figures ∧ figures.length = 2 ∧
    primitive now [] (.code6 (.const 0) (.const 0) (.const 3) (.const 1) (.const 1) (.const ((2 : ℕ) : ℚ)) (.const 0) (.const 0)
      (.const 0)) = .ok o ∧
    ∃ a b s, o.cmds = [a, b, .shape s] ∧ s.negative = false ∧ ∀ p, p ∈ areaOf s ↔ Disc (point 0 0) 1 p := by
  refine ⟨_, PrimOut.shapes [] [rotated 0 (Shape.newRing (pt 0 0) 3 1 false).1, rotated 0 (Shape.newRing (pt 0 0) 3 1 false).2,
      rotated 0 (Shape.newCircle (pt 0 0) ((-1 : ℚ) : ℝ) false)],
    .moire (.cons (.const _) (.cons (.const _) (.cons (.const _) (.cons (.const _) (.cons (.const _)
      (.cons (.const _) (.cons (.const _) (.cons (.const _) (.cons (.const _) .nil))))))))) (by norm_num) (by norm_num),
    ?_, ?_, _, _, _, rfl, rfl, ?_⟩
  · rw [moireRings, if_neg (by norm_num), if_neg (by norm_num), moireRings, if_pos (by norm_num)]
    simp [moireCross, ringHalves]
  · simp only [primitive, moire, evalE, eval, truncQ_nat, bind, Except.bind, pure, Except.pure, Int.toNat_natCast]
    norm_num [rings, ring, bind, Except.bind, pure, Except.pure]
  · intro p
    rw [disc_rotated, turned_iff]
    simp [Disc, point]
    norm_num

/-- **C65 does not hold** for a thermal whose gap is wide compared with the hole: nothing is drawn, although four pieces
of the ring are left by the gaps. -/
theorem c65_false_thermal (now node : ℕ) :
    primitive now [] (.code7 node (.const 0) (.const 0) (.const 10) (.const 6) (.const 5) (.const 0)) =
      .ok ⟨[], [], none, 0⟩ ∧
    ∃ p : Vec ℝ, (6 / 2 : ℝ) ^ 2 < p.x ^ 2 + p.y ^ 2 ∧ p.x ^ 2 + p.y ^ 2 < (10 / 2) ^ 2 ∧ 5 / 2 < |p.x| ∧ 5 / 2 < |p.y| := by
  refine ⟨?_, ⟨3, 3⟩, by norm_num, by norm_num, by norm_num, by norm_num⟩
  have h : ((5 : ℚ) : ℝ) * √2 ≥ ((6 : ℚ) : ℝ) := by
    have : (6 / 5 : ℝ) ≤ √2 := by
      apply Real.le_sqrt_of_sq_le; norm_num
    push_cast; linarith
  simp only [primitive, thermal, evalE, eval, bind, Except.bind, pure, Except.pure]
  rw [if_neg (by norm_num), if_pos h]
  rfl

end Verif.Props.MacroShape
