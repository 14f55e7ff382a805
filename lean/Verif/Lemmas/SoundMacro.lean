import Verif.Lemmas.RoundPolygon
import Verif.Props.MacroShape
import Verif.Spec.Enclosed

/-!
# The outlines that macro primitives draw
-/

namespace Verif.SoundMacro
open Verif.Geom Verif.Rvmc Verif.Compiler Verif.Spec Verif.Halves Verif.Fine Verif.Crossing Verif.Sim Verif.Math Verif.Macro
  Verif.Visitor Verif.Lemmas.MacroShape Verif.Lemmas.ShapeArea Real

/-! ### Rotated shapes -/

/-- Shapes are sound when rotated by any angle. -/
theorem sound_rotated {s : Shape} (h : Sound s) (r : ℚ) : Sound (rotated r s) := sound_transform (similar_rotate r) h

/-- Circles are sound when rotated by any angle. -/
theorem sound_circle (r : ℚ) (c : Vec ℝ) {d : ℝ} (hd : 0 < d) (neg : Bool) : Sound (rotated r (Shape.newCircle c d neg)) := by
  obtain ⟨cw, e⟩ := rotated_circle r c d neg
  rw [e]
  refine (round_two_halves cw neg ?_ ?_).sound
  · intro h
    have := congrArg Vec.x (Lemmas.MacroShape.rot_inj _ _ _ h)
    simp only at this
    linarith
  · ext <;> simp [rotCcw] <;> ring

/-- The two halves of a ring. -/
theorem sound_ring (r : ℚ) (c : Vec ℝ) {d k : ℝ} (hk : 0 < k) (hd : k < d) (neg : Bool) :
    Sound (rotated r (Shape.newRing c d k neg).1) ∧ Sound (rotated r (Shape.newRing c d k neg).2) := by
  have len : ∀ a : ℝ, 0 ≤ a → ∀ v : Vec ℝ, v = ⟨a, 0⟩ ∨ v = ⟨-a, 0⟩ → vlen v = a := by
    intro a ha v hv
    unfold vlen
    rcases hv with rfl | rfl <;> simp [ha]
  have key : ∀ s e : Vec ℝ, (s = ⟨c.x + k / 2 + (d - k) / 2 / 2, c.y⟩ ∧ e = ⟨c.x - k / 2 - (d - k) / 2 / 2, c.y⟩) ∨
      (s = ⟨c.x - k / 2 - (d - k) / 2 / 2, c.y⟩ ∧ e = ⟨c.x + k / 2 + (d - k) / 2 / 2, c.y⟩) →
      Sound (Shape.newCwArc s e c ((d - k) / 2) neg) := by
    intro s e h
    have ls : vlen (s - c) = k / 2 + (d - k) / 2 / 2 := by
      refine len _ (by linarith) _ ?_
      rcases h with ⟨rfl, -⟩ | ⟨rfl, -⟩
      · left; ext <;> simp; ring
      · right; ext <;> simp; ring
    have le : vlen (e - c) = k / 2 + (d - k) / 2 / 2 := by
      refine len _ (by linarith) _ ?_
      rcases h with ⟨-, rfl⟩ | ⟨-, rfl⟩
      · right; ext <;> simp; ring
      · left; ext <;> simp; ring
    refine (round_cwArc neg (by linarith) (ls.trans le.symm) ?_ (by rw [ls]; linarith)).sound
    rintro rfl
    rcases h with ⟨h1, h2⟩ | ⟨h1, h2⟩ <;>
    · rw [h1] at h2
      have := congrArg Vec.x h2
      simp only at this
      linarith
  refine ⟨sound_transform (similar_rotate r) ?_, sound_transform (similar_rotate r) ?_⟩
  · exact key _ _ (.inl ⟨rfl, rfl⟩)
  · exact key _ _ (.inr ⟨rfl, rfl⟩)

/-! ### Outlines -/

theorem walk_zip_pairs (p z w : Vec ℝ) (m : List (Vec ℝ)) : ∀ (l : List (Vec ℝ)) (x : Vec ℝ),
    walk p ((((x :: l).zip (l ++ [z])).map fun e => [e.1, e.2]).flatten ++ w :: m) = walk p (x :: l ++ [z]) + walk p (z :: w :: m)
  | [], x => by simp [walk]
  | y :: l, x => by
    have ih := walk_zip_pairs p z w m l y
    have hd : ∃ F, (((y :: l).zip (l ++ [z])).map fun e => [e.1, e.2]).flatten ++ w :: m = y :: F := by
      cases l <;> simp
    obtain ⟨F, hF⟩ := hd
    have e : (((x :: y :: l).zip (y :: l ++ [z])).map fun e => [e.1, e.2]).flatten ++ w :: m = x :: y :: y :: F := by
      simp only [List.cons_append, List.zip_cons_cons, List.map_cons, List.flatten_cons, List.nil_append]
      rw [hF]
    rw [e, walk, walk, cr_zero (a := y) (b := y) Iff.rfl, zero_add, ← hF, ih]
    simp only [List.cons_append, walk, add_assoc]

theorem within_sides {corners : List (Vec ℝ)} (hne : corners ≠ []) (p : Vec ℝ) :
    WithinLine ((polygonSides corners).map fun g => [g.start, g.stop]).flatten p ↔ WithinLine corners p := by
  obtain ⟨x, l, rfl⟩ := List.exists_cons_of_ne_nil hne
  rw [within_walk, within_walk]
  have e : ((polygonSides (x :: l)).map fun g => [g.start, g.stop]) = ((x :: l).zip (l ++ [x])).map fun e => [e.1, e.2] := by
    simp [polygonSides, Segment.start, Segment.stop, Function.comp_def]
  have hd : (((((x :: l).zip (l ++ [x])).map fun e => [e.1, e.2]).flatten).head?).toList = [x] := by cases l <;> simp
  rw [e, hd, walk_zip_pairs]
  simp only [walk, List.head?_cons, Option.toList_some, cr_zero (a := x) (b := x) Iff.rfl, add_zero]

theorem straight_sides {s : Shape} {corners : List (Vec ℝ)} (h : s.segments = polygonSides corners) : Straight s := by
  intro g hg
  rw [h] at hg
  obtain ⟨e, -, rfl⟩ := List.mem_map.1 hg
  exact ⟨_, rfl⟩

theorem sound_outline {s : Shape} {corners : List (Vec ℝ)} (h : s.segments = polygonSides corners) (hne : corners ≠ [])
    (ho : OnceAround corners) : Sound s := by
  refine ⟨fun g hg => ?_, fun p hp hr => ⟨1, one_pos, fun traces ht => ?_⟩⟩
  · obtain ⟨l, rfl⟩ := straight_sides h g hg
    trivial
  · rw [h] at ht
    rw [links_traces ht fun g hg => by
      obtain ⟨e, -, rfl⟩ := List.mem_map.1 hg
      exact ⟨_, rfl⟩, within_sides hne]
    refine ho p ((polygon_area h p).1 hp) fun side hside hon => hr (.inl ?_)
    refine ⟨.line ⟨side.1, side.2⟩, ?_, hon⟩
    rw [h]
    exact List.mem_map.2 ⟨side, hside, rfl⟩

/-- The other way round. -/
theorem once_of_sound {s : Shape} {corners : List (Vec ℝ)} (h : s.segments = polygonSides corners) (hne : corners ≠ [])
    (hs : Sound s) : OnceAround corners := by
  intro p hp hr
  have hrim : ¬ OnRim s p := by
    rw [onRim_connected]
    · rintro ⟨g, hg, hon⟩
      rw [h] at hg
      obtain ⟨side, hside, rfl⟩ := List.mem_map.1 hg
      exact hr side hside hon
    · rw [h]
      unfold polygonSides successors
      rw [← List.map_tail, ← List.map_take, ← List.map_append, List.zip_map]
      intro g hg
      obtain ⟨g', hg', rfl⟩ := List.mem_map.1 hg
      exact ⟨zip_next_next _ _ hg', onSegment_start _ _⟩
  obtain ⟨ε, -, ht⟩ := hs.2 p ((polygon_area h p).2 hp) hrim
  rw [← within_sides hne]
  refine ht _ ?_
  rw [h, List.forall₂_map_right_iff]
  exact List.forall₂_same.2 fun g hg => by
    obtain ⟨e, -, rfl⟩ := List.mem_map.1 hg
    rfl

/-- The first corner may be repeated at the end. -/
theorem once_closed {a : Vec ℝ} {l : List (Vec ℝ)} (h : OnceAround (a :: l)) : OnceAround (a :: (l ++ [a])) := by
  have e : (a :: (l ++ [a])).zip ((a :: (l ++ [a])).tail ++ (a :: (l ++ [a])).take 1) =
      (a :: l).zip ((a :: l).tail ++ (a :: l).take 1) ++ [(a, a)] := by
    have h2 : (a :: (l ++ [a])).zip (l ++ [a] ++ [a]) = (a :: l).zip (l ++ [a]) ++ [a].zip [a] := by
      rw [← List.zip_append (by simp)]
      rfl
    simpa using h2
  have hsame : ∀ q, (∃ side ∈ (a :: (l ++ [a])).zip ((a :: (l ++ [a])).tail ++ (a :: (l ++ [a])).take 1), OnSegment side.1 side.2 q) ↔
      ∃ side ∈ (a :: l).zip ((a :: l).tail ++ (a :: l).take 1), OnSegment side.1 side.2 q := by
    intro q
    rw [e]
    constructor
    · rintro ⟨side, hs, hq⟩
      rcases List.mem_append.1 hs with hs | hs
      · exact ⟨side, hs, hq⟩
      · rw [List.mem_singleton.1 hs, onSegment_same] at hq
        subst hq
        obtain ⟨b, m, hb⟩ : ∃ b m, l ++ [q] = b :: m := by cases l <;> simp
        refine ⟨(q, b), ?_, onSegment_start _ _⟩
        simp [hb]
    · rintro ⟨side, hs, hq⟩
      exact ⟨side, List.mem_append_left _ hs, hq⟩
  intro p hp hr
  have hp' : Polygon (a :: l) p := by
    unfold Polygon at hp ⊢
    simpa only [hsame] using hp
  have := h p hp' fun side hs hq => hr side (by rw [e]; exact List.mem_append_left _ hs) hq
  rw [within_walk] at this ⊢
  have w := walk_append p (a :: l) a [a]
  simp only [List.head?_cons, Option.toList_some, List.cons_append, List.append_assoc, List.nil_append] at this w ⊢
  rw [w, this]
  simp [walk, cr_zero (a := a) (b := a) Iff.rfl]

/-! ### Primitives -/

/-- What a primitive draws is sound. -/
def OutSound (o : PrimOut) : Prop := (∀ s, .shape s ∈ o.cmds → Sound s) ∧ ∀ l, o.layer = some l → ∀ s, .shape s ∈ l.2 → Sound s

theorem outSound_shapes {scope : Dict Name ℚ} {ss : List Shape} (h : ∀ s ∈ ss, Sound s) : OutSound (.shapes scope ss) := by
  refine ⟨fun s hs => ?_, nofun⟩
  obtain ⟨s', h', e⟩ := List.mem_map.1 hs
  cases e
  exact h s h'

theorem outSound_one {scope : Dict Name ℚ} {s : Shape} (h : Sound s) : OutSound (.shapes scope [s]) :=
  outSound_shapes fun s' hs' => by rw [List.mem_singleton.1 hs']; exact h

theorem vector_sound {e w : ℚ} (hw : 0 ≤ w) (a b : Vec ℝ) (r : ℚ) : Sound (rotated r (Shape.newLine a b (w : ℝ) (e == 0))) :=
  sound_rotated (round_line _ _ (by exact_mod_cast hw) _).sound r

theorem rectangle_sound {e w h : ℚ} (hw : 0 ≤ w) (hh : 0 ≤ h) (c : Vec ℝ) (r : ℚ) :
    Sound (rotated r (Shape.newRectangle c (w : ℝ) (h : ℝ) (e == 0))) :=
  sound_rotated (round_rectangle _ (by exact_mod_cast hw) (by exact_mod_cast hh) _).sound r

theorem rings_sound {c : Vec ℝ} {t g r : ℚ} (ht : 0 < t) : ∀ (n : ℕ) (d : ℚ) (ss : List Shape),
    Props.MacroShape.Roomy t g n d → rings c t (g * 2 + t * 2) n d (d - t * 2) = .ok ss → ∀ s ∈ ss, Sound (rotated r s) := by
  intro n
  induction n with
  | zero => intro d ss _ h; cases h; exact nofun
  | succ n ih =>
    intro d ss hd h
    rcases hd with ⟨h0, h1⟩ | ⟨h0, h1⟩
    · simp only [rings, h1, if_true] at h
      cases h
      intro s hs
      rw [List.mem_singleton.1 hs]
      exact sound_circle r c (by exact_mod_cast h0) false
    · have ht' : (0 : ℝ) < (t : ℝ) := by exact_mod_cast ht
      have h0' : 2 * (t : ℝ) < (d : ℝ) := by exact_mod_cast h0
      have hr : ring c (d : ℝ) ((d - t * 2 : ℚ) : ℝ) false =
          .ok [(Shape.newRing c (d : ℝ) ((d - t * 2 : ℚ) : ℝ) false).1,
            (Shape.newRing c (d : ℝ) ((d - t * 2 : ℚ) : ℝ) false).2] := by
        unfold ring
        rw [if_pos]
        push_cast
        constructor <;> linarith
      have he : d - (g * 2 + t * 2) = d - 2 * (t + g) := by ring
      have he' : d - t * 2 - (g * 2 + t * 2) = d - 2 * (t + g) - t * 2 := by ring
      simp only [rings, if_neg (by linarith : ¬ d ≤ t), hr, he, he'] at h
      obtain ⟨_, g0, g2⟩ := Compiler.bind_ok.1 h
      cases g0
      obtain ⟨ss', g1, g3⟩ := Compiler.bind_ok.1 g2
      cases g3
      obtain ⟨k1, k2⟩ := sound_ring r c (d := (d : ℝ)) (k := ((d - t * 2 : ℚ) : ℝ)) (by push_cast; linarith) (by push_cast; linarith) false
      intro s hs
      simp only [List.cons_append, List.nil_append, List.mem_cons] at hs
      rcases hs with rfl | rfl | hs
      · exact k1
      · exact k2
      · exact ih _ ss' h1 g1 s hs

theorem primitive_sound {now : ℕ} {scope : Dict Name ℚ} {p : Prim} {figures : List (Bool × Figure)} {o : PrimOut}
    (h : Prescribed scope.get? p figures) (hs : Props.MacroShape.Sound scope.get? p) (hp : PlainPrim scope.get? p)
    (ho : primitive now scope p = .ok o) : OutSound o := by
  cases h with
  | comment => cases ho; exact outSound_shapes nofun
  | circle hv hd =>
    rcases hv with _ | ⟨v1, _ | ⟨v2, _ | ⟨v3, _ | ⟨v4, _ | _⟩⟩⟩⟩
    simp only [primitive, Props.MacroShape.value_evalE v1, Props.MacroShape.value_evalE v2, Props.MacroShape.value_evalE v3,
      Props.MacroShape.value_evalE v4] at ho
    cases ho
    exact outSound_one (round_circle _ (by exact_mod_cast hp _ v2) _).sound
  | circleTurned hv hd =>
    rcases hv with _ | ⟨v1, _ | ⟨v2, _ | ⟨v3, _ | ⟨v4, _ | ⟨v5, _ | _⟩⟩⟩⟩⟩
    simp only [primitive, Props.MacroShape.value_evalE v1, Props.MacroShape.value_evalE v2, Props.MacroShape.value_evalE v3,
      Props.MacroShape.value_evalE v4, Props.MacroShape.value_evalE v5] at ho
    cases ho
    exact outSound_one (sound_circle _ _ (by exact_mod_cast hp _ v2) _)
  | vector2 hv hw hne =>
    rcases hv with _ | ⟨v1, _ | ⟨v2, _ | ⟨v3, _ | ⟨v4, _ | ⟨v5, _ | ⟨v6, _ | ⟨v7, _ | _⟩⟩⟩⟩⟩⟩⟩
    simp only [primitive, vectorLine, Props.MacroShape.value_evalE v1, Props.MacroShape.value_evalE v2, Props.MacroShape.value_evalE v3,
      Props.MacroShape.value_evalE v4, Props.MacroShape.value_evalE v5, Props.MacroShape.value_evalE v6, Props.MacroShape.value_evalE v7] at ho
    cases ho
    exact outSound_one (vector_sound hw _ _ _)
  | vector20 hv hw hne =>
    rcases hv with _ | ⟨v1, _ | ⟨v2, _ | ⟨v3, _ | ⟨v4, _ | ⟨v5, _ | ⟨v6, _ | ⟨v7, _ | _⟩⟩⟩⟩⟩⟩⟩
    simp only [primitive, vectorLine, Props.MacroShape.value_evalE v1, Props.MacroShape.value_evalE v2, Props.MacroShape.value_evalE v3,
      Props.MacroShape.value_evalE v4, Props.MacroShape.value_evalE v5, Props.MacroShape.value_evalE v6, Props.MacroShape.value_evalE v7] at ho
    cases ho
    exact outSound_one (vector_sound hw _ _ _)
  | centerLine hv hw hh =>
    rcases hv with _ | ⟨v1, _ | ⟨v2, _ | ⟨v3, _ | ⟨v4, _ | ⟨v5, _ | ⟨v6, _ | _⟩⟩⟩⟩⟩⟩
    simp only [primitive, Props.MacroShape.value_evalE v1, Props.MacroShape.value_evalE v2, Props.MacroShape.value_evalE v3,
      Props.MacroShape.value_evalE v4, Props.MacroShape.value_evalE v5, Props.MacroShape.value_evalE v6] at ho
    cases ho
    exact outSound_one (rectangle_sound hw hh _ _)
  | lowerLeftLine hv hw hh =>
    rcases hv with _ | ⟨v1, _ | ⟨v2, _ | ⟨v3, _ | ⟨v4, _ | ⟨v5, _ | ⟨v6, _ | _⟩⟩⟩⟩⟩⟩
    simp only [primitive, Props.MacroShape.value_evalE v1, Props.MacroShape.value_evalE v2, Props.MacroShape.value_evalE v3,
      Props.MacroShape.value_evalE v4, Props.MacroShape.value_evalE v5, Props.MacroShape.value_evalE v6] at ho
    cases ho
    exact outSound_one (rectangle_sound hw hh _ _)
  | outline hv hx hy =>
    rename_i xs ys r
    rcases hv with _ | ⟨v1, _ | ⟨v2, _ | ⟨v3, _ | ⟨v4, _ | _⟩⟩⟩⟩
    rename_i e sx sy
    have hne : Shape.connectedPoints (pt sx sy) ((xs.zip ys).map fun p => pt p.1 p.2) ≠ [] := by
      simp [Shape.connectedPoints]
    obtain ⟨s, s1, s2, s3⟩ := shapeOf_ok hne (e == 0)
    simp only [primitive, Props.MacroShape.value_evalE v1, Props.MacroShape.value_evalE v2, Props.MacroShape.value_evalE v3,
      Props.MacroShape.value_evalE v4, Props.MacroShape.values_evalPoints hx hy] at ho
    change (do let s ← shapeOf _ (e == 0); pure (PrimOut.shapes scope [rotated r s])) = _ at ho
    rw [s1] at ho
    cases ho
    have hz : (xs.zip ys).map (fun p => pt p.1 p.2) = List.zipWith point xs ys := by
      rw [List.zip, List.map_zipWith]; rfl
    rw [connectedPoints_sides, hz] at s2
    exact outSound_one (sound_rotated (sound_outline s2 (by simp) (hp _ _ _ _ v2 v3 hx hy)) r)
  | polygon hv hn hd =>
    rcases hv with _ | ⟨v1, _ | ⟨v2, _ | ⟨v3, _ | ⟨v4, _ | ⟨v5, _ | ⟨v6, _ | _⟩⟩⟩⟩⟩⟩
    rename_i e n x y d r
    have hr := hs r v6
    subst hr
    have hside := Props.MacroShape.polygon_sides (x := (x : ℝ)) (y := (y : ℝ)) (d := (d : ℝ)) (rot := 0) hn (le_refl _) (by
      have : (0 : ℝ) < n := by exact_mod_cast (by omega : 0 < n)
      positivity)
    have hne : Shape.polygonSegments (pt x y) (d : ℝ) n ((0 : ℚ) : ℝ) ≠ [] := by
      rw [Rat.cast_zero]
      show Shape.polygonSegments ⟨(x : ℝ), (y : ℝ)⟩ (d : ℝ) n 0 ≠ []
      rw [hside]
      exact Props.MacroShape.polygonSides_ne_nil hn _
    obtain ⟨s, s1, s2, s3⟩ := shapeOf_ok hne (e == 0)
    have hp' : Compiler.polygon (pt x y) (d : ℝ) (truncQ (n : ℚ)) ((0 : ℚ) : ℝ) (e == 0) = .ok s := by
      unfold Compiler.polygon
      rw [Props.MacroShape.truncQ_nat, if_neg (by omega), Int.toNat_natCast, s1]
    simp only [primitive, Props.MacroShape.value_evalE v1, Props.MacroShape.value_evalE v2, Props.MacroShape.value_evalE v3,
      Props.MacroShape.value_evalE v4, Props.MacroShape.value_evalE v5, Props.MacroShape.value_evalE v6] at ho
    change (do let s ← Compiler.polygon _ _ _ _ _; pure (PrimOut.shapes scope [rotated 0 s])) = _ at ho
    rw [hp'] at ho
    cases ho
    rw [Rat.cast_zero] at s2
    have s2' : s.segments = Shape.polygonSegments ⟨(x : ℝ), (y : ℝ)⟩ (d : ℝ) n 0 := s2
    rw [hside] at s2'
    exact outSound_one (sound_rotated (polygon_sound hn (by exact_mod_cast hp _ v5) _ _ s2') 0)
  | moire hv ht hg =>
    rcases hv with _ | ⟨v1, _ | ⟨v2, _ | ⟨v3, _ | ⟨v4, _ | ⟨v5, _ | ⟨v6, _ | ⟨v7, _ | ⟨v8, _ | ⟨v9, _ | _⟩⟩⟩⟩⟩⟩⟩⟩⟩
    rename_i x y d t g n ct cl r
    have hroom := hs d t g n v3 v4 v5 v6
    simp only [primitive, moire, Props.MacroShape.value_evalE v1, Props.MacroShape.value_evalE v2, Props.MacroShape.value_evalE v3,
      Props.MacroShape.value_evalE v4, Props.MacroShape.value_evalE v5, Props.MacroShape.value_evalE v6, Props.MacroShape.value_evalE v7,
      Props.MacroShape.value_evalE v8, Props.MacroShape.value_evalE v9, bind, Except.bind, pure, Except.pure] at ho
    have key : ∀ rs, (∀ s ∈ rs, Sound (rotated r s)) → OutSound (.shapes scope (((if cl > 0 ∧ ct > 0 then
        [Shape.newLine (pt x (y - cl / 2)) (pt x (y + cl / 2)) (ct : ℝ) false,
         Shape.newLine (pt (x - cl / 2) y) (pt (x + cl / 2) y) (ct : ℝ) false]
        else []) ++ rs).map (rotated r))) := by
      intro rs hrs
      refine outSound_shapes fun s hs => ?_
      obtain ⟨s', hs', rfl⟩ := List.mem_map.1 hs
      rcases List.mem_append.1 hs' with h' | h'
      · split at h'
        · next hc' =>
          have hct : (0 : ℝ) ≤ (ct : ℝ) := by exact_mod_cast hc'.2.le
          simp only [List.mem_cons, List.not_mem_nil, or_false] at h'
          rcases h' with rfl | rfl <;> exact sound_rotated (round_line _ _ hct _).sound r
        · cases h'
      · exact hrs s' h'
    by_cases hcond : t > 0 ∧ d > 0 ∧ (n : ℚ) > 0
    · simp only [if_pos hcond] at ho
      cases hrings : rings (pt x y) t (g * 2 + t * 2) (truncQ (n : ℚ)).toNat d (d - t * 2) with
      | error e => rw [hrings] at ho; cases ho
      | ok rs =>
        rw [hrings] at ho
        cases ho
        rw [Props.MacroShape.truncQ_nat, Int.toNat_natCast] at hrings
        exact key rs (rings_sound ht n d rs (hroom.resolve_left (by linarith [hcond.2.1])) hrings)
    · simp only [if_neg hcond] at ho
      cases ho
      exact key [] nofun

theorem thermal_sound {now : ℕ} {scope : Dict Name ℚ} {node : ℕ} {centerX centerY outer inner gap rotation : Expr}
    {x y d k g r : ℚ} {o : PrimOut} (hv : Values scope.get? [centerX, centerY, outer, inner, gap, rotation] [x, y, d, k, g, r])
    (hk : 0 < k) (hd : k < d) (hg : 0 ≤ g)
    (hs : Props.MacroShape.Sound scope.get? (.code7 node centerX centerY outer inner gap rotation))
    (ho : primitive now scope (.code7 node centerX centerY outer inner gap rotation) = .ok o) : OutSound o := by
  rcases hv with _ | ⟨v1, _ | ⟨v2, _ | ⟨v3, _ | ⟨v4, _ | ⟨v5, _ | ⟨v6, _ | _⟩⟩⟩⟩⟩⟩
  have h1 := hs k g v4 v5
  have hk' : (0 : ℝ) < (k : ℝ) := by exact_mod_cast hk
  have hd' : (k : ℝ) < (d : ℝ) := by exact_mod_cast hd
  have hg' : (0 : ℝ) ≤ (g : ℝ) := by exact_mod_cast hg
  have hr : ring ⟨0, 0⟩ (d : ℝ) (k : ℝ) false = .ok [(Shape.newRing ⟨0, 0⟩ (d : ℝ) (k : ℝ) false).1,
      (Shape.newRing ⟨0, 0⟩ (d : ℝ) (k : ℝ) false).2] := by
    unfold ring
    rw [if_pos]
    constructor <;> linarith
  obtain ⟨k1, k2⟩ := sound_ring r ⟨0, 0⟩ hk' hd' false
  simp only [primitive, thermal, Props.MacroShape.value_evalE v1, Props.MacroShape.value_evalE v2, Props.MacroShape.value_evalE v3,
    Props.MacroShape.value_evalE v4, Props.MacroShape.value_evalE v5, Props.MacroShape.value_evalE v6, bind, Except.bind,
    if_neg (not_le.2 hd), if_neg (not_le.2 h1), ge_iff_le, hr, pure, Except.pure] at ho
  cases ho
  refine ⟨by simp, fun l hl s hs => ?_⟩
  cases hl
  obtain ⟨s1, hs1, e⟩ := List.mem_map.1 hs
  cases e
  obtain ⟨s2, hs2, rfl⟩ := List.mem_map.1 hs1
  simp only [List.cons_append, List.nil_append, List.mem_cons, List.not_mem_nil, or_false] at hs2
  rcases hs2 with rfl | rfl | rfl | rfl
  · exact k1
  · exact k2
  · exact sound_rotated (round_line _ _ hg' _).sound r
  · exact sound_rotated (round_line _ _ hg' _).sound r

end Verif.SoundMacro
