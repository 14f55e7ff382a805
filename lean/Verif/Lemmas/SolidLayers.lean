import Verif.Lemmas.SoundLayers
import Verif.Lemmas.Ordered
import Verif.Spec.Solid

/-!
# Outlines that are more than a line
-/

namespace Verif.SolidLayers
open Verif.Visitor Verif.Coord Verif.Geom Verif.Rvmc Verif.Compiler Verif.Spec Verif.Vm Verif.Props.State Verif.Macro
  Verif.Props.Compiler Verif.Props.FlashImage Verif.Props.Stroke Verif.Props.Repeat Verif.Props.Picture Verif.Halves Verif.Sim
noncomputable section

/-- Two segments, or an arc. -/
def Solid (s : Shape) : Prop := s.tail ≠ [] ∨ ∃ a, s.head = .arc a

theorem solid_transform {s : Shape} (m : Mat ℝ) (h : Solid s) : Solid (s.transform m) := by
  rcases h with h | ⟨a, h⟩
  · left
    simpa [Shape.transform] using h
  · right
    simp only [Shape.transform, h]
    exact ⟨_, rfl⟩

theorem solid_rotated {s : Shape} (r : ℚ) (h : Solid s) : Solid (rotated r s) := solid_transform _ h

theorem solid_circle (c : Vec ℝ) (d : ℝ) (n : Bool) : Solid (Shape.newCircle c d n) := .inl (by simp [Shape.newCircle])
theorem solid_line (a b : Vec ℝ) (d : ℝ) (n : Bool) : Solid (Shape.newLine a b d n) := .inl (by simp [Shape.newLine])
theorem solid_rectangle (c : Vec ℝ) (w h : ℝ) (n : Bool) : Solid (Shape.newRectangle c w h n) := .inl (by simp [Shape.newRectangle])
theorem solid_obround (c : Vec ℝ) (w h : ℝ) (n : Bool) : Solid (Shape.newObround c w h n) := by
  unfold Shape.newObround
  simp only
  split <;> exact .inl (by simp)
theorem solid_arc (cw : Bool) (a b c : Vec ℝ) (t : ℝ) (n : Bool) : Solid (arcShape cw a b c t n) := by
  cases cw <;> exact .inl (by simp [arcShape, Shape.newCwArc, Shape.newCcwArc])

theorem solid_of_length {s : Shape} (h : 2 ≤ s.segments.length) : Solid s := by
  left
  intro e
  simp [Shape.segments, e] at h

theorem solid_ring {c : Vec ℝ} {o i : ℝ} {n : Bool} {ss : List Shape} (h : ring c o i n = .ok ss) : ∀ s ∈ ss, Solid s := by
  unfold ring at h
  split at h
  · cases h
    intro s hs
    simp only [List.mem_cons, List.not_mem_nil, or_false] at hs
    rcases hs with rfl | rfl <;> exact .inl (by simp [Shape.newRing, Shape.newCwArc])
  · cases h

theorem solid_rings {c : Vec ℝ} {t d : ℚ} : ∀ (n : ℕ) (o i : ℚ) (ss : List Shape), rings c t d n o i = .ok ss → ∀ s ∈ ss, Solid s
  | 0, _, _, _, h => by cases h; nofun
  | n + 1, o, i, ss, h => by
    simp only [rings] at h
    split at h
    · cases h
      intro s hs
      rw [List.mem_singleton] at hs
      subst hs
      exact solid_circle ..
    · obtain ⟨r, h1, h⟩ := Compiler.bind_ok.1 h
      obtain ⟨rs, h2, h⟩ := Compiler.bind_ok.1 h
      rw [Compiler.pure_ok] at h
      subst h
      intro s hs
      rcases List.mem_append.1 hs with hs | hs
      · exact solid_ring h1 s hs
      · exact solid_rings n _ _ rs h2 s hs

/-- All shapes are solid. -/
def AllSolid (cmds : List Compiler.Cmd) : Prop := ∀ s, .shape s ∈ cmds → Solid s

/-- All shapes in the buffers of the compiler are solid. -/
def Kept (c : CState) : Prop := ∀ id cmds, c.buffers.get? id = some cmds → AllSolid cmds

theorem AllSolid.append {a b : List Compiler.Cmd} (ha : AllSolid a) (hb : AllSolid b) : AllSolid (a ++ b) := by
  intro s hs
  rcases List.mem_append.1 hs with h | h
  · exact ha s h
  · exact hb s h

theorem allSolid_shapes {ss : List Shape} (h : ∀ s ∈ ss, Solid s) : AllSolid (ss.map .shape) := by
  intro s hs
  obtain ⟨s', h', e⟩ := List.mem_map.1 hs
  cases e
  exact h s h'

theorem allSolid_cons {g : Shape} {cmds : List Compiler.Cmd} (hg : Solid g) (hc : AllSolid cmds) : AllSolid (.shape g :: cmds) := by
  intro s hs
  rcases List.mem_cons.1 hs with e | h
  · cases e; exact hg
  · exact hc s h

theorem allSolid_moved {m : Mat ℝ} {cmds : List Compiler.Cmd} (h : AllSolid cmds) : AllSolid (moved m cmds) := by
  intro s hs
  obtain ⟨x, hx, e⟩ := List.mem_map.1 hs
  cases x with
  | shape s' => cases e; exact solid_transform _ (h s' hx)
  | paste => cases e

theorem allSolid_hole (hole : Option ℚ) (limit : ℚ) : AllSolid (holeOf hole limit) := by
  unfold holeOf
  split
  · split
    · intro s hs
      rw [List.mem_singleton] at hs
      cases hs
      exact solid_circle ..
    · exact nofun
  · exact nofun

theorem kept_append {cmds : List Compiler.Cmd} {c c' : CState} (h : append cmds c = .ok c') (hc : Kept c) (hn : AllSolid cmds) : Kept c' := by
  obtain ⟨-, -, -, h4⟩ := append_ok h
  intro id b hb
  rw [h4] at hb
  split at hb
  · obtain ⟨b', hb', rfl⟩ := Option.map_eq_some_iff.1 hb
    exact (hc id b' hb').append hn
  · exact hc id b hb

theorem kept_create {id : LayerId} {cmds : List Compiler.Cmd} {c : CState} (hc : Kept c) (hn : AllSolid cmds) : Kept (create id cmds c) := by
  intro i b hb
  simp only [create, Dict.get?_set] at hb
  split at hb
  · cases hb; exact hn
  · exact hc i b hb

theorem kept_transform {m : Mat ℝ} : ∀ (fuel : ℕ) (base id : LayerId) (c c' : CState),
    bufferWithTransform m fuel base c = .ok (id, c') → Kept c → Kept c'
  | 0, _, _, _, _, h, _ => by cases h
  | fuel + 1, base, id, c, c', h, hc => by
    simp only [bufferWithTransform] at h
    split at h
    · cases h; exact hc
    · split at h
      · cases h
      · next cmds hb =>
        obtain ⟨r, h1, h2⟩ := Compiler.bind_ok.1 h
        cases h2
        have key : ∀ (cmds : List Compiler.Cmd) (c : CState) (r : List Compiler.Cmd × CState), transformCmds m (bufferWithTransform m fuel) cmds c = .ok r →
            Kept c → AllSolid cmds → Kept r.2 ∧ AllSolid r.1 := by
          intro cmds
          induction cmds with
          | nil => intro c r h hc _; cases h; exact ⟨hc, nofun⟩
          | cons x cmds ih =>
            intro c r h hc ha
            have hrest : AllSolid cmds := fun s hs => ha s (List.mem_cons_of_mem _ hs)
            cases x with
            | shape s =>
              obtain ⟨r', h1, h2⟩ := Compiler.bind_ok.1 h
              cases h2
              obtain ⟨g1, g2⟩ := ih c r' h1 hc hrest
              exact ⟨g1, allSolid_cons (solid_transform _ (ha s (List.mem_cons_self ..))) g2⟩
            | paste src center neg =>
              obtain ⟨b, h1, h2⟩ := Compiler.bind_ok.1 h
              obtain ⟨r', h3, h4⟩ := Compiler.bind_ok.1 h2
              cases h4
              obtain ⟨g1, g2⟩ := ih b.2 r' h3 (kept_transform fuel src b.1 c b.2 h1 hc) hrest
              refine ⟨g1, fun s' hs' => ?_⟩
              rcases List.mem_cons.1 hs' with e | h
              · cases e
              · exact g2 s' h
        obtain ⟨g1, g2⟩ := key cmds c r h1 hc (hc _ _ hb)
        exact kept_create g1 g2

theorem kept_flash {env : Env} {kind : FlashKind} {ap : Aperture} {s : VState} {c c' : CState}
    (h : flash env kind ap s c = .ok c') (hc : Kept c) : Kept c' := by
  have single : ∀ id, flashAperture env id s c = .ok c' → Kept c' := by
    intro id h
    obtain ⟨b, h1, h2⟩ := Compiler.bind_ok.1 h
    exact kept_append h2 (kept_transform _ _ b.1 c b.2 h1 hc) (by intro s hs; simp at hs)
  unfold flash at h
  split at h
  · obtain ⟨b, h1, h2⟩ := Compiler.bind_ok.1 h
    have hk := kept_transform _ _ b.1 c b.2 h1 hc
    split at h2
    · cases h2
    · next cmds hb => exact kept_append h2 hk (allSolid_moved (hk _ _ hb))
  · cases h
  · exact single _ h
  · cases h

theorem kept_repeat {p : SrParams} {s : VState} {c c' : CState} (h : closeSr p s c = .ok c') (hc : Kept c) : Kept c' := by
  unfold closeSr at h
  split at h
  · cases h
  · split at h
    · cases h
    · next body hb =>
      split at h
      · cases h
      · obtain ⟨c1, h1, h2⟩ := Compiler.bind_ok.1 h
        cases h2
        have hk : Kept c1 := by
          refine kept_append h1 hc ?_
          intro g hg
          simp only [copies, List.mem_flatMap] at hg
          obtain ⟨x, -, y, -, hg⟩ := hg
          exact allSolid_moved (hc _ _ hb) g hg
        intro i b hb'
        simp only [Dict.get?_pop] at hb'
        split at hb'
        · cases hb'
        · exact hk i b hb'

theorem kept_flush {env : Env} {s : VState} {c c' : CState} (h : Compiler.step env (.flushRegion s) c = .ok c') (hc : Kept c)
    (hg : ∀ g gs, c.contour = some (g :: gs) → Solid ⟨g, gs, false⟩) : Kept c' := by
  obtain ⟨g, c1, e1, e2, e3, e4, e5⟩ := flush_ok h
  have : Kept c1 := by
    refine kept_append e5 hc ?_
    cases g with
    | nil => exact nofun
    | cons g gs =>
      intro x hx
      rw [List.mem_singleton] at hx
      cases hx
      exact hg g gs e1
  intro id b hb
  rw [e3] at hb
  exact this id b hb

theorem drawShapes_solid {kind : DrawKind} {s : VState} {ss : List Shape} (h : drawShapes kind s = .ok ss) : ∀ g ∈ ss, Solid g := by
  have arc : ∀ cw, arcShapes cw s = .ok ss → ∀ g ∈ ss, Solid g := by
    intro cw h
    obtain ⟨t, _, h⟩ := Compiler.bind_ok.1 h
    simp only at h
    split at h
    all_goals
      rw [Compiler.pure_ok] at h
      subst h
      intro g hg
      simp only [List.mem_cons, List.not_mem_nil, or_false] at hg
      rcases hg with rfl | rfl | rfl | rfl <;> first | exact solid_circle .. | exact solid_arc ..
  cases kind with
  | line =>
    obtain ⟨t, _, h⟩ := Compiler.bind_ok.1 h
    rw [Compiler.pure_ok] at h
    subst h
    intro g hg
    simp only [List.mem_cons, List.not_mem_nil, or_false] at hg
    rcases hg with rfl | rfl | rfl <;> first | exact solid_circle .. | exact solid_line ..
  | cwMq => exact arc true h
  | ccwMq => exact arc false h
  | cwSq => cases h; nofun
  | ccwSq => cases h; nofun

/-- The commands of a primitive. -/
def OutSolid (o : PrimOut) : Prop := AllSolid o.cmds ∧ ∀ l, o.layer = some l → AllSolid l.2

theorem outSolid_shapes {scope : Dict Name ℚ} {ss : List Shape} (h : ∀ s ∈ ss, Solid s) : OutSolid (.shapes scope ss) :=
  ⟨allSolid_shapes h, nofun⟩

theorem outSolid_one {scope : Dict Name ℚ} {s : Shape} (h : Solid s) : OutSolid (.shapes scope [s]) :=
  outSolid_shapes (by intro s' hs; rw [List.mem_singleton] at hs; subst hs; exact h)

theorem polygon_solid {c : Vec ℝ} {d rot : ℝ} {n : ℤ} {neg : Bool} {s : Shape} (h : polygon c d n rot neg = .ok s) (h0 : rot = 0) : Solid s := by
  subst h0
  unfold polygon at h
  split at h
  · cases h
  · next hn =>
    obtain ⟨x, y⟩ := c
    have h3 : 3 ≤ n.toNat := by omega
    rw [Props.MacroShape.polygon_sides h3 (le_refl _) (by
      have : (0 : ℝ) < n.toNat := by exact_mod_cast (by omega : 0 < n.toNat)
      positivity)] at h
    unfold shapeOf at h
    split at h
    · cases h
    · next g gs e =>
      cases h
      have := congrArg List.length e
      refine solid_of_length ?_
      simp [Lemmas.MacroShape.polygonSides, Shape.segments] at this ⊢
      omega

theorem primitive_solid {now : ℕ} {scope : Dict Name ℚ} {p : Prim} {o : PrimOut} (h : primitive now scope p = .ok o)
    (h4 : ∀ exposure count x y points r, p = .code4 exposure count x y points r → points ≠ [])
    (h5 : ∀ exposure count x y d rotation, p = .code5 exposure count x y d rotation → ∀ r, evalE scope rotation = .ok r → r = 0) :
    OutSolid o := by
  cases p with
  | code0 => cases h; exact outSolid_shapes nofun
  | code1 e d x y r =>
    simp only [primitive] at h
    obtain ⟨_, _, h⟩ := Compiler.bind_ok.1 h
    obtain ⟨_, _, h⟩ := Compiler.bind_ok.1 h
    obtain ⟨_, _, h⟩ := Compiler.bind_ok.1 h
    obtain ⟨_, _, h⟩ := Compiler.bind_ok.1 h
    cases r with
    | none => rw [Compiler.pure_ok] at h; subst h; exact outSolid_one (solid_circle ..)
    | some r =>
      obtain ⟨_, _, h⟩ := Compiler.bind_ok.1 h
      rw [Compiler.pure_ok] at h; subst h; exact outSolid_one (solid_rotated _ (solid_circle ..))
  | code2 exposure width startX startY endX endY rotation =>
    simp only [primitive, vectorLine] at h
    obtain ⟨ss, h1, h⟩ := Compiler.bind_ok.1 h
    rw [Compiler.pure_ok] at h; subst h
    repeat (obtain ⟨_, _, h1⟩ := Compiler.bind_ok.1 h1)
    rw [Compiler.pure_ok] at h1; subst h1
    exact outSolid_one (solid_rotated _ (solid_line ..))
  | code20 exposure width startX startY endX endY rotation =>
    simp only [primitive, vectorLine] at h
    obtain ⟨ss, h1, h⟩ := Compiler.bind_ok.1 h
    rw [Compiler.pure_ok] at h; subst h
    repeat (obtain ⟨_, _, h1⟩ := Compiler.bind_ok.1 h1)
    rw [Compiler.pure_ok] at h1; subst h1
    exact outSolid_one (solid_rotated _ (solid_line ..))
  | code4 exposure count startX startY points rotation =>
    simp only [primitive] at h
    obtain ⟨_, _, h⟩ := Compiler.bind_ok.1 h
    obtain ⟨_, _, h⟩ := Compiler.bind_ok.1 h
    obtain ⟨_, _, h⟩ := Compiler.bind_ok.1 h
    obtain ⟨ps, hps, h⟩ := Compiler.bind_ok.1 h
    obtain ⟨_, _, h⟩ := Compiler.bind_ok.1 h
    obtain ⟨s, hs, h⟩ := Compiler.bind_ok.1 h
    rw [Compiler.pure_ok] at h; subst h
    refine outSolid_one (solid_rotated _ ?_)
    have hne := h4 _ _ _ _ _ _ rfl
    cases points with
    | nil => exact absurd rfl hne
    | cons q qs =>
      cases ps with
      | nil =>
        simp only [evalPoints] at hps
        repeat (obtain ⟨_, _, hps⟩ := Compiler.bind_ok.1 hps)
        cases hps
      | cons v vs =>
        simp only [shapeOf, Shape.connectedPoints, Shape.connect, List.map_cons, List.cons_append, Except.ok.injEq] at hs
        subst hs
        exact .inl (by simp)
  | code5 exposure vertices centerX centerY diameter rotation =>
    simp only [primitive] at h
    obtain ⟨_, _, h⟩ := Compiler.bind_ok.1 h
    obtain ⟨_, _, h⟩ := Compiler.bind_ok.1 h
    obtain ⟨_, _, h⟩ := Compiler.bind_ok.1 h
    obtain ⟨_, _, h⟩ := Compiler.bind_ok.1 h
    obtain ⟨_, _, h⟩ := Compiler.bind_ok.1 h
    obtain ⟨r, hr, h⟩ := Compiler.bind_ok.1 h
    obtain ⟨s, hs, h⟩ := Compiler.bind_ok.1 h
    rw [Compiler.pure_ok] at h; subst h
    have h0 := h5 _ _ _ _ _ _ rfl r hr
    subst h0
    exact outSolid_one (solid_rotated _ (polygon_solid hs (by simp)))
  | code6 cx cy outer rt gap mr ct cl rotation =>
    simp only [primitive, moire] at h
    obtain ⟨ss, h1, h⟩ := Compiler.bind_ok.1 h
    rw [Compiler.pure_ok] at h; subst h
    obtain ⟨_, _, h1⟩ := Compiler.bind_ok.1 h1
    obtain ⟨_, _, h1⟩ := Compiler.bind_ok.1 h1
    obtain ⟨_, _, h1⟩ := Compiler.bind_ok.1 h1
    obtain ⟨_, _, h1⟩ := Compiler.bind_ok.1 h1
    obtain ⟨_, _, h1⟩ := Compiler.bind_ok.1 h1
    obtain ⟨_, _, h1⟩ := Compiler.bind_ok.1 h1
    obtain ⟨_, _, h1⟩ := Compiler.bind_ok.1 h1
    obtain ⟨_, _, h1⟩ := Compiler.bind_ok.1 h1
    obtain ⟨r, _, h1⟩ := Compiler.bind_ok.1 h1
    have key : ∀ (cross rs : List Shape), (∀ s ∈ cross, Solid s) → (∀ s ∈ rs, Solid s) → OutSolid (.shapes scope ((cross ++ rs).map (rotated r))) := by
      intro cross rs k1 k2
      refine outSolid_shapes fun s hs => ?_
      obtain ⟨s', hs', rfl⟩ := List.mem_map.1 hs
      refine solid_rotated _ ?_
      rcases List.mem_append.1 hs' with h' | h'
      · exact k1 s' h'
      · exact k2 s' h'
    have cross : ∀ (a b c d : Vec ℝ) (w : ℝ) (p : Prop) [Decidable p],
        ∀ s ∈ (if p then [Shape.newLine a b w false, Shape.newLine c d w false] else []), Solid s := by
      intro a b c d w p _ s hs
      split at hs
      · simp only [List.mem_cons, List.not_mem_nil, or_false] at hs
        rcases hs with rfl | rfl <;> exact solid_line ..
      · cases hs
    split at h1
    · obtain ⟨rs, hrs, h1⟩ := Compiler.bind_ok.1 h1
      rw [Compiler.pure_ok] at h1; subst h1
      exact key _ _ (cross _ _ _ _ _ _) (solid_rings _ _ _ rs hrs)
    · cases h1
      exact key _ _ (cross _ _ _ _ _ _) nofun
  | code7 node cx cy outer inner gap rotation =>
    simp only [primitive, thermal] at h
    obtain ⟨_, _, h⟩ := Compiler.bind_ok.1 h
    obtain ⟨_, _, h⟩ := Compiler.bind_ok.1 h
    obtain ⟨od, _, h⟩ := Compiler.bind_ok.1 h
    obtain ⟨k, _, h⟩ := Compiler.bind_ok.1 h
    split at h
    · rw [Compiler.pure_ok] at h; subst h; exact outSolid_shapes nofun
    · obtain ⟨_, _, h⟩ := Compiler.bind_ok.1 h
      obtain ⟨r, _, h⟩ := Compiler.bind_ok.1 h
      split at h
      · rw [Compiler.pure_ok] at h; subst h; exact outSolid_shapes nofun
      · obtain ⟨rs, hrs, h⟩ := Compiler.bind_ok.1 h
        rw [Compiler.pure_ok] at h; subst h
        refine ⟨by intro s hs; simp at hs, fun l hl => ?_⟩
        cases hl
        refine allSolid_shapes fun s hs => ?_
        obtain ⟨s', hs', rfl⟩ := List.mem_map.1 hs
        refine solid_rotated _ ?_
        rcases List.mem_append.1 hs' with h' | h'
        · exact solid_ring hrs s' h'
        · simp only [List.mem_cons, List.not_mem_nil, or_false] at h'
          rcases h' with rfl | rfl <;> exact solid_line ..
  | code21 exposure width height centerX centerY rotation =>
    simp only [primitive] at h
    repeat (obtain ⟨_, _, h⟩ := Compiler.bind_ok.1 h)
    rw [Compiler.pure_ok] at h; subst h; exact outSolid_one (solid_rotated _ (solid_rectangle ..))
  | code22 exposure width height x y rotation =>
    simp only [primitive] at h
    repeat (obtain ⟨_, _, h⟩ := Compiler.bind_ok.1 h)
    rw [Compiler.pure_ok] at h; subst h; exact outSolid_one (solid_rotated _ (solid_rectangle ..))
  | assign v e =>
    simp only [primitive] at h
    repeat (obtain ⟨_, _, h⟩ := Compiler.bind_ok.1 h)
    rw [Compiler.pure_ok] at h; subst h; exact outSolid_shapes nofun

theorem kept_prims {env : Env} {id : LayerId} {ρ : List Char → Option ℚ} {body : List Macro.Prim} {figures : List (Bool × Figure)}
    (h : MacroPaints ρ body figures) : ∀ (scope : Dict Name ℚ) (cmds : List Compiler.Cmd) (c c' : CState), scope.get? = ρ →
    Props.MacroShape.SoundMacro ρ body →
    (∀ exposure count x y points r, Prim.code4 exposure count x y points r ∈ body → points ≠ []) →
    runPrims env id body scope cmds c = .ok c' → Kept c → AllSolid cmds → Kept c' := by
  induction h with
  | nil ρ => intro scope cmds c c' _ _ _ h hc hcm; cases h; exact kept_create hc hcm
  | assign hv _ ih =>
    rename_i ρ name e v rest figures _
    intro scope cmds c c' hρ hs hp h hc hcm
    subst hρ
    simp only [runPrims, primitive, Props.MacroShape.value_evalE hv] at h
    refine ih (scope.set name v) cmds c c' ?_ (hs v hv) (fun _ _ _ _ _ _ h => hp _ _ _ _ _ _ (List.mem_cons_of_mem _ h)) ?_ hc hcm
    · funext n
      rw [Dict.get?_set]
      by_cases hn : name = n
      · subst hn; simp
      · rw [if_neg hn, if_neg (Ne.symm hn)]
    · simpa [PrimOut.shapes, bind, Except.bind, pure, Except.pure] using h
  | primitive hp _ ih =>
    rename_i ρ p rest drawn figures _
    intro scope cmds c c' hρ hs hpl h hc hcm
    subst hρ
    obtain ⟨hs1, hs2⟩ := Props.MacroShape.soundMacro_prim hp hs
    obtain ⟨o, o1, o2, o3, o4⟩ := Props.MacroShape.c65_primitive_partial (env.time c.calls) scope p drawn hp hs1
    simp only [runPrims, o1, bind, Except.bind, o3] at h
    have hO : OutSolid o := by
      refine primitive_solid o1 (fun _ _ _ _ _ _ e => hpl _ _ _ _ _ _ (by rw [e]; exact List.mem_cons_self ..)) ?_
      intro exposure count x y d rotation e r hr
      subst e
      cases hp with
      | polygon hv hn hd =>
        rcases hv with _ | ⟨v1, _ | ⟨v2, _ | ⟨v3, _ | ⟨v4, _ | ⟨v5, _ | ⟨v6, _ | _⟩⟩⟩⟩⟩⟩
        rw [Props.MacroShape.value_evalE v6] at hr
        cases hr
        exact hs1 _ v6
    exact ih o.scope _ _ c' (by rw [o2]) hs2 (fun _ _ _ _ _ _ h => hpl _ _ _ _ _ _ (List.mem_cons_of_mem _ h)) h hc (hcm.append hO.1)
  | thermal hv hk hd hg _ ih =>
    rename_i ρ node centerX centerY outer inner gap rotation x y d k g r rest figures _
    intro scope cmds c c' hρ hs hpl h hc hcm
    subst hρ
    obtain ⟨hs1, hs2⟩ := hs
    simp only [runPrims] at h
    obtain ⟨o, o1, o2⟩ := Compiler.bind_ok.1 h
    have hO : OutSolid o := primitive_solid o1 nofun nofun
    have hsc : o.scope = scope := by
      rcases hv with _ | ⟨v1, _ | ⟨v2, _ | ⟨v3, _ | ⟨v4, _ | ⟨v5, _ | ⟨v6, _ | _⟩⟩⟩⟩⟩⟩
      simp only [primitive, thermal, Props.MacroShape.value_evalE v1, Props.MacroShape.value_evalE v2, Props.MacroShape.value_evalE v3,
        Props.MacroShape.value_evalE v4, Props.MacroShape.value_evalE v5, Props.MacroShape.value_evalE v6, bind, Except.bind, pure, Except.pure] at o1
      split at o1
      · cases o1; rfl
      · split at o1
        · cases o1; rfl
        · split at o1
          · cases o1
          · cases o1; rfl
    refine ih o.scope _ _ c' (by rw [hsc]) hs2 (fun _ _ _ _ _ _ h => hpl _ _ _ _ _ _ (List.mem_cons_of_mem _ h)) o2 ?_ (hcm.append hO.1)
    cases hl : o.layer with
    | none => exact hc
    | some l => exact kept_create (c := { c with calls := c.calls + o.ticks }) hc (hO.2 l hl)

theorem kept_define {env : Env} {id : Name} {d : ApDef} {s : VState} {c c' : CState} (h : define env id d s c = .ok c') (hc : Kept c)
    {figures : List (Bool × Figure)} (hf : AperturePaints s.macros.get? d figures) (hs : Props.MacroShape.SoundAperture s.macros.get? d)
    (hd : ∀ name body, s.macros.get? name = some body → ∀ exposure count x y points r,
      Prim.code4 exposure count x y points r ∈ body → points ≠ []) : Kept c' := by
  cases d with
  | circle d hole => cases h; exact kept_create hc (allSolid_cons (solid_circle ..) (allSolid_hole _ _))
  | rect w h' hole => cases h; exact kept_create hc (allSolid_cons (solid_rectangle ..) (allSolid_hole _ _))
  | obround w h' hole => cases h; exact kept_create hc (allSolid_cons (solid_obround ..) (allSolid_hole _ _))
  | polygon d n rotation hole =>
    cases hf with
    | standard _ hf =>
      cases hf with
      | polygon _ hn =>
        obtain ⟨-, j, h2, h3⟩ := hs
        obtain ⟨sh, s1, s2, s3⟩ := Props.MacroShape.polygon_shape (d := d) hn h2 (by simpa using h3)
        simp only [define, s1, bind, Except.bind, pure, Except.pure] at h
        cases h
        refine kept_create hc (allSolid_cons (solid_of_length ?_) (allSolid_hole _ _))
        rw [s3]
        simp [Lemmas.MacroShape.polygonSides]
        omega
  | «macro» name params =>
    cases hf with
    | standard hne => exact absurd rfl (hne name params)
    | «macro» hm hb =>
      simp only [define, hm] at h
      exact kept_prims hb (paramScope params) [] _ c' (Props.MacroShape.parameter_scope params) (hs _ hm) (hd _ _ hm) h
        (kept_create hc (fun _ h => nomatch h)) (fun _ h => nomatch h)

/-- Events that neither fill a contour nor define an aperture. -/
def Plain : Event → Prop
  | .flushRegion _ => False
  | .define .. => False
  | _ => True

theorem kept_step {env : Env} {e : Event} {c c' : CState} (hc : Kept c) (he : Plain e) (h : Compiler.step env e c = .ok c') : Kept c' := by
  cases e with
  | draw kind r s =>
    simp only [Compiler.step, draw] at h
    split at h
    · cases kind <;> simp only at h <;> first | (cases h; exact hc) | skip
      all_goals
        split at h
        · cases h
        · cases h; exact hc
    · obtain ⟨ss, h1, h2⟩ := Compiler.bind_ok.1 h
      exact kept_append h2 hc (allSolid_shapes (drawShapes_solid h1))
  | flash k ap s => exact kept_flash h hc
  | startRegion => cases h; exact hc
  | flushRegion s => cases he
  | endRegion => cases h; exact hc
  | define => cases he
  | abOpen i => cases h; exact kept_create (c := c) (cmds := []) hc nofun
  | abClose i =>
    simp only [Compiler.step] at h
    split at h
    · cases h
    · cases h; exact hc
  | srOpen p => cases h; exact kept_create (c := c) (cmds := []) hc nofun
  | srClose p s => exact kept_repeat h hc

theorem kept_feed {env : Env} : ∀ (es : List Event) (c c' : CState), Kept c → (∀ e ∈ es, Plain e) → feed env es c = .ok c' → Kept c' := by
  intro es
  induction es with
  | nil => intro c c' hf _ h; cases h; exact hf
  | cons e es ih =>
    intro c c' hf hr h
    obtain ⟨c1, h1, h2⟩ := feed_cons_ok.1 h
    exact ih c1 c' (kept_step hf (hr e List.mem_cons_self) h1) (fun e he => hr e (List.mem_cons_of_mem _ he)) h2

theorem latest_am {name : Name} {body : List Prim} {h : List Atom} (hl : latest (givesMacro name) none h = some body) :
    .leaf (.am name body) ∈ h := by
  induction h using List.reverseRecOn with
  | nil => cases hl
  | append_singleton h a ih =>
    rw [latest_snoc] at hl
    cases hv : givesMacro name a with
    | none =>
      rw [hv] at hl
      exact List.mem_append_left _ (ih hl)
    | some v =>
      rw [hv] at hl
      unfold givesMacro at hv
      split at hv
      · split at hv
        · next he =>
          subst he
          cases hv
          cases hl
          simp
        · cases hv
      · cases hv

theorem plain_d01 {h : List Atom} {x y i j : Option (List Char)} {c c' : CState} {env : Env} (B : Steps env h (.leaf (.d01 x y i j)) c c')
    (hc : Kept c) : Kept c' := by
  have hf := B.fed
  rw [step_d01 B.fine] at hf
  exact kept_feed _ _ _ hc (by intro e he; rw [List.mem_singleton.1 he]; trivial) hf

theorem plain_d03 {h : List Atom} {x y : Option (List Char)} {c c' : CState} {env : Env} (B : Steps env h (.leaf (.d03 x y)) c c')
    (hc : Kept c) : Kept c' := by
  have hf := B.fed
  obtain ⟨ap, k, e1, e2, e3⟩ := step_d03 B.fine
  rw [e3] at hf
  exact kept_feed _ _ _ hc (by intro e he; rw [List.mem_singleton.1 he]; trivial) hf

/-- No shape that such a file draws is a single line. -/
theorem kept {env : Env} {h : List Atom} {s : Sheet} (hp : Pictured h s) : ∀ c, (run {} h).exn = none →
    compiled env h = .ok c → Nested h → Avoids h → NoLoneLines h → Kept c := by
  have before : ∀ {h q : List Atom}, NoLoneLines (h ++ q) → NoLoneLines h := by
    intro h q hq
    exact ⟨fun name body hm => hq.outlines name body (List.mem_append_left _ hm),
      fun p l r s g gs e => hq.contours p l (r ++ q) s g gs (by rw [e]; simp)⟩
  induction hp with
  | start =>
    intro c _ hc _ _ _
    cases hc
    intro id cmds hb
    simp only [CState.init, Dict.get?] at hb
    split at hb
    · cases hb; exact nofun
    · cases hb
  | @aperture h _ _ _ _ _ hreg hfig ih =>
    intro c' hr hc hn ha hP
    obtain ⟨c, B⟩ := steps hr hc hn ha
    have hf := B.fed
    change feed env [.define _ _ _] c = .ok c' at hf
    rw [feed_singleton] at hf
    have hmac : (fun name => latest (givesMacro name) none h) = (run {} h).st.macros.get? := by
      funext name
      exact (Props.MacroShape.macros_latest h B.ran name).symm
    have hsound := B.avoids.apertures _ _ _ [] rfl
    rw [hmac] at hfig hsound
    refine kept_define hf (ih c B.ran B.before (nested_prefix hn) ha.before (before hP)) hfig hsound ?_
    intro name body hb
    have hb : (run {} h).st.macros.get? name = some body := hb
    rw [← hmac] at hb
    exact (before hP).outlines name body (latest_am hb)
  | blockOpen _ hreg ih =>
    intro c' hr hc hn ha hP
    obtain ⟨c, B⟩ := steps hr hc hn ha
    exact kept_feed [.abOpen _] c c' (ih c B.ran B.before (nested_prefix hn) ha.before (before hP))
      (by intro e he; rw [List.mem_singleton.1 he]; trivial) B.fed
  | blockClose _ hreg hs ih =>
    intro c' hr hc hn ha hP
    obtain ⟨c, B⟩ := steps hr hc hn ha
    exact kept_feed [.abClose _] c c' (ih c B.ran B.before (nested_prefix hn) ha.before (before hP))
      (by intro e he; rw [List.mem_singleton.1 he]; trivial) B.fed
  | repeatOpen _ hreg ih =>
    intro c' hr hc hn ha hP
    obtain ⟨c, B⟩ := steps hr hc hn ha
    exact kept_feed [.srOpen _] c c' (ih c B.ran B.before (nested_prefix hn) ha.before (before hP))
      (by intro e he; rw [List.mem_singleton.1 he]; trivial) B.fed
  | repeatClose _ hreg hs ih =>
    intro c' hr hc hn ha hP
    obtain ⟨c, B⟩ := steps hr hc hn ha
    exact kept_feed [.srClose _ _] c c' (ih c B.ran B.before (nested_prefix hn) ha.before (before hP))
      (by intro e he; rw [List.mem_singleton.1 he]; trivial) B.fed
  | flash _ hreg hsel ht hp ih =>
    intro c' hr hc hn ha hP
    obtain ⟨c, B⟩ := steps hr hc hn ha
    exact plain_d03 B (ih c B.ran B.before (nested_prefix hn) ha.before (before hP))
  | flashBlock _ hreg hsel ht hp ih =>
    intro c' hr hc hn ha hP
    obtain ⟨c, B⟩ := steps hr hc hn ha
    exact plain_d03 B (ih c B.ran B.before (nested_prefix hn) ha.before (before hP))
  | stroke _ hreg hsel ht hd hlin hp hq ih =>
    intro c' hr hc hn ha hP
    obtain ⟨c, B⟩ := steps hr hc hn ha
    exact plain_d01 B (ih c B.ran B.before (nested_prefix hn) ha.before (before hP))
  | strokeArc _ hreg hsel ht hd hlin hquad hi hj hp hq hne hrad ih =>
    intro c' hr hc hn ha hP
    obtain ⟨c, B⟩ := steps hr hc hn ha
    exact plain_d01 B (ih c B.ran B.before (nested_prefix hn) ha.before (before hP))
  | regionStart _ hreg ih =>
    intro c' hr hc hn ha hP
    obtain ⟨c, B⟩ := steps hr hc hn ha
    exact kept_feed [.startRegion] c c' (ih c B.ran B.before (nested_prefix hn) ha.before (before hP))
      (by intro e he; rw [List.mem_singleton.1 he]; trivial) B.fed
  | regionLine _ hreg hlin hp hq ih =>
    intro c' hr hc hn ha hP
    obtain ⟨c, B⟩ := steps hr hc hn ha
    exact plain_d01 B (ih c B.ran B.before (nested_prefix hn) ha.before (before hP))
  | regionArc _ hreg hlin hq hi hj hp hp' hne ih =>
    intro c' hr hc hn ha hP
    obtain ⟨c, B⟩ := steps hr hc hn ha
    exact plain_d01 B (ih c B.ran B.before (nested_prefix hn) ha.before (before hP))
  | regionCircle _ hreg hlin hq hi hj hp hp' ih =>
    intro c' hr hc hn ha hP
    obtain ⟨c, B⟩ := steps hr hc hn ha
    exact plain_d01 B (ih c B.ran B.before (nested_prefix hn) ha.before (before hP))
  | @regionMove h s x y hp0 hreg ih =>
    intro c' hr hc hn ha hP
    obtain ⟨c, B⟩ := steps hr hc hn ha
    have A := agrees hp0 c B.ran B.before (nested_prefix hn) ha.before
    have hk := ih c B.ran B.before (nested_prefix hn) ha.before (before hP)
    obtain ⟨-, -, m, -, -⟩ := modes h B.ran
    have hf := B.fed
    have hreg' : latest setsRegion false h = true := hreg
    rw [step_d02 B.fine, updateCoordinates_eq] at hf
    simp only [withXY, Out.ok, m, hreg', if_true] at hf
    rw [feed_singleton] at hf
    refine kept_flush hf hk fun g gs hg => ?_
    rw [A.contour hreg] at hg
    exact hP.contours h _ [] s g gs rfl (.inl ⟨x, y, rfl⟩) hreg hp0 (Option.some.inj hg)
  | @regionEnd h s hp0 hreg ih =>
    intro c' hr hc hn ha hP
    obtain ⟨c, B⟩ := steps hr hc hn ha
    have A := agrees hp0 c B.ran B.before (nested_prefix hn) ha.before
    have hk := ih c B.ran B.before (nested_prefix hn) ha.before (before hP)
    have hf := B.fed
    simp only [Visitor.step, stepLeaf, Out.ok] at hf
    obtain ⟨c2, h3, h4⟩ := feed_cons_ok.1 hf
    rw [feed_singleton] at h4
    cases h4
    have : Kept c2 := kept_flush h3 hk fun g gs hg => by
      rw [A.contour hreg] at hg
      exact hP.contours h _ [] s g gs rfl (.inr rfl) hreg hp0 (Option.some.inj hg)
    exact this
  | @move h s x y hp0 hreg ih =>
    intro c' hr hc hn ha hP
    obtain ⟨c, B⟩ := steps hr hc hn ha
    have hk := ih c B.ran B.before (nested_prefix hn) ha.before (before hP)
    obtain ⟨-, -, m, -, -⟩ := modes h B.ran
    have hf := B.fed
    have hreg' : latest setsRegion false h = false := hreg
    rw [step_d02 B.fine, updateCoordinates_eq] at hf
    simp only [withXY, Out.ok, m, hreg', Bool.false_eq_true, if_false] at hf
    cases hf
    exact hk
  | other _ hl ih =>
    intro c' hr hc hn ha hP
    obtain ⟨c, B⟩ := steps hr hc hn ha
    obtain ⟨rfl, e⟩ := silent_step hl B.ran' B.before B.after
    exact ih _ B.ran B.before (nested_prefix hn) ha.before (before hP)

end
end Verif.SolidLayers
