import Verif.Lemmas.Aperture
import Verif.Props.Compiler

/-!
# C17, C19: flashes
-/

namespace Verif.Props.Flash
open Verif.Visitor Verif.Coord Verif.Geom Verif.Rvmc Verif.Compiler Verif.Spec Verif.Props.State Verif.Props.Compiler
noncomputable section

theorem run_caused : ∀ (as : List Atom) (s : VState), (run s as).exn = none →
    ∀ e ∈ (run s as).ev, ∃ a ∈ as, ∃ s', Caused s' a e := by
  intro as
  induction as with
  | nil => intro s _ e he; cases he
  | cons a as ih =>
    intro s h e he
    simp only [run] at h he
    obtain ⟨h1, h2⟩ := Out.andThen_exn_none.1 h
    rw [Out.andThen_of_none h1] at he
    rcases List.mem_append.1 he with he | he
    · exact ⟨a, by simp, s, ev_cases h1 e he⟩
    · obtain ⟨b, hb, r⟩ := ih _ h2 e he
      exact ⟨b, List.mem_cons_of_mem _ hb, r⟩

theorem caused_defines {s : VState} {a : Atom} {e : Event} {id : Name} (h : Caused s a e) (hd : defines id e) :
    definesCode id a = true := by
  cases e with
  | define i d t => cases hd; cases h; simp [definesCode]
  | abOpen i => cases hd; cases h; simp [definesCode]
  | _ => exact hd.elim

theorem matrix_sense (t : Transform) (hk : t.scaling ≠ 0) :
    (transformMatrix t).keepsSense ↔ (t.mirroring = .none ∨ t.mirroring = .xy) := by
  have hk' : (t.scaling : ℝ) ≠ 0 := by exact_mod_cast hk
  have h := fun mx my => Geom.sense_aperture mx my (Real.cos_sq_add_sin_sq (radians (t.rotation : ℝ))) hk'
  have h' : ∀ mx my, (((Mat.newReflect mx my).matmul (Mat.newRotate (t.rotation : ℝ))).matmul
      (Mat.newScale (t.scaling : ℝ) (t.scaling : ℝ))).keepsSense ↔ mx = my := by
    intro mx my
    rw [← h mx my]
    unfold Mat.keepsSense Geom.apertureMatrix
    cases mx <;> cases my <;> simp [Mat.matmul, Mat.newReflect, Mat.newRotate, Mat.newRotateCS, Mat.newScale, Mat.ofRows]
  unfold transformMatrix
  rw [h']
  cases t.mirroring <;> decide

theorem retarget_image {h : List Atom} (hr : (run {} h).exn = none)
    (hk : latest setsScaling 1 h ≠ 0)
    (d : Draw LayerId) :
    IsImage (placedIn h) (reverses h) d (retarget (transformMatrix (run {} h).st.transform) d) := by
  have hap : ∀ v, (transformMatrix (run {} h).st.transform).apply v = placedIn h v := transform_placed h hr
  obtain ⟨-, e2, e3, e4⟩ := transform_inv h hr
  have hs := matrix_sense (run {} h).st.transform (by rw [e4]; exact hk)
  rw [e2] at hs
  have hseg : ∀ g : Segment, g.transform (transformMatrix (run {} h).st.transform) =
      imageSegment (placedIn h) (reverses h) g := by
    intro g
    cases g with
    | line l => simp only [Segment.transform, Line.transform, imageSegment, hap]
    | arc a =>
      have hx : (if (transformMatrix (run {} h).st.transform).keepsSense then a.clockwise else !a.clockwise) = if reverses h then !a.clockwise else a.clockwise := by
        unfold reverses
        cases hm : latest setsMirroring .none h <;> rw [hm] at hs
        all_goals first
          | (rw [if_pos (hs.2 (Or.inl rfl))]; rfl)
          | (rw [if_pos (hs.2 (Or.inr rfl))]; rfl)
          | (rw [if_neg (fun h => by have := hs.1 h; simp at this)]; rfl)
      simp only [Segment.transform, Arc.transform, imageSegment, hap, hx]
  cases d with
  | shape s => simp only [IsImage, retarget, Shape.transform, hseg]
  | paste src ctr n => exact ⟨.xform src _, by simp only [retarget, hap]; rfl⟩

theorem holeOf_eq (hole : Option ℚ) (limit : ℚ) : holeOf hole limit = holeDisc hole limit := by
  cases hole with
  | none => rfl
  | some h => simp only [holeOf, holeDisc, gt_iff_lt]; rfl

theorem define_nominal {env : Env} {id : Name} {d : ApDef} {s : VState} {c c' : CState} {b : List (Draw LayerId)}
    (h : define env id d s c = .ok c') (hb : c'.buffers.get? (.ap id) = some b) : Nominal d b := by
  cases d with
  | circle _ _ => cases h; simp only [create, Dict.get?_set, if_true, Option.some.injEq] at hb; rw [← hb, holeOf_eq]; rfl
  | rect _ _ _ => cases h; simp only [create, Dict.get?_set, if_true, Option.some.injEq] at hb; rw [← hb, holeOf_eq]; rfl
  | obround _ _ _ => cases h; simp only [create, Dict.get?_set, if_true, Option.some.injEq] at hb; rw [← hb, holeOf_eq]; rfl
  | polygon diameter n rotation hole =>
    obtain ⟨g, h1, h2⟩ := bind_ok.1 h
    rw [pure_ok] at h2; subst h2
    simp only [create, Dict.get?_set, if_true, Option.some.injEq] at hb
    rw [← hb, holeOf_eq]
    refine ⟨g, rfl, ?_⟩
    unfold polygon at h1
    split at h1
    · cases h1
    · unfold shapeOf at h1
      split at h1
      · cases h1
      · next hs => cases h1; exact ⟨rfl, by omega, hs.symm⟩
  | «macro» _ _ => trivial

/-- **C19** (partial: no earlier flash of the code under the transformation now in force, see
`c19_false_flashed_before`; the code was not a block before). After an aperture
code is defined, perhaps again, flashes paste a layer that holds the image of what that definition drew. -/
theorem c19_redefinition_partial (env : Env) (pre post : List Atom) (id : Name) (d : ApDef)
    (x y : Option (List Char)) (c' : CState)
    (hr : (run {} (pre ++ .leaf (.ad id d) :: post ++ [.leaf (.d03 x y)])).exn = none)
    (hc : compiled env (pre ++ .leaf (.ad id d) :: post ++ [.leaf (.d03 x y)]) = .ok c')
    (hsel : selected (pre ++ .leaf (.ad id d) :: post) = some id)
    (hpost : ∀ a ∈ post, definesCode id a = false) (hab : ∀ a ∈ pre, a ≠ .abOpen id)
    (hfl : ∀ p x' y' q, pre = p ++ .leaf (.d03 x' y') :: q → selected p = some id →
      placedIn p ≠ placedIn (pre ++ .leaf (.ad id d) :: post))
    (hk : latest setsScaling 1 (pre ++ .leaf (.ad id d) :: post) ≠ 0) :
    ∃ cdef drawn layer p image, compiled env (pre ++ [.leaf (.ad id d)]) = .ok cdef ∧
      cdef.buffers.get? (.ap id) = some drawn ∧ Nominal d drawn ∧
      At (pre ++ .leaf (.ad id d) :: post ++ [.leaf (.d03 x y)]) p ∧
      Draws env (pre ++ .leaf (.ad id d) :: post) (.leaf (.d03 x y)) [.paste layer p
        (decide (latest setsPolarity .dark (pre ++ .leaf (.ad id d) :: post) = .clear))] ∧
      c'.buffers.get? layer = some image ∧
      List.Forall₂ (IsImage (placedIn (pre ++ .leaf (.ad id d) :: post))
        (reverses (pre ++ .leaf (.ad id d) :: post))) drawn image := by
  have hsplit : pre ++ .leaf (.ad id d) :: post = (pre ++ [.leaf (.ad id d)]) ++ post := by simp
  obtain ⟨h1, -⟩ := run_snoc_none.1 hr
  have h1' := h1
  rw [hsplit] at h1'
  obtain ⟨h2, h2p⟩ := run_append_none.1 h1'
  obtain ⟨h3, h3s⟩ := run_snoc_none.1 h2
  -- the compiler before, at and after the definition
  have hc1 := hc
  rw [compiled_append h1] at hc1
  obtain ⟨c, hcc, -⟩ := bind_ok.1 hc1
  have hc2 := hcc
  rw [hsplit, compiled_append h2] at hc2
  obtain ⟨cdef, hcdef, hpostf⟩ := bind_ok.1 hc2
  have hc3 := hcdef
  rw [compiled_snoc h3] at hc3
  obtain ⟨c0, hc0, hdeff⟩ := bind_ok.1 hc3
  obtain ⟨i1, i2, i3, i4⟩ := copies_inv pre c0 h3 hc0 hab
  change feed env [.define id d _] c0 = .ok cdef at hdeff
  rw [feed_singleton] at hdeff
  have hdef := define_ok hdeff
  obtain ⟨drawn, hdrawn⟩ := hdef.made
  have hnom := define_nominal hdeff hdrawn
  obtain ⟨-, -, k3, k4, -, k6⟩ := feed_kept (id := id) _ _ _ (step_plain i1 hdeff) (hdef.noAp i2)
    (by rw [hdef.stack]; exact i3) (by
      intro e he hd
      obtain ⟨a, ha, s', hcs⟩ := run_caused _ _ h2p e he
      have := caused_defines hcs hd
      rw [hpost a ha] at this; cases this) hpostf
  -- the flash
  obtain ⟨s1, s2, -, -, -⟩ := selected_inv _ h1
  have hcur : (run {} (pre ++ .leaf (.ad id d) :: post)).st.currentAperture = .ok (.ad id d) := by
    have hid : (run {} (pre ++ .leaf (.ad id d) :: post)).st.apId = some id := s1.trans hsel
    have had : (run {} (pre ++ .leaf (.ad id d) :: post)).st.apertures.get? id = some d := by
      rw [s2 id, hsplit, latest_append_of_none, latest_snoc]
      · simp [adOf]
      · intro a ha
        have := hpost a ha
        cases a with
        | leaf l => cases l <;> first | rfl | (simp only [definesCode, beq_eq_false_iff_ne] at this; simp [adOf, this])
        | _ => rfl
    simp only [VState.currentAperture, hid, had]
  obtain ⟨c2, c1, b, e1, g, e2, e3, e4⟩ := d03_draws hr hc hcur
  rw [hcc] at e1; cases e1
  refine ⟨cdef, drawn, _, _, b, hcdef, hdrawn, hnom, ?_, e4, e3, ?_⟩
  · exact endPoint_at (i := none) (j := none) (Or.inl rfl) hr (Or.inr (Or.inr rfl))
  · have hbase : c.buffers.get? (.ap id) = some drawn := by rw [k4]; exact hdrawn
    have hb : b = drawn.map (retarget (transformMatrix (run {} (pre ++ .leaf (.ad id d) :: post)).st.transform)) := by
      rcases g.news _ _ _ e2 with h4 | ⟨-, cmds, h4, h5⟩
      · rcases k6 _ _ h4 with h5 | ⟨-, cmds, h5, h6⟩
        · exfalso
          rw [hdef.other (.xform _ _) nofun nofun] at h5
          obtain ⟨p, x', y', q, f1, f2, f3⟩ := i4 _ _ h5
          have hp : (run {} p).exn = none := by rw [f1] at h3; exact (run_append_none.1 h3).1
          refine hfl p x' y' q f1 ?_ ?_
          · exact (selected_inv p hp).1.symm.trans f2
          · funext v
            rw [placedIn, ← transform_placed p hp v, f3, transform_placed _ h1 v]; rfl
        · rw [hdrawn] at h5; cases h5; exact h6
      · rw [g.other (.ap id) (fun h => h), hbase] at h4
        cases h4; exact h5
    rw [hb, List.forall₂_map_right_iff, List.forall₂_same]
    intro d _
    exact retarget_image h1 hk d

/-- **C17** (partial: for codes defined once, see C19; layers nested in macros
are not followed). A flash pastes, at the flash point, a layer that holds the image of what the definition of the
aperture drew under the scaling, rotation and mirroring in force. -/
theorem c17_flash_partial (env : Env) (pre post : List Atom) (id : Name) (d : ApDef)
    (x y : Option (List Char)) (c' : CState)
    (hr : (run {} (pre ++ .leaf (.ad id d) :: post ++ [.leaf (.d03 x y)])).exn = none)
    (hc : compiled env (pre ++ .leaf (.ad id d) :: post ++ [.leaf (.d03 x y)]) = .ok c')
    (hsel : selected (pre ++ .leaf (.ad id d) :: post) = some id)
    (hone : ∀ a ∈ pre ++ post, definesCode id a = false)
    (hk : latest setsScaling 1 (pre ++ .leaf (.ad id d) :: post) ≠ 0) :
    ∃ drawn layer p image, Nominal d drawn ∧
      At (pre ++ .leaf (.ad id d) :: post ++ [.leaf (.d03 x y)]) p ∧
      Draws env (pre ++ .leaf (.ad id d) :: post) (.leaf (.d03 x y)) [.paste layer p
        (decide (latest setsPolarity .dark (pre ++ .leaf (.ad id d) :: post) = .clear))] ∧
      c'.buffers.get? layer = some image ∧
      List.Forall₂ (IsImage (placedIn (pre ++ .leaf (.ad id d) :: post))
        (reverses (pre ++ .leaf (.ad id d) :: post))) drawn image := by
  obtain ⟨cdef, drawn, layer, p, image, -, -, h1, h2, h3, h4, h5⟩ := c19_redefinition_partial env pre post id d x y c' hr
    hc hsel (fun a ha => hone a (by simp [ha])) (by
      rintro a ha rfl
      have := hone _ (List.mem_append_left _ ha)
      simp [definesCode] at this) (by
      intro p x' y' q hp hs
      exfalso
      have hrp : (run {} p).exn = none := by
        rw [hp, List.append_assoc, List.append_assoc] at hr; exact (run_append_none.1 hr).1
      obtain ⟨s1, -, -, -, s5⟩ := selected_inv p hrp
      have hid : (run {} p).st.apId = some id := s1.trans hs
      obtain ⟨ap, hap⟩ := s5 id hid
      have hnone := stores_none_currentAperture p hrp id (by
        intro a ha
        have := hone a (by rw [hp]; simp [ha])
        cases a with
        | leaf l => cases l <;> first | rfl | (simp only [definesCode, beq_eq_false_iff_ne] at this; simp [stores, this])
        | abClose i => simp only [definesCode, beq_eq_false_iff_ne] at this; simp [stores, this]
        | _ => rfl)
      have he : ({ (run {} p).st with apId := some id } : VState) = (run {} p).st := by rw [← hid]
      rw [he, hap] at hnone
      cases hnone) hk
  exact ⟨drawn, layer, p, image, h1, h2, h3, h4, h5⟩

/-! ### Samples -/

/-- A circle of diameter 1 is flashed, redefined with diameter 2 and selected again. -/
def redefPre : List Atom :=
  [.leaf (.ad ['D','1','0'] (.circle 1 none)), .leaf (.dnn ['D','1','0']), .leaf (.d03 none none)]

theorem redefSample_ok :
    (∃ c, compiled env0 (redefPre ++ .leaf (.ad ['D','1','0'] (.circle 2 none)) :: [.leaf (.dnn ['D','1','0'])]) = .ok c ∧
      c.stack.head? = some .main ∧ ∃ b, c.buffers.get? .main = some b) ∧
    ∃ c' M, compiled env0 (redefPre ++ .leaf (.ad ['D','1','0'] (.circle 2 none)) :: [.leaf (.dnn ['D','1','0'])] ++
      [.leaf (.d03 none none)]) = .ok c' ∧ M = transformMatrix {} ∧
      c'.buffers.get? (.xform (.ap ['D','1','0']) M) = some [.shape ((Shape.newCircle ⟨0, 0⟩ 1 false).transform M)] := by
  constructor
  · eval_compiler [redefPre]
  · eval_compiler [redefPre]

/-- **C19 does not hold** when the code was flashed before under the same transformation: the flash after the
redefinition still pastes the layer made for the old definition. -/
theorem c19_false_flashed_before :
    ¬ ∀ (env : Env) (pre post : List Atom) (id : Name) (d : ApDef) (x y : Option (List Char)) (c' : CState),
      (run {} (pre ++ .leaf (.ad id d) :: post ++ [.leaf (.d03 x y)])).exn = none →
      compiled env (pre ++ .leaf (.ad id d) :: post ++ [.leaf (.d03 x y)]) = .ok c' →
      selected (pre ++ .leaf (.ad id d) :: post) = some id →
      (∀ a ∈ post, definesCode id a = false) → (∀ a ∈ pre, a ≠ .abOpen id) →
      latest setsScaling 1 (pre ++ .leaf (.ad id d) :: post) ≠ 0 →
      ∃ drawn layer p image, Nominal d drawn ∧
        Draws env (pre ++ .leaf (.ad id d) :: post) (.leaf (.d03 x y)) [.paste layer p
          (decide (latest setsPolarity .dark (pre ++ .leaf (.ad id d) :: post) = .clear))] ∧
        c'.buffers.get? layer = some image ∧
        List.Forall₂ (IsImage (placedIn (pre ++ .leaf (.ad id d) :: post))
          (reverses (pre ++ .leaf (.ad id d) :: post))) drawn image := by
  intro hall
  obtain ⟨⟨c, h1, h2, b, h3⟩, c', M, h4, hM, h5⟩ := redefSample_ok
  have hr : (run {} (redefPre ++ .leaf (.ad ['D','1','0'] (.circle 2 none)) :: [.leaf (.dnn ['D','1','0'])] ++
      [.leaf (.d03 none none)])).exn = none := by decide +kernel
  obtain ⟨drawn, layer, p, image, k1, k2, k3, k4⟩ := hall env0 redefPre [.leaf (.dnn ['D','1','0'])] ['D','1','0']
    (.circle 2 none) none none c' hr h4 (by decide +kernel) (by decide +kernel)
    (by intro a ha; simp only [redefPre, List.mem_cons, List.not_mem_nil, or_false] at ha
        rcases ha with rfl | rfl | rfl <;> nofun)
    (by decide +kernel)
  have hcur : (run {} (redefPre ++ .leaf (.ad ['D','1','0'] (.circle 2 none)) ::
      [.leaf (.dnn ['D','1','0'])])).st.currentAperture = .ok (.ad ['D','1','0'] (.circle 2 none)) := by decide +kernel
  have htr : (run {} (redefPre ++ .leaf (.ad ['D','1','0'] (.circle 2 none)) ::
      [.leaf (.dnn ['D','1','0'])])).st.transform = {} := by decide +kernel
  obtain ⟨-, -, -, -, -, -, -, k5⟩ := d03_draws hr h4 hcur
  have k6 := draws_unique h1 h2 h3 k2 k5
  simp only [List.cons.injEq, Draw.paste.injEq, and_true] at k6
  obtain ⟨rfl, -⟩ := k6
  rw [htr, ← hM, h5] at k3
  cases k3
  rw [show drawn = [disc ⟨0, 0⟩ 2 false] by simpa [Nominal, holeDisc] using k1] at k4
  cases k4 with
  | cons k5 _ =>
    have hm : latest setsMirroring .none (redefPre ++ .leaf (.ad ['D','1','0'] (.circle 2 none)) ::
      [.leaf (.dnn ['D','1','0'])]) = .none := by decide +kernel
    have hro : latest setsRotation 0 (redefPre ++ .leaf (.ad ['D','1','0'] (.circle 2 none)) ::
      [.leaf (.dnn ['D','1','0'])]) = 0 := by decide +kernel
    have hsc : latest setsScaling 1 (redefPre ++ .leaf (.ad ['D','1','0'] (.circle 2 none)) ::
      [.leaf (.dnn ['D','1','0'])]) = 1 := by decide +kernel
    simp [IsImage, disc, Shape.transform, Shape.newCircle, Segment.transform, Arc.transform, imageSegment, placedIn, hm,
      hro, hsc, placed, rotCcw, hM, transformMatrix, Mat.apply, Mat.matmul, Mat.newReflect, Mat.newRotate,
      Mat.newRotateCS, Mat.newScale, Mat.ofRows, radians] at k5

/-- Non-vacuity of C17 and C19: a mirrored, turned and scaled flash after a redefinition. -/
def flashPost : List Atom := [.leaf (.dnn ['D','1','0']), .leaf (.lm .x), .leaf (.lr 90), .leaf (.ls 2), .leaf (.lp .clear)]

example : (run {} ([.leaf (.ad ['D','1','0'] (.circle 1 none))] ++ .leaf (.ad ['D','1','0'] (.circle 2 none)) :: flashPost ++
      [.leaf (.d03 none none)])).exn = none ∧
    (∃ c', compiled env0 ([.leaf (.ad ['D','1','0'] (.circle 1 none))] ++ .leaf (.ad ['D','1','0'] (.circle 2 none)) ::
      flashPost ++ [.leaf (.d03 none none)]) = .ok c') ∧
    selected ([.leaf (.ad ['D','1','0'] (.circle 1 none))] ++ .leaf (.ad ['D','1','0'] (.circle 2 none)) :: flashPost) =
      some ['D','1','0'] := by
  refine ⟨by decide +kernel, ?_, by decide +kernel⟩
  eval_compiler [flashPost]

end
end Verif.Props.Flash
