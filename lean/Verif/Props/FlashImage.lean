import Verif.Lemmas.SyncedHistory
import Verif.Lemmas.Similar
import Verif.Props.Flash
import Verif.Props.Layers

/-!
# C17: the image of a flash, for every kind of aperture
-/

namespace Verif.Props.FlashImage
open Verif.Visitor Verif.Coord Verif.Geom Verif.Rvmc Verif.Compiler Verif.Spec Verif.Sim Verif.Props.State
  Verif.Props.Compiler Verif.Props.Flash
noncomputable section

/-! ### Mapped objects -/

theorem covered_image {f : Vec ℝ → Vec ℝ} (hf : Function.Injective f) (os : List (Painted (Vec ℝ))) (p : Vec ℝ) :
    Covered (os.map (Painted.image f)) (f p) ↔ Covered os p := by
  have hmem : ∀ o : Painted (Vec ℝ), f p ∈ (o.image f).points ↔ p ∈ o.points := fun o => hf.mem_set_image
  constructor
  · rintro ⟨bs, o, as, e, h1, h2, h3⟩
    obtain ⟨bs', r, e1, e2, e3⟩ := List.map_eq_append_iff.1 e
    obtain ⟨o', as', e4, e5, e6⟩ := List.map_eq_cons_iff.1 e3
    subst e1 e2 e4 e5 e6
    exact ⟨bs', o', as', rfl, (hmem o').1 h1, fun x hx hp => h2 _ (List.mem_map_of_mem hx) ((hmem x).2 hp), h3⟩
  · rintro ⟨bs, o, as, rfl, h1, h2, h3⟩
    refine ⟨bs.map (Painted.image f), o.image f, as.map (Painted.image f), by simp, (hmem o).2 h1, ?_, h3⟩
    intro x hx hp
    obtain ⟨x', hx', rfl⟩ := List.mem_map.1 hx
    exact h2 x' hx' ((hmem x').1 hp)

theorem covered_range {f : Vec ℝ → Vec ℝ} {os : List (Painted (Vec ℝ))} {q : Vec ℝ}
    (h : Covered (os.map (Painted.image f)) q) : ∃ p, q = f p := by
  obtain ⟨bs, o, as, e, h1, -, -⟩ := h
  have : o ∈ os.map (Painted.image f) := by rw [e]; simp
  obtain ⟨o', -, rfl⟩ := List.mem_map.1 this
  obtain ⟨p, -, hp⟩ := h1
  exact ⟨p, hp.symm⟩

/-- The object pasted on the transformed copy is the image of the object pasted on the layer. -/
theorem pasted_image {m : Mat ℝ} {e k : ℝ} (hm : Similar m e k) (h0 : m.m 0 2 = 0) (h1 : m.m 1 2 = 0)
    (os : List (Painted (Vec ℝ))) (ctr : Vec ℝ) :
    {p | Covered (os.map (Painted.image m.apply)) (p - m.apply ctr)} = m.apply '' {p | Covered os (p - ctr)} := by
  have hlin : ∀ v w : Vec ℝ, m.apply v - m.apply w = m.apply (v - w) := by
    intro v w; ext <;> simp only [Mat.apply, Vec.sub_x, Vec.sub_y, h0, h1] <;> ring
  ext q
  constructor
  · intro hq
    refine ⟨inv m e k q, ?_, hm.apply_inv q⟩
    have : q - m.apply ctr = m.apply (inv m e k q - ctr) := by rw [← hlin, hm.apply_inv]
    rw [Set.mem_ofPred_eq, this, covered_image hm.injective] at hq
    exact hq
  · rintro ⟨p, hp, rfl⟩
    rw [Set.mem_ofPred_eq, hlin, covered_image hm.injective]
    exact hp

/-- A transformed copy shows the image of what the layer shows. -/
theorem shows_copy {c : CState} (hs : Synced c) {m : Mat ℝ} {e k : ℝ} (hm : Similar m e k) (h0 : m.m 0 2 = 0)
    (h1 : m.m 1 2 = 0) {y : LayerId} {os : List (Painted (Vec ℝ))} (h : Shows within (layersOf c) y os)
    {b : List (Draw LayerId)} (hb : c.buffers.get? (.xform y m) = some b) :
    Shows within (layersOf c) (.xform y m) (os.map (Painted.image m.apply)) := by
  refine Shows.rec (motive_1 := fun y os _ => ∀ b, c.buffers.get? (.xform y m) = some b →
      Shows within (layersOf c) (.xform y m) (os.map (Painted.image m.apply)))
    (motive_2 := fun ds os _ => (∀ s ∈ Draw.sources (ds.map (retarget m)), ∃ b, c.buffers.get? s = some b) →
      ShowsAll within (layersOf c) (ds.map (retarget m)) (os.map (Painted.image m.apply))) ?_ ?_ ?_ ?_ h b hb
  · intro l os mem _ ih b hb
    obtain ⟨-, cmds, h2, h3⟩ := hs.copy _ _ _ hb
    rw [mem_layersOf.1 mem] at h2; cases h2
    refine .layer ⟨.xform l.id m, b⟩ _ (mem_layersOf.2 hb) ?_
    rw [h3]
    refine ih ?_
    intro s hs'
    rw [← h3] at hs'
    exact (hs.known _ _ hb s hs').2
  · intro _; exact .nil
  · intro s points ds os ins _ ih hsrc
    cases ins
    have := hm.enclosed s
    refine .shape (s.transform m) (m.apply '' areaOf s) _ _ (by rw [within, this]) (ih ?_)
    exact hsrc
  · intro source center negative objects ds os _ _ ih1 ih2 hsrc
    obtain ⟨b, hb⟩ := hsrc (.xform source m) (by simp [Draw.sources, retarget])
    have := ShowsAll.paste (outline := within) (.xform source m) (m.apply center) negative _ _ _ (ih1 b hb)
      (ih2 (fun s hs => hsrc s (by
        simp only [List.map_cons, retarget, Draw.sources, List.filterMap_cons, List.mem_cons]; exact .inr hs)))
    rw [pasted_image hm h0 h1] at this
    exact this

theorem shows_inv {c : CState} {k : LayerId} {os : List (Painted (Vec ℝ))} (h : Shows within (layersOf c) k os) :
    ∃ b, c.buffers.get? k = some b ∧ ShowsAll within (layersOf c) b os := by
  refine Shows.rec (motive_1 := fun k os _ => ∃ b, c.buffers.get? k = some b ∧ ShowsAll within (layersOf c) b os)
    (motive_2 := fun _ _ _ => True) ?_ trivial (fun _ _ _ _ _ _ _ => trivial) (fun _ _ _ _ _ _ _ _ _ _ => trivial) h
  intro l os mem drawn _
  exact ⟨l.cmds, mem_layersOf.1 mem, drawn⟩

theorem translate_apply (x y : ℝ) (v : Vec ℝ) : (Mat.newTranslate x y).apply v = v + ⟨x, y⟩ := by
  ext <;> simp [Mat.apply, Mat.newTranslate, Mat.ofRows]

/-- Moved commands show the moved objects. -/
theorem shows_moved {c : CState} (v : Vec ℝ) {ds : List (Draw LayerId)} {os : List (Painted (Vec ℝ))}
    (h : ShowsAll within (layersOf c) ds os) :
    ShowsAll within (layersOf c) (moved (Mat.newTranslate v.x v.y) ds) (os.map (Painted.image fun w => w + v)) := by
  have hm := similar_translate v.x v.y
  have hf : (Mat.newTranslate v.x v.y).apply = fun w => w + v := funext (translate_apply v.x v.y)
  induction ds generalizing os with
  | nil => cases h; exact .nil
  | cons d ds ih =>
    cases h with
    | shape s points _ os ins more =>
      cases ins
      have := ShowsAll.shape (outline := within) (s.transform (Mat.newTranslate v.x v.y)) _ _ _ rfl (ih more)
      rw [hm.enclosed, hf] at this
      exact this
    | paste src ctr neg objects _ os pasted more =>
      have := ShowsAll.paste (outline := within) src ((Mat.newTranslate v.x v.y).apply ctr) neg _ _ _ pasted (ih more)
      have e : {p | Covered objects (p - (Mat.newTranslate v.x v.y).apply ctr)} =
          (fun w => w + v) '' {p | Covered objects (p - ctr)} := by
        rw [hf]
        ext p
        constructor
        · intro hp
          refine ⟨p - v, ?_, by ext <;> simp⟩
          have : p - v - ctr = p - (ctr + v) := by ext <;> simp <;> ring
          rw [Set.mem_ofPred_eq, this]; exact hp
        · rintro ⟨q, hq, rfl⟩
          have : q + v - (ctr + v) = q - ctr := by ext <;> simp
          rw [Set.mem_ofPred_eq]; simp only [this]; exact hq
      rw [e] at this
      exact this

theorem nested_leaf {h : List Atom} (hn : Nested h) (l : Leaf) : Nested (h ++ [.leaf l]) := by
  intro p a q e
  cases q using List.reverseRecOn with
  | nil =>
    have := List.append_inj' e rfl
    cases this.2
    exact ⟨nofun, nofun⟩
  | append_singleton q b =>
    rw [← List.cons_append, ← List.append_assoc] at e
    exact hn p a q (List.append_inj' e rfl).1

theorem latest_some {α : Type} {f : Atom → Option (Option α)} {h q : List Atom} {a : Atom}
    (hf : ∀ b v, f b = some v → v ≠ none) (ha : f a ≠ none) : ∃ v, latest f none (h ++ a :: q) = some v := by
  induction q using List.reverseRecOn with
  | nil =>
    rw [latest_snoc]
    cases hv : f a with
    | none => exact absurd hv ha
    | some v => exact Option.ne_none_iff_exists'.1 (hf a v hv)
  | append_singleton q b ih =>
    rw [← List.cons_append, ← List.append_assoc, latest_snoc]
    cases hv : f b with
    | none => exact ih
    | some v => exact Option.ne_none_iff_exists'.1 (hf b v hv)

theorem similar_transform (t : Transform) (hk : t.scaling ≠ 0) :
    ∃ e, Similar (transformMatrix t) e (t.scaling : ℝ) ∧ (transformMatrix t).m 0 2 = 0 ∧ (transformMatrix t).m 1 2 = 0 := by
  have hk' : (t.scaling : ℝ) ≠ 0 := by exact_mod_cast hk
  have er : radians (t.rotation : ℝ) = (t.rotation : ℝ) * Real.pi / 180 := by unfold radians; ring
  have hcs := Real.cos_sq_add_sin_sq ((t.rotation : ℝ) * Real.pi / 180)
  unfold transformMatrix
  cases t.mirroring
  case none =>
    refine ⟨1, ⟨.inl rfl, ?_, ?_, ?_, hk'⟩, ?_, ?_⟩
    all_goals simp [Mat.matmul, Mat.newReflect, Mat.newRotate, Mat.newRotateCS, Mat.newScale, Mat.ofRows, er]
    · linear_combination (t.scaling : ℝ) ^ 2 * hcs
  case xy =>
    refine ⟨1, ⟨.inl rfl, ?_, ?_, ?_, hk'⟩, ?_, ?_⟩
    all_goals simp [Mat.matmul, Mat.newReflect, Mat.newRotate, Mat.newRotateCS, Mat.newScale, Mat.ofRows, er]
    · linear_combination (t.scaling : ℝ) ^ 2 * hcs
  case x =>
    refine ⟨-1, ⟨.inr rfl, ?_, ?_, ?_, hk'⟩, ?_, ?_⟩
    all_goals simp [Mat.matmul, Mat.newReflect, Mat.newRotate, Mat.newRotateCS, Mat.newScale, Mat.ofRows, er]
    · linear_combination (t.scaling : ℝ) ^ 2 * hcs
  case y =>
    refine ⟨-1, ⟨.inr rfl, ?_, ?_, ?_, hk'⟩, ?_, ?_⟩
    all_goals simp [Mat.matmul, Mat.newReflect, Mat.newRotate, Mat.newRotateCS, Mat.newScale, Mat.ofRows, er]
    · linear_combination (t.scaling : ℝ) ^ 2 * hcs

/-! ### C17 -/

/-- **C17** (for every kind of aperture; partial: no aperture code defined twice and no macro with a thermal used by two
apertures, because such layers are mixed up, see `c19_false_flashed_before`; scaling by zero excluded). Say what is drawn on the layer of an aperture, when its definition (an `AD` command, or an `AB`
block) ends, are the `objects`.  Then a flash of that aperture adds to the layer being drawn: for an `AD` aperture one
object, of the polarity in force, which consists of the points covered by the `objects`, scaled, rotated, mirrored and
moved to the point of the flash; for a block all the `objects`, scaled, rotated, mirrored and moved, each with the
polarity it has in the block.  This includes macros with thermals, and blocks that contain flashes of other apertures
and repetitions. -/
theorem c17_image_partial (env : Env) (pre post : List Atom) (a : Atom) (id : Name) (x y : Option (List Char)) (c' : CState)
    (ha : (∃ d, a = .leaf (.ad id d)) ∨ a = .abClose id)
    (hr : (run {} (pre ++ a :: post ++ [.leaf (.d03 x y)])).exn = none)
    (hc : compiled env (pre ++ a :: post ++ [.leaf (.d03 x y)]) = .ok c')
    (hsel : selected (pre ++ a :: post) = some id)
    (hone : ∀ i, (pre ++ a :: post).countP (opensCode i) ≤ 1) (hnest : Nested (pre ++ a :: post))
    (hth : (drawnThermals (fun _ => []) (pre ++ a :: post)).Nodup)
    (hk : latest setsScaling 1 (pre ++ a :: post) ≠ 0) :
    ∃ cdef new p, compiled env (pre ++ [a]) = .ok cdef ∧ At (pre ++ a :: post ++ [.leaf (.d03 x y)]) p ∧
      Draws env (pre ++ a :: post) (.leaf (.d03 x y)) new ∧
      (∃ objects, Shows within (layersOf cdef) (.ap id) objects) ∧
      ∀ objects, Shows within (layersOf cdef) (.ap id) objects →
        ∃ drawn, ShowsAll within (layersOf c') new drawn ∧
          (a ≠ .abClose id → drawn = [⟨decide (latest setsPolarity .dark (pre ++ a :: post) = .dark),
            {q | ∃ v, Covered objects v ∧ q = placedIn (pre ++ a :: post) v + p}⟩]) ∧
          (a = .abClose id → drawn = objects.map (Painted.image fun v => placedIn (pre ++ a :: post) v + p)) := by
  have hsplit : pre ++ a :: post = (pre ++ [a]) ++ post := by simp
  obtain ⟨h1, h2s⟩ := run_snoc_none.1 hr
  have h1' := h1
  rw [hsplit] at h1'
  obtain ⟨h2, -⟩ := run_append_none.1 h1'
  -- the compiler before and after the flash, and at the definition
  have hc1 := hc
  rw [compiled_append h1] at hc1
  obtain ⟨c, hcc, -⟩ := bind_ok.1 hc1
  have hc2 := hcc
  rw [hsplit, compiled_append h2] at hc2
  obtain ⟨cdef, hcdef, -⟩ := bind_ok.1 hc2
  have hone1 : DefinedOnce (pre ++ [a]) := once_prefix (q := post) (by rw [← hsplit]; exact hone)
  have hnest1 : Nested (pre ++ [a]) := nested_prefix (q := post) (by rw [← hsplit]; exact hnest)
  have hth1 : (drawnThermals (fun _ => []) (pre ++ [a])).Nodup := by
    rw [hsplit, drawnThermals_append] at hth
    exact (List.nodup_append.1 hth).1
  have td := tidy _ h2 cdef hcdef hone1 hnest1 hth1
  have t1 := tidy _ h1 c hcc hone hnest hth
  have hset : Settled cdef (.ap id) := by
    refine ⟨fun hm => ?_, nofun⟩
    exact not_open_of_mem hone1 hnest1 (by simp) ha (td.open_of_stack hm)
  have hset1 : Settled c (.ap id) := by
    refine ⟨fun hm => ?_, nofun⟩
    exact not_open_of_mem hone hnest (by simp) ha (t1.open_of_stack hm)
  have keep1 : Keeps cdef c := by
    have := keeps_of_history hcdef post (by rw [← hsplit]; exact h1) c (by rw [← hsplit]; exact hcc)
      (by rw [← hsplit]; exact hone) (by rw [← hsplit]; exact hnest) (by rw [← hsplit]; exact hth)
    exact this
  -- the flash keeps everything in step
  have hone2 : DefinedOnce (pre ++ a :: post ++ [.leaf (.d03 x y)]) := by
    intro i
    rw [List.countP_append]
    simpa [opensCode] using hone i
  have hnest2 : Nested (pre ++ a :: post ++ [.leaf (.d03 x y)]) := nested_leaf hnest _
  have hth2 : (drawnThermals (fun _ => []) (pre ++ a :: post ++ [.leaf (.d03 x y)])).Nodup := by
    rw [drawnThermals_snoc]
    simpa [thermalsBy] using hth
  have t2 := tidy _ hr c' hc hone2 hnest2 hth2
  have keep2 : Keeps c c' := keeps_of_history hcc [.leaf (.d03 x y)] hr c' hc hone2 hnest2 hth2
  -- the layer of the aperture, when its definition is complete
  have hmade : ∃ b, cdef.buffers.get? (.ap id) = some b := by
    obtain ⟨h3, h3s⟩ := run_snoc_none.1 h2
    have hc3 := hcdef
    rw [compiled_snoc h3] at hc3
    obtain ⟨c0, hc0, hdeff⟩ := bind_ok.1 hc3
    rcases ha with ⟨d, rfl⟩ | rfl
    · change feed env [.define id d _] c0 = .ok cdef at hdeff
      rw [feed_singleton] at hdeff
      exact (define_ok hdeff).made
    · have hth0 := hth1
      rw [drawnThermals_snoc] at hth0
      have t0 := tidy _ h3 c0 hc0 (once_prefix hone1) (nested_prefix hnest1) (List.nodup_append.1 hth0).1
      have hhead := (hnest1 pre (.abClose id) [] rfl).1 id rfl
      obtain ⟨front, e1, e2⟩ := t0.stack
      cases ho : openBlocks pre with
      | nil => rw [ho] at hhead; cases hhead
      | cons o os =>
        rw [ho] at hhead e2
        cases hhead
        cases e2 with
        | @cons k _ ks _ h4 h5 =>
          have hk : k = .ap id := by
            cases k <;> first | exact h4.elim | (cases h4; rfl)
          have := t0.live id (by rw [e1, ← hk]; simp)
          change feed env [.abClose id] c0 = .ok cdef at hdeff
          rw [feed_singleton] at hdeff
          simp only [Compiler.step, e1, List.cons_append] at hdeff
          cases hdeff
          exact Option.ne_none_iff_exists'.1 this
  obtain ⟨b0, hb0⟩ := hmade
  -- the selected aperture
  obtain ⟨s1, s2, s3, -, s5⟩ := selected_inv _ h1
  have hid : (run {} (pre ++ a :: post)).st.apId = some id := s1.trans hsel
  obtain ⟨ap, hcur⟩ := s5 id hid
  obtain ⟨-, e2, e3, e4⟩ := transform_inv _ h1
  obtain ⟨e, sim, z0, z1⟩ := similar_transform (run {} (pre ++ a :: post)).st.transform 
    (by rw [e4]; exact hk)
  have hplace : (transformMatrix (run {} (pre ++ a :: post)).st.transform).apply = placedIn (pre ++ a :: post) :=
    funext (transform_placed _ h1)
  have hat := endPoint_at (i := none) (j := none) (x := x) (y := y) (h := pre ++ a :: post) (Or.inl rfl) hr (Or.inr (Or.inr rfl))
  -- what the layer shows is still shown after the flash
  have hkeep := keep1.trans keep2
  have hstill : ∀ objects, Shows within (layersOf cdef) (.ap id) objects → Shows within (layersOf c') (.ap id) objects := by
    intro objects ho
    refine shows_fixed (fun k b hb s hs => (td.synced.known k b hb s hs).1)
      (fun k b hf hb => (hkeep k b (td.synced.settled hf) hb).2) ho (fun b hb => (hkeep _ b hset hb).2)
  have hsome := td.synced.shown _ _ hb0
  by_cases hab : a = .abClose id
  · have hcur' : (run {} (pre ++ a :: post)).st.currentAperture = .ok (.ab id) := by
      have hnone : (run {} (pre ++ a :: post)).st.apertures.get? id = none := by
        rw [s2 id]
        have := latest_append_of_none (adOf id) none [] (pre ++ a :: post) (by
          intro b hb
          have hno := no_ad hone hnest (id := id) (by rw [hab]; simp)
          cases b with
          | leaf l =>
            cases l
            case ad i d =>
              simp only [adOf]
              rw [if_neg]
              rintro rfl
              exact hno d hb
            all_goals rfl
          | _ => rfl)
        simpa using this
      have hb : (run {} (pre ++ a :: post)).st.blocks.get? id = some () := by
        unfold VState.currentAperture at hcur
        rw [hid] at hcur
        simp only [hnone] at hcur
        split at hcur
        · assumption
        · cases hcur
      simp only [VState.currentAperture, hid, hnone, hb]
    obtain ⟨c2, c1, b, f1, g, f2, f3, f4⟩ := d03_block_draws hr hc hcur'
    refine ⟨cdef, _, _, hcdef, hat, f4, hsome, ?_⟩
    intro objects ho
    have hcopy := shows_copy t2.synced sim z0 z1 (hstill objects ho) f3
    obtain ⟨b', hb', hdrawn⟩ := shows_inv hcopy
    rw [f3] at hb'; cases hb'
    refine ⟨_, shows_moved (endPoint (withXY (run {} (pre ++ a :: post)).st x y)) hdrawn, fun h => absurd hab h, fun _ => ?_⟩
    rw [List.map_map]
    refine List.map_congr_left ?_
    intro o _
    simp only [Function.comp_apply, Painted.image, Set.image_image, hplace]
  · have had : ∃ d, a = .leaf (.ad id d) := ha.resolve_right hab
    have hcur' : ∃ d, (run {} (pre ++ a :: post)).st.currentAperture = .ok (.ad id d) := by
      have hsome : ∃ d, (run {} (pre ++ a :: post)).st.apertures.get? id = some d := by
        rw [s2 id]
        obtain ⟨d, rfl⟩ := had
        refine latest_some ?_ (by simp [adOf])
        intro b v hv
        cases b with
        | leaf l =>
          cases l
          case ad i d' =>
            simp only [adOf] at hv
            split at hv
            · cases hv; nofun
            · cases hv
          all_goals cases hv
        | _ => cases hv
      obtain ⟨d, hd⟩ := hsome
      exact ⟨d, by simp only [VState.currentAperture, hid, hd]⟩
    obtain ⟨d, hcur'⟩ := hcur'
    obtain ⟨c2, c1, b, f1, g, f2, f3, f4⟩ := d03_draws hr hc hcur'
    refine ⟨cdef, _, _, hcdef, hat, f4, hsome, ?_⟩
    intro objects ho
    have hcopy := shows_copy t2.synced sim z0 z1 (hstill objects ho) f3
    refine ⟨_, .paste _ _ _ _ _ _ hcopy .nil, fun _ => ?_, fun h => absurd h hab⟩
    rw [hplace]
    have hpts : {q | Covered (objects.map (Painted.image (placedIn (pre ++ a :: post))))
          (q - endPoint (withXY (run {} (pre ++ a :: post)).st x y))} =
        {q | ∃ v, Covered objects v ∧ q = placedIn (pre ++ a :: post) v + endPoint (withXY (run {} (pre ++ a :: post)).st x y)} := by
      have hinj : Function.Injective (placedIn (pre ++ a :: post)) := by rw [← hplace]; exact sim.injective
      ext q
      constructor
      · intro hq
        obtain ⟨v, hv⟩ := covered_range hq
        refine ⟨v, ?_, by rw [← hv]; ext <;> simp⟩
        rw [Set.mem_ofPred_eq, hv, covered_image hinj] at hq
        exact hq
      · rintro ⟨v, hv, rfl⟩
        have : placedIn (pre ++ a :: post) v + endPoint (withXY (run {} (pre ++ a :: post)).st x y) -
          endPoint (withXY (run {} (pre ++ a :: post)).st x y) = placedIn (pre ++ a :: post) v := by ext <;> simp
        rw [Set.mem_ofPred_eq, this, covered_image hinj]
        exact hv
    rw [hpts]
    cases latest setsPolarity .dark (pre ++ a :: post) <;> rfl

/-! ### What files execute is nested -/

theorem nested_snoc {h : List Atom} (hn : Nested h) (a : Atom)
    (ha : (∀ id, a = .abClose id → (openBlocks h).head? = some (some id)) ∧
      (∀ sr, a = .srClose sr → (openBlocks h).head? = some none)) : Nested (h ++ [a]) := by
  intro p b q e
  cases q using List.reverseRecOn with
  | nil =>
    have := List.append_inj' e rfl
    cases this.1
    cases this.2
    exact ha
  | append_singleton q b' =>
    rw [← List.cons_append, ← List.append_assoc] at e
    exact hn p b q (List.append_inj' e rfl).1

mutual
theorem nested_node (h : List Atom) (hn : Nested h) : (c : Visitor.Cmd) →
    Nested (h ++ atomsOf c) ∧ openBlocks (h ++ atomsOf c) = openBlocks h
  | .leaf l => ⟨nested_leaf hn l, openBlocks_snoc h _⟩
  | .ab id body => by
    have h0 : Nested (h ++ [.abOpen id]) := nested_snoc hn _ ⟨nofun, nofun⟩
    obtain ⟨h1, h2⟩ := nested_nodes _ h0 body
    rw [openBlocks_snoc] at h2
    have e : h ++ atomsOf (.ab id body) = (h ++ [.abOpen id] ++ atomsOfAll body) ++ [.abClose id] := by simp [atomsOf]
    rw [e]
    refine ⟨nested_snoc h1 _ ⟨?_, nofun⟩, ?_⟩
    · rintro id' ⟨⟩; rw [h2]; rfl
    · rw [openBlocks_snoc, h2]; rfl
  | .sr p body => by
    have h0 : Nested (h ++ [.srOpen p]) := nested_snoc hn _ ⟨nofun, nofun⟩
    obtain ⟨h1, h2⟩ := nested_nodes _ h0 body
    rw [openBlocks_snoc] at h2
    have e : h ++ atomsOf (.sr p body) = (h ++ [.srOpen p] ++ atomsOfAll body) ++ [.srClose p] := by simp [atomsOf]
    rw [e]
    refine ⟨nested_snoc h1 _ ⟨nofun, ?_⟩, ?_⟩
    · rintro p' ⟨⟩; rw [h2]; rfl
    · rw [openBlocks_snoc, h2]; rfl
theorem nested_nodes (h : List Atom) (hn : Nested h) : (cs : List Visitor.Cmd) →
    Nested (h ++ atomsOfAll cs) ∧ openBlocks (h ++ atomsOfAll cs) = openBlocks h
  | [] => by simpa [atomsOfAll] using hn
  | c :: cs => by
    obtain ⟨h1, h2⟩ := nested_node h hn c
    obtain ⟨h3, h4⟩ := nested_nodes _ h1 cs
    rw [List.append_assoc] at h3 h4
    exact ⟨h3, h4.trans h2⟩
end

theorem nested_executed (resume : Bool) : ∀ (file : List Visitor.Cmd) (h : List Atom), Nested h →
    Nested (h ++ executed resume file) := by
  intro file
  induction file with
  | nil => intro h hn; simpa [executed] using hn
  | cons c cs ih =>
    intro h hn
    obtain ⟨h1, h2⟩ := nested_node h hn c
    simp only [executed]
    split
    · have h3 : Nested (h ++ (atomsOf c).takeWhile (fun a => !isStop a)) := by
        refine nested_prefix (q := (atomsOf c).dropWhile (fun a => !isStop a)) ?_
        rw [List.append_assoc, List.takeWhile_append_dropWhile]
        exact h1
      rw [← List.append_assoc]
      split
      · exact ih _ h3
      · simpa using h3
    · rw [← List.append_assoc]
      exact ih _ h1

/-- The hypothesis `Nested` of `c17_image_partial` is met by every beginning of what a file executes. -/
theorem c17_files_nested (resume : Bool) (file : List Visitor.Cmd) (h q : List Atom) (he : executed resume file = h ++ q) :
    Nested h := by
  refine nested_prefix (q := q) ?_
  rw [← he]
  have := nested_executed resume file [] (by intro p a q e; simp at e)
  simpa using this

/-! ### Non-vacuity -/

/-- A macro with a thermal, and what is done before its flash. -/
def thermalPre : List Atom := [.leaf (.fs {}), .leaf (.am ['T'] Layers.thermalMacro)]
def thermalPost : List Atom := [.leaf (.dnn ['D','1','0']), .leaf (.lm .x), .leaf (.ls 2), .leaf (.lp .clear)]

/-- A block in which another aperture is flashed. -/
def blockPre : List Atom :=
  [.leaf (.fs {}), .leaf (.ad ['D','1','1'] (.circle 1 none)), .abOpen ['D','1','0'], .leaf (.dnn ['D','1','1']),
    .leaf (.d03 none none), .leaf (.lp .clear), .leaf (.d03 none none)]
def blockPost : List Atom := [.leaf (.dnn ['D','1','0'])]

example : (run {} (thermalPre ++ .leaf (.ad ['D','1','0'] (.macro ['T'] [])) :: thermalPost ++ [.leaf (.d03 none none)])).exn = none ∧
    (∃ c', compiled env0 (thermalPre ++ .leaf (.ad ['D','1','0'] (.macro ['T'] [])) :: thermalPost ++ [.leaf (.d03 none none)]) = .ok c') ∧
    selected (thermalPre ++ .leaf (.ad ['D','1','0'] (.macro ['T'] [])) :: thermalPost) = some ['D','1','0'] ∧
    Nested (thermalPre ++ .leaf (.ad ['D','1','0'] (.macro ['T'] [])) :: thermalPost) ∧
    drawnThermals (fun _ => []) (thermalPre ++ .leaf (.ad ['D','1','0'] (.macro ['T'] [])) :: thermalPost) = [0] := by
  refine ⟨by decide +kernel, ?_, by decide +kernel, ?_, rfl⟩
  · eval_compiler [thermalPre, thermalPost, Layers.thermalMacro, runPrims, primitive, thermal,
      show ¬ ((1 : ℝ) ≤ 0) by norm_num, Math.eval, evalE, ring, convert]
  · exact c17_files_nested true [.leaf (.fs {}), .leaf (.am ['T'] Layers.thermalMacro), .leaf (.ad ['D','1','0'] (.macro ['T'] [])),
      .leaf (.dnn ['D','1','0']), .leaf (.lm .x), .leaf (.ls 2), .leaf (.lp .clear)] _ [] rfl

example : (run {} (blockPre ++ .abClose ['D','1','0'] :: blockPost ++ [.leaf (.d03 none none)])).exn = none ∧
    (∃ c', compiled env0 (blockPre ++ .abClose ['D','1','0'] :: blockPost ++ [.leaf (.d03 none none)]) = .ok c') ∧
    selected (blockPre ++ .abClose ['D','1','0'] :: blockPost) = some ['D','1','0'] ∧
    Nested (blockPre ++ .abClose ['D','1','0'] :: blockPost) ∧
    drawnThermals (fun _ => []) (blockPre ++ .abClose ['D','1','0'] :: blockPost) = [] := by
  refine ⟨by decide +kernel, ?_, by decide +kernel, ?_, rfl⟩
  · eval_compiler [blockPre, blockPost, moved, show transformMatrix { polarity := .clear } = transformMatrix {} from rfl]
  · exact c17_files_nested true [.leaf (.fs {}), .leaf (.ad ['D','1','1'] (.circle 1 none)), .ab ['D','1','0']
      [.leaf (.dnn ['D','1','1']), .leaf (.d03 none none), .leaf (.lp .clear), .leaf (.d03 none none)],
      .leaf (.dnn ['D','1','0'])] _ [] rfl

end
end Verif.Props.FlashImage
