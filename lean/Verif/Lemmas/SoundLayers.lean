import Verif.Lemmas.SoundMacro
import Verif.Props.Picture

/-!
# The outlines of what a file draws
-/

namespace Verif.SoundLayers
open Verif.Visitor Verif.Coord Verif.Geom Verif.Rvmc Verif.Compiler Verif.Spec Verif.Vm Verif.Props.State
  Verif.Props.Compiler Verif.Props.FlashImage Verif.Props.Stroke Verif.Props.Repeat Verif.Props.Picture Verif.Halves Verif.Sim

/-- All shapes are sound. -/
def AllSound (cmds : List Compiler.Cmd) : Prop := ∀ s, .shape s ∈ cmds → Sound s

/-- All shapes in the buffers of the compiler are sound. -/
def Kept (c : CState) : Prop := ∀ id cmds, c.buffers.get? id = some cmds → AllSound cmds

theorem AllSound.append {a b : List Compiler.Cmd} (ha : AllSound a) (hb : AllSound b) : AllSound (a ++ b) := by
  intro s hs
  rcases List.mem_append.1 hs with h | h
  · exact ha s h
  · exact hb s h

theorem allSound_shapes {ss : List Shape} (h : ∀ s ∈ ss, Sound s) : AllSound (ss.map .shape) := by
  intro s hs
  obtain ⟨s', h', e⟩ := List.mem_map.1 hs
  cases e
  exact h s h'

theorem kept_append {cmds : List Compiler.Cmd} {c c' : CState} (h : append cmds c = .ok c') (hc : Kept c) (hn : AllSound cmds) : Kept c' := by
  obtain ⟨-, -, -, h4⟩ := append_ok h
  intro id b hb
  rw [h4] at hb
  split at hb
  · obtain ⟨b', hb', rfl⟩ := Option.map_eq_some_iff.1 hb
    exact (hc id b' hb').append hn
  · exact hc id b hb

theorem kept_create {id : LayerId} {cmds : List Compiler.Cmd} {c : CState} (hc : Kept c) (hn : AllSound cmds) : Kept (create id cmds c) := by
  intro i b hb
  simp only [create, Dict.get?_set] at hb
  split at hb
  · cases hb; exact hn
  · exact hc i b hb

theorem kept_transform {m : Mat ℝ} {e k : ℝ} (hm : Similar m e k) : ∀ (fuel : ℕ) (base id : LayerId) (c c' : CState),
    bufferWithTransform m fuel base c = .ok (id, c') → Kept c → Kept c'
  | 0, _, _, _, _, h, _ => by cases h
  | fuel + 1, base, id, c, c', h, hc => by
    simp only [bufferWithTransform] at h
    split at h
    · cases h; exact hc
    · split at h
      · cases h
      · next cmds hb =>
        obtain ⟨r, h1, h2⟩ := Compiler.bind_ok.1 h
        cases h2
        have key : ∀ (cmds : List Compiler.Cmd) (c : CState) (r : List Compiler.Cmd × CState), transformCmds m (bufferWithTransform m fuel) cmds c = .ok r →
            Kept c → AllSound cmds → Kept r.2 ∧ AllSound r.1 := by
          intro cmds
          induction cmds with
          | nil => intro c r h hc _; cases h; exact ⟨hc, nofun⟩
          | cons x cmds ih =>
            intro c r h hc ha
            have hrest : AllSound cmds := fun s hs => ha s (List.mem_cons_of_mem _ hs)
            cases x with
            | shape s =>
              obtain ⟨r', h1, h2⟩ := Compiler.bind_ok.1 h
              cases h2
              obtain ⟨g1, g2⟩ := ih c r' h1 hc hrest
              refine ⟨g1, fun s' hs' => ?_⟩
              rcases List.mem_cons.1 hs' with e | h
              · cases e; exact sound_transform hm (ha s (List.mem_cons_self ..))
              · exact g2 s' h
            | paste src center neg =>
              obtain ⟨b, h1, h2⟩ := Compiler.bind_ok.1 h
              obtain ⟨r', h3, h4⟩ := Compiler.bind_ok.1 h2
              cases h4
              obtain ⟨g1, g2⟩ := ih b.2 r' h3 (kept_transform hm fuel src b.1 c b.2 h1 hc) hrest
              refine ⟨g1, fun s' hs' => ?_⟩
              rcases List.mem_cons.1 hs' with e | h
              · cases e
              · exact g2 s' h
        obtain ⟨g1, g2⟩ := key cmds c r h1 hc (hc _ _ hb)
        exact kept_create g1 g2

theorem moved_sound {m : Mat ℝ} {e k : ℝ} (hm : Similar m e k) {cmds : List Compiler.Cmd} (h : AllSound cmds) : AllSound (moved m cmds) := by
  intro s hs
  obtain ⟨x, hx, e⟩ := List.mem_map.1 hs
  cases x with
  | shape s' => cases e; exact sound_transform hm (h s' hx)
  | paste => cases e

theorem kept_flash {env : Env} {kind : FlashKind} {ap : Aperture} {s : VState} {c c' : CState} {e k : ℝ}
    (hm : Similar (transformMatrix s.transform) e k) (h : flash env kind ap s c = .ok c') (hc : Kept c) : Kept c' := by
  have single : ∀ id, flashAperture env id s c = .ok c' → Kept c' := by
    intro id h
    obtain ⟨b, h1, h2⟩ := Compiler.bind_ok.1 h
    exact kept_append h2 (kept_transform hm _ _ b.1 c b.2 h1 hc) (by intro s hs; simp at hs)
  unfold flash at h
  split at h
  · obtain ⟨b, h1, h2⟩ := Compiler.bind_ok.1 h
    have hk := kept_transform hm _ _ b.1 c b.2 h1 hc
    split at h2
    · cases h2
    · next cmds hb => exact kept_append h2 hk (moved_sound (similar_translate _ _) (hk _ _ hb))
  · cases h
  · exact single _ h
  · cases h

theorem hole_sound {hole : Option ℚ} {limit : ℚ} (h : 0 < limit) : AllSound (holeOf hole limit) := by
  unfold holeOf
  split
  · split
    · next h0 =>
      intro s hs
      rw [List.mem_singleton] at hs
      cases hs
      refine (round_circle _ ?_ _).sound
      exact_mod_cast lt_min h0 h
    · exact nofun
  · exact nofun

theorem kept_prims {env : Env} {id : LayerId} {ρ : List Char → Option ℚ} {body : List Macro.Prim} {figures : List (Bool × Figure)}
    (h : MacroPaints ρ body figures) : ∀ (scope : Dict Name ℚ) (cmds : List Compiler.Cmd) (c c' : CState), scope.get? = ρ →
    Props.MacroShape.SoundMacro ρ body → PlainMacro ρ body → runPrims env id body scope cmds c = .ok c' → Kept c → AllSound cmds → Kept c' := by
  induction h with
  | nil ρ => intro scope cmds c c' _ _ _ h hc hcm; cases h; exact kept_create hc hcm
  | assign hv _ ih =>
    rename_i ρ name e v rest figures _
    intro scope cmds c c' hρ hs hp h hc hcm
    subst hρ
    simp only [runPrims, primitive, Props.MacroShape.value_evalE hv] at h
    refine ih (scope.set name v) cmds c c' ?_ (hs v hv) (hp v hv) ?_ hc hcm
    · funext n
      rw [Dict.get?_set]
      by_cases hn : name = n
      · subst hn; simp
      · rw [if_neg hn, if_neg (Ne.symm hn)]
    · simpa [PrimOut.shapes, bind, Except.bind, pure, Except.pure] using h
  | primitive hp _ ih =>
    rename_i ρ p rest drawn figures _
    intro scope cmds c c' hρ hs hpl h hc hcm
    subst hρ
    obtain ⟨hs1, hs2⟩ := Props.MacroShape.soundMacro_prim hp hs
    have hpl' : PlainPrim scope.get? p ∧ PlainMacro scope.get? rest := by cases hp <;> exact hpl
    obtain ⟨o, o1, o2, o3, o4⟩ := Props.MacroShape.c65_primitive_partial (env.time c.calls) scope p drawn hp hs1
    simp only [runPrims, o1, bind, Except.bind, o3] at h
    exact ih o.scope _ _ c' (by rw [o2]) hs2 hpl'.2 h hc (hcm.append (SoundMacro.primitive_sound hp hs1 hpl'.1 o1).1)
  | thermal hv hk hd hg _ ih =>
    rename_i ρ node centerX centerY outer inner gap rotation x y d k g r rest figures _
    intro scope cmds c c' hρ hs hpl h hc hcm
    subst hρ
    obtain ⟨hs1, hs2⟩ := hs
    simp only [runPrims] at h
    obtain ⟨o, o1, o2⟩ := Compiler.bind_ok.1 h
    have hO := SoundMacro.thermal_sound hv hk hd hg hs1 o1
    have hsc : o.scope = scope := by
      rcases hv with _ | ⟨v1, _ | ⟨v2, _ | ⟨v3, _ | ⟨v4, _ | ⟨v5, _ | ⟨v6, _ | _⟩⟩⟩⟩⟩⟩
      simp only [primitive, thermal, Props.MacroShape.value_evalE v1, Props.MacroShape.value_evalE v2, Props.MacroShape.value_evalE v3,
        Props.MacroShape.value_evalE v4, Props.MacroShape.value_evalE v5, Props.MacroShape.value_evalE v6, bind, Except.bind, pure, Except.pure] at o1
      split at o1
      · cases o1; rfl
      · split at o1
        · cases o1; rfl
        · split at o1
          · cases o1
          · cases o1; rfl
    refine ih o.scope _ _ c' (by rw [hsc]) hs2 hpl.2 o2 ?_ (hcm.append hO.1)
    cases hl : o.layer with
    | none => exact hc
    | some l => exact kept_create (c := { c with calls := c.calls + o.ticks }) hc (hO.2 l hl)

theorem kept_define {env : Env} {id : Name} {d : ApDef} {s : VState} {c c' : CState} (h : define env id d s c = .ok c') (hc : Kept c)
    {figures : List (Bool × Figure)} (hf : AperturePaints s.macros.get? d figures) (hs : Props.MacroShape.SoundAperture s.macros.get? d)
    (hd : PlainAperture s.macros.get? d) : Kept c' := by
  have one : ∀ (g : Shape) (cmds : List Compiler.Cmd), Sound g → AllSound cmds → AllSound (.shape g :: cmds) := by
    intro g cmds hg hcm s hs
    rcases List.mem_cons.1 hs with e | h
    · cases e; exact hg
    · exact hcm s h
  cases hd with
  | circle d hole hd =>
    cases h
    exact kept_create hc (one _ _ (round_circle _ (by exact_mod_cast hd) _).sound (hole_sound hd))
  | rect w h' hole hw hh =>
    cases h
    exact kept_create hc (one _ _ (round_rectangle _ (by exact_mod_cast hw.le) (by exact_mod_cast hh.le) _).sound (hole_sound (lt_min hw hh)))
  | obround w h' hole hw hh =>
    cases h
    exact kept_create hc (one _ _ (round_obround _ (by exact_mod_cast hw) (by exact_mod_cast hh) _).sound (hole_sound (lt_min hw hh)))
  | polygon d n rotation hole hd =>
    cases hf with
    | standard _ hf =>
      cases hf with
      | polygon _ hn =>
        obtain ⟨-, j, h2, h3⟩ := hs
        obtain ⟨sh, s1, s2, s3⟩ := Props.MacroShape.polygon_shape (d := d) hn h2 (by simpa using h3)
        simp only [define, s1, bind, Except.bind, pure, Except.pure] at h
        cases h
        refine kept_create hc (one _ _ (polygon_sound hn (d := (d : ℝ)) (by exact_mod_cast hd) (((rotation.getD 0 : ℚ) : ℝ) * Real.pi / 180) ⟨0, 0⟩ ?_)
          (hole_sound hd))
        rw [s3]
        congr 2
        funext k
        ext <;> simp
  | «macro» name params hp =>
    cases hf with
    | standard hne => exact absurd rfl (hne name params)
    | «macro» hm hb =>
      simp only [define, hm] at h
      exact kept_prims hb (paramScope params) [] _ c' (Props.MacroShape.parameter_scope params) (hs _ hm) (hp _ hm) h (kept_create hc (fun _ h => nomatch h)) (fun _ h => nomatch h)

theorem kept_repeat {p : SrParams} {s : VState} {c c' : CState} (h : closeSr p s c = .ok c') (hc : Kept c) : Kept c' := by
  unfold closeSr at h
  split at h
  · cases h
  · split at h
    · cases h
    · next body hb =>
      split at h
      · cases h
      · obtain ⟨c1, h1, h2⟩ := Compiler.bind_ok.1 h
        cases h2
        have hk : Kept c1 := by
          refine kept_append h1 hc ?_
          intro g hg
          simp only [copies, List.mem_flatMap] at hg
          obtain ⟨x, -, y, -, hg⟩ := hg
          exact moved_sound (similar_translate _ _) (hc _ _ hb) g hg
        intro i b hb'
        simp only [Dict.get?_pop] at hb'
        split at hb'
        · cases hb'
        · exact hk i b hb'

theorem kept_flush {env : Env} {s : VState} {c c' : CState} (h : Compiler.step env (.flushRegion s) c = .ok c') (hc : Kept c)
    (hg : ∀ g gs, c.contour = some (g :: gs) → Sound ⟨g, gs, false⟩) : Kept c' := by
  obtain ⟨g, c1, e1, e2, e3, e4, e5⟩ := flush_ok h
  have : Kept c1 := by
    refine kept_append e5 hc ?_
    cases g with
    | nil => exact nofun
    | cons g gs =>
      intro x hx
      rw [List.mem_singleton] at hx
      cases hx
      exact sound_negative _ (hg g gs e1)
  intro id b hb
  rw [e3] at hb
  exact this id b hb

theorem kept_stroke {h : List Atom} {x y i j : Option (List Char)} {c c' : CState} {env : Env} (B : Steps env h (.leaf (.d01 x y i j)) c c')
    (hreg : inRegion h = false) (hc : Kept c)
    (hs : ∀ ss, drawShapes (drawingOf (latest setsPlot .linear h) (latest setsQuad .single h)) (seen h x y i j) = .ok ss → ∀ g ∈ ss, Sound g) :
    Kept c' := by
  have hf := B.fed
  obtain ⟨-, -, -, -, m⟩ := modes h B.ran
  have hreg' : latest setsRegion false h = false := hreg
  rw [step_d01 B.fine, m, hreg'] at hf
  change feed env [_] c = .ok c' at hf
  rw [feed_singleton] at hf
  simp only [Compiler.step, draw, if_false, Bool.false_eq_true] at hf
  obtain ⟨ss, h3, h4⟩ := Compiler.bind_ok.1 hf
  exact kept_append h4 hc (allSound_shapes (hs ss h3))

theorem kept_inside {h : List Atom} {x y i j : Option (List Char)} {c c' : CState} {env : Env} (B : Steps env h (.leaf (.d01 x y i j)) c c')
    (hreg : inRegion h = true) (hc : Kept c) : Kept c' := by
  have hf := B.fed
  obtain ⟨-, -, -, -, m⟩ := modes h B.ran
  have hreg' : latest setsRegion false h = true := hreg
  rw [step_d01 B.fine, m, hreg'] at hf
  change feed env [_] c = .ok c' at hf
  rw [feed_singleton] at hf
  simp only [Compiler.step, draw, if_true] at hf
  split at hf
  · cases hf; exact hc
  · cases hf; exact hc
  · split at hf
    · cases hf
    · cases hf; exact hc

theorem arc_round (cw : Bool) {s e c : Vec ℝ} {t : ℝ} (neg : Bool) (ht : 0 ≤ t) (hsc : vlen (s - c) = vlen (e - c)) (hne : s ≠ e)
    (htr : t / 2 < vlen (s - c)) : Sound (arcShape cw s e c t neg) := by
  cases cw
  · exact (round_cwArc neg ht hsc.symm hne.symm (by rw [← hsc]; exact htr)).sound
  · exact (round_cwArc neg ht hsc hne htr).sound

theorem latest_ad {id : Name} {d : ApDef} {h : List Atom} (hl : latest (adOf id) none h = some d) :
    ∃ p q, h = p ++ .leaf (.ad id d) :: q := by
  induction h using List.reverseRecOn with
  | nil => cases hl
  | append_singleton h a ih =>
    rw [latest_snoc] at hl
    cases hv : adOf id a with
    | none =>
      rw [hv] at hl
      obtain ⟨p, q, e⟩ := ih hl
      exact ⟨p, q ++ [a], by rw [e]; simp⟩
    | some v =>
      rw [hv] at hl
      unfold adOf at hv
      split at hv
      · split at hv
        · next he =>
          subst he
          cases hv
          cases hl
          exact ⟨h, [], rfl⟩
        · cases hv
      · cases hv

/-- All shapes that such a file draws go round once. -/
theorem kept {env : Env} {h : List Atom} {s : Sheet} (hp : Pictured h s) : ∀ c, (run {} h).exn = none →
    compiled env h = .ok c → Nested h → Avoids h → PlainOutlines h → Kept c := by
  have before : ∀ {h q : List Atom}, PlainOutlines (h ++ q) → PlainOutlines h := by
    intro h q hq
    exact ⟨fun p id d r e => hq.apertures p id d (r ++ q) (by rw [e]; simp),
      fun p x y ti tj r i j id d objects s e => hq.arcs p x y ti tj (r ++ q) i j id d objects s (by rw [e]; simp),
      fun p l r s g gs e => hq.contours p l (r ++ q) s g gs (by rw [e]; simp)⟩
  induction hp with
  | start =>
    intro c _ hc _ _ _
    cases hc
    intro id cmds hb
    simp only [CState.init, Dict.get?] at hb
    split at hb
    · cases hb; exact nofun
    · cases hb
  | @aperture h _ _ _ _ _ hreg hfig ih =>
    intro c' hr hc hn ha hP
    obtain ⟨c, B⟩ := steps hr hc hn ha
    have hf := B.fed
    change feed env [.define _ _ _] c = .ok c' at hf
    rw [feed_singleton] at hf
    have hmac : (fun name => latest (givesMacro name) none h) = (run {} h).st.macros.get? := by
      funext name
      exact (Props.MacroShape.macros_latest h B.ran name).symm
    have hsound := B.avoids.apertures _ _ _ [] rfl
    have hplain := hP.apertures _ _ _ [] rfl
    rw [hmac] at hfig hsound hplain
    exact kept_define hf (ih c B.ran B.before (nested_prefix hn) ha.before (before hP)) hfig hsound hplain
  | blockOpen _ hreg ih =>
    intro c' hr hc hn ha hP
    obtain ⟨c, B⟩ := steps hr hc hn ha
    have hf := B.fed
    change feed env [.abOpen _] c = .ok c' at hf
    rw [feed_singleton] at hf
    cases hf
    exact kept_create (c := c) (cmds := []) (ih c B.ran B.before (nested_prefix hn) ha.before (before hP)) nofun
  | blockClose _ hreg hs ih =>
    intro c' hr hc hn ha hP
    obtain ⟨c, B⟩ := steps hr hc hn ha
    have hk := ih c B.ran B.before (nested_prefix hn) ha.before (before hP)
    have hf := B.fed
    change feed env [.abClose _] c = .ok c' at hf
    rw [feed_singleton] at hf
    simp only [Compiler.step] at hf
    split at hf
    · cases hf
    · cases hf; exact hk
  | repeatOpen _ hreg ih =>
    intro c' hr hc hn ha hP
    obtain ⟨c, B⟩ := steps hr hc hn ha
    have hf := B.fed
    change feed env [.srOpen _] c = .ok c' at hf
    rw [feed_singleton] at hf
    cases hf
    exact kept_create (c := c) (cmds := []) (ih c B.ran B.before (nested_prefix hn) ha.before (before hP)) nofun
  | repeatClose _ hreg hs ih =>
    intro c' hr hc hn ha hP
    obtain ⟨c, B⟩ := steps hr hc hn ha
    have hf := B.fed
    change feed env [.srClose _ _] c = .ok c' at hf
    rw [feed_singleton] at hf
    exact kept_repeat hf (ih c B.ran B.before (nested_prefix hn) ha.before (before hP))
  | flash _ hreg hsel ht hp ih =>
    intro c' hr hc hn ha hP
    obtain ⟨c, B⟩ := steps hr hc hn ha
    obtain ⟨e, sim, -⟩ := flash_similar B
    have hf := B.fed
    obtain ⟨ap, k, e1, e2, e3⟩ := step_d03 B.fine
    rw [e3] at hf
    change feed env [_] c = .ok c' at hf
    rw [feed_singleton] at hf
    exact kept_flash (s := withXY _ _ _) sim hf (ih c B.ran B.before (nested_prefix hn) ha.before (before hP))
  | flashBlock _ hreg hsel ht hp ih =>
    intro c' hr hc hn ha hP
    obtain ⟨c, B⟩ := steps hr hc hn ha
    obtain ⟨e, sim, -⟩ := flash_similar B
    have hf := B.fed
    obtain ⟨ap, k, e1, e2, e3⟩ := step_d03 B.fine
    rw [e3] at hf
    change feed env [_] c = .ok c' at hf
    rw [feed_singleton] at hf
    exact kept_flash (s := withXY _ _ _) sim hf (ih c B.ran B.before (nested_prefix hn) ha.before (before hP))
  | @stroke h s id d objects x y i j a b hp0 hreg hsel ht hd hlin hp hq ih =>
    intro c' hr hc hn ha hP
    obtain ⟨c, B⟩ := steps hr hc hn ha
    have A := agrees hp0 c B.ran B.before (nested_prefix hn) ha.before
    obtain ⟨-, -, a3⟩ := A.single id _ objects ht
    refine kept_stroke B hreg (ih c B.ran B.before (nested_prefix hn) ha.before (before hP)) fun ss hss => ?_
    have hd0 : (0 : ℝ) < d := by
      obtain ⟨p, q, e⟩ := latest_ad a3
      have := hP.apertures p id (.circle d none) (q ++ [.leaf (.d01 x y i j)]) (by rw [e]; simp)
      cases this with
      | circle _ _ h => exact_mod_cast h
    have hkind : drawingOf (latest setsPlot .linear h) (latest setsQuad .single h) = .line := by
      rw [hlin]; cases latest setsQuad .single h <;> rfl
    rw [hkind] at hss
    simp only [drawShapes, lineShapes, thickness_circle (current_single B hsel a3)] at hss
    change Except.ok _ = _ at hss
    cases hss
    intro g hg
    simp only [List.mem_cons, List.not_mem_nil, or_false] at hg
    rcases hg with rfl | rfl | rfl
    · exact (round_circle _ hd0 _).sound
    · exact (round_line _ _ hd0.le _).sound
    · exact (round_circle _ hd0 _).sound
  | @strokeArc h s id d objects x y ti tj i j a b hp0 hreg hsel ht hd hlin hquad hi hj hp hq hne hrad ih =>
    intro c' hr hc hn ha hP
    obtain ⟨c, B⟩ := steps hr hc hn ha
    have A := agrees hp0 c B.ran B.before (nested_prefix hn) ha.before
    obtain ⟨-, -, a3⟩ := A.single id _ objects ht
    refine kept_stroke B hreg (ih c B.ran B.before (nested_prefix hn) ha.before (before hP)) fun ss hss => ?_
    have hd0 : (0 : ℝ) < d := by
      obtain ⟨p, q, e⟩ := latest_ad a3
      have := hP.apertures p id (.circle d none) (q ++ [.leaf (.d01 x y (some ti) (some tj))]) (by rw [e]; simp)
      cases this with
      | circle _ _ h => exact_mod_cast h
    have hthin := hP.arcs h x y ti tj [] i j id d objects s rfl hreg hlin hi hj hp0 hsel ht
    obtain ⟨o1, o2⟩ := seen_offsets B.ran' hi hj
    have hst := at_unique hp (startPoint_at B.ran x y (some ti) (some tj))
    have hen := at_unique hq (endPoint_at (Or.inr rfl) B.ran' (Or.inl rfl))
    have hcen : arcCenter (seen h x y (some ti) (some tj)) = a + ⟨i, j⟩ := by
      rw [hst]; unfold arcCenter startPoint pt
      rw [o1, o2]; ext <;> simp
    have hlen0 : vlen (a - (a + ⟨i, j⟩)) = vlen ⟨i, j⟩ := by
      unfold vlen
      congr 1
      simp only [Vec.sub_x, Vec.sub_y, Vec.add_x, Vec.add_y]; ring
    have hlen : (pt (seen h x y (some ti) (some tj)).coordinateI (seen h x y (some ti) (some tj)).coordinateJ).length =
        vlen (a - (a + ⟨i, j⟩)) := by
      rw [o1, o2, length_eq_norm, hlen0]
      rfl
    rw [← hlen0] at hthin
    rw [hquad, arc_kind hlin] at hss
    have key : ∀ cw, arcShapes cw (seen h x y (some ti) (some tj)) = .ok ss → ∀ g ∈ ss, Sound g := by
      intro cw hcw
      rw [arcShapes_ok (thickness_circle (current_single B hsel a3) _), hcen, hlen, ← hst, ← hen] at hcw
      have hr0 : 0 < vlen (a - (a + ⟨i, j⟩)) := by linarith
      by_cases hcl : a = b
      · subst hcl
        rw [if_pos (by rw [closed_iff, ← hst, ← hen])] at hcw
        cases hcw
        generalize vlen (a - (a + ⟨i, j⟩)) = r at *
        generalize a + ⟨(i : ℝ), (j : ℝ)⟩ = o at *
        have l1 : vlen ((⟨o.x - r, o.y⟩ : Vec ℝ) - o) = r := by
          unfold vlen; simp only [Vec.sub_x, Vec.sub_y, sub_self]
          rw [show (o.x - r - o.x) ^ 2 + 0 ^ 2 = r ^ 2 by ring, Real.sqrt_sq hr0.le]
        have l2 : vlen ((⟨o.x + r, o.y⟩ : Vec ℝ) - o) = r := by
          unfold vlen; simp only [Vec.sub_x, Vec.sub_y, sub_self]
          rw [show (o.x + r - o.x) ^ 2 + 0 ^ 2 = r ^ 2 by ring, Real.sqrt_sq hr0.le]
        have l3 : (⟨o.x - r, o.y⟩ : Vec ℝ) ≠ ⟨o.x + r, o.y⟩ := by
          intro h
          have := congrArg Vec.x h
          simp only at this
          linarith
        intro g hg
        simp only [List.mem_cons, List.not_mem_nil, or_false] at hg
        rcases hg with rfl | rfl | rfl | rfl
        · exact (round_circle _ hd0 _).sound
        · exact arc_round cw _ hd0.le (l1.trans l2.symm) l3 (by rw [l1]; linarith)
        · exact arc_round cw _ hd0.le (l2.trans l1.symm) l3.symm (by rw [l2]; linarith)
        · exact (round_circle _ hd0 _).sound
      · rw [if_neg (by rw [closed_iff, ← hst, ← hen]; exact hcl)] at hcw
        cases hcw
        intro g hg
        simp only [List.mem_cons, List.not_mem_nil, or_false] at hg
        rcases hg with rfl | rfl | rfl
        · exact (round_circle _ hd0 _).sound
        · exact arc_round cw _ hd0.le hrad hcl (by linarith)
        · exact (round_circle _ hd0 _).sound
    exact key (decide (latest setsPlot .linear h = .arc)) (by
      cases hb : decide (latest setsPlot .linear h = .arc) <;> rw [hb] at hss <;> exact hss)
  | regionStart _ hreg ih =>
    intro c' hr hc hn ha hP
    obtain ⟨c, B⟩ := steps hr hc hn ha
    have hf := B.fed
    change feed env [.startRegion] c = .ok c' at hf
    rw [feed_singleton] at hf
    cases hf
    exact ih c B.ran B.before (nested_prefix hn) ha.before (before hP)
  | regionLine _ hreg hlin hp hq ih =>
    intro c' hr hc hn ha hP
    obtain ⟨c, B⟩ := steps hr hc hn ha
    exact kept_inside B hreg (ih c B.ran B.before (nested_prefix hn) ha.before (before hP))
  | regionArc _ hreg hlin hq hi hj hp hp' hne ih =>
    intro c' hr hc hn ha hP
    obtain ⟨c, B⟩ := steps hr hc hn ha
    exact kept_inside B hreg (ih c B.ran B.before (nested_prefix hn) ha.before (before hP))
  | regionCircle _ hreg hlin hq hi hj hp hp' ih =>
    intro c' hr hc hn ha hP
    obtain ⟨c, B⟩ := steps hr hc hn ha
    exact kept_inside B hreg (ih c B.ran B.before (nested_prefix hn) ha.before (before hP))
  | @regionMove h s x y hp0 hreg ih =>
    intro c' hr hc hn ha hP
    obtain ⟨c, B⟩ := steps hr hc hn ha
    have A := agrees hp0 c B.ran B.before (nested_prefix hn) ha.before
    have hk := ih c B.ran B.before (nested_prefix hn) ha.before (before hP)
    obtain ⟨-, -, m, -, -⟩ := modes h B.ran
    have hf := B.fed
    have hreg' : latest setsRegion false h = true := hreg
    rw [step_d02 B.fine, updateCoordinates_eq] at hf
    simp only [withXY, Out.ok, m, hreg', if_true] at hf
    rw [feed_singleton] at hf
    refine kept_flush hf hk fun g gs hg => ?_
    rw [A.contour hreg] at hg
    exact hP.contours h _ [] s g gs rfl (.inl ⟨x, y, rfl⟩) hreg hp0 (Option.some.inj hg)
  | @regionEnd h s hp0 hreg ih =>
    intro c' hr hc hn ha hP
    obtain ⟨c, B⟩ := steps hr hc hn ha
    have A := agrees hp0 c B.ran B.before (nested_prefix hn) ha.before
    have hk := ih c B.ran B.before (nested_prefix hn) ha.before (before hP)
    have hf := B.fed
    simp only [Visitor.step, stepLeaf, Out.ok] at hf
    obtain ⟨c2, h3, h4⟩ := feed_cons_ok.1 hf
    rw [feed_singleton] at h4
    cases h4
    have : Kept c2 := kept_flush h3 hk fun g gs hg => by
      rw [A.contour hreg] at hg
      exact hP.contours h _ [] s g gs rfl (.inr rfl) hreg hp0 (Option.some.inj hg)
    exact this
  | @move h s x y hp0 hreg ih =>
    intro c' hr hc hn ha hP
    obtain ⟨c, B⟩ := steps hr hc hn ha
    have hk := ih c B.ran B.before (nested_prefix hn) ha.before (before hP)
    obtain ⟨-, -, m, -, -⟩ := modes h B.ran
    have hf := B.fed
    have hreg' : latest setsRegion false h = false := hreg
    rw [step_d02 B.fine, updateCoordinates_eq] at hf
    simp only [withXY, Out.ok, m, hreg', Bool.false_eq_true, if_false] at hf
    cases hf
    exact hk
  | other _ hl ih =>
    intro c' hr hc hn ha hP
    obtain ⟨c, B⟩ := steps hr hc hn ha
    obtain ⟨rfl, e⟩ := silent_step hl B.ran' B.before B.after
    exact ih _ B.ran B.before (nested_prefix hn) ha.before (before hP)

end Verif.SoundLayers
