import Verif.Lemmas.Leveled
import Verif.Spec.Correct
import Verif.Props.Picture
import Verif.Props.Layers

/-!
# Commands that describe a picture are compiled
-/

namespace Verif.Lemmas.Compiles
open Verif.Visitor Verif.Coord Verif.Geom Verif.Rvmc Verif.Compiler Verif.Spec Verif.Props.State Verif.Macro
  Verif.Props.Compiler Verif.Props.FlashImage Verif.Props.MacroShape Verif.Props.Stroke Verif.Props.Repeat
  Verif.Props.Picture Verif.Lemmas.Picture
noncomputable section

/-! ### Levels along a history -/

theorem closed_opened {h : List Atom} (hn : Nested h) {id : Name} (hm : .abClose id ∈ h) : .abOpen id ∈ h := by
  by_contra hno
  have hb := blocks_balance id h hn
  have h0 : h.countP (opensBlock id) = 0 := by
    rw [List.countP_eq_zero]
    intro a ha
    cases a with
    | abOpen i =>
      simp only [opensBlock, beq_iff_eq]
      rintro rfl
      exact hno ha
    | _ => simp [opensBlock]
  have h1 : 0 < h.countP (closesBlock id) := by
    rw [List.countP_pos_iff]
    exact ⟨_, hm, by simp [closesBlock]⟩
  omega

theorem block_closed {h : List Atom} (hr : (run {} h).exn = none) {id : Name}
    (hc : (run {} h).st.currentAperture = .ok (.ab id)) : .abClose id ∈ h := by
  obtain ⟨-, -, i3, -, -⟩ := selected_inv h hr
  have : (run {} h).st.blocks.get? id = some () := by
    unfold VState.currentAperture at hc
    split at hc
    · cases hc
    · split at hc
      · cases hc
      · split at hc
        · cases hc; assumption
        · cases hc
  rw [i3 id] at this
  by_contra hno
  have h2 := latest_append_of_none (abOf id) none [] h (by
    intro b hb
    cases b with
    | abClose i =>
      simp only [abOf]
      rw [if_neg]
      rintro rfl
      exact hno hb
    | _ => rfl)
  rw [List.nil_append, this] at h2
  cases h2

theorem leveled_inv {env : Env} {D : Name → Prop} (h : List Atom) : ∀ c, (run {} h).exn = none → compiled env h = .ok c →
    Nested h → (∀ id d, .leaf (.ad id d) ∈ h → D id) → (∀ id, .abOpen id ∈ h → ¬ D id) → Leveled D c := by
  induction h using List.reverseRecOn with
  | nil => intro c _ hc _ _ _; cases hc; exact init_leveled D
  | append_singleton h a ih =>
    intro c hr hc hn had hab
    obtain ⟨hr1, hr2⟩ := run_snoc_none.1 hr
    rw [compiled_snoc hr1] at hc
    obtain ⟨c1, e1, e2⟩ := Compiler.bind_ok.1 hc
    have hf := ih c1 hr1 e1 (nested_prefix hn) (fun n b hb => had n b (List.mem_append_left _ hb))
      (fun n hb => hab n (List.mem_append_left _ hb))
    refine feed_leveled _ _ _ hf ?_ e2
    intro e he
    have k := ev_cases hr2 e he
    cases e with
    | define i d s => cases k; exact had i d (by simp)
    | abOpen i => cases k; exact hab i (by simp)
    | flash kind ap t =>
      obtain ⟨-, k2, -⟩ := k
      cases ap with
      | ad i d =>
        obtain ⟨d', hd⟩ := Verif.Props.Layers.aperture_defined h hr1 k2
        exact had i d' (List.mem_append_left _ hd)
      | ab i => exact hab i (List.mem_append_left _ (closed_opened (nested_prefix hn) (block_closed hr1 k2)))
    | _ => trivial

theorem opened_once {h : List Atom} (ho : DefinedOnce h) {id : Name} {d : ApDef} (h1 : .leaf (.ad id d) ∈ h)
    (h2 : .abOpen id ∈ h) : False := by
  have hs := codes_split h id
  have := ho id
  have p1 : 0 < h.countP (opensBlock id) := List.countP_pos_iff.2 ⟨_, h2, by simp [opensBlock]⟩
  have p2 : 0 < h.countP (fun a => opensCode id a && !opensBlock id a) :=
    List.countP_pos_iff.2 ⟨_, h1, by simp [opensBlock, opensCode]⟩
  omega

/-- Codes given to apertures. -/
def Given (h : List Atom) (id : Name) : Prop := ∃ d, .leaf (.ad id d) ∈ h

theorem leveled {env : Env} {h : List Atom} {c : CState} (hr : (run {} h).exn = none) (hc : compiled env h = .ok c)
    (hn : Nested h) (ho : DefinedOnce h) : Leveled (Given h) c :=
  leveled_inv h c hr hc hn (fun _ d hd => ⟨d, hd⟩) (fun _ h2 ⟨_, h1⟩ => opened_once ho h1 h2)

/-! ### The flash handler -/

theorem handler_inv : ∀ h, (run {} h).exn = none → DefinedOnce h → Nested h → ∀ ap k,
    (run {} h).st.currentAperture = .ok ap → (run {} h).st.flashHandler = some k → (k = .block ↔ ∃ id, ap = .ab id) := by
  refine history_induction ?_ ?_
  · intro _ _ ap k h; cases h
  · intro h a h1 h2 ih ho hn ap k hap hk
    have ih := ih (once_prefix ho) (nested_prefix hn)
    rw [run_snoc_st h1] at hap hk
    have same : ∀ s' : VState, s'.currentAperture = (run {} h).st.currentAperture →
        s'.flashHandler = (run {} h).st.flashHandler → s'.currentAperture = .ok ap → s'.flashHandler = some k →
        (k = .block ↔ ∃ id, ap = .ab id) := by
      intro s' e1 e2 hap hk
      rw [e1] at hap; rw [e2] at hk
      exact ih ap k hap hk
    refine step_elim h2 (P := fun a s' => (Visitor.step (run {} h).st a).exn = none → DefinedOnce (h ++ [a]) → Nested (h ++ [a]) →
      s'.currentAperture = .ok ap → s'.flashHandler = some k →
      (k = .block ↔ ∃ id, ap = .ab id)) ?_ ?_ ?_ ?_ ?_ h2 ho hn hap hk
    · intro x y i j _ _ _; exact same _ rfl rfl
    · intro x y _ _ _; exact same _ rfl rfl
    · intro x y _ _ _; exact same _ rfl rfl
    · intro id ap' hap' _ _ _ hap hk
      have e : ap' = ap := by
        have h3 : (.ok ap' : Except Exn Aperture) = .ok ap := hap'.symm.trans hap
        cases h3; rfl
      subst e
      cases hk
      cases ap' with
      | ad i d => cases d <;> simp [flashKind]
      | ab i => simp [flashKind]
    · intro a hp hs hst ho hn
      cases a with
      | leaf l =>
        cases l <;> try (simp [isPlain] at hp; done)
        all_goals try exact same _ rfl rfl
        case td m => cases m <;> exact same _ rfl rfl
        case ad i d =>
          intro hap hk
          have hcur : ∃ ap0, (run {} h).st.currentAperture = .ok ap0 := by
            obtain ⟨-, -, -, i4, i5⟩ := selected_inv h h1
            have hk' : (run {} h).st.flashHandler = some k := hk
            cases hid : (run {} h).st.apId with
            | none => rw [i4.1 hid] at hk'; cases hk'
            | some id => exact i5 id hid
          obtain ⟨ap0, hap0⟩ := hcur
          have hne : (run {} h).st.apId ≠ some i := by
            intro hid
            have hid0 := currentAperture_id hap0
            cases ap0 with
            | ad i' d' =>
              have := hid0.1 i' d' rfl
              rw [hid] at this; cases this
              obtain ⟨d'', hd''⟩ := Verif.Props.Layers.aperture_defined h h1 hap0
              have h3 := once_new ho (id := i) (by simp [opensCode]) _ hd''
              simp [opensCode] at h3
            | ab i' =>
              have := hid0.2 i' rfl
              rw [hid] at this; cases this
              exact no_ad ho hn (id := i) (by simp [block_closed h1 hap0]) d (by simp)
          refine same (Visitor.step (run {} h).st (.leaf (.ad i d))).st ?_ rfl hap hk
          simp only [Visitor.step, stepLeaf, Out.ok, storeAttributes, VState.currentAperture]
          cases hid : (run {} h).st.apId with
          | none => rfl
          | some id =>
            simp only [Dict.get?_set]
            rw [if_neg (fun e => hne (by rw [hid, e]))]
      | abClose i =>
        intro hap hk
        have hcur : ∃ ap0, (run {} h).st.currentAperture = .ok ap0 := by
          obtain ⟨-, -, -, i4, i5⟩ := selected_inv h h1
          have hk' : (run {} h).st.flashHandler = some k := hk
          cases hid : (run {} h).st.apId with
          | none => rw [i4.1 hid] at hk'; cases hk'
          | some id => exact i5 id hid
        obtain ⟨ap0, hap0⟩ := hcur
        have hlast := (hn h (.abClose i) [] rfl).1 i rfl
        have hopen : some i ∈ openBlocks h := List.mem_of_head? hlast
        obtain ⟨n1, n2⟩ := not_open h1 (once_prefix ho) (nested_prefix hn) hap0
        have hne : (run {} h).st.apId ≠ some i := by
          intro hid
          have hid0 := currentAperture_id hap0
          cases ap0 with
          | ad i' d' =>
            have := hid0.1 i' d' rfl
            rw [hid] at this; cases this
            exact n1 _ _ rfl hopen
          | ab i' =>
            have := hid0.2 i' rfl
            rw [hid] at this; cases this
            exact n2 _ rfl hopen
        refine same (Visitor.step (run {} h).st (.abClose i)).st ?_ rfl hap hk
        simp only [Visitor.step, Out.ok, storeAttributes, VState.currentAperture]
        cases hid : (run {} h).st.apId with
        | none => rfl
        | some id =>
          simp only [Dict.get?_set]
          rw [if_neg (fun e => hne (by rw [hid, e]))]
      | _ => exact same _ rfl rfl

/-! ### Coordinates -/

theorem coordinate_succeeds {h : List Atom} (hr : (run {} h).exn = none) {axis : Axis} {put : ℚ → VState → VState}
    {t : Option (List Char)} (ht : ∀ txt, t = some txt → ∃ f v, FormatInForce h f ∧ f.unpack axis txt = .ok v) {s : VState}
    (hs : s.format = (run {} h).st.format) :
    (coordinate axis put t s).exn = none ∧ ((coordinate axis put t s).st = s ∨ ∃ v, (coordinate axis put t s).st = put v s) := by
  cases t with
  | none => exact ⟨rfl, .inl rfl⟩
  | some txt =>
    obtain ⟨f, v, hf, hv⟩ := ht txt rfl
    rcases format_inv h hr with ⟨-, e2, e3⟩ | ⟨g, f', e1, e2, e3⟩
    · exfalso
      rcases hf with hf | ⟨-, ⟨a, ha, hn⟩, -⟩
      · rw [e2] at hf; cases hf
      · have h3 : setsNotation a = false := e3 a ha
        rw [h3] at hn; cases hn
    · cases formatInForce_unique hf e2
      have hu := (e3.unpack axis txt).trans hv
      simp only [coordinate, hs, e1, hu]
      exact ⟨rfl, .inr ⟨v, rfl⟩⟩

theorem visitXY_succeeds {h : List Atom} (hr : (run {} h).exn = none) {x y : Option (List Char)}
    (hx : ∀ txt, x = some txt → ∃ f v, FormatInForce h f ∧ f.unpack .x txt = .ok v)
    (hy : ∀ txt, y = some txt → ∃ f v, FormatInForce h f ∧ f.unpack .y txt = .ok v) :
    visitXY x y (run {} h).st = .ok (withXY (run {} h).st x y) := by
  refine visitXY_ok ?_
  unfold visitXY
  rw [Out.andThen_exn_none]
  obtain ⟨k1, k2⟩ := coordinate_succeeds hr (put := fun v s => s.putX v) hx (s := (run {} h).st) rfl
  refine ⟨k1, (coordinate_succeeds hr hy ?_).1⟩
  rcases k2 with e | ⟨v, e⟩ <;> rw [e]
  rfl

theorem visitIJ_succeeds {h : List Atom} (hr : (run {} h).exn = none) {i j : Option (List Char)} {s : VState}
    (hs : s.format = (run {} h).st.format)
    (hi : ∀ txt, i = some txt → ∃ f v, FormatInForce h f ∧ f.unpack .x txt = .ok v)
    (hj : ∀ txt, j = some txt → ∃ f v, FormatInForce h f ∧ f.unpack .y txt = .ok v) :
    (visitIJ i j s).exn = none := by
  unfold visitIJ
  rw [Out.andThen_exn_none]
  obtain ⟨k1, k2⟩ := coordinate_succeeds hr (put := fun v s => s.putI v) hi (s := s) hs
  refine ⟨k1, (coordinate_succeeds hr hj ?_).1⟩
  rcases k2 with e | ⟨v, e⟩ <;> rw [e]
  · exact hs
  · exact hs

theorem d01_succeeds {h : List Atom} {x y i j : Option (List Char)} (hr : (run {} h).exn = none)
    (he : Executable (h ++ [.leaf (.d01 x y i j)])) : (Visitor.step (run {} h).st (.leaf (.d01 x y i j))).exn = none := by
  have key := fun axis t ht => he.readable h (.leaf (.d01 x y i j)) [] axis t rfl ht
  simp only [Visitor.step, stepLeaf]
  rw [Out.andThen_exn_none]
  refine ⟨?_, rfl⟩
  rw [visitXY_succeeds (x := x) (y := y) hr (fun t ht => key .x t (.inl ht)) (fun t ht => key .y t (.inl ht)), Out.andThen_exn_none]
  exact ⟨rfl, visitIJ_succeeds (i := i) (j := j) hr rfl (fun t ht => key .x t (.inr ht)) (fun t ht => key .y t (.inr ht))⟩

theorem d02_succeeds {h : List Atom} {x y : Option (List Char)} (hr : (run {} h).exn = none)
    (he : Executable (h ++ [.leaf (.d02 x y)])) : (Visitor.step (run {} h).st (.leaf (.d02 x y))).exn = none := by
  have key := fun axis t ht => he.readable h (.leaf (.d02 x y)) [] axis t rfl ht
  simp only [Visitor.step, stepLeaf]
  rw [visitXY_succeeds (x := x) (y := y) hr (fun t ht => key .x t (.inl ht)) (fun t ht => key .y t (.inl ht)), Out.andThen_exn_none]
  exact ⟨rfl, rfl⟩

theorem d03_succeeds {h : List Atom} {x y : Option (List Char)} (hr : (run {} h).exn = none)
    (he : Executable (h ++ [.leaf (.d03 x y)])) {ap : Aperture} (hap : (run {} h).st.currentAperture = .ok ap) :
    (Visitor.step (run {} h).st (.leaf (.d03 x y))).exn = none := by
  have key := fun axis t ht => he.readable h (.leaf (.d03 x y)) [] axis t rfl ht
  obtain ⟨-, -, -, i4, -⟩ := selected_inv h hr
  simp only [Visitor.step, stepLeaf]
  rw [visitXY_succeeds (x := x) (y := y) hr (fun t ht => key .x t (.inl ht)) (fun t ht => key .y t (.inl ht)), Out.andThen_ok]
  have hc : (withXY (run {} h).st x y).currentAperture = .ok ap := hap
  cases hf : (run {} h).st.flashHandler with
  | none =>
    exfalso
    have := i4.2 hf
    simp [VState.currentAperture, this] at hap
  | some k =>
    have hf' : (withXY (run {} h).st x y).flashHandler = some k := hf
    simp only [flashCurrent, hc, hf']
    rfl

/-! ### Macros and definitions -/

theorem runPrims_succeeds {env : Env} {id : LayerId} {ρ : List Char → Option ℚ} {body : List Prim}
    {figures : List (Bool × Figure)} (h : MacroPaints ρ body figures) :
    ∀ (scope : Dict Name ℚ) (cmds : List Compiler.Cmd) (c : CState), scope.get? = ρ → SoundMacro ρ body →
      ∃ c', runPrims env id body scope cmds c = .ok c' := by
  induction h with
  | nil ρ => intro scope cmds c _ _; exact ⟨_, rfl⟩
  | assign hv _ ih =>
    rename_i ρ name e v rest figures _
    intro scope cmds c hρ hs
    subst hρ
    obtain ⟨c', h'⟩ := ih (scope.set name v) cmds c (by
      funext n
      rw [Dict.get?_set]
      by_cases hn : name = n
      · subst hn; simp
      · rw [if_neg hn, if_neg (Ne.symm hn)]) (hs v hv)
    refine ⟨c', ?_⟩
    simp only [runPrims, primitive, value_evalE hv]
    simpa [PrimOut.shapes, bind, Except.bind, pure, Except.pure] using h'
  | primitive hp _ ih =>
    rename_i ρ p rest drawn figures _
    intro scope cmds c hρ hs
    subst hρ
    obtain ⟨hs1, hs2⟩ := soundMacro_prim hp hs
    obtain ⟨o, o1, o2, o3, -⟩ := c65_primitive_partial (env.time c.calls) scope p drawn hp hs1
    obtain ⟨c', h'⟩ := ih o.scope (cmds ++ o.cmds) { c with calls := c.calls + o.ticks } (by rw [o2]) hs2
    exact ⟨c', by simp only [runPrims, o1, bind, Except.bind, o3]; exact h'⟩
  | thermal hv hk hod hg _ ih =>
    rename_i ρ node cx cy outer inner gap rotation x y od k g r rest figures _
    intro scope cmds c hρ hs
    subst hρ
    obtain ⟨hs1, hs2⟩ : Sound scope.get? (.code7 node cx cy outer inner gap rotation) ∧ SoundMacro scope.get? rest := hs
    have hv' := hv
    rcases hv' with _ | ⟨v1, _ | ⟨v2, _ | ⟨v3, _ | ⟨v4, _ | ⟨v5, _ | ⟨v6, _ | _⟩⟩⟩⟩⟩⟩
    obtain ⟨o, layer, drawn, l, o1, o2, -, o4, -, -⟩ := c65_thermal_partial (env.time c.calls) scope node cx cy outer inner gap
      rotation x y od k g r hv hk hod hg (hs1 k g v4 v5)
    obtain ⟨c', h'⟩ := ih o.scope (cmds ++ o.cmds) (create layer drawn { c with calls := c.calls + o.ticks }) (by rw [o2]) hs2
    exact ⟨c', by simp only [runPrims, o1, bind, Except.bind, o4]; exact h'⟩

theorem define_succeeds {env : Env} {id : Name} {d : ApDef} {s : VState} {c : CState} {figures : List (Bool × Figure)}
    (hf : AperturePaints s.macros.get? d figures) (hs : SoundAperture s.macros.get? d) :
    ∃ c', define env id d s c = .ok c' := by
  cases hf with
  | standard hm hf =>
    obtain ⟨c2, drawn, h1, -, -⟩ := define_depicts env id d s c figures hf hs
    exact ⟨c2, h1⟩
  | «macro» hm hb =>
    rename_i name params body
    simp only [define, hm]
    exact runPrims_succeeds hb _ _ _ (parameter_scope params) (hs body hm)

/-! ### Drawing -/

theorem append_succeeds {cmds : List Compiler.Cmd} {c : CState} (hne : c.stack ≠ [])
    (hb : ∀ k ∈ c.stack, ∃ b, c.buffers.get? k = some b) : ∃ c', append cmds c = .ok c' := by
  unfold append
  cases cmds with
  | nil => exact ⟨_, rfl⟩
  | cons d ds =>
    cases hs : c.stack with
    | nil => exact absurd hs hne
    | cons k ks =>
      obtain ⟨b, hb⟩ := hb k (by simp [hs])
      simp only [hb]
      exact ⟨_, rfl⟩

theorem stack_ne {h : List Atom} {c : CState} (ht : Tidy h c) : c.stack ≠ [] := by
  obtain ⟨front, e, -⟩ := ht.stack
  rw [e]; simp

theorem stack_buffers {h : List Atom} {c : CState} {s : Sheet} (A : Agrees h c s) :
    ∀ k ∈ c.stack, ∃ b, c.buffers.get? k = some b := by
  intro k hk
  obtain ⟨o, -, os, h1, -⟩ := forall₂_mem A.drawn k hk
  obtain ⟨b, hb, -⟩ := shows_inv h1
  exact ⟨b, hb⟩

theorem flushRegion_succeeds {h : List Atom} {c : CState} {s : Sheet} (T : Tidy h c) (A : Agrees h c s) {v : VState}
    {g : List Segment} (hg : c.contour = some g) : ∃ c', flushRegion v c = .ok c' := by
  simp only [flushRegion, hg]
  cases g with
  | nil => exact ⟨_, rfl⟩
  | cons g gs =>
    obtain ⟨c', hc'⟩ := append_succeeds (cmds := [.shape ⟨g, gs, v.isNegative⟩]) (stack_ne T) (stack_buffers A)
    exact ⟨_, by simp only [hc', bind, Except.bind]; rfl⟩

/-! ### Every command succeeds -/

/-- All that is known before a command. -/
structure Ready (env : Env) (h : List Atom) (c : CState) (s : Sheet) : Prop where
  ran : (run {} h).exn = none
  done : compiled env h = .ok c
  nested : Nested h
  avoids : Avoids h
  tidy : Tidy h c
  agrees : Agrees h c s
  leveled : Leveled (Given h) c

theorem ready {env : Env} {h : List Atom} {s : Sheet} {c : CState} (hp : Pictured h s) (hr : (run {} h).exn = none)
    (hc : compiled env h = .ok c) (hn : Nested h) (ha : Avoids h) : Ready env h c s :=
  ⟨hr, hc, hn, ha, tidy h hr c hc ha.once hn ha.thermals, Props.Picture.agrees hp c hr hc hn ha, leveled hr hc hn ha.once⟩

/-- The visitor and the compiler got past the commands. -/
def Done (env : Env) (h : List Atom) : Prop := (run {} h).exn = none ∧ ∃ c, compiled env h = .ok c

theorem Ready.next {env : Env} {h : List Atom} {c : CState} {s : Sheet} (R : Ready env h c s) {a : Atom}
    (h2 : (Visitor.step (run {} h).st a).exn = none)
    (hf : ∃ c', feed env (Visitor.step (run {} h).st a).ev c = .ok c') : Done env (h ++ [a]) := by
  refine ⟨run_snoc_none.2 ⟨R.ran, h2⟩, ?_⟩
  rw [compiled_snoc R.ran, R.done]
  exact hf

variable {env : Env} {h : List Atom} {c : CState} {s : Sheet}

theorem Ready.outside (R : Ready env h c s) (cmds : List Compiler.Cmd) : ∃ c', append cmds c = .ok c' :=
  append_succeeds (stack_ne R.tidy) (stack_buffers R.agrees)

theorem Ready.flushed (R : Ready env h c s) (hreg : inRegion h = true) (v : VState) : ∃ c', flushRegion v c = .ok c' :=
  flushRegion_succeeds R.tidy R.agrees (R.agrees.contour hreg)

/-- A layer that can be flashed. -/
theorem Ready.copies (R : Ready env h c s) (hdepth : 3 ≤ env.depth) (m : Mat ℝ) {id : Name} {objects : List (Painted (Vec ℝ))}
    (hseen : Seen c (.ap id) objects) (hst : .ap id ∉ c.stack) :
    ∃ r b, bufferWithTransform m env.depth (.ap id) c = .ok r ∧ r.2.buffers.get? r.1 = some b ∧
      ∀ cmds, ∃ c', append cmds r.2 = .ok c' := by
  obtain ⟨os, h1, -⟩ := hseen
  obtain ⟨b, hb, -⟩ := shows_inv h1
  have hl := level_le (Given h) (.ap id)
  obtain ⟨r, hr⟩ := bufferWithTransform_succeeds m env.depth (.ap id) c R.tidy.synced R.leveled ⟨hst, by intro n t e; cases e⟩
    (by omega) ⟨b, hb⟩
  obtain ⟨-, g, b', hb'⟩ := bufferWithTransform_ok _ _ _ _ hr
  refine ⟨r, b', hr, hb', fun cmds => append_succeeds ?_ ?_⟩
  · rw [g.stack]; exact stack_ne R.tidy
  · intro k hk
    rw [g.stack] at hk
    obtain ⟨b2, hb2⟩ := stack_buffers R.agrees k hk
    exact ⟨b2, g.keeps k b2 hb2⟩

theorem Ready.flash (R : Ready env h c s) (hdepth : 3 ≤ env.depth) {x y : Option (List Char)}
    (he : Executable (h ++ [.leaf (.d03 x y)])) {id : Name} {objects : List (Painted (Vec ℝ))} {ap : Aperture}
    (hap : (run {} h).st.currentAperture = .ok ap) (hid : (∃ d, ap = .ad id d) ∨ ap = .ab id)
    (hseen : Seen c (.ap id) objects) (hst : .ap id ∉ c.stack) : Done env (h ++ [.leaf (.d03 x y)]) := by
  have h2 := d03_succeeds R.ran he hap
  refine R.next h2 ?_
  obtain ⟨ap', k, e1, e2, e3⟩ := step_d03 h2
  rw [hap] at e1; cases e1
  have hk := handler_inv h R.ran R.avoids.once R.nested ap k hap e2
  rw [e3]
  change ∃ c', feed env [_] c = .ok c'
  rw [feed_singleton]
  obtain ⟨r, b, r1, r2, r3⟩ := R.copies hdepth (transformMatrix (withXY (run {} h).st x y).transform) hseen hst
  rcases hid with ⟨d, rfl⟩ | rfl
  · have hne : k ≠ .block := fun e => by
      obtain ⟨i, hi⟩ := hk.1 e
      cases hi
    obtain ⟨c', hc'⟩ := r3 [.paste r.1 (endPoint (withXY (run {} h).st x y)) (withXY (run {} h).st x y).isNegative]
    refine ⟨c', ?_⟩
    cases k <;> first
      | exact absurd rfl hne
      | simpa only [Compiler.step, Compiler.flash, flashAperture, r1, bind, Except.bind] using hc'
  · have he := hk.2 ⟨id, rfl⟩
    subst he
    obtain ⟨c', hc'⟩ := r3 (moved (Mat.newTranslate ((withXY (run {} h).st x y).coordinateX : ℝ)
      ((withXY (run {} h).st x y).coordinateY : ℝ)) b)
    exact ⟨c', by simpa only [Compiler.step, Compiler.flash, flashBlock, r1, r2, bind, Except.bind] using hc'⟩

theorem Ready.draw (R : Ready env h c s) {x y i j : Option (List Char)} (he : Executable (h ++ [.leaf (.d01 x y i j)]))
    (hf : inRegion h = false → ∃ ss, drawShapes (drawingOf (latest setsPlot .linear h) (latest setsQuad .single h))
      (seen h x y i j) = .ok ss) : Done env (h ++ [.leaf (.d01 x y i j)]) := by
  have h2 := d01_succeeds R.ran he
  refine R.next h2 ?_
  obtain ⟨-, -, -, -, m⟩ := modes h R.ran
  rw [step_d01 h2, m]
  change ∃ c', feed env [_] c = .ok c'
  rw [feed_singleton]
  cases hreg : latest setsRegion false h with
  | true =>
    simp only [Compiler.step, Compiler.draw, if_true]
    cases drawingOf (latest setsPlot .linear h) (latest setsQuad .single h) <;>
      simp only [R.agrees.contour hreg] <;> exact ⟨_, rfl⟩
  | false =>
    obtain ⟨ss, hss⟩ := hf hreg
    obtain ⟨c', hc'⟩ := R.outside (ss.map .shape)
    refine ⟨c', ?_⟩
    simpa only [Compiler.step, Compiler.draw, if_false, Bool.false_eq_true, hss, bind, Except.bind] using hc'

theorem Ready.silent (R : Ready env h c s) {l : Leaf} (he : Executable (h ++ [.leaf l])) (hs : isSilent (.leaf l) = true)
    (hstop : isStop (.leaf l) = false) : Done env (h ++ [.leaf l]) := by
  have key : (Visitor.step (run {} h).st (.leaf l)).exn = none ∧ (Visitor.step (run {} h).st (.leaf l)).ev = [] := by
    cases l <;> first
      | (simp [isSilent] at hs; done)
      | (simp [isStop] at hstop; done)
      | exact ⟨rfl, rfl⟩
      | skip
    case td n => cases n <;> exact ⟨rfl, rfl⟩
    case dnn id =>
      refine ⟨(run_snoc_none.1 (c10_select_succeeds h id R.ran (he.defined h id [] rfl))).2, ?_⟩
      simp only [Visitor.step, stepLeaf]
      split <;> rfl
  exact R.next key.1 ⟨c, by rw [key.2]; rfl⟩

theorem current_single' (hr : (run {} h).exn = none) {id : Name} {d : ApDef} (hsel : selected h = some id)
    (hd : latest (adOf id) none h = some d) : (run {} h).st.currentAperture = .ok (.ad id d) := by
  obtain ⟨s1, s2, -, -, -⟩ := selected_inv _ hr
  have hid : (run {} h).st.apId = some id := s1.trans hsel
  simp only [VState.currentAperture, hid, (s2 id).trans hd]

theorem current_block' (hr : (run {} h).exn = none) {id : Name} (hsel : selected h = some id)
    (hd : latest (adOf id) none h = none) (hb : latest (abOf id) none h = some ()) :
    (run {} h).st.currentAperture = .ok (.ab id) := by
  obtain ⟨s1, s2, s3, -, -⟩ := selected_inv _ hr
  have hid : (run {} h).st.apId = some id := s1.trans hsel
  simp only [VState.currentAperture, hid, (s2 id).trans hd, (s3 id).trans hb]

theorem Executable.before {a : Atom} (he : Executable (h ++ [a])) : Executable h where
  readable p b q axis t e ht := he.readable p b (q ++ [a]) axis t (by rw [e]; simp) ht
  defined p id q e := he.defined p id (q ++ [a]) (by rw [e]; simp)
  repeated p r q e := he.repeated p r (q ++ [a]) (by rw [e]; simp)

/-- Commands that describe a picture are executed and compiled. -/
theorem compiles (hp : Pictured h s) (hdepth : 3 ≤ env.depth) : Nested h → Avoids h → Executable h →
    (∀ a ∈ h, isStop a = false) → Done env h := by
  -- what is known before a command
  have start : ∀ {h s}, Pictured h s → ∀ a, (Nested h → Avoids h → Executable h → (∀ a ∈ h, isStop a = false) → Done env h) →
      Nested (h ++ [a]) → Avoids (h ++ [a]) → Executable (h ++ [a]) → (∀ b ∈ h ++ [a], isStop b = false) →
      ∃ c, Ready env h c s := by
    intro h s hp a ih hn ha he hs
    obtain ⟨k1, c, k2⟩ := ih (nested_prefix hn) ha.before (Executable.before he) (fun b hb => hs b (List.mem_append_left _ hb))
    exact ⟨c, ready hp k1 k2 (nested_prefix hn) ha.before⟩
  induction hp with
  | start => intro _ _ _ _; exact ⟨rfl, _, rfl⟩
  | aperture h1 hreg hf ih =>
    rename_i h s id d figures
    intro hn ha he hs
    obtain ⟨c, R⟩ := start h1 _ ih hn ha he hs
    refine R.next rfl ?_
    change ∃ c', feed env [_] c = .ok c'
    rw [feed_singleton]
    have hm : (run {} h).st.macros.get? = fun name => latest (givesMacro name) none h := funext (macros_latest h R.ran)
    refine define_succeeds (figures := figures) ?_ ?_
    · change AperturePaints (run {} h).st.macros.get? d figures
      rw [hm]; exact hf
    · change SoundAperture (run {} h).st.macros.get? d
      rw [hm]; exact ha.apertures h id d [] rfl
  | blockOpen h1 hreg ih =>
    intro hn ha he hs
    obtain ⟨c, R⟩ := start h1 _ ih hn ha he hs
    exact R.next rfl ⟨_, rfl⟩
  | blockClose h1 hreg hd ih =>
    intro hn ha he hs
    obtain ⟨c, R⟩ := start h1 _ ih hn ha he hs
    refine R.next rfl ?_
    change ∃ c', feed env [_] c = .ok c'
    rw [feed_singleton]
    simp only [Compiler.step]
    cases hst : c.stack with
    | nil => exact absurd hst (stack_ne R.tidy)
    | cons k ks => exact ⟨_, rfl⟩
  | repeatOpen h1 hreg ih =>
    intro hn ha he hs
    obtain ⟨c, R⟩ := start h1 _ ih hn ha he hs
    exact R.next rfl ⟨_, rfl⟩
  | repeatClose h1 hreg hd ih =>
    rename_i h s p body rest
    intro hn ha he hs
    obtain ⟨c, R⟩ := start h1 _ ih hn ha he hs
    refine R.next rfl ?_
    change ∃ c', feed env [_] c = .ok c'
    rw [feed_singleton]
    simp only [Compiler.step, closeSr]
    obtain ⟨front, e1, e2⟩ := R.tidy.stack
    have hopen := (hn h (.srClose p) [] rfl).2 p rfl
    cases front with
    | nil =>
      rw [List.forall₂_nil_left_iff] at e2
      rw [e2] at hopen; cases hopen
    | cons k ks =>
      rw [List.cons_append] at e1
      obtain ⟨b, hb⟩ := stack_buffers R.agrees k (by rw [e1]; simp)
      obtain ⟨r1, r2⟩ := he.repeated h p [] rfl
      simp only [e1, hb]
      rw [if_neg (by rintro (e | e) <;> contradiction)]
      obtain ⟨c', hc'⟩ := append_succeeds (cmds := copies p (Visitor.step (run {} h).st (.srClose p)).st b)
        (c := { c with stack := ks ++ [.main] }) (by simp) (by
          intro k' hk'
          exact stack_buffers R.agrees k' (by rw [e1]; exact List.mem_cons_of_mem _ hk'))
      exact ⟨{ c' with buffers := c'.buffers.pop k }, by
        have hc2 : append (copies p (run {} h).st b) { c with stack := ks ++ [.main] } = .ok c' := hc'
        simp only [hc2, bind, Except.bind]; rfl⟩
  | flash h1 hreg hsel ht hat ih =>
    intro hn ha he hs
    obtain ⟨c, R⟩ := start h1 _ ih hn ha he hs
    obtain ⟨a1, a2, a3⟩ := R.agrees.single _ _ _ ht
    exact R.flash hdepth he (current_single' R.ran hsel a3) (.inl ⟨_, rfl⟩) a1 a2
  | flashBlock h1 hreg hsel ht hat ih =>
    intro hn ha he hs
    obtain ⟨c, R⟩ := start h1 _ ih hn ha he hs
    obtain ⟨a1, a2, a3, a4⟩ := R.agrees.block _ _ ht
    exact R.flash hdepth he (current_block' R.ran hsel a3 a4) (.inr rfl) a1 a2
  | stroke h1 hreg hsel ht hd hplot hat hat' ih =>
    intro hn ha he hs
    obtain ⟨c, R⟩ := start h1 _ ih hn ha he hs
    obtain ⟨a1, a2, a3⟩ := R.agrees.single _ _ _ ht
    refine R.draw he fun _ => ?_
    rw [hplot]
    refine ⟨_, by simp only [drawingOf, drawShapes, lineShapes, thickness_circle (current_single' R.ran hsel a3)]; rfl⟩
  | strokeArc h1 hreg hsel ht hd hplot hquad hi hj hat hat' hne hlen ih =>
    intro hn ha he hs
    obtain ⟨c, R⟩ := start h1 _ ih hn ha he hs
    obtain ⟨a1, a2, a3⟩ := R.agrees.single _ _ _ ht
    refine R.draw he fun _ => ?_
    rw [hquad, arc_kind hplot]
    split <;> exact ⟨_, arcShapes_ok (thickness_circle (current_single' R.ran hsel a3) _) _⟩
  | regionStart h1 hreg ih =>
    intro hn ha he hs
    obtain ⟨c, R⟩ := start h1 _ ih hn ha he hs
    exact R.next rfl ⟨_, rfl⟩
  | regionLine h1 hreg hplot hat hat' ih =>
    intro hn ha he hs
    obtain ⟨c, R⟩ := start h1 _ ih hn ha he hs
    exact R.draw he fun e => by rw [hreg] at e; cases e
  | regionArc h1 hreg hplot hquad hi hj hat hat' hne ih =>
    intro hn ha he hs
    obtain ⟨c, R⟩ := start h1 _ ih hn ha he hs
    exact R.draw he fun e => by rw [hreg] at e; cases e
  | regionCircle h1 hreg hplot hquad hi hj hat hat' ih =>
    intro hn ha he hs
    obtain ⟨c, R⟩ := start h1 _ ih hn ha he hs
    exact R.draw he fun e => by rw [hreg] at e; cases e
  | regionMove h1 hreg ih =>
    intro hn ha he hs
    obtain ⟨c, R⟩ := start h1 _ ih hn ha he hs
    have h2 := d02_succeeds R.ran he
    refine R.next h2 ?_
    rw [step_d02 h2]
    obtain ⟨c', hc'⟩ := R.flushed hreg (withXY (run {} _).st _ _).updateCoordinates
    simp only [Out.ok]
    split
    · exact ⟨c', by rw [feed_singleton]; exact hc'⟩
    · exact ⟨c, rfl⟩
  | regionEnd h1 hreg ih =>
    intro hn ha he hs
    obtain ⟨c, R⟩ := start h1 _ ih hn ha he hs
    refine R.next rfl ?_
    rename_i h s
    obtain ⟨c', hc'⟩ := R.flushed hreg (run {} h).st
    refine ⟨{ c' with contour := none }, ?_⟩
    simp only [Visitor.step, stepLeaf, Out.ok, feed, Compiler.step, hc', bind, Except.bind]
  | move h1 hreg ih =>
    rename_i h s x y
    intro hn ha he hs
    obtain ⟨c, R⟩ := start h1 _ ih hn ha he hs
    have h2 := d02_succeeds R.ran he
    refine R.next h2 ?_
    rw [step_d02 h2]
    have hreg' : (withXY (run {} h).st x y).updateCoordinates.isRegion = false := by
      obtain ⟨-, -, m, -, -⟩ := modes h R.ran
      have e : (withXY (run {} h).st x y).updateCoordinates.isRegion = (run {} h).st.isRegion := by
        rw [updateCoordinates_eq]; rfl
      exact e.trans (m.trans hreg)
    simp only [hreg']
    exact ⟨c, rfl⟩
  | other h1 hsil ih =>
    intro hn ha he hs
    obtain ⟨c, R⟩ := start h1 _ ih hn ha he hs
    exact R.silent he hsil (hs _ (by simp))

end
end Verif.Lemmas.Compiles
