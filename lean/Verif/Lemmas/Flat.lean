import Verif.Lemmas.Aperture

/-!
# Layers that paste nothing

In a file without thermals, and without codes that are both standard or macro apertures and blocks, whatever is pasted
is a transformed copy of a layer without pastes.
-/

namespace Verif.Compiler
open Verif.Visitor Verif.Geom Verif.Rvmc Verif.Spec Verif.Macro
noncomputable section

/-- Layers of apertures other than blocks, and transformed copies of them. -/
def LayerId.flat (B : Name → Prop) : LayerId → Prop
  | .ap id => ¬ B id
  | .xform k _ => k.flat B
  | _ => False

/-- Bodies of macros without thermals. -/
def noThermal (body : List Prim) : Prop := ∀ n a b c d e f, Prim.code7 n a b c d e f ∉ body

/-- Callbacks that respect the division of codes into blocks and others. -/
def Respects (B : Name → Prop) : Event → Prop
  | .define i _ s => ¬ B i ∧ ∀ name body, s.macros.get? name = some body → noThermal body
  | .abOpen i => B i
  | .flash _ (.ad i _) _ => ¬ B i
  | _ => True

/-- Only flat layers are pasted, and they paste nothing. -/
structure Flat (B : Name → Prop) (c : CState) : Prop where
  leafs : ∀ k b, k.flat B → c.buffers.get? k = some b → Draw.sources b = []
  pasted : ∀ k b, c.buffers.get? k = some b → ∀ s ∈ Draw.sources b, s.flat B
  stack : ∀ k ∈ c.stack, ¬ k.flat B

theorem sources_retarget_eq (m : Mat ℝ) (cmds : List Cmd) :
    Draw.sources (cmds.map (retarget m)) = (Draw.sources cmds).map (.xform · m) := by
  induction cmds with
  | nil => rfl
  | cons d ds ih =>
    cases d with
    | shape s => simpa [Draw.sources, retarget] using ih
    | paste s c n => simpa [Draw.sources, retarget] using ih

theorem Flat.grows {B : Name → Prop} {m : Mat ℝ} {c c' : CState} (h : Flat B c) (g : Grows m c c') : Flat B c' := by
  have key : ∀ k b, c'.buffers.get? k = some b → (k.flat B → Draw.sources b = []) ∧ ∀ s ∈ Draw.sources b, s.flat B := by
    intro k
    have old : ∀ {k b}, c.buffers.get? k = some b → (k.flat B → Draw.sources b = []) ∧ ∀ s ∈ Draw.sources b, s.flat B :=
      fun hb => ⟨fun hk => h.leafs _ _ hk hb, h.pasted _ _ hb⟩
    induction k with
    | xform y m' ih =>
      intro b hb
      rcases g.news y m' b hb with h1 | ⟨rfl, cmds, h2, rfl⟩
      · exact old h1
      · obtain ⟨i1, i2⟩ := ih _ h2
        rw [sources_retarget_eq]
        refine ⟨fun hk => by rw [i1 hk]; rfl, ?_⟩
        intro s hs
        obtain ⟨s', hs', rfl⟩ := List.mem_map.1 hs
        exact i2 s' hs'
    | _ =>
      intro b hb
      rw [g.other] at hb
      · exact old hb
      · exact fun h => h
  exact ⟨fun k b hk hb => (key k b hb).1 hk, fun k b hb => (key k b hb).2, by rw [g.stack]; exact h.stack⟩

theorem Flat.append {B : Name → Prop} {cmds : List Cmd} {c c' : CState} (h : Flat B c) (ha : append cmds c = .ok c')
    (hc : ∀ s ∈ Draw.sources cmds, s.flat B) : Flat B c' := by
  obtain ⟨a1, -, -, a4⟩ := append_ok ha
  refine ⟨?_, ?_, by rw [a1]; exact h.stack⟩
  · intro k b hk hb
    rw [a4, if_neg (fun hx => h.stack k (List.mem_of_head? hx) hk)] at hb
    exact h.leafs k b hk hb
  · intro k b hb
    rw [a4] at hb
    split at hb
    · cases hg : c.buffers.get? k with
      | none => simp [hg] at hb
      | some b0 =>
        simp only [hg, Option.map_some, Option.some.injEq] at hb
        subst hb
        intro s hs
        rw [sources_append] at hs
        rcases List.mem_append.1 hs with hs | hs
        · exact h.pasted k b0 hg s hs
        · exact hc s hs
    · exact h.pasted k b hb

theorem Flat.create {B : Name → Prop} {id : LayerId} {cmds : List Cmd} {c : CState} (h : Flat B c)
    (hc : Draw.sources cmds = []) : Flat B (create id cmds c) := by
  refine ⟨?_, ?_, h.stack⟩
  · intro k b hk hb
    simp only [Compiler.create, Dict.get?_set] at hb
    split at hb
    · cases hb; exact hc
    · exact h.leafs k b hk hb
  · intro k b hb
    simp only [Compiler.create, Dict.get?_set] at hb
    split at hb
    · cases hb; rw [hc]; intro s hs; cases hs
    · exact h.pasted k b hb

theorem primitive_flat {now scope p o} (hp : ∀ n a b c d e f, p ≠ Prim.code7 n a b c d e f)
    (h : primitive now scope p = .ok o) : Draw.sources o.cmds = [] ∧ o.layer = none := by
  have base : ∀ sc ss, Draw.sources (PrimOut.shapes sc ss).cmds = [] ∧ (PrimOut.shapes sc ss).layer = none :=
    fun sc ss => ⟨sources_shapes ss, rfl⟩
  cases p with
  | code0 => cases h; exact base _ _
  | code7 n cx cy od id g r => exact absurd rfl (hp n cx cy od id g r)
  | code1 e d cx cy rot =>
    simp only [primitive] at h
    repeat (obtain ⟨_, _, h⟩ := bind_ok.1 h)
    split at h
    · rw [pure_ok] at h; subst h; exact base _ _
    · repeat (obtain ⟨_, _, h⟩ := bind_ok.1 h)
      rw [pure_ok] at h; subst h; exact base _ _
  | _ =>
    simp only [primitive] at h
    repeat (obtain ⟨_, _, h⟩ := bind_ok.1 h)
    rw [pure_ok] at h; subst h; exact base _ _

theorem runPrims_flat {B : Name → Prop} {env : Env} {id : LayerId} : ∀ (ps : List Prim) (scope cmds) (c c' : CState),
    noThermal ps → runPrims env id ps scope cmds c = .ok c' → Draw.sources cmds = [] → Flat B c → Flat B c' := by
  intro ps
  induction ps with
  | nil => intro scope cmds c c' _ h hs hf; cases h; exact hf.create hs
  | cons p ps ih =>
    intro scope cmds c c' hn h hs hf
    obtain ⟨o, h1, h2⟩ := bind_ok.1 h
    obtain ⟨k1, k2⟩ := primitive_flat (fun n a b c d e f hx => hn n a b c d e f (hx ▸ List.mem_cons_self)) h1
    rw [k2] at h2
    exact ih _ _ _ _ (fun n a b c d e f hx => hn n a b c d e f (List.mem_cons_of_mem _ hx)) h2
      (by rw [sources_append, hs, k1]; rfl) ⟨hf.leafs, hf.pasted, hf.stack⟩

theorem define_flat {B : Name → Prop} {env : Env} {id d s c c'} (hm : ∀ name body, s.macros.get? name = some body → noThermal body)
    (h : define env id d s c = .ok c') (hf : Flat B c) : Flat B c' := by
  have base : ∀ sh hole limit, Flat B (create (.ap id) (.shape sh :: holeOf hole limit) c) := by
    intro sh hole limit
    refine hf.create ?_
    have := sources_holeOf hole limit
    simp only [Draw.sources, List.filterMap_cons] at this ⊢
    exact this
  cases d with
  | circle _ _ => cases h; exact base ..
  | rect _ _ _ => cases h; exact base ..
  | obround _ _ _ => cases h; exact base ..
  | polygon _ _ _ _ =>
    obtain ⟨_, _, h⟩ := bind_ok.1 h
    rw [pure_ok] at h; subst h; exact base ..
  | «macro» name params =>
    simp only [define] at h
    split at h
    · cases h
    · next body hb => exact runPrims_flat _ _ _ _ _ (hm _ _ hb) h rfl (hf.create rfl)

theorem step_flat {B : Name → Prop} {env : Env} {e : Event} {c c' : CState} (hn : Flat B c) (hr : Respects B e)
    (h : step env e c = .ok c') : Flat B c' := by
  have shapes : ∀ (ss : List Shape), ∀ s ∈ Draw.sources (ss.map (Draw.shape (ι := LayerId))), s.flat B := by
    intro ss s hs; rw [sources_shapes] at hs; cases hs
  cases e with
  | draw kind r s =>
    simp only [step, draw] at h
    split at h
    · cases kind <;> simp only at h <;> first | (cases h; exact hn) | skip
      all_goals
        split at h
        · cases h
        · cases h; exact ⟨hn.leafs, hn.pasted, hn.stack⟩
    · obtain ⟨ss, _, h2⟩ := bind_ok.1 h
      exact hn.append h2 (shapes ss)
  | flash k ap s =>
    simp only [step, Compiler.flash] at h
    split at h
    · obtain ⟨c1, b, g, hb, h2⟩ := flashBlock_ok h
      refine (hn.grows g).append h2 ?_
      rw [sources_moved]
      exact (hn.grows g).pasted _ _ hb
    · cases h
    · obtain ⟨c1, b, g, hb, h2⟩ := flashAperture_ok h
      refine (hn.grows g).append h2 ?_
      intro s hs
      simp only [Draw.sources, List.filterMap_cons, List.filterMap_nil, List.mem_singleton] at hs
      subst hs; exact hr
    · cases h
  | startRegion => cases h; exact ⟨hn.leafs, hn.pasted, hn.stack⟩
  | flushRegion s =>
    simp only [step, flushRegion] at h
    split at h
    · cases h
    · cases h; exact ⟨hn.leafs, hn.pasted, hn.stack⟩
    · obtain ⟨c1, h1, h2⟩ := bind_ok.1 h
      rw [pure_ok] at h2; subst h2
      have : Flat B c1 := hn.append h1 (shapes [_])
      exact ⟨this.leafs, this.pasted, this.stack⟩
  | endRegion => cases h; exact ⟨hn.leafs, hn.pasted, hn.stack⟩
  | define i d s => exact define_flat hr.2 h hn
  | abOpen i =>
    cases h
    have := hn.create (id := .ap i) (cmds := []) rfl
    refine ⟨this.leafs, this.pasted, ?_⟩
    intro k hk
    rcases List.mem_cons.1 hk with rfl | hk
    · exact fun hf => hf hr
    · exact hn.stack k hk
  | abClose i =>
    simp only [step] at h
    split at h
    · cases h
    · next hst =>
      cases h
      exact ⟨hn.leafs, hn.pasted, fun k hk => hn.stack k (by rw [hst]; exact List.mem_cons_of_mem _ hk)⟩
  | srOpen p =>
    cases h
    have := hn.create (id := .sr p.node (env.time c.calls)) (cmds := []) rfl
    refine ⟨this.leafs, this.pasted, ?_⟩
    intro k hk
    rcases List.mem_cons.1 hk with rfl | hk
    · exact fun hf => hf
    · exact hn.stack k hk
  | srClose p s =>
    simp only [step, closeSr] at h
    split at h
    · cases h
    · next id' rest he =>
      split at h
      · cases h
      · next body hbody =>
        split at h
        · cases h
        · obtain ⟨c1, h1, h2⟩ := bind_ok.1 h
          rw [pure_ok] at h2; subst h2
          have : Flat B c1 := by
            refine Flat.append (c := { c with stack := rest })
              ⟨hn.leafs, hn.pasted, fun k hk => hn.stack k (by rw [he]; exact List.mem_cons_of_mem _ hk)⟩ h1 ?_
            intro x hx
            simp only [copies, Draw.sources, List.mem_filterMap, List.mem_flatMap] at hx
            obtain ⟨d, ⟨a, -, b, -, hd⟩, hx⟩ := hx
            have : x ∈ Draw.sources (moved (Mat.newTranslate ((s.coordinateX + a * p.xDelta : ℚ) : ℝ)
                ((s.coordinateY + b * p.yDelta : ℚ) : ℝ)) body) := by
              simp only [Draw.sources, List.mem_filterMap]; exact ⟨d, hd, hx⟩
            rw [sources_moved] at this
            exact hn.pasted _ _ hbody x this
          refine ⟨?_, ?_, this.stack⟩
          · intro k b hk hb
            simp only [Dict.get?_pop] at hb
            split at hb
            · cases hb
            · exact this.leafs k b hk hb
          · intro k b hb
            simp only [Dict.get?_pop] at hb
            split at hb
            · cases hb
            · exact this.pasted k b hb

theorem init_flat (B : Name → Prop) : Flat B CState.init := by
  refine ⟨?_, ?_, ?_⟩
  · intro k b hk hb
    simp only [CState.init, Dict.get?] at hb
    split at hb
    · cases hb; rfl
    · cases hb
  · intro k b hb
    simp only [CState.init, Dict.get?] at hb
    split at hb
    · cases hb; intro s hs; cases hs
    · cases hb
  · intro k hk
    simp only [CState.init, List.mem_singleton] at hk
    subst hk; exact fun h => h

theorem feed_flat {B : Name → Prop} {env : Env} : ∀ (es : List Event) (c c' : CState), Flat B c →
    (∀ e ∈ es, Respects B e) → feed env es c = .ok c' → Flat B c' := by
  intro es
  induction es with
  | nil => intro c c' hf _ h; cases h; exact hf
  | cons e es ih =>
    intro c c' hf hr h
    obtain ⟨c1, h1, h2⟩ := feed_cons_ok.1 h
    exact ih c1 c' (step_flat hf (hr e List.mem_cons_self) h1) (fun e he => hr e (List.mem_cons_of_mem _ he)) h2

end
end Verif.Compiler
