import Verif.Lemmas.Leveled

/-!
# What layers paste

Layers paste copies of apertures that were flashed, apertures paste their own thermals, and thermals are not empty.
-/

namespace Verif.Compiler
open Verif.Visitor Verif.Geom Verif.Rvmc Verif.Spec Verif.Macro Verif.Props.State
noncomputable section

/-- What a layer is a copy of. -/
def LayerId.base : LayerId → LayerId
  | .xform k _ => k.base
  | k => k

/-- `F` are the codes that were flashed, `T` the thermals of an aperture. -/
structure Marked (D : Name → Prop) (F : Name → Prop) (T : Name → Nat → Prop) (c : CState) : Prop where
  flashed : ∀ k b, c.buffers.get? k = some b → ∀ s ∈ Draw.sources b, ∀ id, s.base = .ap id → F id
  thermal : ∀ id b, c.buffers.get? (.ap id) = some b → ∀ s ∈ Draw.sources b, s.level D = 0 → ∃ n t, s = .code7 n t ∧ T id n
  full : ∀ n t b, c.buffers.get? (.code7 n t) = some b → b ≠ []

/-- Callbacks of the kinds named. -/
def Marks (F : Name → Prop) (T : Name → Nat → Prop) : Event → Prop
  | .define i d s => ∀ n ∈ thermalsOf d s, T i n
  | .flash _ (.ad i _) _ => F i
  | _ => True

variable {D : Name → Prop} {F : Name → Prop} {T : Name → Nat → Prop}

theorem Marked.grows {m : Mat ℝ} {c c' : CState} (h : Marked D F T c) (g : Grows m c c') : Marked D F T c' := by
  refine ⟨?_, ?_, ?_⟩
  · intro k
    induction k with
    | xform y m' ih =>
      intro b hb
      rcases g.news y m' b hb with h1 | ⟨rfl, cmds, h2, rfl⟩
      · exact h.flashed _ _ h1
      · intro s hs
        rw [sources_map_retarget] at hs
        obtain ⟨s', hs', rfl⟩ := List.mem_map.1 hs
        exact ih _ h2 s' hs'
    | _ =>
      intro b hb
      rw [g.other] at hb
      · exact h.flashed _ _ hb
      · exact fun h => h
  · intro id b hb
    rw [g.other _ (by simp [LayerId.isXform])] at hb
    exact h.thermal id b hb
  · intro n t b hb
    rw [g.other _ (by simp [LayerId.isXform])] at hb
    exact h.full n t b hb

theorem Marked.append {cmds : List Cmd} {c c' : CState} (h : Marked D F T c) (hst : ∀ k ∈ c.stack, k.level D = 2)
    (ha : append cmds c = .ok c') (hc : ∀ s ∈ Draw.sources cmds, s.level D = 1 ∧ ∀ id, s.base = .ap id → F id) : Marked D F T c' := by
  obtain ⟨-, -, -, a4⟩ := append_ok ha
  have key : ∀ k b, c'.buffers.get? k = some b → c.buffers.get? k = some b ∨
      (k ∈ c.stack ∧ ∃ b0, c.buffers.get? k = some b0 ∧ b = b0 ++ cmds) := by
    intro k b hb
    rw [a4] at hb
    split at hb
    · next hk =>
      cases hg : c.buffers.get? k with
      | none => simp [hg] at hb
      | some b0 =>
        simp only [hg, Option.map_some, Option.some.injEq] at hb
        exact .inr ⟨List.mem_of_head? hk, b0, rfl, hb.symm⟩
    · exact .inl hb
  refine ⟨?_, ?_, ?_⟩
  · intro k b hb s hs
    rcases key k b hb with h1 | ⟨-, b0, h1, rfl⟩
    · exact h.flashed k b h1 s hs
    · rw [sources_append] at hs
      rcases List.mem_append.1 hs with hs | hs
      · exact h.flashed k b0 h1 s hs
      · exact (hc s hs).2
  · intro id b hb s hs hl
    rcases key _ b hb with h1 | ⟨-, b0, h1, rfl⟩
    · exact h.thermal id b h1 s hs hl
    · rw [sources_append] at hs
      rcases List.mem_append.1 hs with hs | hs
      · exact h.thermal id b0 h1 s hs hl
      · have := (hc s hs).1
        omega
  · intro n t b hb
    rcases key _ b hb with h1 | ⟨hk, -⟩
    · exact h.full n t b h1
    · have := hst _ hk
      simp [LayerId.level] at this

/-- A layer without pastes. -/
theorem Marked.create {id : LayerId} {cmds : List Cmd} {c : CState} (h : Marked D F T c)
    (hc : ∀ s ∈ Draw.sources cmds, ∃ i n t, id = .ap i ∧ s = .code7 n t ∧ T i n)
    (hf : (∃ n t, id = .code7 n t) → cmds ≠ []) : Marked D F T (create id cmds c) := by
  have key : ∀ k b, (Compiler.create id cmds c).buffers.get? k = some b → c.buffers.get? k = some b ∨ (k = id ∧ b = cmds) := by
    intro k b hb
    simp only [Compiler.create, Dict.get?_set] at hb
    split at hb
    · next e => cases hb; exact .inr ⟨e.symm, rfl⟩
    · exact .inl hb
  refine ⟨?_, ?_, ?_⟩
  · intro k b hb s hs i hi
    rcases key k b hb with h1 | ⟨rfl, rfl⟩
    · exact h.flashed k b h1 s hs i hi
    · obtain ⟨_, n, t, -, rfl, -⟩ := hc s hs
      cases hi
  · intro i b hb s hs hl
    rcases key _ b hb with h1 | ⟨e, rfl⟩
    · exact h.thermal i b h1 s hs hl
    · obtain ⟨i', n, t, e', rfl, ht⟩ := hc s hs
      rw [← e] at e'; cases e'
      exact ⟨n, t, rfl, ht⟩
  · intro n t b hb
    rcases key _ b hb with h1 | ⟨e, rfl⟩
    · exact h.full n t b h1
    · exact hf ⟨n, t, e.symm⟩

theorem primitive_layer {now scope p o} (h : primitive now scope p = .ok o) : ∀ l, o.layer = some l → l.2 ≠ [] := by
  have base : ∀ sc ss, ∀ l, (PrimOut.shapes sc ss).layer = some l → l.2 ≠ [] := nofun
  cases p with
  | code0 => cases h; exact base _ _
  | code1 e d x y r =>
    simp only [primitive] at h
    obtain ⟨_, _, h⟩ := bind_ok.1 h
    obtain ⟨_, _, h⟩ := bind_ok.1 h
    obtain ⟨_, _, h⟩ := bind_ok.1 h
    obtain ⟨_, _, h⟩ := bind_ok.1 h
    cases r with
    | none => rw [pure_ok] at h; subst h; exact base _ _
    | some r =>
      obtain ⟨_, _, h⟩ := bind_ok.1 h
      rw [pure_ok] at h; subst h; exact base _ _
  | code7 node cx cy outer inner gap rotation =>
    simp only [primitive, thermal] at h
    obtain ⟨_, _, h⟩ := bind_ok.1 h
    obtain ⟨_, _, h⟩ := bind_ok.1 h
    obtain ⟨_, _, h⟩ := bind_ok.1 h
    obtain ⟨_, _, h⟩ := bind_ok.1 h
    split at h
    · rw [pure_ok] at h; subst h; exact base _ _
    · obtain ⟨_, _, h⟩ := bind_ok.1 h
      obtain ⟨_, _, h⟩ := bind_ok.1 h
      split at h
      · rw [pure_ok] at h; subst h; exact base _ _
      · obtain ⟨_, _, h⟩ := bind_ok.1 h
        rw [pure_ok] at h; subst h
        intro l hl
        cases hl
        simp
  | _ =>
    simp only [primitive] at h
    repeat (obtain ⟨_, _, h⟩ := bind_ok.1 h)
    rw [pure_ok] at h; subst h; exact base _ _

theorem runPrims_marked {env : Env} {id : Name} : ∀ (ps : List Prim) (scope cmds) (c c' : CState),
    runPrims env (.ap id) ps scope cmds c = .ok c' → (∀ n ∈ thermals ps, T id n) →
    (∀ s ∈ Draw.sources cmds, ∃ n t, s = .code7 n t ∧ T id n) → Marked D F T c → Marked D F T c' := by
  intro ps
  induction ps with
  | nil =>
    intro scope cmds c c' h _ hs hf
    cases h
    refine hf.create (fun s hs' => ?_) (by rintro ⟨n, t, e⟩; cases e)
    obtain ⟨n, t, e, ht⟩ := hs s hs'
    exact ⟨id, n, t, rfl, e, ht⟩
  | cons p ps ih =>
    intro scope cmds c c' h ht hs hf
    obtain ⟨o, h1, h2⟩ := bind_ok.1 h
    obtain ⟨k1, k2⟩ := primitive_thermals h1
    rw [thermals_cons] at ht
    refine ih _ _ _ _ h2 (fun n hn => ht n (List.mem_append_right _ hn)) ?_ ?_
    · intro s hs'
      rw [sources_append] at hs'
      rcases List.mem_append.1 hs' with hs' | hs'
      · exact hs s hs'
      · obtain ⟨l, l1, rfl⟩ := k1 s hs'
        obtain ⟨⟨n, e, e2⟩, -⟩ := k2 l l1
        exact ⟨n, _, e, ht n (by rw [e2]; simp)⟩
    · have hf' : Marked D F T { c with calls := c.calls + o.ticks } := ⟨hf.flashed, hf.thermal, hf.full⟩
      cases hl : o.layer with
      | none => exact hf'
      | some l =>
        refine hf'.create ?_ (fun _ => primitive_layer h1 l hl)
        rw [(k2 l hl).2]; intro s hs; cases hs

theorem define_marked {env : Env} {id d s c c'} (ht : ∀ n ∈ thermalsOf d s, T id n)
    (h : define env id d s c = .ok c') (hf : Marked D F T c) : Marked D F T c' := by
  have base : ∀ sh hole limit, Marked D F T (create (.ap id) (.shape sh :: holeOf hole limit) c) := by
    intro sh hole limit
    refine hf.create ?_ (by rintro ⟨n, t, e⟩; cases e)
    have : Draw.sources (.shape sh :: holeOf hole limit) = [] := by
      have := sources_holeOf hole limit
      simp only [Draw.sources, List.filterMap_cons] at this ⊢
      exact this
    rw [this]; intro s hs; cases hs
  cases d with
  | circle _ _ => cases h; exact base ..
  | rect _ _ _ => cases h; exact base ..
  | obround _ _ _ => cases h; exact base ..
  | polygon _ _ _ _ =>
    obtain ⟨_, _, h⟩ := bind_ok.1 h
    rw [pure_ok] at h; subst h; exact base ..
  | «macro» name params =>
    simp only [define] at h
    split at h
    · cases h
    · next body hb =>
      refine runPrims_marked _ _ _ _ _ h ?_ (by intro s hs; cases hs) (hf.create (by intro s hs; cases hs) (by rintro ⟨n, t, e⟩; cases e))
      simpa only [thermalsOf, hb] using ht

theorem step_marked {env : Env} {e : Event} {c c' : CState} (hm : Marked D F T c)
    (hn : Leveled D c) (hr : Sorted D e) (hk : Marks F T e) (h : step env e c = .ok c') : Marked D F T c' := by
  have hst := hn.stack
  have shapes : ∀ (ss : List Shape), ∀ s ∈ Draw.sources (ss.map (Draw.shape (ι := LayerId))), s.level D = 1 ∧
      ∀ id, s.base = .ap id → F id := by
    intro ss s hs; rw [sources_shapes] at hs; cases hs
  cases e with
  | draw kind r s =>
    simp only [step, draw] at h
    split at h
    · cases kind <;> simp only at h <;> first | (cases h; exact hm) | skip
      all_goals
        split at h
        · cases h
        · cases h; exact ⟨hm.flashed, hm.thermal, hm.full⟩
    · obtain ⟨ss, _, h2⟩ := bind_ok.1 h
      exact hm.append hst h2 (shapes ss)
  | flash k ap s =>
    simp only [step, Compiler.flash] at h
    split at h
    · next id =>
      obtain ⟨c1, b, g, hb, h2⟩ := flashBlock_ok h
      refine (hm.grows g).append (by rw [g.stack]; exact hst) h2 ?_
      rw [sources_moved]
      intro x hx
      have := (hn.grows g).below _ _ hb x hx
      simp only [LayerId.level] at this
      rw [if_neg hr] at this
      exact ⟨by omega, (hm.grows g).flashed _ _ hb x hx⟩
    · cases h
    · obtain ⟨c1, b, g, hb, h2⟩ := flashAperture_ok h
      refine (hm.grows g).append (by rw [g.stack]; exact hst) h2 ?_
      intro s hs
      simp only [Draw.sources, List.filterMap_cons, List.filterMap_nil, List.mem_singleton] at hs
      subst hs
      refine ⟨?_, ?_⟩
      · simp only [LayerId.level]
        exact if_pos hr
      · intro i hi
        cases hi
        exact hk
    · cases h
  | startRegion => cases h; exact ⟨hm.flashed, hm.thermal, hm.full⟩
  | flushRegion s =>
    simp only [step, flushRegion] at h
    split at h
    · cases h
    · cases h; exact ⟨hm.flashed, hm.thermal, hm.full⟩
    · obtain ⟨c1, h1, h2⟩ := bind_ok.1 h
      rw [pure_ok] at h2; subst h2
      have : Marked D F T c1 := hm.append hst h1 (shapes [_])
      exact ⟨this.flashed, this.thermal, this.full⟩
  | endRegion => cases h; exact ⟨hm.flashed, hm.thermal, hm.full⟩
  | define i d s => exact define_marked hk h hm
  | abOpen i =>
    cases h
    have := hm.create (id := .ap i) (cmds := []) (by intro s hs; cases hs) (by rintro ⟨n, t, e⟩; cases e)
    exact ⟨this.flashed, this.thermal, this.full⟩
  | abClose i =>
    simp only [step] at h
    split at h
    · cases h
    · cases h
      exact ⟨hm.flashed, hm.thermal, hm.full⟩
  | srOpen p =>
    cases h
    have := hm.create (id := .sr p.node (env.time c.calls)) (cmds := []) (by intro s hs; cases hs) (by rintro ⟨n, t, e⟩; cases e)
    exact ⟨this.flashed, this.thermal, this.full⟩
  | srClose p s =>
    simp only [step, closeSr] at h
    split at h
    · cases h
    · next id' rest he =>
      split at h
      · cases h
      · next body hbody =>
        split at h
        · cases h
        · obtain ⟨c1, h1, h2⟩ := bind_ok.1 h
          rw [pure_ok] at h2; subst h2
          have : Marked D F T c1 := by
            refine Marked.append (c := { c with stack := rest }) ⟨hm.flashed, hm.thermal, hm.full⟩
              (fun k hk => hst k (by rw [he]; exact List.mem_cons_of_mem _ hk)) h1 ?_
            intro x hx
            have h3 := sources_copies p s body x hx
            have := hn.below _ _ hbody x h3
            rw [hn.stack id' (by rw [he]; simp)] at this
            exact ⟨by omega, hm.flashed _ _ hbody x h3⟩
          have pop : ∀ k b, (c1.buffers.pop id').get? k = some b → c1.buffers.get? k = some b := by
            intro k b hb
            simp only [Dict.get?_pop] at hb
            split at hb
            · cases hb
            · exact hb
          exact ⟨fun k b hb => this.flashed k b (pop k b hb), fun k b hb => this.thermal k b (pop _ b hb),
            fun n t b hb => this.full n t b (pop _ b hb)⟩

theorem init_marked : Marked D F T CState.init := by
  have key : ∀ k b, CState.init.buffers.get? k = some b → k = .main ∧ b = [] := by
    intro k b hb
    simp only [CState.init, Dict.get?] at hb
    split at hb
    · next e => cases hb; exact ⟨e.symm, rfl⟩
    · cases hb
  refine ⟨?_, ?_, ?_⟩
  · intro k b hb s hs; rw [(key k b hb).2] at hs; cases hs
  · intro k b hb s hs; rw [(key _ b hb).2] at hs; cases hs
  · intro n t b hb; cases (key _ b hb).1

theorem feed_marked {env : Env} : ∀ (es : List Event) (c c' : CState), Marked D F T c →
    Leveled D c → (∀ e ∈ es, Sorted D e ∧ Marks F T e) → feed env es c = .ok c' → Marked D F T c' := by
  intro es
  induction es with
  | nil => intro c c' hf _ _ h; cases h; exact hf
  | cons e es ih =>
    intro c c' hf hl hr h
    obtain ⟨c1, h1, h2⟩ := feed_cons_ok.1 h
    obtain ⟨r1, r2⟩ := hr e List.mem_cons_self
    exact ih c1 c' (step_marked hf hl r1 r2 h1) (step_leveled hl r1 h1) (fun e he => hr e (List.mem_cons_of_mem _ he)) h2

end
end Verif.Compiler
