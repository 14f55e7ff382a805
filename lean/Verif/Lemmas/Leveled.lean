import Verif.Lemmas.SyncedHistory

/-!
# How deep layers are nested

In a file that gives no code both to an aperture and to a block, the layers of thermals paste nothing, those of apertures
paste thermals only, and all others paste copies of apertures only.
-/

namespace Verif.Compiler
open Verif.Visitor Verif.Geom Verif.Rvmc Verif.Spec Verif.Macro
noncomputable section

open Classical in
/-- How deep pastes go below a layer: `D` are the codes of apertures other than blocks. -/
def LayerId.level (D : Name → Prop) : LayerId → Nat
  | .code7 _ _ => 0
  | .ap id => if D id then 1 else 2
  | .xform k _ => k.level D
  | _ => 2

/-- Every layer pastes layers of the next level only, and what is being drawn on is at the top. -/
structure Leveled (D : Name → Prop) (c : CState) : Prop where
  below : ∀ k b, c.buffers.get? k = some b → ∀ s ∈ Draw.sources b, s.level D + 1 = k.level D
  stack : ∀ k ∈ c.stack, k.level D = 2

theorem level_le (D : Name → Prop) : ∀ k : LayerId, k.level D ≤ 2 := by
  intro k
  induction k with
  | ap id => simp only [LayerId.level]; split <;> omega
  | xform k m ih => exact ih
  | _ => simp [LayerId.level]

/-- Callbacks that respect the division of codes into blocks and others. -/
def Sorted (D : Name → Prop) : Event → Prop
  | .define i _ _ => D i
  | .abOpen i => ¬ D i
  | .flash _ (.ad i _) _ => D i
  | .flash _ (.ab i) _ => ¬ D i
  | _ => True

theorem Leveled.grows {D : Name → Prop} {m : Mat ℝ} {c c' : CState} (h : Leveled D c) (g : Grows m c c') : Leveled D c' := by
  refine ⟨?_, by rw [g.stack]; exact h.stack⟩
  intro k
  induction k with
  | xform y m' ih =>
    intro b hb
    rcases g.news y m' b hb with h1 | ⟨rfl, cmds, h2, rfl⟩
    · exact h.below _ _ h1
    · intro s hs
      rw [sources_map_retarget] at hs
      obtain ⟨s', hs', rfl⟩ := List.mem_map.1 hs
      exact ih _ h2 s' hs'
  | _ =>
    intro b hb
    rw [g.other] at hb
    · exact h.below _ _ hb
    · exact fun h => h

theorem Leveled.append {D : Name → Prop} {cmds : List Cmd} {c c' : CState} (h : Leveled D c) (ha : append cmds c = .ok c')
    (hc : ∀ s ∈ Draw.sources cmds, s.level D = 1) : Leveled D c' := by
  obtain ⟨a1, -, -, a4⟩ := append_ok ha
  refine ⟨?_, by rw [a1]; exact h.stack⟩
  intro k b hb
  rw [a4] at hb
  split at hb
  · next hk =>
    cases hg : c.buffers.get? k with
    | none => simp [hg] at hb
    | some b0 =>
      simp only [hg, Option.map_some, Option.some.injEq] at hb
      subst hb
      intro s hs
      rw [sources_append] at hs
      rcases List.mem_append.1 hs with hs | hs
      · exact h.below k b0 hg s hs
      · rw [hc s hs, h.stack k (List.mem_of_head? hk)]
  · exact h.below k b hb

theorem Leveled.create {D : Name → Prop} {id : LayerId} {cmds : List Cmd} {c : CState} (h : Leveled D c)
    (hc : ∀ s ∈ Draw.sources cmds, s.level D + 1 = id.level D) : Leveled D (create id cmds c) := by
  refine ⟨?_, h.stack⟩
  intro k b hb
  simp only [Compiler.create, Dict.get?_set] at hb
  split at hb
  · next e => cases hb; subst e; exact hc
  · exact h.below k b hb

theorem runPrims_leveled {D : Name → Prop} {env : Env} {id : Name} (hid : D id) : ∀ (ps : List Prim) (scope cmds) (c c' : CState),
    runPrims env (.ap id) ps scope cmds c = .ok c' → (∀ s ∈ Draw.sources cmds, s.level D = 0) → Leveled D c → Leveled D c' := by
  have hl : (LayerId.ap id).level D = 1 := by simp [LayerId.level, hid]
  intro ps
  induction ps with
  | nil =>
    intro scope cmds c c' h hs hf
    cases h
    exact hf.create fun s hs' => by rw [hs s hs', hl]
  | cons p ps ih =>
    intro scope cmds c c' h hs hf
    obtain ⟨o, h1, h2⟩ := bind_ok.1 h
    obtain ⟨k1, k2⟩ := primitive_thermals h1
    refine ih _ _ _ _ h2 ?_ ?_
    · intro s hs'
      rw [sources_append] at hs'
      rcases List.mem_append.1 hs' with hs' | hs'
      · exact hs s hs'
      · obtain ⟨l, l1, rfl⟩ := k1 s hs'
        obtain ⟨⟨n, e, -⟩, -⟩ := k2 l l1
        rw [e]; rfl
    · have hf' : Leveled D { c with calls := c.calls + o.ticks } := ⟨hf.below, hf.stack⟩
      cases hl : o.layer with
      | none => exact hf'
      | some l =>
        refine hf'.create ?_
        rw [(k2 l hl).2]; intro s hs; cases hs

theorem define_leveled {D : Name → Prop} {env : Env} {id d s c c'} (hid : D id)
    (h : define env id d s c = .ok c') (hf : Leveled D c) : Leveled D c' := by
  have base : ∀ sh hole limit, Leveled D (create (.ap id) (.shape sh :: holeOf hole limit) c) := by
    intro sh hole limit
    refine hf.create ?_
    have : Draw.sources (.shape sh :: holeOf hole limit) = [] := by
      have := sources_holeOf hole limit
      simp only [Draw.sources, List.filterMap_cons] at this ⊢
      exact this
    rw [this]; intro s hs; cases hs
  cases d with
  | circle _ _ => cases h; exact base ..
  | rect _ _ _ => cases h; exact base ..
  | obround _ _ _ => cases h; exact base ..
  | polygon _ _ _ _ =>
    obtain ⟨_, _, h⟩ := bind_ok.1 h
    rw [pure_ok] at h; subst h; exact base ..
  | «macro» name params =>
    simp only [define] at h
    split at h
    · cases h
    · next body hb =>
      exact runPrims_leveled hid _ _ _ _ _ h (by intro s hs; cases hs) (hf.create (by intro s hs; cases hs))

theorem step_leveled {D : Name → Prop} {env : Env} {e : Event} {c c' : CState} (hn : Leveled D c) (hr : Sorted D e)
    (h : step env e c = .ok c') : Leveled D c' := by
  have shapes : ∀ (ss : List Shape), ∀ s ∈ Draw.sources (ss.map (Draw.shape (ι := LayerId))), s.level D = 1 := by
    intro ss s hs; rw [sources_shapes] at hs; cases hs
  cases e with
  | draw kind r s =>
    simp only [step, draw] at h
    split at h
    · cases kind <;> simp only at h <;> first | (cases h; exact hn) | skip
      all_goals
        split at h
        · cases h
        · cases h; exact ⟨hn.below, hn.stack⟩
    · obtain ⟨ss, _, h2⟩ := bind_ok.1 h
      exact hn.append h2 (shapes ss)
  | flash k ap s =>
    simp only [step, Compiler.flash] at h
    split at h
    · next id =>
      obtain ⟨c1, b, g, hb, h2⟩ := flashBlock_ok h
      refine (hn.grows g).append h2 ?_
      rw [sources_moved]
      intro x hx
      have := (hn.grows g).below _ _ hb x hx
      simp only [LayerId.level] at this
      rw [if_neg hr] at this
      omega
    · cases h
    · obtain ⟨c1, b, g, hb, h2⟩ := flashAperture_ok h
      refine (hn.grows g).append h2 ?_
      intro s hs
      simp only [Draw.sources, List.filterMap_cons, List.filterMap_nil, List.mem_singleton] at hs
      subst hs
      simp only [LayerId.level]
      exact if_pos hr
    · cases h
  | startRegion => cases h; exact ⟨hn.below, hn.stack⟩
  | flushRegion s =>
    simp only [step, flushRegion] at h
    split at h
    · cases h
    · cases h; exact ⟨hn.below, hn.stack⟩
    · obtain ⟨c1, h1, h2⟩ := bind_ok.1 h
      rw [pure_ok] at h2; subst h2
      have : Leveled D c1 := hn.append h1 (shapes [_])
      exact ⟨this.below, this.stack⟩
  | endRegion => cases h; exact ⟨hn.below, hn.stack⟩
  | define i d s => exact define_leveled hr h hn
  | abOpen i =>
    cases h
    have := hn.create (id := .ap i) (cmds := []) (by intro s hs; cases hs)
    refine ⟨this.below, ?_⟩
    intro k hk
    rcases List.mem_cons.1 hk with rfl | hk
    · exact if_neg hr
    · exact hn.stack k hk
  | abClose i =>
    simp only [step] at h
    split at h
    · cases h
    · next hst =>
      cases h
      exact ⟨hn.below, fun k hk => hn.stack k (by rw [hst]; exact List.mem_cons_of_mem _ hk)⟩
  | srOpen p =>
    cases h
    have := hn.create (id := .sr p.node (env.time c.calls)) (cmds := []) (by intro s hs; cases hs)
    refine ⟨this.below, ?_⟩
    intro k hk
    rcases List.mem_cons.1 hk with rfl | hk
    · rfl
    · exact hn.stack k hk
  | srClose p s =>
    simp only [step, closeSr] at h
    split at h
    · cases h
    · next id' rest he =>
      split at h
      · cases h
      · next body hbody =>
        split at h
        · cases h
        · obtain ⟨c1, h1, h2⟩ := bind_ok.1 h
          rw [pure_ok] at h2; subst h2
          have : Leveled D c1 := by
            refine Leveled.append (c := { c with stack := rest })
              ⟨hn.below, fun k hk => hn.stack k (by rw [he]; exact List.mem_cons_of_mem _ hk)⟩ h1 ?_
            intro x hx
            have := hn.below _ _ hbody x (sources_copies p s body x hx)
            rw [hn.stack id' (by rw [he]; simp)] at this
            omega
          refine ⟨?_, this.stack⟩
          intro k b hb
          simp only [Dict.get?_pop] at hb
          split at hb
          · cases hb
          · exact this.below k b hb

theorem init_leveled (D : Name → Prop) : Leveled D CState.init := by
  refine ⟨?_, ?_⟩
  · intro k b hb
    simp only [CState.init, Dict.get?] at hb
    split at hb
    · cases hb; intro s hs; cases hs
    · cases hb
  · intro k hk
    simp only [CState.init, List.mem_singleton] at hk
    subst hk; rfl

theorem feed_leveled {D : Name → Prop} {env : Env} : ∀ (es : List Event) (c c' : CState), Leveled D c →
    (∀ e ∈ es, Sorted D e) → feed env es c = .ok c' → Leveled D c' := by
  intro es
  induction es with
  | nil => intro c c' hf _ h; cases h; exact hf
  | cons e es ih =>
    intro c c' hf hr h
    obtain ⟨c1, h1, h2⟩ := feed_cons_ok.1 h
    exact ih c1 c' (step_leveled hf (hr e List.mem_cons_self) h1) (fun e he => hr e (List.mem_cons_of_mem _ he)) h2

/-! ## Copies are made within three levels -/

theorem transformCmds_succeeds {m : Mat ℝ} {get : LayerId → CState → Except CErr (LayerId × CState)} {D : Name → Prop} {n : Nat}
    (hget : ∀ s (c : CState), Synced c → Leveled D c → Settled c s → s.level D < n → (∃ b, c.buffers.get? s = some b) →
      ∃ r, get s c = .ok r ∧ Synced r.2 ∧ Leveled D r.2 ∧ Grows m c r.2) :
    ∀ (cmds : List Cmd) (c : CState), Synced c → Leveled D c →
      (∀ s ∈ Draw.sources cmds, Fixed s ∧ s.level D < n ∧ ∃ b, c.buffers.get? s = some b) →
      ∃ r, transformCmds m get cmds c = .ok r := by
  intro cmds
  induction cmds with
  | nil => intro c _ _ _; exact ⟨_, rfl⟩
  | cons d cmds ih =>
    intro c hs hl hsrc
    cases d with
    | shape s =>
      obtain ⟨r, hr⟩ := ih c hs hl hsrc
      exact ⟨_, by simp only [transformCmds, hr, bind, Except.bind]; rfl⟩
    | paste src center neg =>
      obtain ⟨h1, h2, h3⟩ := hsrc src (by simp [Draw.sources])
      obtain ⟨b, b1, b2, b3, b4⟩ := hget src c hs hl (hs.settled h1) h2 h3
      obtain ⟨r, hr⟩ := ih b.2 b2 b3 (by
        intro s hs'
        obtain ⟨k1, k2, b', k3⟩ := hsrc s (by simp only [Draw.sources, List.filterMap_cons, List.mem_cons]; exact .inr hs')
        exact ⟨k1, k2, b', b4.keeps _ _ k3⟩)
      exact ⟨_, by simp only [transformCmds, b1, hr, bind, Except.bind]; rfl⟩

theorem bufferWithTransform_succeeds {D : Name → Prop} (m : Mat ℝ) : ∀ (n : Nat) (base : LayerId) (c : CState),
    Synced c → Leveled D c → Settled c base → base.level D < n → (∃ b, c.buffers.get? base = some b) →
    ∃ r, bufferWithTransform m n base c = .ok r := by
  intro n
  induction n with
  | zero => intro base c _ _ _ h; omega
  | succ n ih =>
    intro base c hs hl hb hlev hex
    obtain ⟨b, hbuf⟩ := hex
    simp only [bufferWithTransform]
    cases hx : c.buffers.get? (.xform base m) with
    | some _ => exact ⟨_, rfl⟩
    | none =>
      simp only [hbuf]
      obtain ⟨r, hr⟩ := transformCmds_succeeds (m := m) (get := bufferWithTransform m n) (D := D) (n := n) (by
        intro s c h1 h2 h3 h4 h5
        obtain ⟨r, hr⟩ := ih s c h1 h2 h3 h4 h5
        have hg := (bufferWithTransform_ok n s c r hr).2.1
        exact ⟨r, hr, bufferWithTransform_synced n s c r hr h1 h3, h2.grows hg, hg⟩) b c hs hl (by
        intro s hs'
        obtain ⟨k1, k2⟩ := hs.known base b hbuf s hs'
        have := hl.below base b hbuf s hs'
        exact ⟨k1, by omega, k2⟩)
      exact ⟨_, by rw [hr]; rfl⟩

/-! ## The order of the layers is found -/

/-- Layers without pastes. -/
theorem loop_bottom {env : Env} {c : CState} (hiter : ∀ l, (env.iter l).Perm l) {n : Nat} {root : LayerId} :
    ∀ (ds order : List LayerId), (∀ d ∈ ds, ∃ b, c.buffers.get? d = some b ∧ Draw.sources b = []) → root ∉ order →
      root ∉ ds → resolve.loop (resolve (dependsOn env c.buffers) (n + 1)) root ds order = .ok (order ++ ds) := by
  intro ds
  induction ds with
  | nil => intro order _ _ _; simp [resolve.loop]
  | cons d ds ih =>
    intro order hd h1 h2
    obtain ⟨b, hb, hsrc⟩ := hd d (by simp)
    have e : dependsOn env c.buffers d = some [] := by
      have : env.iter (Draw.sources b).dedup = [] := by rw [hsrc]; exact List.perm_nil.1 (hiter [])
      simp only [dependsOn, hb, Option.map_some, this]
    have hne : root ≠ d := fun h => h2 (by simp [h])
    have hrec : resolve (dependsOn env c.buffers) (n + 1) d order = .ok (order ++ [d]) := by
      unfold resolve
      rw [e]; rfl
    simp only [resolve.loop, hrec, bind, Except.bind]
    rw [if_neg (by simp [h1, hne]), ih _ (fun x hx => hd x (by simp [hx])) (by simp [h1, hne]) (fun h => h2 (by simp [h]))]
    simp

/-- The layers below a layer of the middle, in the order of submission. -/
def belowOf (env : Env) (c : CState) (p : LayerId) : List LayerId := (dependsOn env c.buffers p).getD []

theorem loop_middle {D : Name → Prop} {env : Env} {c : CState} (hs : Synced c) (hl : Leveled D c)
    (hiter : ∀ l, (env.iter l).Perm l) {n : Nat} {root : LayerId} (hroot : root.level D = 2) :
    ∀ (ds order : List LayerId), (∀ d ∈ ds, d.level D = 1 ∧ ∃ b, c.buffers.get? d = some b) →
      ds.Nodup → (∀ x ∈ order, x.level D ≤ 1) → (∀ d ∈ ds, d ∉ order) →
      resolve.loop (resolve (dependsOn env c.buffers) (n + 2)) root ds order =
        .ok (order ++ ds.flatMap fun p => belowOf env c p ++ [p]) := by
  intro ds
  induction ds with
  | nil => intro order _ _ _ _; simp [resolve.loop]
  | cons d ds ih =>
    intro order hd hnd hord hnot
    obtain ⟨hnd1, hnd2⟩ := List.nodup_cons.1 hnd
    obtain ⟨hlev, b, hb⟩ := hd d (by simp)
    have e : dependsOn env c.buffers d = some (env.iter (Draw.sources b).dedup) := by simp [dependsOn, hb]
    have hbel : belowOf env c d = env.iter (Draw.sources b).dedup := by simp [belowOf, e]
    have hmem : ∀ s, s ∈ env.iter (Draw.sources b).dedup ↔ s ∈ Draw.sources b := by
      intro s; rw [(hiter _).mem_iff, List.mem_dedup]
    have hzero : ∀ s ∈ Draw.sources b, s.level D = 0 := by
      intro s hs'
      have := hl.below d b hb s hs'
      omega
    have hrec : resolve (dependsOn env c.buffers) (n + 2) d order = .ok (order ++ (belowOf env c d ++ [d])) := by
      rw [hbel]
      unfold resolve
      rw [e]
      simp only
      rw [loop_bottom hiter _ _ ?_ (hnot d (by simp)) ?_]
      · simp [bind, Except.bind, pure, Except.pure]
      · intro s hs'
        rw [hmem] at hs'
        obtain ⟨-, b', hb'⟩ := hs.known d b hb s hs'
        refine ⟨b', hb', List.eq_nil_iff_forall_not_mem.2 fun s' hs'' => ?_⟩
        have := hl.below s b' hb' s' hs''
        have := hzero s hs'
        omega
      · rw [hmem]
        intro hx
        have := hzero d hx
        omega
    have hord' : ∀ x ∈ order ++ (belowOf env c d ++ [d]), x.level D ≤ 1 := by
      intro x hx
      rcases List.mem_append.1 hx with hx | hx
      · exact hord x hx
      · rcases List.mem_append.1 hx with hx | hx
        · rw [hbel, hmem] at hx
          have := hzero x hx
          omega
        · rw [List.mem_singleton.1 hx, hlev]
    simp only [resolve.loop, hrec, bind, Except.bind]
    rw [if_neg (fun h => by have := hord' _ h; omega), ih _ (fun x hx => hd x (by simp [hx])) hnd2 hord' ?_]
    · simp
    · intro x hx hin
      rcases List.mem_append.1 hin with hin | hin
      · exact hnot x (by simp [hx]) hin
      · rcases List.mem_append.1 hin with hin | hin
        · rw [hbel, hmem] at hin
          have := hzero x hin
          have := (hd x (by simp [hx])).1
          omega
        · rw [List.mem_singleton.1 hin] at hx
          exact hnd1 hx

/-- The order in which the layers are submitted. -/
theorem resolve_main {D : Name → Prop} {env : Env} {c : CState} (hs : Synced c) (hl : Leveled D c)
    (hiter : ∀ l, (env.iter l).Perm l) (hdepth : 3 ≤ env.depth) {b : List Cmd} (hb : c.buffers.get? .main = some b) :
    resolve (dependsOn env c.buffers) env.depth .main [] =
      .ok (((env.iter (Draw.sources b).dedup).flatMap fun p => belowOf env c p ++ [p]) ++ [.main]) := by
  obtain ⟨n, hn⟩ : ∃ n, env.depth = n + 3 := ⟨env.depth - 3, by omega⟩
  have e : dependsOn env c.buffers .main = some (env.iter (Draw.sources b).dedup) := by simp [dependsOn, hb]
  have hmem : ∀ s, s ∈ env.iter (Draw.sources b).dedup ↔ s ∈ Draw.sources b := by
    intro s; rw [(hiter _).mem_iff, List.mem_dedup]
  rw [hn]
  unfold resolve
  rw [e]
  simp only
  rw [loop_middle (D := D) hs hl hiter rfl _ _ ?_ ?_ (by intro x hx; cases hx) (by intro x _ hx; cases hx)]
  · simp [bind, Except.bind, pure, Except.pure]
  · intro d hd
    rw [hmem] at hd
    have := hl.below _ _ hb d hd
    exact ⟨by simpa [LayerId.level] using this, (hs.known _ _ hb d hd).2⟩
  · exact (hiter _).nodup_iff.2 (List.nodup_dedup _)

end
end Verif.Compiler
