import Verif.Lemmas.Compiler
import Mathlib.Data.List.Induction

/-!
# What happens to the layers of an aperture
-/

namespace Verif.Compiler
open Verif.Visitor Verif.Geom Verif.Rvmc Verif.Spec
noncomputable section

/-- No layer is pasted that belongs to an aperture directly: only transformed copies and thermals are. -/
def NoAp (c : CState) : Prop :=
  ∀ k b, c.buffers.get? k = some b → ∀ s ∈ Draw.sources b, ∀ id, s ≠ .ap id

/-- Layers being drawn are not transformed copies. -/
def Plain (c : CState) : Prop := ∀ id ∈ c.stack, ¬ id.isXform

/-- Callbacks that define an aperture. -/
def defines (id : Name) : Event → Prop
  | .define i _ _ => i = id
  | .abOpen i => i = id
  | _ => False

/-- Callbacks that flash an aperture with a matrix. -/
def flashes (id : Name) (m : Mat ℝ) : Event → Prop
  | .flash _ (.ad i _) s => i = id ∧ transformMatrix s.transform = m
  | .flash _ (.ab i) s => i = id ∧ transformMatrix s.transform = m
  | _ => False

theorem sources_retarget (m : Mat ℝ) (cmds : List Cmd) :
    ∀ s ∈ Draw.sources (cmds.map (retarget m)), ∀ id, s ≠ .ap id := by
  intro s hs id
  simp only [Draw.sources, List.mem_filterMap, List.mem_map] at hs
  obtain ⟨d, ⟨d', -, rfl⟩, h⟩ := hs
  cases d' with
  | shape _ => cases h
  | paste src ctr neg => simp only [retarget] at h; cases h; nofun

theorem sources_moved (m : Mat ℝ) (cmds : List Cmd) : Draw.sources (moved m cmds) = Draw.sources cmds := by
  simp only [Draw.sources, moved, List.filterMap_map]
  congr 1
  funext d
  cases d <;> rfl

theorem sources_append {ι : Type} (a b : List (Draw ι)) :
    Draw.sources (a ++ b) = Draw.sources a ++ Draw.sources b := List.filterMap_append ..

theorem sources_shapes {ι : Type} (ss : List Shape) : Draw.sources (ss.map (Draw.shape (ι := ι))) = [] := by
  simp only [Draw.sources, List.filterMap_map]
  rw [List.filterMap_eq_nil_iff]
  intros; rfl

theorem NoAp.grows {m : Mat ℝ} {c c' : CState} (h : NoAp c) (g : Grows m c c') : NoAp c' := by
  intro k b hb
  by_cases hk : k.isXform
  · cases k with
    | xform y m' =>
      rcases g.news y m' b hb with h1 | ⟨rfl, cmds, -, rfl⟩
      · exact h _ _ h1
      · exact sources_retarget _ _
    | _ => exact hk.elim
  · rw [g.other k hk] at hb
    exact h k b hb

theorem NoAp.append {cmds : List Cmd} {c c' : CState} (h : NoAp c) (ha : append cmds c = .ok c')
    (hc : ∀ s ∈ Draw.sources cmds, ∀ id, s ≠ .ap id) : NoAp c' := by
  intro k b hb
  rw [(append_ok ha).2.2.2 k] at hb
  split at hb
  · cases hg : c.buffers.get? k with
    | none => simp [hg] at hb
    | some b0 =>
      simp only [hg, Option.map_some, Option.some.injEq] at hb
      subst hb
      rw [sources_append]
      intro s hs
      rcases List.mem_append.1 hs with hs | hs
      · exact h k b0 hg s hs
      · exact hc s hs
  · exact h k b hb

theorem NoAp.create {id : LayerId} {cmds : List Cmd} {c : CState} (h : NoAp c)
    (hc : ∀ s ∈ Draw.sources cmds, ∀ id, s ≠ .ap id) : NoAp (create id cmds c) := by
  intro k b hb
  simp only [Compiler.create, Dict.get?_set] at hb
  split at hb
  · cases hb; exact hc
  · exact h k b hb

/-- A new transformed copy of an aperture is only made for that aperture. -/
theorem transformCmds_news {m : Mat ℝ} {get : LayerId → CState → Except CErr (LayerId × CState)}
    (hget : ∀ src c r, get src c = .ok r → NoAp c → Grows m c r.2 ∧
      ∀ id m' b, r.2.buffers.get? (.xform (.ap id) m') = some b →
        c.buffers.get? (.xform (.ap id) m') = some b ∨ src = .ap id) :
    ∀ (cmds : List Cmd) (c : CState) (r : List Cmd × CState), transformCmds m get cmds c = .ok r → NoAp c →
      (∀ s ∈ Draw.sources cmds, ∀ id, s ≠ .ap id) →
      ∀ id m' b, r.2.buffers.get? (.xform (.ap id) m') = some b → c.buffers.get? (.xform (.ap id) m') = some b := by
  intro cmds
  induction cmds with
  | nil => intro c r h _ _ id m' b hb; cases h; exact hb
  | cons d cmds ih =>
    intro c r h hn hs
    cases d with
    | shape s =>
      simp only [transformCmds] at h
      obtain ⟨r', h1, h2⟩ := bind_ok.1 h
      rw [pure_ok] at h2; subst h2
      exact ih c r' h1 hn hs
    | paste src center neg =>
      simp only [transformCmds] at h
      obtain ⟨b, h1, h2⟩ := bind_ok.1 h
      obtain ⟨r', h3, h4⟩ := bind_ok.1 h2
      rw [pure_ok] at h4; subst h4
      obtain ⟨g, hg⟩ := hget src c b h1 hn
      have hs' : ∀ s ∈ Draw.sources cmds, ∀ id, s ≠ .ap id := fun s h => hs s (by
        simp only [Draw.sources, List.filterMap_cons, List.mem_cons]; exact .inr h)
      have hs0 : ∀ id, src ≠ .ap id := hs src (by
        simp [Draw.sources])
      intro id m' x hx
      have := ih b.2 r' h3 (hn.grows g) hs' id m' x hx
      rcases hg id m' x this with h | h
      · exact h
      · exact absurd h (hs0 id)

theorem bufferWithTransform_news {m : Mat ℝ} : ∀ (n : Nat) (base : LayerId) (c : CState) (r : LayerId × CState),
    bufferWithTransform m n base c = .ok r → NoAp c →
      ∀ id m' b, r.2.buffers.get? (.xform (.ap id) m') = some b →
        c.buffers.get? (.xform (.ap id) m') = some b ∨ base = .ap id := by
  intro n
  induction n with
  | zero => intro base c r h; simp [bufferWithTransform] at h
  | succ n ih =>
    intro base c r h hn id m' b hb
    simp only [bufferWithTransform] at h
    split at h
    · cases h; exact .inl hb
    · split at h
      · cases h
      · next cmds hcmds =>
        obtain ⟨r', h1, h2⟩ := bind_ok.1 h
        rw [pure_ok] at h2; subst h2
        simp only [Compiler.create, Dict.get?_set] at hb
        split at hb
        · next heq => cases heq; exact .inr rfl
        · left
          refine transformCmds_news ?_ cmds c r' h1 hn (hn _ _ hcmds) id m' b hb
          intro src c r h hn
          exact ⟨(bufferWithTransform_ok n src c r h).2.1, ih src c r h hn⟩

theorem flashAperture_full {env : Env} {id s c c'} (hn : NoAp c) (h : flashAperture env id s c = .ok c') :
    ∃ c1 b, Grows (transformMatrix s.transform) c c1 ∧
      (∀ i m' b, c1.buffers.get? (.xform (.ap i) m') = some b → c.buffers.get? (.xform (.ap i) m') = some b ∨ id = i) ∧
      c1.buffers.get? (.xform (.ap id) (transformMatrix s.transform)) = some b ∧
      append [.paste (.xform (.ap id) (transformMatrix s.transform)) (endPoint s) s.isNegative] c1 = .ok c' := by
  obtain ⟨r, h1, h2⟩ := bind_ok.1 h
  obtain ⟨e1, g, b, hb⟩ := bufferWithTransform_ok _ _ _ _ h1
  rw [e1] at h2 hb
  refine ⟨r.2, b, g, ?_, hb, h2⟩
  intro i m' b hb
  rcases bufferWithTransform_news _ _ _ _ h1 hn i m' b hb with h | h
  · exact .inl h
  · cases h; exact .inr rfl

theorem flashBlock_full {env : Env} {id s c c'} (hn : NoAp c) (h : flashBlock env id s c = .ok c') :
    ∃ c1 b, Grows (transformMatrix s.transform) c c1 ∧
      (∀ i m' b, c1.buffers.get? (.xform (.ap i) m') = some b → c.buffers.get? (.xform (.ap i) m') = some b ∨ id = i) ∧
      c1.buffers.get? (.xform (.ap id) (transformMatrix s.transform)) = some b ∧
      append (moved (Mat.newTranslate (s.coordinateX : ℝ) (s.coordinateY : ℝ)) b) c1 = .ok c' := by
  obtain ⟨r, h1, h2⟩ := bind_ok.1 h
  obtain ⟨e1, g, b, hb⟩ := bufferWithTransform_ok _ _ _ _ h1
  rw [e1] at h2 hb
  rw [hb] at h2
  refine ⟨r.2, b, g, ?_, hb, h2⟩
  intro i m' b hb
  rcases bufferWithTransform_news _ _ _ _ h1 hn i m' b hb with h | h
  · exact .inl h
  · cases h; exact .inr rfl

theorem primitive_ok {now scope p o} (h : primitive now scope p = .ok o) :
    (∀ s ∈ Draw.sources o.cmds, ∃ n, s = .code7 n now) ∧
    (∀ l, o.layer = some l → (∃ n, l.1 = .code7 n now) ∧ Draw.sources l.2 = []) := by
  have base : ∀ sc ss, (∀ s ∈ Draw.sources (PrimOut.shapes sc ss).cmds, ∃ n, s = LayerId.code7 n now) ∧
      (∀ l, (PrimOut.shapes sc ss).layer = some l → (∃ n, l.1 = .code7 n now) ∧ Draw.sources l.2 = []) := by
    intro sc ss
    refine ⟨?_, nofun⟩
    intro s hs
    have : Draw.sources (PrimOut.shapes sc ss).cmds = [] := sources_shapes ss
    rw [this] at hs; cases hs
  cases p with
  | code0 => cases h; exact base _ _
  | code1 e d x y r =>
    simp only [primitive] at h
    obtain ⟨_, _, h⟩ := bind_ok.1 h
    obtain ⟨_, _, h⟩ := bind_ok.1 h
    obtain ⟨_, _, h⟩ := bind_ok.1 h
    obtain ⟨_, _, h⟩ := bind_ok.1 h
    cases r with
    | none => rw [pure_ok] at h; subst h; exact base _ _
    | some r =>
      obtain ⟨_, _, h⟩ := bind_ok.1 h
      rw [pure_ok] at h; subst h; exact base _ _
  | code7 node cx cy outer inner gap rotation =>
    simp only [primitive, thermal] at h
    obtain ⟨_, _, h⟩ := bind_ok.1 h
    obtain ⟨_, _, h⟩ := bind_ok.1 h
    obtain ⟨_, _, h⟩ := bind_ok.1 h
    obtain ⟨_, _, h⟩ := bind_ok.1 h
    split at h
    · rw [pure_ok] at h; subst h; exact base _ _
    · obtain ⟨_, _, h⟩ := bind_ok.1 h
      obtain ⟨_, _, h⟩ := bind_ok.1 h
      split at h
      · rw [pure_ok] at h; subst h; exact base _ _
      · obtain ⟨_, _, h⟩ := bind_ok.1 h
        rw [pure_ok] at h; subst h
        refine ⟨?_, ?_⟩
        · intro s hs
          simp only [Draw.sources, List.filterMap_cons, List.filterMap_nil, List.mem_singleton] at hs
          exact ⟨_, hs⟩
        · intro l hl
          cases hl
          exact ⟨⟨_, rfl⟩, sources_shapes _⟩
  | _ =>
    simp only [primitive] at h
    repeat (obtain ⟨_, _, h⟩ := bind_ok.1 h)
    rw [pure_ok] at h; subst h; exact base _ _

/-- What a definition does: it replaces the layer of the aperture, and may make layers for thermals. -/
structure Defined (id : Name) (c c' : CState) : Prop where
  stack : c'.stack = c.stack
  contour : c'.contour = c.contour
  other : ∀ k, k ≠ .ap id → (∀ n t, k ≠ .code7 n t) → c'.buffers.get? k = c.buffers.get? k
  made : ∃ b, c'.buffers.get? (.ap id) = some b
  noAp : NoAp c → NoAp c'

theorem runPrims_ok {env : Env} {id : Name} : ∀ (ps : List Macro.Prim) (scope cmds) (c c' : CState),
    runPrims env (.ap id) ps scope cmds c = .ok c' → (∀ s ∈ Draw.sources cmds, ∀ i, s ≠ .ap i) →
      Defined id c c' := by
  intro ps
  induction ps with
  | nil =>
    intro scope cmds c c' h hs
    cases h
    refine ⟨rfl, rfl, ?_, ⟨cmds, by simp [create]⟩, fun hn => hn.create hs⟩
    intro k hk _
    simp only [create, Dict.get?_set]
    rw [if_neg (fun h => hk h.symm)]
  | cons p ps ih =>
    intro scope cmds c c' h hs
    obtain ⟨o, h1, h2⟩ := bind_ok.1 h
    obtain ⟨k1, k2⟩ := primitive_ok h1
    have hs' : ∀ s ∈ Draw.sources (cmds ++ o.cmds), ∀ i, s ≠ .ap i := by
      intro s hs1
      rw [sources_append] at hs1
      rcases List.mem_append.1 hs1 with hs1 | hs1
      · exact hs s hs1
      · obtain ⟨n, rfl⟩ := k1 s hs1
        nofun
    have r := ih _ _ _ _ h2 hs'
    cases hl : o.layer with
    | none =>
      rw [hl] at r
      exact ⟨r.stack, r.contour, r.other, r.made, fun hn => r.noAp hn⟩
    | some l =>
      rw [hl] at r
      obtain ⟨⟨n, e⟩, hsrc⟩ := k2 l hl
      refine ⟨r.stack, r.contour, ?_, r.made, fun hn => r.noAp ?_⟩
      · intro k hk hk7
        rw [r.other k hk hk7]
        simp only [create, Dict.get?_set]
        rw [if_neg (fun h => hk7 _ _ (h.symm.trans e))]
      · refine NoAp.create (c := { c with calls := c.calls + o.ticks }) hn ?_
        rw [hsrc]; intro s hs; cases hs

theorem sources_holeOf (hole : Option ℚ) (limit : ℚ) : Draw.sources (holeOf hole limit) = [] := by
  cases hole with
  | none => rfl
  | some h => simp only [holeOf]; split <;> rfl

theorem define_ok {env : Env} {id d s c c'} (h : define env id d s c = .ok c') : Defined id c c' := by
  have base : ∀ sh hole limit, Defined id c (create (.ap id) (.shape sh :: holeOf hole limit) c) := by
    intro sh hole limit
    refine ⟨rfl, rfl, ?_, ⟨.shape sh :: holeOf hole limit, by simp [create]⟩, fun hn => hn.create ?_⟩
    · intro k hk _
      simp only [create, Dict.get?_set]
      rw [if_neg (fun h => hk h.symm)]
    · have : Draw.sources (.shape sh :: holeOf hole limit) = [] := by
        have := sources_holeOf hole limit
        simp only [Draw.sources, List.filterMap_cons] at this ⊢
        exact this
      rw [this]; intro s hs; cases hs
  cases d with
  | circle _ _ => cases h; exact base _ _ _
  | rect _ _ _ => cases h; exact base _ _ _
  | obround _ _ _ => cases h; exact base _ _ _
  | polygon _ _ _ _ =>
    obtain ⟨g, h1, h2⟩ := bind_ok.1 h
    rw [pure_ok] at h2; subst h2; exact base _ _ _
  | «macro» name params =>
    simp only [define] at h
    split at h
    · cases h
    · have r := runPrims_ok _ _ _ _ _ h (by intro s hs; cases hs)
      refine ⟨r.stack, r.contour, ?_, r.made, fun hn => r.noAp (hn.create (by intro s hs; cases hs))⟩
      intro k hk hk7
      rw [r.other k hk hk7]
      simp only [create, Dict.get?_set]
      rw [if_neg (fun h => hk h.symm)]

/-- What any callback does to the layers of an aperture that it does not define. -/
structure Kept (id : Name) (e : Event) (c c' : CState) : Prop where
  base : c'.buffers.get? (.ap id) = c.buffers.get? (.ap id)
  off : .ap id ∉ c'.stack
  keeps : ∀ m b, c.buffers.get? (.xform (.ap id) m) = some b → c'.buffers.get? (.xform (.ap id) m) = some b
  news : ∀ m b, c'.buffers.get? (.xform (.ap id) m) = some b → c.buffers.get? (.xform (.ap id) m) = some b ∨
    flashes id m e ∧ ∃ cmds, c.buffers.get? (.ap id) = some cmds ∧ b = cmds.map (retarget m)

theorem Kept.of_eq {id : Name} {e : Event} {c c' : CState} (h1 : c'.stack = c.stack) (hs : .ap id ∉ c.stack)
    (h2 : c'.buffers = c.buffers) : Kept id e c c' :=
  ⟨by rw [h2], by rw [h1]; exact hs, fun m b h => by rw [h2]; exact h, fun m b h => .inl (by rw [← h2]; exact h)⟩

theorem append_kept {cmds : List Cmd} {id : Name} {c c' : CState} (hp : Plain c) (hs : .ap id ∉ c.stack)
    (h : append cmds c = .ok c') :
    c'.stack = c.stack ∧ c'.buffers.get? (.ap id) = c.buffers.get? (.ap id) ∧
      ∀ y m, c'.buffers.get? (.xform y m) = c.buffers.get? (.xform y m) := by
  obtain ⟨a1, -, -, a4⟩ := append_ok h
  refine ⟨a1, ?_, ?_⟩
  · rw [a4, if_neg (fun hx => hs (List.mem_of_head? hx))]
  · intro y m
    rw [a4, if_neg (fun hx => hp (.xform y m) (List.mem_of_head? hx) trivial)]

theorem Kept.append {cmds : List Cmd} {id : Name} {e : Event} {c c' : CState} (hp : Plain c) (hs : .ap id ∉ c.stack)
    (h : append cmds c = .ok c') : Kept id e c c' := by
  obtain ⟨a1, a2, a3⟩ := append_kept hp hs h
  exact ⟨a2, by rw [a1]; exact hs, fun m b hb => by rw [a3]; exact hb, fun m b hb => .inl (by rw [← a3]; exact hb)⟩

theorem Kept.flash {cmds : List Cmd} {id i : Name} {m : Mat ℝ} {e : Event} {c c1 c' : CState} (hp : Plain c)
    (hs : .ap id ∉ c.stack) (hfl : i = id → flashes id m e) (g : Grows m c c1)
    (hnews : ∀ j m' b, c1.buffers.get? (.xform (.ap j) m') = some b →
      c.buffers.get? (.xform (.ap j) m') = some b ∨ i = j)
    (h : Compiler.append cmds c1 = .ok c') : Kept id e c c' := by
  obtain ⟨a1, a2, a3⟩ := append_kept (id := id) (by unfold Plain; rw [g.stack]; exact hp) (by rw [g.stack]; exact hs) h
  refine ⟨by rw [a2, g.other (.ap id) (fun h => h)], by rw [a1, g.stack]; exact hs, ?_, ?_⟩
  · intro m' b hb; rw [a3]; exact g.keeps _ _ hb
  · intro m' b hb
    rw [a3] at hb
    rcases hnews id m' b hb with h1 | h1
    · exact .inl h1
    · rcases g.news _ _ _ hb with h2 | ⟨rfl, cmds', h2, h3⟩
      · exact .inl h2
      · rw [g.other (.ap id) (fun h => h)] at h2
        exact .inr ⟨hfl h1, cmds', h2, h3⟩

theorem step_kept {env : Env} {id : Name} {e : Event} {c c' : CState} (hp : Plain c) (hn : NoAp c)
    (hs : .ap id ∉ c.stack) (hd : ¬ defines id e) (h : step env e c = .ok c') : Kept id e c c' := by
  cases e with
  | draw kind r s =>
    simp only [step, draw] at h
    split at h
    · cases kind <;> simp only at h <;> first | (cases h; exact .of_eq rfl hs rfl) | skip
      all_goals
        split at h
        · cases h
        · cases h; exact .of_eq rfl hs rfl
    · obtain ⟨ss, _, h2⟩ := bind_ok.1 h
      exact .append hp hs h2
  | flash k ap s =>
    simp only [step, Compiler.flash] at h
    split at h
    · obtain ⟨c1, b, g, hnews, _, h2⟩ := flashBlock_full hn h
      exact .flash hp hs (fun e => ⟨e, rfl⟩) g hnews h2
    · cases h
    · obtain ⟨c1, b, g, hnews, _, h2⟩ := flashAperture_full hn h
      exact .flash hp hs (fun e => ⟨e, rfl⟩) g hnews h2
    · cases h
  | startRegion => cases h; exact .of_eq rfl hs rfl
  | flushRegion s =>
    simp only [step, flushRegion] at h
    split at h
    · cases h
    · cases h; exact .of_eq rfl hs rfl
    · obtain ⟨c1, h1, h2⟩ := bind_ok.1 h
      rw [pure_ok] at h2; subst h2
      obtain ⟨b1, b2, b3, b4⟩ := Kept.append (e := .flushRegion s) hp hs h1
      exact ⟨b1, b2, b3, b4⟩
  | endRegion => cases h; exact .of_eq rfl hs rfl
  | define i d s =>
    have r := define_ok h
    have hne : (LayerId.ap id) ≠ .ap i := by intro hx; cases hx; exact hd rfl
    have e1 := r.other (.ap id) hne nofun
    have e2 : ∀ m, _ := fun m => r.other (.xform (.ap id) m) nofun nofun
    exact ⟨e1, by rw [r.stack]; exact hs, fun m b hb => by rw [e2]; exact hb, fun m b hb => .inl (by rw [← e2]; exact hb)⟩
  | abOpen i =>
    cases h
    have hne : i ≠ id := hd
    refine ⟨?_, ?_, ?_, ?_⟩
    · simp [create, Dict.get?_set, hne]
    · simp only [create, List.mem_cons, not_or]
      exact ⟨by intro hx; cases hx; exact hne rfl, hs⟩
    · intro m b hb; simpa [create, Dict.get?_set] using hb
    · intro m b hb; left; simpa [create, Dict.get?_set] using hb
  | abClose i =>
    simp only [step] at h
    split at h
    · cases h
    · next id' rest he =>
      cases h
      refine ⟨rfl, ?_, fun m b hb => hb, fun m b hb => .inl hb⟩
      intro hx; exact hs (by rw [he]; exact List.mem_cons_of_mem _ hx)
  | srOpen p =>
    cases h
    refine ⟨?_, ?_, ?_, ?_⟩
    · simp [create, Dict.get?_set]
    · simp only [create, List.mem_cons, not_or]
      exact ⟨nofun, hs⟩
    · intro m b hb; simpa [create, Dict.get?_set] using hb
    · intro m b hb; left; simpa [create, Dict.get?_set] using hb
  | srClose p s =>
    simp only [step, closeSr] at h
    split at h
    · cases h
    · next id' rest he =>
      split at h
      · cases h
      · split at h
        · cases h
        · obtain ⟨c1, h1, h2⟩ := bind_ok.1 h
          rw [pure_ok] at h2; subst h2
          have hp' : Plain { c with stack := rest } := fun x hx => hp x (by rw [he]; exact List.mem_cons_of_mem _ hx)
          have hs' : .ap id ∉ rest := fun hx => hs (by rw [he]; exact List.mem_cons_of_mem _ hx)
          obtain ⟨a1, a2, a3⟩ := append_kept hp' hs' h1
          have hne : id' ≠ .ap id := by rintro rfl; exact hs (by rw [he]; simp)
          have hne2 : ∀ m, id' ≠ .xform (.ap id) m := by
            rintro m rfl; exact hp (.xform (.ap id) m) (by rw [he]; exact List.mem_cons_self) trivial
          refine ⟨?_, ?_, ?_, ?_⟩
          · simp only [Dict.get?_pop, hne, if_false]; exact a2
          · simp only [a1]; exact hs'
          · intro m b hb; simp only [Dict.get?_pop, hne2, if_false]; rw [a3]; exact hb
          · intro m b hb
            simp only [Dict.get?_pop, hne2, if_false] at hb
            rw [a3] at hb; exact .inl hb

theorem step_noAp {env : Env} {e : Event} {c c' : CState} (hn : NoAp c) (h : step env e c = .ok c') : NoAp c' := by
  have shapes : ∀ (ss : List Shape), ∀ s ∈ Draw.sources (ss.map (Draw.shape (ι := LayerId))), ∀ id, s ≠ .ap id := by
    intro ss s hs; rw [sources_shapes] at hs; cases hs
  cases e with
  | draw kind r s =>
    simp only [step, draw] at h
    split at h
    · cases kind <;> simp only at h <;> first | (cases h; exact hn) | skip
      all_goals
        split at h
        · cases h
        · cases h; exact hn
    · obtain ⟨ss, _, h2⟩ := bind_ok.1 h
      exact hn.append h2 (shapes ss)
  | flash k ap s =>
    simp only [step, Compiler.flash] at h
    split at h
    · obtain ⟨c1, b, g, hb, h2⟩ := flashBlock_ok h
      refine (hn.grows g).append h2 ?_
      rw [sources_moved]
      exact (hn.grows g) _ _ hb
    · cases h
    · obtain ⟨c1, b, g, hb, h2⟩ := flashAperture_ok h
      refine (hn.grows g).append h2 ?_
      intro s hs
      simp only [Draw.sources, List.filterMap_cons, List.filterMap_nil, List.mem_singleton] at hs
      subst hs; nofun
    · cases h
  | startRegion => cases h; exact hn
  | flushRegion s =>
    simp only [step, flushRegion] at h
    split at h
    · cases h
    · cases h; exact hn
    · obtain ⟨c1, h1, h2⟩ := bind_ok.1 h
      rw [pure_ok] at h2; subst h2
      have : NoAp c1 := hn.append h1 (shapes [_])
      exact this
  | endRegion => cases h; exact hn
  | define i d s => exact (define_ok h).noAp hn
  | abOpen i => cases h; exact hn.create (by intro s hs; cases hs)
  | abClose i =>
    simp only [step] at h
    split at h
    · cases h
    · cases h; exact hn
  | srOpen p => cases h; exact hn.create (by intro s hs; cases hs)
  | srClose p s =>
    simp only [step, closeSr] at h
    split at h
    · cases h
    · next id' rest he =>
      split at h
      · cases h
      · next body hbody =>
        split at h
        · cases h
        · obtain ⟨c1, h1, h2⟩ := bind_ok.1 h
          rw [pure_ok] at h2; subst h2
          have : NoAp c1 := by
            refine NoAp.append (c := { c with stack := rest }) hn h1 ?_
            intro x hx
            simp only [copies, Draw.sources, List.mem_filterMap, List.mem_flatMap] at hx
            obtain ⟨d, ⟨a, -, b, -, hd⟩, hx⟩ := hx
            have : x ∈ Draw.sources (moved (Mat.newTranslate ((s.coordinateX + a * p.xDelta : ℚ) : ℝ)
                ((s.coordinateY + b * p.yDelta : ℚ) : ℝ)) body) := by
              simp only [Draw.sources, List.mem_filterMap]; exact ⟨d, hd, hx⟩
            rw [sources_moved] at this
            exact hn _ _ hbody x this
          intro k b hb
          simp only [Dict.get?_pop] at hb
          split at hb
          · cases hb
          · exact this k b hb

theorem feed_noAp {env : Env} {es : List Event} {c c' : CState} (hn : NoAp c) (h : feed env es c = .ok c') : NoAp c' :=
  feed_inv (P := NoAp) (fun _ _ _ => step_noAp) es c c' hn h

theorem init_noAp : NoAp CState.init := by
  intro k b hb
  simp only [CState.init, Dict.get?] at hb
  split at hb
  · cases hb; intro s hs; cases hs
  · cases hb

/-! ## Histories -/

/-- Which commands define and which flash. -/
def Caused (s : VState) (a : Atom) : Event → Prop
  | .define i d _ => a = .leaf (.ad i d)
  | .abOpen i => a = .abOpen i
  | .flash _ ap t => (∃ x y, a = .leaf (.d03 x y)) ∧ s.currentAperture = .ok ap ∧ t.transform = s.transform
  | _ => True

theorem ev_cases {s : VState} {a : Atom} (h : (Visitor.step s a).exn = none) : ∀ e ∈ (Visitor.step s a).ev,
    Caused s a e := by
  have nil : ∀ {P : Event → Prop}, ∀ e ∈ ([] : List Event), P e := by intro P e he; cases he
  have one : ∀ {P : Event → Prop} (e0 : Event), P e0 → ∀ e ∈ [e0], P e := by
    intro P e0 h e he; rw [List.mem_singleton.1 he]; exact h
  cases a with
  | leaf l =>
    cases l
    case d01 x y i j => rw [step_d01 h]; exact one _ trivial
    case d02 x y =>
      rw [step_d02 h]
      simp only [Out.ok]
      split
      · exact one _ trivial
      · exact nil
    case d03 x y =>
      obtain ⟨ap, k, e1, e2, e3⟩ := step_d03 h
      rw [e3]
      exact one _ ⟨⟨x, y, rfl⟩, e1, rfl⟩
    case dnn id =>
      simp only [Visitor.step, stepLeaf]
      split <;> exact nil
    case ad i d => exact one _ rfl
    case g36 => exact one _ trivial
    case g37 =>
      intro e he
      simp only [Visitor.step, stepLeaf, Out.ok, List.mem_cons, List.not_mem_nil, or_false] at he
      rcases he with rfl | rfl <;> trivial
    case td n => cases n <;> exact nil
    all_goals exact nil
  | abOpen i => exact one _ rfl
  | abClose i => exact one _ trivial
  | srOpen i => exact one _ trivial
  | srClose i => exact one _ trivial

theorem currentAperture_id {s : VState} {ap : Aperture} (h : s.currentAperture = .ok ap) :
    (∀ i d, ap = .ad i d → s.apId = some i) ∧ (∀ i, ap = .ab i → s.apId = some i) := by
  unfold VState.currentAperture at h
  split at h
  · cases h
  · next id hid =>
    split at h
    · cases h
      refine ⟨?_, nofun⟩
      intro i d e; cases e; exact hid
    · split at h
      · cases h
        refine ⟨nofun, ?_⟩
        intro i e; cases e; exact hid
      · cases h

/-- Flash callbacks come from flashes with the aperture selected. -/
theorem flashes_atom {s : VState} {a : Atom} (h : (Visitor.step s a).exn = none) {e : Event}
    (he : e ∈ (Visitor.step s a).ev) {id : Name} {m : Mat ℝ} (hf : flashes id m e) :
    (∃ x y, a = .leaf (.d03 x y)) ∧ s.apId = some id ∧ transformMatrix s.transform = m := by
  have k := ev_cases h e he
  cases e with
  | flash kind ap t =>
    obtain ⟨k1, k2, k3⟩ := k
    cases ap with
    | ad i d =>
      obtain ⟨rfl, rfl⟩ := hf
      exact ⟨k1, (currentAperture_id k2).1 _ _ rfl, by rw [k3]⟩
    | ab i =>
      obtain ⟨rfl, rfl⟩ := hf
      exact ⟨k1, (currentAperture_id k2).2 _ rfl, by rw [k3]⟩
  | _ => exact hf.elim

/-- A sequence of callbacks that do not define the aperture. -/
theorem feed_kept {env : Env} {id : Name} : ∀ (es : List Event) (c c' : CState), Plain c → NoAp c → .ap id ∉ c.stack →
    (∀ e ∈ es, ¬ defines id e) → feed env es c = .ok c' →
    Plain c' ∧ NoAp c' ∧ .ap id ∉ c'.stack ∧ c'.buffers.get? (.ap id) = c.buffers.get? (.ap id) ∧
      (∀ m b, c.buffers.get? (.xform (.ap id) m) = some b → c'.buffers.get? (.xform (.ap id) m) = some b) ∧
      ∀ m b, c'.buffers.get? (.xform (.ap id) m) = some b → c.buffers.get? (.xform (.ap id) m) = some b ∨
        (∃ e ∈ es, flashes id m e) ∧ ∃ cmds, c.buffers.get? (.ap id) = some cmds ∧ b = cmds.map (retarget m) := by
  intro es
  induction es with
  | nil => intro c c' hp hn hs _ h; cases h; exact ⟨hp, hn, hs, rfl, fun _ _ h => h, fun _ _ h => .inl h⟩
  | cons e es ih =>
    intro c c' hp hn hs hd h
    obtain ⟨c1, h1, h2⟩ := feed_cons_ok.1 h
    have k := step_kept hp hn hs (hd e (by simp)) h1
    obtain ⟨i1, i2, i3, i4, i5, i6⟩ := ih c1 c' (step_plain hp h1) (step_noAp hn h1) k.off
      (fun e he => hd e (List.mem_cons_of_mem _ he)) h2
    refine ⟨i1, i2, i3, i4.trans k.base, fun m b hb => i5 m b (k.keeps m b hb), ?_⟩
    intro m b hb
    rcases i6 m b hb with h3 | ⟨⟨e', he, hf⟩, h4⟩
    · rcases k.news m b h3 with h5 | ⟨h5, h6⟩
      · exact .inl h5
      · exact .inr ⟨⟨e, by simp, h5⟩, h6⟩
    · rw [k.base] at h4
      exact .inr ⟨⟨e', List.mem_cons_of_mem _ he, hf⟩, h4⟩

/-- The same for callbacks that may define the aperture, but not as a block; the layer itself may change. -/
theorem step_copies {env : Env} {id : Name} {e : Event} {c c' : CState} (hp : Plain c) (hn : NoAp c)
    (hs : .ap id ∉ c.stack) (hd : e ≠ .abOpen id) (h : step env e c = .ok c') :
    .ap id ∉ c'.stack ∧ ∀ m b, c'.buffers.get? (.xform (.ap id) m) = some b →
      c.buffers.get? (.xform (.ap id) m) = some b ∨ flashes id m e := by
  by_cases hdef : defines id e
  · cases e with
    | define i d s =>
      have r := define_ok h
      refine ⟨by rw [r.stack]; exact hs, fun m b hb => .inl ?_⟩
      rw [← r.other (.xform (.ap id) m) nofun nofun]; exact hb
    | abOpen i => cases hdef; exact absurd rfl hd
    | _ => exact hdef.elim
  · have k := step_kept hp hn hs hdef h
    refine ⟨k.off, fun m b hb => ?_⟩
    rcases k.news m b hb with h1 | ⟨h1, -⟩
    · exact .inl h1
    · exact .inr h1

theorem feed_copies {env : Env} {id : Name} : ∀ (es : List Event) (c c' : CState), Plain c → NoAp c →
    .ap id ∉ c.stack → (∀ e ∈ es, e ≠ .abOpen id) → feed env es c = .ok c' →
    Plain c' ∧ NoAp c' ∧ .ap id ∉ c'.stack ∧ ∀ m b, c'.buffers.get? (.xform (.ap id) m) = some b →
      c.buffers.get? (.xform (.ap id) m) = some b ∨ ∃ e ∈ es, flashes id m e := by
  intro es
  induction es with
  | nil => intro c c' hp hn hs _ h; cases h; exact ⟨hp, hn, hs, fun _ _ h => .inl h⟩
  | cons e es ih =>
    intro c c' hp hn hs hd h
    obtain ⟨c1, h1, h2⟩ := feed_cons_ok.1 h
    obtain ⟨k1, k2⟩ := step_copies hp hn hs (hd e (by simp)) h1
    obtain ⟨i1, i2, i3, i4⟩ := ih c1 c' (step_plain hp h1) (step_noAp hn h1) k1
      (fun e he => hd e (List.mem_cons_of_mem _ he)) h2
    refine ⟨i1, i2, i3, ?_⟩
    intro m b hb
    rcases i4 m b hb with h3 | ⟨e', he, hf⟩
    · rcases k2 m b h3 with h4 | h4
      · exact .inl h4
      · exact .inr ⟨e, by simp, h4⟩
    · exact .inr ⟨e', List.mem_cons_of_mem _ he, hf⟩

/-- Transformed copies of an aperture exist only for flashes of it. -/
theorem copies_inv {env : Env} {id : Name} (h : List Atom) : ∀ c, (run {} h).exn = none → compiled env h = .ok c →
    (∀ a ∈ h, a ≠ .abOpen id) → Plain c ∧ NoAp c ∧ .ap id ∉ c.stack ∧
      ∀ m b, c.buffers.get? (.xform (.ap id) m) = some b → ∃ p x y q, h = p ++ .leaf (.d03 x y) :: q ∧
        (run {} p).st.apId = some id ∧ transformMatrix (run {} p).st.transform = m := by
  induction h using List.reverseRecOn with
  | nil =>
    intro c _ hc _
    cases hc
    refine ⟨?_, init_noAp, ?_, ?_⟩
    · intro id hid
      simp only [CState.init, List.mem_singleton] at hid
      subst hid; exact fun h => h
    · simp [CState.init]
    · intro m b hb; simp [CState.init, Dict.get?] at hb
  | append_singleton h a ih =>
    intro c' hr hc' ha
    obtain ⟨h1, h2⟩ := run_snoc_none.1 hr
    rw [compiled_snoc h1, bind_ok] at hc'
    obtain ⟨c, hc, hf⟩ := hc'
    obtain ⟨i1, i2, i3, i4⟩ := ih c h1 hc (fun b hb => ha b (by simp [hb]))
    obtain ⟨j1, j2, j3, j4⟩ := feed_copies _ _ _ i1 i2 i3 (by
      rintro e he rfl
      exact ha a (by simp) (ev_cases h2 _ he)) hf
    refine ⟨j1, j2, j3, ?_⟩
    intro m b hb
    rcases j4 m b hb with h3 | ⟨e, he, hfl⟩
    · obtain ⟨p, x, y, q, e1, e2⟩ := i4 m b h3
      exact ⟨p, x, y, q ++ [a], by rw [e1]; simp, e2⟩
    · obtain ⟨⟨x, y, rfl⟩, k⟩ := flashes_atom h2 he hfl
      exact ⟨h, x, y, [], rfl, k⟩

end
end Verif.Compiler
