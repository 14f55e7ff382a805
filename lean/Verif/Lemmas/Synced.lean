import Verif.Lemmas.Aperture
import Verif.Spec.Inside

/-!
# Transformed copies agree with the layers they were made of

An invariant of the buffers of the compiler, for histories that define no aperture code and no thermal twice.
-/

namespace Verif.Compiler
open Verif.Visitor Verif.Geom Verif.Rvmc Verif.Spec
noncomputable section

/-- Layers that are never drawn on after they were made: transformed copies and thermals. -/
def Fixed (k : LayerId) : Prop := k.isXform ∨ ∃ n t, k = .code7 n t

/-- Layers on which nothing is being drawn. -/
def Settled (c : CState) (k : LayerId) : Prop := k ∉ c.stack ∧ ∀ n t, k ≠ .sr n t

theorem mem_layersOf {c : CState} {l : Layer LayerId} : l ∈ layersOf c ↔ c.buffers.get? l.id = some l.cmds := by
  unfold layersOf
  rw [List.mem_filterMap]
  constructor
  · rintro ⟨k, -, hk⟩
    cases hg : c.buffers.get? k with
    | none => rw [hg] at hk; cases hk
    | some b => rw [hg] at hk; cases hk; exact hg
  · intro h
    refine ⟨l.id, ?_, by rw [h]; rfl⟩
    by_contra hno
    rw [(Dict.get?_eq_none_iff _ _).2 hno] at h
    cases h

/-- Copies agree with their sources, which are settled, everything pasted exists and is fixed, and every layer shows
something. -/
structure Synced (c : CState) : Prop where
  copy : ∀ y m b, c.buffers.get? (.xform y m) = some b →
    Settled c y ∧ ∃ cmds, c.buffers.get? y = some cmds ∧ b = cmds.map (retarget m)
  known : ∀ k b, c.buffers.get? k = some b → ∀ s ∈ Draw.sources b, Fixed s ∧ ∃ b', c.buffers.get? s = some b'
  plain : ∀ k ∈ c.stack, ¬ Fixed k
  shown : ∀ k b, c.buffers.get? k = some b → ∃ os, Shows within (layersOf c) k os

theorem Synced.settled {c : CState} (h : Synced c) {k : LayerId} (hk : Fixed k) : Settled c k :=
  ⟨fun hm => h.plain k hm hk, fun n t e => by
    subst e; rcases hk with hk | ⟨_, _, hk⟩
    · exact hk
    · cases hk⟩

/-- What fixed layers show does not change while fixed layers do not. -/
theorem shows_fixed {c c' : CState} (hknown : ∀ k b, c.buffers.get? k = some b → ∀ s ∈ Draw.sources b, Fixed s)
    (hkeep : ∀ k b, Fixed k → c.buffers.get? k = some b → c'.buffers.get? k = some b) {k : LayerId}
    {os : List (Painted (Vec ℝ))} (h : Shows within (layersOf c) k os)
    (hk : ∀ b, c.buffers.get? k = some b → c'.buffers.get? k = some b) : Shows within (layersOf c') k os := by
  refine Shows.rec (motive_1 := fun k os _ => (∀ b, c.buffers.get? k = some b → c'.buffers.get? k = some b) →
      Shows within (layersOf c') k os)
    (motive_2 := fun ds os _ => (∀ s ∈ Draw.sources ds, Fixed s) → ShowsAll within (layersOf c') ds os) ?_ ?_ ?_ ?_ h hk
  · intro l os mem _ ih hk
    have hm := mem_layersOf.1 mem
    exact .layer l os (mem_layersOf.2 (hk _ hm)) (ih (hknown _ _ hm))
  · intro _; exact .nil
  · intro s points ds os ins _ ih hs
    exact .shape s points ds os ins (ih hs)
  · intro source center negative objects ds os _ _ ih1 ih2 hs
    exact .paste source center negative objects ds os (ih1 (fun b hb => hkeep _ b (hs source (by simp [Draw.sources])) hb))
      (ih2 (fun s h => hs s (by simp only [Draw.sources, List.filterMap_cons, List.mem_cons]; exact .inr h)))

/-- Commands show something when their sources do. -/
theorem shows_all_of {c : CState} : ∀ ds : List Cmd, (∀ s ∈ Draw.sources ds, ∃ os, Shows within (layersOf c) s os) →
    ∃ os, ShowsAll within (layersOf c) ds os := by
  intro ds
  induction ds with
  | nil => intro _; exact ⟨[], .nil⟩
  | cons d ds ih =>
    intro hs
    cases d with
    | shape s =>
      obtain ⟨os, h⟩ := ih hs
      exact ⟨_, .shape s _ ds os rfl h⟩
    | paste src ctr neg =>
      obtain ⟨o1, h1⟩ := hs src (by simp [Draw.sources])
      obtain ⟨os, h⟩ := ih (fun s h => hs s (by simp only [Draw.sources, List.filterMap_cons, List.mem_cons]; exact .inr h))
      exact ⟨_, .paste src ctr neg o1 ds os h1 h⟩

theorem Synced.shown_next {c c' : CState} (h : Synced c)
    (hsrc : ∀ k b, c'.buffers.get? k = some b → ∀ s ∈ Draw.sources b, Fixed s ∧ ∃ b', c.buffers.get? s = some b')
    (hkeep : ∀ k b, Fixed k → c.buffers.get? k = some b → c'.buffers.get? k = some b) :
    ∀ k b, c'.buffers.get? k = some b → ∃ os, Shows within (layersOf c') k os := by
  intro k b hb
  obtain ⟨os, hos⟩ := shows_all_of (c := c') b (by
    intro s hs
    obtain ⟨hf, b', hb'⟩ := hsrc k b hb s hs
    obtain ⟨os, hos⟩ := h.shown s b' hb'
    exact ⟨os, shows_fixed (fun k b hb s hs => (h.known k b hb s hs).1) hkeep hos (fun b hb => hkeep s b hf hb)⟩)
  exact ⟨os, .layer ⟨k, b⟩ os (mem_layersOf.2 hb) hos⟩

/-- What is settled stays as it is. -/
def Keeps (c c' : CState) : Prop :=
  ∀ k b, Settled c k → c.buffers.get? k = some b → Settled c' k ∧ c'.buffers.get? k = some b

theorem Keeps.refl (c : CState) : Keeps c c := fun _ _ h hb => ⟨h, hb⟩
theorem Keeps.trans {a b c : CState} (h : Keeps a b) (k : Keeps b c) : Keeps a c := fun x y h1 h2 =>
  k x y (h x y h1 h2).1 (h x y h1 h2).2

theorem Keeps.of_grows {m : Mat ℝ} {c c' : CState} (g : Grows m c c') : Keeps c c' := fun k b h hb =>
  ⟨⟨by rw [g.stack]; exact h.1, h.2⟩, g.keeps k b hb⟩

/-! ## Transformed copies -/

theorem sources_map_retarget (m : Mat ℝ) (cmds : List Cmd) :
    Draw.sources (cmds.map (retarget m)) = (Draw.sources cmds).map (LayerId.xform · m) := by
  induction cmds with
  | nil => rfl
  | cons d cmds ih => cases d <;> simp_all [Draw.sources, retarget]

theorem transformCmds_synced {m : Mat ℝ} {get : LayerId → CState → Except CErr (LayerId × CState)}
    (hget : ∀ src c r, get src c = .ok r → Synced c → Settled c src → Grows m c r.2 ∧ Synced r.2) :
    ∀ (cmds : List Cmd) (c : CState) (r : List Cmd × CState), transformCmds m get cmds c = .ok r → Synced c →
      (∀ s ∈ Draw.sources cmds, Fixed s) → Synced r.2 := by
  intro cmds
  induction cmds with
  | nil => intro c r h hn _; cases h; exact hn
  | cons d cmds ih =>
    intro c r h hn hs
    cases d with
    | shape s =>
      simp only [transformCmds] at h
      obtain ⟨r', h1, h2⟩ := bind_ok.1 h
      rw [pure_ok] at h2; subst h2
      exact ih c r' h1 hn hs
    | paste src center neg =>
      simp only [transformCmds] at h
      obtain ⟨b, h1, h2⟩ := bind_ok.1 h
      obtain ⟨r', h3, h4⟩ := bind_ok.1 h2
      rw [pure_ok] at h4; subst h4
      have hs0 : Fixed src := hs src (by simp [Draw.sources])
      obtain ⟨g, hg⟩ := hget src c b h1 hn (hn.settled hs0)
      exact ih b.2 r' h3 hg (fun s h => hs s (by
        simp only [Draw.sources, List.filterMap_cons, List.mem_cons]; exact .inr h))

theorem bufferWithTransform_synced {m : Mat ℝ} : ∀ (n : Nat) (base : LayerId) (c : CState) (r : LayerId × CState),
    bufferWithTransform m n base c = .ok r → Synced c → Settled c base → Synced r.2 := by
  intro n
  induction n with
  | zero => intro base c r h; simp [bufferWithTransform] at h
  | succ n ih =>
    intro base c r h hn hb
    simp only [bufferWithTransform] at h
    split at h
    · cases h; exact hn
    · next hnone =>
      split at h
      · cases h
      · next cmds hcmds =>
        obtain ⟨r', h1, h2⟩ := bind_ok.1 h
        rw [pure_ok] at h2; subst h2
        obtain ⟨e, g, src⟩ := transformCmds_ok (bufferWithTransform_ok n) cmds c r' h1
        have hfix := fun s hs => (hn.known base cmds hcmds s hs).1
        have hs := transformCmds_synced (get := bufferWithTransform m n) (fun src c r h hn hb =>
          ⟨(bufferWithTransform_ok n src c r h).2.1, ih src c r h hn hb⟩) cmds c r' h1 hn hfix
        have hbase : r'.2.buffers.get? base = some cmds := g.keeps _ _ hcmds
        -- an equal copy may have been made on the way
        have hsame : ∀ b, r'.2.buffers.get? (.xform base m) = some b → b = r'.1 := by
          intro b hb
          obtain ⟨-, cmds', h3, h4⟩ := hs.copy _ _ _ hb
          rw [hbase] at h3; cases h3
          rw [h4, e]
        have hget : ∀ k b, r'.2.buffers.get? k = some b →
            (create (.xform base m) r'.1 r'.2).buffers.get? k = some b := by
          intro k b hk
          simp only [create, Dict.get?_set]
          split
          · next he => subst he; rw [hsame b hk]
          · exact hk
        have hsrc : ∀ k b, (create (.xform base m) r'.1 r'.2).buffers.get? k = some b → ∀ s ∈ Draw.sources b,
            Fixed s ∧ ∃ b', r'.2.buffers.get? s = some b' := by
          intro k b hb' s hs'
          simp only [create, Dict.get?_set] at hb'
          split at hb'
          · cases hb'
            obtain ⟨b', hb'⟩ := src s hs'
            rw [e, sources_map_retarget, List.mem_map] at hs'
            obtain ⟨s', -, rfl⟩ := hs'
            exact ⟨.inl trivial, b', hb'⟩
          · exact hs.known k b hb' s hs'
        refine ⟨?_, ?_, hs.plain, hs.shown_next hsrc (fun k b _ hb => hget k b hb)⟩
        · intro y m' b hb'
          simp only [create, Dict.get?_set] at hb'
          split at hb'
          · next he =>
            cases he; cases hb'
            exact ⟨⟨by show base ∉ r'.2.stack; rw [g.stack]; exact hb.1, hb.2⟩, cmds, hget _ _ hbase, e⟩
          · obtain ⟨h3, cmds', h4, h5⟩ := hs.copy _ _ _ hb'
            exact ⟨h3, cmds', hget _ _ h4, h5⟩
        · intro k b hb' s hs'
          obtain ⟨h3, b', h4⟩ := hsrc k b hb' s hs'
          exact ⟨h3, b', hget _ _ h4⟩

/-! ## Drawing -/

theorem Synced.append {cmds : List Cmd} {c c' : CState} (h : Synced c) (ha : append cmds c = .ok c')
    (hc : ∀ s ∈ Draw.sources cmds, Fixed s ∧ ∃ b', c.buffers.get? s = some b') : Synced c' ∧ Keeps c c' := by
  obtain ⟨a1, -, -, a4⟩ := append_ok ha
  have hk : Keeps c c' := by
    intro k b hk hb
    refine ⟨⟨by rw [a1]; exact hk.1, hk.2⟩, ?_⟩
    rw [a4, if_neg (fun hx => hk.1 (List.mem_of_head? hx))]; exact hb
  have hfix : ∀ k b, Fixed k → c'.buffers.get? k = some b → c.buffers.get? k = some b := by
    intro k b hf hb
    rw [a4, if_neg (fun hx => (h.settled hf).1 (List.mem_of_head? hx))] at hb; exact hb
  have key : ∀ k b, c'.buffers.get? k = some b → ∀ s ∈ Draw.sources b, Fixed s ∧ ∃ b', c.buffers.get? s = some b' := by
    intro k b hb s hs
    rw [a4 k] at hb
    split at hb
    · cases hg : c.buffers.get? k with
      | none => simp [hg] at hb
      | some b0 =>
        simp only [hg, Option.map_some, Option.some.injEq] at hb
        subst hb
        rw [sources_append] at hs
        rcases List.mem_append.1 hs with hs | hs
        · exact h.known k b0 hg s hs
        · exact hc s hs
    · exact h.known k b hb s hs
  refine ⟨⟨?_, ?_, by rw [a1]; exact h.plain, h.shown_next key (fun k b hf hb => (hk k b (h.settled hf) hb).2)⟩, hk⟩
  · intro y m b hb
    obtain ⟨h1, cmds', h2, h3⟩ := h.copy y m b (hfix _ _ (.inl trivial) hb)
    exact ⟨(hk _ _ h1 h2).1, cmds', (hk _ _ h1 h2).2, h3⟩
  · intro k b hb s hs
    obtain ⟨h1, b', h2⟩ := key k b hb s hs
    exact ⟨h1, b', (hk _ _ (h.settled h1) h2).2⟩

/-- Making a layer that did not exist and that is not a copy. -/
theorem Synced.create {id : LayerId} {cmds : List Cmd} {c : CState} (h : Synced c) (hid : ¬ id.isXform)
    (hnew : c.buffers.get? id = none ∨ ∃ n t, id = .sr n t)
    (hc : ∀ s ∈ Draw.sources cmds, Fixed s ∧ ∃ b', c.buffers.get? s = some b') :
    Synced (create id cmds c) ∧ Keeps c (create id cmds c) := by
  have hk : Keeps c (Compiler.create id cmds c) := by
    intro k b hk hb
    refine ⟨hk, ?_⟩
    simp only [Compiler.create, Dict.get?_set]
    rw [if_neg]
    · exact hb
    · rintro rfl
      rcases hnew with h | ⟨n, t, h⟩
      · rw [h] at hb; cases hb
      · exact hk.2 n t h
  have key : ∀ k b, (Compiler.create id cmds c).buffers.get? k = some b → ∀ s ∈ Draw.sources b,
      Fixed s ∧ ∃ b', c.buffers.get? s = some b' := by
    intro k b hb s hs
    simp only [Compiler.create, Dict.get?_set] at hb
    split at hb
    · cases hb; exact hc s hs
    · exact h.known k b hb s hs
  refine ⟨⟨?_, ?_, h.plain, h.shown_next key (fun k b hf hb => (hk k b (h.settled hf) hb).2)⟩, hk⟩
  · intro y m b hb
    simp only [Compiler.create, Dict.get?_set] at hb
    rw [if_neg (by rintro rfl; exact hid trivial)] at hb
    obtain ⟨h1, cmds', h2, h3⟩ := h.copy y m b hb
    exact ⟨h1, cmds', (hk _ _ h1 h2).2, h3⟩
  · intro k b hb s hs
    obtain ⟨h1, b', h2⟩ := key k b hb s hs
    exact ⟨h1, b', (hk _ _ (h.settled h1) h2).2⟩

/-! ## Definitions -/

/-- The thermals of a macro. -/
def thermals (ps : List Macro.Prim) : List Nat := ps.filterMap thermalNode

theorem primitive_thermals {now scope p o} (h : primitive now scope p = .ok o) :
    (∀ s ∈ Draw.sources o.cmds, ∃ l, o.layer = some l ∧ l.1 = s) ∧
    (∀ l, o.layer = some l → (∃ n, l.1 = .code7 n now ∧ thermals [p] = [n]) ∧ Draw.sources l.2 = []) := by
  have base : ∀ sc ss, (∀ s ∈ Draw.sources (PrimOut.shapes sc ss).cmds, ∃ l, (PrimOut.shapes sc ss).layer = some l ∧ l.1 = s) ∧
      (∀ l, (PrimOut.shapes sc ss).layer = some l → (∃ n, l.1 = .code7 n now ∧ thermals [p] = [n]) ∧
        Draw.sources l.2 = []) := by
    intro sc ss
    refine ⟨?_, nofun⟩
    intro s hs
    have : Draw.sources (PrimOut.shapes sc ss).cmds = [] := sources_shapes ss
    rw [this] at hs; cases hs
  cases p with
  | code0 => cases h; exact base _ _
  | code1 e d x y r =>
    simp only [primitive] at h
    obtain ⟨_, _, h⟩ := bind_ok.1 h
    obtain ⟨_, _, h⟩ := bind_ok.1 h
    obtain ⟨_, _, h⟩ := bind_ok.1 h
    obtain ⟨_, _, h⟩ := bind_ok.1 h
    cases r with
    | none => rw [pure_ok] at h; subst h; exact base _ _
    | some r =>
      obtain ⟨_, _, h⟩ := bind_ok.1 h
      rw [pure_ok] at h; subst h; exact base _ _
  | code7 node cx cy outer inner gap rotation =>
    simp only [primitive, thermal] at h
    obtain ⟨_, _, h⟩ := bind_ok.1 h
    obtain ⟨_, _, h⟩ := bind_ok.1 h
    obtain ⟨_, _, h⟩ := bind_ok.1 h
    obtain ⟨_, _, h⟩ := bind_ok.1 h
    split at h
    · rw [pure_ok] at h; subst h; exact base _ _
    · obtain ⟨_, _, h⟩ := bind_ok.1 h
      obtain ⟨_, _, h⟩ := bind_ok.1 h
      split at h
      · rw [pure_ok] at h; subst h; exact base _ _
      · obtain ⟨_, _, h⟩ := bind_ok.1 h
        rw [pure_ok] at h; subst h
        refine ⟨?_, ?_⟩
        · intro s hs
          simp only [Draw.sources, List.filterMap_cons, List.filterMap_nil, List.mem_singleton] at hs
          exact ⟨_, rfl, hs.symm⟩
        · intro l hl
          cases hl
          exact ⟨⟨_, rfl, rfl⟩, sources_shapes _⟩
  | _ =>
    simp only [primitive] at h
    repeat (obtain ⟨_, _, h⟩ := bind_ok.1 h)
    rw [pure_ok] at h; subst h; exact base _ _

/-- No layer made for one of the thermals exists. -/
def Unused (ns : List Nat) (c : CState) : Prop := ∀ n ∈ ns, ∀ t, c.buffers.get? (.code7 n t) = none

theorem thermals_cons (p : Macro.Prim) (ps : List Macro.Prim) : thermals (p :: ps) = thermals [p] ++ thermals ps := by
  unfold thermals
  rw [← List.filterMap_append]; rfl

/-- What a macro leaves: `ok` says which layers may be new. -/
structure Ran (id : Name) (ns : List Nat) (c c' : CState) : Prop where
  synced : Synced c'
  stack : c'.stack = c.stack
  other : ∀ k, k ≠ .ap id → (∀ n ∈ ns, ∀ t, k ≠ .code7 n t) → c'.buffers.get? k = c.buffers.get? k

theorem runPrims_synced {env : Env} {id : Name} : ∀ (ps : List Macro.Prim) (scope cmds) (c c' : CState),
    runPrims env (.ap id) ps scope cmds c = .ok c' → Synced c → (thermals ps).Nodup → Unused (thermals ps) c →
      (∀ m b, c.buffers.get? (.xform (.ap id) m) ≠ some b) →
      (∀ s ∈ Draw.sources cmds, Fixed s ∧ ∃ b', c.buffers.get? s = some b') → Ran id (thermals ps) c c' := by
  intro ps
  induction ps with
  | nil =>
    intro scope cmds c c' h hn _ _ hx hs
    cases h
    have key : ∀ k b, (create (.ap id) cmds c).buffers.get? k = some b → ∀ s ∈ Draw.sources b,
        Fixed s ∧ ∃ b', c.buffers.get? s = some b' := by
      intro k b hb s hs'
      simp only [create, Dict.get?_set] at hb
      split at hb
      · cases hb; exact hs s hs'
      · exact hn.known k b hb s hs'
    have hkeep : ∀ k b, Fixed k → c.buffers.get? k = some b → (create (.ap id) cmds c).buffers.get? k = some b := by
      intro k b hf hb
      simp only [create, Dict.get?_set]
      rw [if_neg]
      · exact hb
      · rintro rfl
        rcases hf with h | ⟨_, _, h⟩
        · exact h
        · cases h
    refine ⟨⟨?_, ?_, hn.plain, hn.shown_next key hkeep⟩, rfl, ?_⟩
    · intro y m b hb
      simp only [create, Dict.get?_set] at hb ⊢
      rw [if_neg nofun] at hb
      obtain ⟨h1, cmds', h2, h3⟩ := hn.copy y m b hb
      refine ⟨h1, cmds', ?_, h3⟩
      rw [if_neg]
      · exact h2
      · rintro rfl; exact hx _ _ hb
    · intro k b hb s hs'
      obtain ⟨h1, b', h2⟩ := key k b hb s hs'
      exact ⟨h1, b', hkeep s b' h1 h2⟩
    · intro k hk _
      simp only [create, Dict.get?_set]
      rw [if_neg (fun h => hk h.symm)]
  | cons p ps ih =>
    intro scope cmds c c' h hn hd hu hx hs
    rw [thermals_cons] at hd hu ⊢
    obtain ⟨hd1, hd2, hd3⟩ := List.nodup_append.1 hd
    obtain ⟨o, h1, h2⟩ := bind_ok.1 h
    obtain ⟨k1, k2⟩ := primitive_thermals h1
    cases hl : o.layer with
    | none =>
      rw [hl] at h2
      have e : Draw.sources o.cmds = [] := by
        rw [List.eq_nil_iff_forall_not_mem]
        intro s hs1
        obtain ⟨l, h3, -⟩ := k1 s hs1
        rw [hl] at h3; cases h3
      have hn' : Synced { c with calls := c.calls + o.ticks } := ⟨hn.copy, hn.known, hn.plain, hn.shown⟩
      have r := ih _ _ _ _ h2 hn' hd2 (fun n hn1 => hu n (List.mem_append_right _ hn1)) hx
        (by intro s hs1
            rw [sources_append, e, List.append_nil] at hs1
            exact hs s hs1)
      exact ⟨r.synced, r.stack, fun k hk hk7 => r.other k hk (fun n hn1 => hk7 n (List.mem_append_right _ hn1))⟩
    | some l =>
      rw [hl] at h2
      obtain ⟨⟨n, e, en⟩, hsrc⟩ := k2 l hl
      have hn' : Synced { c with calls := c.calls + o.ticks } := ⟨hn.copy, hn.known, hn.plain, hn.shown⟩
      obtain ⟨s1, s2⟩ := hn'.create (id := l.1) (cmds := l.2) (by rw [e]; exact fun h => h)
        (.inl (by rw [e]; exact hu n (by rw [en]; simp) _)) (by rw [hsrc]; intro s hs; cases hs)
      have hset : ∀ s, Fixed s → Settled { c with calls := c.calls + o.ticks } s := fun s hs => hn'.settled hs
      have r := ih _ _ _ _ h2 s1 hd2 (by
          intro n' hn1 t
          simp only [create, Dict.get?_set]
          rw [if_neg]
          · exact hu n' (List.mem_append_right _ hn1) t
          · rw [e]; rintro ⟨⟩
            exact hd3 n (by rw [en]; simp) n hn1 rfl) (by
          intro m b hb
          simp only [create, Dict.get?_set] at hb
          rw [if_neg (by rw [e]; nofun)] at hb
          exact hx m b hb) (by
          intro s hs1
          rw [sources_append] at hs1
          rcases List.mem_append.1 hs1 with hs1 | hs1
          · obtain ⟨h3, b', h4⟩ := hs s hs1
            exact ⟨h3, b', (s2 _ _ (hset s h3) h4).2⟩
          · obtain ⟨l', h3, rfl⟩ := k1 s hs1
            rw [hl] at h3; cases h3
            exact ⟨.inr ⟨_, _, e⟩, l.2, by simp [create]⟩)
      refine ⟨r.synced, r.stack, ?_⟩
      intro k hk hk7
      rw [r.other k hk (fun n hn1 => hk7 n (List.mem_append_right _ hn1))]
      simp only [create, Dict.get?_set]
      rw [if_neg]
      rw [e]; rintro rfl
      exact hk7 n (by rw [en]; simp) _ rfl

/-- The thermals drawn by a definition. -/
def thermalsOf (d : ApDef) (s : VState) : List Nat :=
  match d with
  | .macro name _ => (match s.macros.get? name with
    | some body => thermals body
    | none => [])
  | _ => []

theorem define_synced {env : Env} {id d s c c'} (h : define env id d s c = .ok c') (hn : Synced c)
    (hnew : c.buffers.get? (.ap id) = none) (hd : (thermalsOf d s).Nodup) (hu : Unused (thermalsOf d s) c) :
    Ran id (thermalsOf d s) c c' := by
  have base : ∀ sh hole limit ns, Ran id ns c (create (.ap id) (.shape sh :: holeOf hole limit) c) := by
    intro sh hole limit ns
    refine ⟨(hn.create (id := .ap id) (fun h => h) (.inl hnew) ?_).1, rfl, ?_⟩
    · have : Draw.sources (.shape sh :: holeOf hole limit) = [] := by
        have := sources_holeOf hole limit
        simp only [Draw.sources, List.filterMap_cons] at this ⊢
        exact this
      rw [this]; intro s hs; cases hs
    · intro k hk _
      simp only [create, Dict.get?_set]
      rw [if_neg (fun h => hk h.symm)]
  cases d with
  | circle _ _ => cases h; exact base _ _ _ _
  | rect _ _ _ => cases h; exact base _ _ _ _
  | obround _ _ _ => cases h; exact base _ _ _ _
  | polygon _ _ _ _ =>
    obtain ⟨g, h1, h2⟩ := bind_ok.1 h
    rw [pure_ok] at h2; subst h2; exact base _ _ _ _
  | «macro» name params =>
    simp only [define] at h
    split at h
    · cases h
    · next body hb =>
      have e : thermalsOf (.macro name params) s = thermals body := by simp only [thermalsOf, hb]
      rw [e] at hd hu ⊢
      have hx : ∀ m b, c.buffers.get? (.xform (.ap id) m) ≠ some b := by
        intro m b hb
        obtain ⟨-, _, h1, -⟩ := hn.copy _ _ _ hb
        rw [hnew] at h1; cases h1
      have s1 := hn.create (id := .ap id) (cmds := []) (fun h => h) (.inl hnew) (by intro s hs; cases hs)
      have r := runPrims_synced _ _ _ _ _ h s1.1 hd (by
          intro n hn1 t
          simp only [create, Dict.get?_set]
          rw [if_neg nofun]; exact hu n hn1 t) (by
          intro m b hb
          simp only [create, Dict.get?_set] at hb
          rw [if_neg nofun] at hb
          exact hx m b hb) (by intro s hs; cases hs)
      refine ⟨r.synced, r.stack, ?_⟩
      intro k hk hk7
      rw [r.other k hk hk7]
      simp only [create, Dict.get?_set]
      rw [if_neg (fun h => hk h.symm)]

theorem Ran.keeps {id : Name} {ns : List Nat} {c c' : CState} (r : Ran id ns c c') (hnew : c.buffers.get? (.ap id) = none)
    (hu : Unused ns c) : Keeps c c' := by
  intro k b hk hb
  refine ⟨⟨by rw [r.stack]; exact hk.1, hk.2⟩, ?_⟩
  rw [r.other k]
  · exact hb
  · rintro rfl; rw [hnew] at hb; cases hb
  · rintro n hn t rfl; rw [hu n hn t] at hb; cases hb

/-! ## The callbacks -/

/-- What a callback must not do: define a code that has a layer, draw a thermal again, or flash a block that is open. -/
def Safe (c : CState) : Event → Prop
  | .define id d s => c.buffers.get? (.ap id) = none ∧ (thermalsOf d s).Nodup ∧ Unused (thermalsOf d s) c
  | .abOpen id => c.buffers.get? (.ap id) = none
  | .flash _ (.ad id _) _ => .ap id ∉ c.stack
  | .flash _ (.ab id) _ => .ap id ∉ c.stack
  | _ => True

theorem sources_copies (p : SrParams) (s : VState) (body : List Cmd) :
    ∀ x ∈ Draw.sources (copies p s body), x ∈ Draw.sources body := by
  intro x hx
  simp only [Draw.sources, copies, List.mem_filterMap, List.mem_flatMap] at hx
  obtain ⟨d, ⟨i, -, j, -, hd⟩, hx⟩ := hx
  rw [← sources_moved (Mat.newTranslate ((s.coordinateX + i * p.xDelta : ℚ) : ℝ) ((s.coordinateY + j * p.yDelta : ℚ) : ℝ))]
  exact List.mem_filterMap.2 ⟨d, hd, hx⟩

theorem Synced.flashAperture {env : Env} {id s c c'} (hn : Synced c) (hoff : .ap id ∉ c.stack)
    (h : flashAperture env id s c = .ok c') : Synced c' ∧ Keeps c c' := by
  obtain ⟨r, h1, h2⟩ := bind_ok.1 h
  obtain ⟨e1, g, b, hb⟩ := bufferWithTransform_ok _ _ _ _ h1
  have hs := bufferWithTransform_synced _ _ _ _ h1 hn ⟨hoff, nofun⟩
  obtain ⟨k1, k2⟩ := hs.append h2 (by
    intro s hs
    simp only [Draw.sources, List.filterMap_cons, List.filterMap_nil, List.mem_singleton] at hs
    subst hs
    exact ⟨.inl (by rw [e1]; trivial), b, hb⟩)
  exact ⟨k1, (Keeps.of_grows g).trans k2⟩

theorem Synced.flashBlock {env : Env} {id s c c'} (hn : Synced c) (hoff : .ap id ∉ c.stack)
    (h : flashBlock env id s c = .ok c') : Synced c' ∧ Keeps c c' := by
  obtain ⟨r, h1, h2⟩ := bind_ok.1 h
  obtain ⟨e1, g, b, hb⟩ := bufferWithTransform_ok _ _ _ _ h1
  have hs := bufferWithTransform_synced _ _ _ _ h1 hn ⟨hoff, nofun⟩
  rw [hb] at h2
  obtain ⟨k1, k2⟩ := hs.append h2 (by
    intro s hs'
    rw [sources_moved] at hs'
    exact hs.known _ _ hb s hs')
  exact ⟨k1, (Keeps.of_grows g).trans k2⟩

theorem step_synced {env : Env} {e : Event} {c c' : CState} (hn : Synced c) (hsafe : Safe c e)
    (hs : step env e c = .ok c') : Synced c' ∧ Keeps c c' := by
  have same : ∀ c2 : CState, c2.buffers = c.buffers → c2.stack = c.stack → Synced c2 ∧ Keeps c c2 := by
    intro c2 e1 e2
    refine ⟨⟨?_, ?_, by rw [e2]; exact hn.plain, by unfold layersOf; rw [e1]; exact hn.shown⟩, ?_⟩
    · intro y m b hb
      rw [e1] at hb ⊢
      obtain ⟨h1, h2⟩ := hn.copy y m b hb
      exact ⟨⟨by rw [e2]; exact h1.1, h1.2⟩, h2⟩
    · rw [e1]; exact hn.known
    · intro k b hk hb
      exact ⟨⟨by rw [e2]; exact hk.1, hk.2⟩, by rw [e1]; exact hb⟩
  have shapes : ∀ (ss : List Shape) c2, append (ss.map .shape) c = .ok c2 → Synced c2 ∧ Keeps c c2 := by
    intro ss c2 h
    refine hn.append h ?_
    rw [sources_shapes]; intro s hs; cases hs
  cases e with
  | draw kind r s =>
    simp only [step, draw] at hs
    split at hs
    · cases kind <;> simp only at hs <;> first | (cases hs; exact same _ rfl rfl) | skip
      all_goals
        split at hs
        · cases hs
        · cases hs; exact same _ rfl rfl
    · obtain ⟨ss, _, h2⟩ := bind_ok.1 hs
      exact shapes ss _ h2
  | flash k ap s =>
    simp only [step, flash] at hs
    split at hs
    · exact hn.flashBlock hsafe hs
    · cases hs
    · exact hn.flashAperture hsafe hs
    · cases hs
  | startRegion => cases hs; exact same _ rfl rfl
  | flushRegion s =>
    simp only [step, flushRegion] at hs
    split at hs
    · cases hs
    · cases hs; exact same _ rfl rfl
    · next g gs _ =>
      obtain ⟨c1, h1, h2⟩ := bind_ok.1 hs
      rw [pure_ok] at h2; subst h2
      obtain ⟨k1, k2⟩ := shapes [⟨g, gs, s.isNegative⟩] c1 h1
      exact ⟨⟨k1.copy, k1.known, k1.plain, k1.shown⟩, k2⟩
  | endRegion => cases hs; exact same _ rfl rfl
  | define id d s =>
    have r := define_synced hs hn hsafe.1 hsafe.2.1 hsafe.2.2
    exact ⟨r.synced, r.keeps hsafe.1 hsafe.2.2⟩
  | abOpen id =>
    cases hs
    obtain ⟨k1, k2⟩ := hn.create (id := .ap id) (cmds := []) (fun h => h) (.inl hsafe) (by intro s hs; cases hs)
    have hne : ∀ k b, Settled c k → c.buffers.get? k = some b → k ≠ .ap id := by
      rintro k b - hb rfl; rw [show c.buffers.get? (.ap id) = none from hsafe] at hb; cases hb
    refine ⟨⟨?_, k1.known, ?_, k1.shown⟩, ?_⟩
    · intro y m b hb
      have hb' : c.buffers.get? (.xform y m) = some b := by
        simp only [create, Dict.get?_set] at hb
        rwa [if_neg nofun] at hb
      obtain ⟨h1, cmds, h2, h3⟩ := hn.copy y m b hb'
      refine ⟨⟨?_, h1.2⟩, cmds, (k2 _ _ h1 h2).2, h3⟩
      intro hm
      rcases List.mem_cons.1 hm with h | h
      · exact hne y cmds h1 h2 h
      · exact h1.1 h
    · intro k hk
      rcases List.mem_cons.1 hk with rfl | hk
      · rintro (h | ⟨_, _, h⟩)
        · exact h
        · cases h
      · exact hn.plain k hk
    · intro k b hk hb
      refine ⟨⟨?_, hk.2⟩, (k2 k b hk hb).2⟩
      intro hm
      rcases List.mem_cons.1 hm with h | h
      · exact hne k b hk hb h
      · exact hk.1 h
  | abClose id =>
    simp only [step] at hs
    split at hs
    · cases hs
    · next id' rest he =>
      cases hs
      have sub : ∀ k, k ∉ c.stack → k ∉ rest := fun k hk hm => hk (by rw [he]; exact List.mem_cons_of_mem _ hm)
      refine ⟨⟨?_, hn.known, ?_, hn.shown⟩, ?_⟩
      · intro y m b hb
        obtain ⟨h1, h2⟩ := hn.copy y m b hb
        exact ⟨⟨sub y h1.1, h1.2⟩, h2⟩
      · intro k hk; exact hn.plain k (by rw [he]; exact List.mem_cons_of_mem _ hk)
      · intro k b hk hb; exact ⟨⟨sub k hk.1, hk.2⟩, hb⟩
  | srOpen p =>
    cases hs
    obtain ⟨k1, k2⟩ := hn.create (id := .sr p.node (env.time c.calls)) (cmds := []) (fun h => h) (.inr ⟨_, _, rfl⟩)
      (by intro s hs; cases hs)
    refine ⟨⟨?_, k1.known, ?_, k1.shown⟩, ?_⟩
    · intro y m b hb
      obtain ⟨h1, h2⟩ := k1.copy y m b hb
      refine ⟨⟨?_, h1.2⟩, h2⟩
      intro hm
      rcases List.mem_cons.1 hm with h | h
      · exact h1.2 _ _ h
      · exact h1.1 h
    · intro k hk
      rcases List.mem_cons.1 hk with rfl | hk
      · rintro (h | ⟨_, _, h⟩)
        · exact h
        · cases h
      · exact hn.plain k hk
    · intro k b hk hb
      refine ⟨⟨?_, hk.2⟩, (k2 k b hk hb).2⟩
      intro hm
      rcases List.mem_cons.1 hm with h | h
      · exact hk.2 _ _ h
      · exact hk.1 h
  | srClose p s =>
    simp only [step, closeSr] at hs
    split at hs
    · cases hs
    · next id' rest he =>
      split at hs
      · cases hs
      · next body hbody =>
        split at hs
        · cases hs
        · obtain ⟨c1, h1, h2⟩ := bind_ok.1 hs
          rw [pure_ok] at h2; subst h2
          have sub : ∀ k, k ∉ c.stack → k ∉ rest := fun k hk hm => hk (by rw [he]; exact List.mem_cons_of_mem _ hm)
          have hid : ∀ k, Settled c k → id' ≠ k := by rintro k hk rfl; exact hk.1 (by rw [he]; simp)
          have hn0 : Synced { c with stack := rest } := by
            refine ⟨?_, hn.known, ?_, hn.shown⟩
            · intro y m b hb
              obtain ⟨h1, h2⟩ := hn.copy y m b hb
              exact ⟨⟨sub y h1.1, h1.2⟩, h2⟩
            · intro k hk; exact hn.plain k (by rw [he]; exact List.mem_cons_of_mem _ hk)
          obtain ⟨k1, k2⟩ := hn0.append h1 (fun s hs => hn.known _ _ hbody s (sources_copies _ _ _ s hs))
          have hpl : ¬ Fixed id' := hn.plain id' (by rw [he]; simp)
          have pop : ∀ k b, (c1.buffers.pop id').get? k = some b → c1.buffers.get? k = some b := by
            intro k b hb
            rw [Dict.get?_pop] at hb
            split at hb
            · cases hb
            · exact hb
          have hstk : c1.stack = rest := (append_ok h1).1
          refine ⟨⟨?_, ?_, k1.plain, ?_⟩, ?_⟩
          · intro y m b hb
            obtain ⟨h3, cmds, h4, h5⟩ := k1.copy y m b (pop _ _ hb)
            refine ⟨h3, cmds, ?_, h5⟩
            rw [Dict.get?_pop, if_neg]
            · exact h4
            · rintro rfl
              -- the copy existed before, so its source is not the repeated block
              have hb0 : c.buffers.get? (.xform id' m) = some b := by
                have := pop _ _ hb
                rw [(append_ok h1).2.2.2] at this
                rw [if_neg (fun hx => hn0.plain (.xform id' m) (List.mem_of_head? hx) (.inl trivial))] at this
                exact this
              exact (hn.copy _ _ _ hb0).1.1 (by rw [he]; simp)
          · intro k b hb s hs
            obtain ⟨h3, b', h4⟩ := k1.known k b (pop _ _ hb) s hs
            refine ⟨h3, b', ?_⟩
            rw [Dict.get?_pop, if_neg]
            · exact h4
            · rintro rfl; exact hpl h3
          · refine k1.shown_next (fun k b hb => k1.known k b (pop _ _ hb)) ?_
            intro k b hf hb
            rw [Dict.get?_pop, if_neg]
            · exact hb
            · rintro rfl; exact hpl hf
          · intro k b hk hb
            obtain ⟨h3, h4⟩ := k2 k b ⟨sub k hk.1, hk.2⟩ hb
            refine ⟨h3, ?_⟩
            rw [Dict.get?_pop, if_neg (hid k hk)]
            exact h4

end
end Verif.Compiler
