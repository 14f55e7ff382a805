import Verif.Lemmas.Marked
import Verif.Lemmas.Compiles
import Verif.Lemmas.Executes
import Verif.Props.Image

/-!
# The order in which layers are made
-/

namespace Verif.Lemmas.Compiles
open Verif.Visitor Verif.Coord Verif.Geom Verif.Rvmc Verif.Compiler Verif.Spec Verif.Props.State Verif.Macro
  Verif.Props.Compiler Verif.Props.FlashImage Verif.Props.MacroShape Verif.Props.Stroke Verif.Props.Repeat
  Verif.Props.Picture Verif.Lemmas.Picture
noncomputable section

/-! ### What layers paste, along a history -/

theorem current_selected {h : List Atom} (hr : (run {} h).exn = none) {i : Name} {d : ApDef}
    (hc : (run {} h).st.currentAperture = .ok (.ad i d)) : selected h = some i := by
  obtain ⟨i1, -, -, -, -⟩ := selected_inv h hr
  unfold selected
  rw [← i1]
  unfold VState.currentAperture at hc
  split at hc
  · cases hc
  · next e =>
    rw [e]
    split at hc
    · cases hc; rfl
    · split at hc <;> cases hc

theorem marked_inv {env : Env} {D F : Name → Prop} {T : Name → Nat → Prop} (h : List Atom) : ∀ c, (run {} h).exn = none →
    compiled env h = .ok c → Nested h → (∀ id d, .leaf (.ad id d) ∈ h → D id) → (∀ id, .abOpen id ∈ h → ¬ D id) →
    (∀ p x y q id, h = p ++ .leaf (.d03 x y) :: q → selected p = some id → F id) →
    (∀ p id d q n, h = p ++ .leaf (.ad id d) :: q → n ∈ thermalsBy (macrosAfter (fun _ => []) p) (.leaf (.ad id d)) → T id n) →
    Leveled D c ∧ Marked D F T c := by
  induction h using List.reverseRecOn with
  | nil => intro c _ hc _ _ _ _ _; cases hc; exact ⟨init_leveled D, init_marked⟩
  | append_singleton h a ih =>
    intro c hr hc hn had hab hF hT
    refine ⟨leveled_inv _ c hr hc hn had hab, ?_⟩
    obtain ⟨hr1, hr2⟩ := run_snoc_none.1 hr
    rw [compiled_snoc hr1] at hc
    obtain ⟨c1, e1, e2⟩ := Compiler.bind_ok.1 hc
    obtain ⟨hl, hm⟩ := ih c1 hr1 e1 (nested_prefix hn) (fun n b hb => had n b (List.mem_append_left _ hb))
      (fun n hb => hab n (List.mem_append_left _ hb))
      (fun p x y q id e => hF p x y (q ++ [a]) id (by rw [e]; simp))
      (fun p id d q n e => hT p id d (q ++ [a]) n (by rw [e]; simp))
    refine feed_marked _ _ _ hm hl ?_ e2
    intro e he
    have k := ev_cases hr2 e he
    cases e with
    | define i d s =>
      cases k
      refine ⟨had i d (by simp), ?_⟩
      intro n hn'
      have kd : s.macros = (run {} h).st.macros := by cases List.mem_singleton.1 he; rfl
      rw [thermalsOf_eq hr1 i d s kd] at hn'
      exact hT h i d [] n rfl hn'
    | abOpen i => cases k; exact ⟨hab i (by simp), trivial⟩
    | flash kind ap t =>
      obtain ⟨⟨x, y, k1⟩, k2, -⟩ := k
      cases ap with
      | ad i d =>
        obtain ⟨d', hd⟩ := Verif.Props.Layers.aperture_defined h hr1 k2
        exact ⟨had i d' (List.mem_append_left _ hd), hF h x y [] i (by rw [k1]) (current_selected hr1 k2)⟩
      | ab i => exact ⟨hab i (List.mem_append_left _ (closed_opened (nested_prefix hn) (block_closed hr1 k2))), trivial⟩
    | _ => exact ⟨trivial, trivial⟩

/-- Codes flashed. -/
def FlashedIn (h : List Atom) (id : Name) : Prop := ∃ p x y q, h = p ++ .leaf (.d03 x y) :: q ∧ selected p = some id

/-- Thermals of an aperture. -/
def ThermalIn (h : List Atom) (id : Name) (n : Nat) : Prop :=
  ∃ p d q, h = p ++ .leaf (.ad id d) :: q ∧ n ∈ thermalsBy (macrosAfter (fun _ => []) p) (.leaf (.ad id d))

theorem marked {env : Env} {h : List Atom} {c : CState} (hr : (run {} h).exn = none) (hc : compiled env h = .ok c)
    (hn : Nested h) (ho : DefinedOnce h) : Marked (Given h) (FlashedIn h) (ThermalIn h) c :=
  (marked_inv h c hr hc hn (fun _ d hd => ⟨d, hd⟩) (fun _ h2 ⟨_, h1⟩ => opened_once ho h1 h2)
    (fun p x y q _ e hs => ⟨p, x, y, q, e, hs⟩) (fun p _ d q _ e hn => ⟨p, d, q, e, hn⟩)).2

theorem thermal_once {h : List Atom} (ht : (drawnThermals (fun _ => []) h).Nodup) {i j : Name} {n : Nat}
    (hi : ThermalIn h i n) (hj : ThermalIn h j n) : i = j := by
  obtain ⟨p, d, q, e, hn⟩ := hi
  obtain ⟨p', d', q', e', hn'⟩ := hj
  have key : ∀ (p q : List Atom) (a : Atom), drawnThermals (fun _ => []) (p ++ a :: q) =
      drawnThermals (fun _ => []) p ++ (thermalsBy (macrosAfter (fun _ => []) p) a ++
        drawnThermals (macrosAfter (fun _ => []) (p ++ [a])) q) := by
    intro p q a
    have : p ++ a :: q = (p ++ [a]) ++ q := by simp
    rw [this, drawnThermals_append, drawnThermals_snoc, List.append_assoc]
  have hlen : ∀ (p q p' q' : List Atom) (a a' : Atom), h = p ++ a :: q → h = p' ++ a' :: q' → p.length < p'.length →
      n ∈ thermalsBy (macrosAfter (fun _ => []) p) a → n ∈ thermalsBy (macrosAfter (fun _ => []) p') a' → False := by
    intro p q p' q' a a' e e' hl hn hn'
    have hp : p' = p ++ a :: (p'.drop (p.length + 1)) := by
      have h1 : p' = h.take p'.length := by rw [e']; simp
      have h2 : p = h.take p.length := by rw [e]; simp
      have h3 : p'.take p.length = p := by
        have h5 := congrArg (List.take p.length) h1
        rw [List.take_take, min_eq_left hl.le, ← h2] at h5
        exact h5
      have h4 : p'[p.length]? = some a := by
        rw [h1, List.getElem?_take_of_lt hl, e]; simp
      conv_lhs => rw [← List.take_append_drop p.length p', h3]
      rw [List.drop_eq_getElem_cons hl]
      rw [List.getElem?_eq_getElem hl] at h4
      cases h4; rfl
    rw [e', key, List.nodup_append] at ht
    refine ht.2.2 n ?_ n (List.mem_append_left _ hn') rfl
    rw [hp, key]
    exact List.mem_append_right _ (List.mem_append_left _ hn)
  rcases lt_trichotomy p.length p'.length with hl | hl | hl
  · exact (hlen _ _ _ _ _ _ e e' hl hn hn').elim
  · rw [e] at e'
    obtain ⟨-, e2⟩ := List.append_inj e' hl
    cases e2; rfl
  · exact (hlen _ _ _ _ _ _ e' e hl hn' hn).elim

/-! ### Bases -/

theorem base_level {D : Name → Prop} : ∀ k : LayerId, (k.level D = 1 → ∃ i, k.base = .ap i ∧ D i) ∧
    (k.level D = 0 → ∃ n t, k.base = .code7 n t) := by
  intro k
  induction k with
  | xform y m ih => exact ih
  | ap i =>
    refine ⟨fun h => ⟨i, rfl, ?_⟩, fun h => ?_⟩
    · by_contra hn; simp [LayerId.level, hn] at h
    · simp only [LayerId.level] at h; split at h <;> omega
  | code7 n t => exact ⟨fun h => by simp [LayerId.level] at h, fun _ => ⟨n, t, rfl⟩⟩
  | _ => exact ⟨fun h => by simp [LayerId.level] at h, fun h => by simp [LayerId.level] at h⟩

theorem base_full {c : CState} (hs : Synced c) : ∀ (k : LayerId) b, c.buffers.get? k = some b →
    ∃ b0, c.buffers.get? k.base = some b0 ∧ (b0 ≠ [] → b ≠ []) := by
  intro k
  induction k with
  | xform y m ih =>
    intro b hb
    obtain ⟨-, cmds, h1, rfl⟩ := hs.copy y m b hb
    obtain ⟨b0, h2, h3⟩ := ih cmds h1
    exact ⟨b0, h2, fun h e => h3 h (List.map_eq_nil_iff.1 e)⟩
  | _ => intro b hb; exact ⟨b, hb, id⟩

/-- Layers of the middle share no layer of the bottom. -/
theorem share {D F : Name → Prop} {T : Name → Nat → Prop} {c : CState} (hs : Synced c) (hl : Leveled D c) (hm : Marked D F T c)
    (hT : ∀ i j n, T i n → T j n → i = j) : ∀ (p p' : LayerId) b b' s, p.level D = 1 → p'.level D = 1 →
      c.buffers.get? p = some b → c.buffers.get? p' = some b' → s ∈ Draw.sources b → s ∈ Draw.sources b' → p = p' := by
  intro p
  induction p with
  | ap i =>
    intro p' b b' s h1 h2 hb hb' hs1 hs2
    have e0 : s.level D = 0 := by have := hl.below _ _ hb s hs1; omega
    obtain ⟨n, t, rfl, hn⟩ := hm.thermal i b hb s hs1 e0
    cases p' with
    | ap j =>
      obtain ⟨n', t', e, hn'⟩ := hm.thermal j b' hb' _ hs2 e0
      cases e
      rw [hT i j n hn hn']
    | xform y m =>
      obtain ⟨-, cmds, -, rfl⟩ := hs.copy y m b' hb'
      rw [sources_map_retarget] at hs2
      obtain ⟨_, -, e⟩ := List.mem_map.1 hs2
      cases e
    | _ => simp [LayerId.level] at h2
  | xform y m ih =>
    intro p' b b' s h1 h2 hb hb' hs1 hs2
    obtain ⟨-, cmds, hy, rfl⟩ := hs.copy y m b hb
    rw [sources_map_retarget] at hs1
    obtain ⟨s1, hs3, rfl⟩ := List.mem_map.1 hs1
    cases p' with
    | ap j =>
      have e0 : (LayerId.xform s1 m).level D = 0 := by have := hl.below _ _ hb' _ hs2; omega
      obtain ⟨n', t', e, hn'⟩ := hm.thermal j b' hb' _ hs2 e0
      cases e
    | xform y' m' =>
      obtain ⟨-, cmds', hy', rfl⟩ := hs.copy y' m' b' hb'
      rw [sources_map_retarget] at hs2
      obtain ⟨s2, hs4, e⟩ := List.mem_map.1 hs2
      cases e
      rw [ih y' cmds cmds' s1 h1 h2 hy hy' hs3 hs4]
    | _ => simp [LayerId.level] at h2
  | _ => intro p' b b' s h1; simp [LayerId.level] at h1

/-! ### The order -/

/-- Every element comes after those that it needs. -/
def Follows {α : Type} (needs : α → List α) : List α → List α → Prop
  | _, [] => True
  | done, a :: rest => (∀ s ∈ needs a, s ∈ done) ∧ Follows needs (done ++ [a]) rest

theorem Follows.split {α : Type} {needs : α → List α} : ∀ {rest done : List α}, Follows needs done rest →
    ∀ p a q, rest = p ++ a :: q → ∀ s ∈ needs a, s ∈ done ++ p
  | [], _, _, p, a, q, e => by simp at e
  | b :: rest, done, h, [], a, q, e => by cases e; simpa using h.1
  | b :: rest, done, h, b' :: p, a, q, e => by
    cases e
    have := Follows.split h.2 p a q rfl
    simpa using this

theorem follows_append {α : Type} {needs : α → List α} : ∀ {l l' done : List α}, Follows needs done l →
    Follows needs (done ++ l) l' → Follows needs done (l ++ l')
  | [], l', done, _, h => by simpa using h
  | a :: l, l', done, h, h' => ⟨h.1, follows_append h.2 (by simpa using h')⟩

theorem follows_free {α : Type} {needs : α → List α} : ∀ {l done : List α}, (∀ a ∈ l, needs a = []) → Follows needs done l
  | [], _, _ => trivial
  | a :: l, done, h => ⟨(by rw [h a (by simp)]; intro s hs; cases hs), follows_free fun b hb => h b (by simp [hb])⟩

theorem follows_blocks {α : Type} {needs : α → List α} {below : α → List α} : ∀ {l done : List α},
    (∀ p ∈ l, (∀ a ∈ below p, needs a = []) ∧ ∀ s ∈ needs p, s ∈ below p) →
    Follows needs done (l.flatMap fun p => below p ++ [p])
  | [], _, _ => trivial
  | p :: l, done, h => by
    rw [List.flatMap_cons]
    refine follows_append (follows_append (follows_free (h p (by simp)).1) ⟨?_, trivial⟩) (follows_blocks fun x hx => h x (by simp [hx]))
    intro s hs
    exact List.mem_append_right _ ((h p (by simp)).2 s hs)

/-- What is drawn on a layer. -/
def bufferOf (c : CState) (k : LayerId) : List Compiler.Cmd := (c.buffers.get? k).getD []

/-- The order in which layers are submitted. -/
def layerOrder (env : Env) (c : CState) : List LayerId :=
  ((env.iter (Draw.sources (bufferOf c .main)).dedup).flatMap fun p => belowOf env c p ++ [p]) ++ [.main]

structure Fit (D F : Name → Prop) (c : CState) (order : List LayerId) : Prop where
  once : order.Nodup
  kinds : ∀ k ∈ order, (∃ b, c.buffers.get? k = some b) ∧ (k = .main ∨ k.level D = 0 ∨
    (k.level D = 1 ∧ ∃ i, k.base = .ap i ∧ D i ∧ F i))
  after : ∀ p k q, order = p ++ k :: q → ∀ s ∈ Draw.sources (bufferOf c k), s ∈ p

theorem order_fit {env : Env} {D F : Name → Prop} {T : Name → Nat → Prop} {c : CState} (hs : Synced c) (hl : Leveled D c)
    (hm : Marked D F T c) (hT : ∀ i j n, T i n → T j n → i = j) (hiter : ∀ l, (env.iter l).Perm l)
    (hmain : ∃ b, c.buffers.get? .main = some b) : Fit D F c (layerOrder env c) := by
  obtain ⟨b, hb⟩ := hmain
  have hbuf : bufferOf c .main = b := by simp [bufferOf, hb]
  have hmem : ∀ (b : List Compiler.Cmd) s, s ∈ env.iter (Draw.sources b).dedup ↔ s ∈ Draw.sources b := by
    intro b s; rw [(hiter _).mem_iff, List.mem_dedup]
  have hbel : ∀ p bp, c.buffers.get? p = some bp → belowOf env c p = env.iter (Draw.sources bp).dedup := by
    intro p bp h; simp [belowOf, dependsOn, h]
  -- layers of the middle
  have mid : ∀ p ∈ env.iter (Draw.sources (bufferOf c .main)).dedup, ∃ bp, c.buffers.get? p = some bp ∧ p.level D = 1 ∧
      (∃ i, p.base = .ap i ∧ D i ∧ F i) ∧ ∀ s, s ∈ belowOf env c p ↔ s ∈ Draw.sources bp := by
    intro p hp
    rw [hbuf, hmem] at hp
    have h1 : p.level D = 1 := by simpa [LayerId.level] using hl.below _ _ hb p hp
    obtain ⟨-, bp, hbp⟩ := hs.known _ _ hb p hp
    obtain ⟨i, hi, hd⟩ := (base_level p).1 h1
    exact ⟨bp, hbp, h1, ⟨i, hi, hd, hm.flashed _ _ hb p hp i hi⟩, fun s => by rw [hbel p bp hbp, hmem]⟩
  have low : ∀ p ∈ env.iter (Draw.sources (bufferOf c .main)).dedup, ∀ s ∈ belowOf env c p, s.level D = 0 ∧
      (∃ bs, c.buffers.get? s = some bs) ∧ Draw.sources (bufferOf c s) = [] := by
    intro p hp s hs'
    obtain ⟨bp, h1, h2, -, h4⟩ := mid p hp
    rw [h4] at hs'
    have e0 : s.level D = 0 := by have := hl.below _ _ h1 s hs'; omega
    obtain ⟨-, bs, hbs⟩ := hs.known _ _ h1 s hs'
    refine ⟨e0, ⟨bs, hbs⟩, ?_⟩
    rw [bufferOf, hbs]
    refine List.eq_nil_iff_forall_not_mem.2 fun x hx => ?_
    have := hl.below _ _ hbs x hx
    omega
  have levels : ∀ k ∈ (env.iter (Draw.sources (bufferOf c .main)).dedup).flatMap (fun p => belowOf env c p ++ [p]),
      k.level D ≤ 1 := by
    intro k hk
    obtain ⟨p, hp, hk⟩ := List.mem_flatMap.1 hk
    rcases List.mem_append.1 hk with hk | hk
    · have := (low p hp k hk).1; omega
    · rw [List.mem_singleton.1 hk]
      obtain ⟨_, -, h, -⟩ := mid p hp
      omega
  refine ⟨?_, ?_, ?_⟩
  · refine List.nodup_append.2 ⟨?_, by simp, ?_⟩
    · rw [List.nodup_flatMap]
      refine ⟨?_, ?_⟩
      · intro p hp
        refine List.nodup_append.2 ⟨?_, by simp, ?_⟩
        · obtain ⟨bp, h1, -⟩ := mid p hp
          rw [hbel p bp h1]
          exact (hiter _).nodup_iff.2 (List.nodup_dedup _)
        · intro x hx y hy
          rw [List.mem_singleton.1 hy]
          rintro rfl
          have := (low x hp x hx).1
          obtain ⟨_, -, h, -⟩ := mid x hp
          omega
      · refine List.Nodup.pairwise_of_forall_ne ((hiter _).nodup_iff.2 (List.nodup_dedup _)) ?_
        intro p hp p' hp' hne x hx hx'
        obtain ⟨bp, m1, m2, -, m4⟩ := mid p hp
        obtain ⟨bp', n1, n2, -, n4⟩ := mid p' hp'
        rcases List.mem_append.1 hx with hx | hx <;> rcases List.mem_append.1 hx' with hx' | hx'
        · exact hne (share hs hl hm hT p p' bp bp' x m2 n2 m1 n1 ((m4 x).1 hx) ((n4 x).1 hx'))
        · have := (low p hp x hx).1
          rw [List.mem_singleton.1 hx'] at this; omega
        · have := (low p' hp' x hx').1
          rw [List.mem_singleton.1 hx] at this; omega
        · rw [List.mem_singleton] at hx hx'
          exact hne (hx.symm.trans hx')
    · intro x hx y hy
      rw [List.mem_singleton.1 hy]
      rintro rfl
      have := levels _ hx
      simp [LayerId.level] at this
  · intro k hk
    rcases List.mem_append.1 hk with hk | hk
    · obtain ⟨p, hp, hk⟩ := List.mem_flatMap.1 hk
      rcases List.mem_append.1 hk with hk | hk
      · obtain ⟨h1, h2, -⟩ := low p hp k hk
        exact ⟨h2, .inr (.inl h1)⟩
      · rw [List.mem_singleton.1 hk]
        obtain ⟨bp, h1, h2, h3, -⟩ := mid p hp
        exact ⟨⟨bp, h1⟩, .inr (.inr ⟨h2, h3⟩)⟩
    · rw [List.mem_singleton.1 hk]
      exact ⟨⟨b, hb⟩, .inl rfl⟩
  · have hf : Follows (fun k => Draw.sources (bufferOf c k)) [] (layerOrder env c) := by
      refine follows_append (follows_blocks ?_) ⟨?_, trivial⟩
      · intro p hp
        refine ⟨fun a ha => (low p hp a ha).2.2, ?_⟩
        obtain ⟨bp, h1, -, -, h4⟩ := mid p hp
        intro s hs'
        simp only [bufferOf, h1, Option.getD_some] at hs'
        exact (h4 s).2 hs'
      · intro s hs'
        rw [List.nil_append, List.mem_flatMap]
        refine ⟨s, ?_, by simp⟩
        rw [hmem]
        exact hs'
    intro p k q e s hs'
    have := hf.split p k q e s hs'
    simpa using this

end
end Verif.Lemmas.Compiles
