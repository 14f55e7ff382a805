import Verif.Model.Vm

/-!
# Two backends executing the same program
-/

namespace Verif.Vm
open Verif.Geom Verif.Rvmc

variable {ι κ₁ κ₂ : Type} [DecidableEq ι]

/-- What one backend does, the other does, on related layers. -/
structure Simulates (B₁ : Backend κ₁) (B₂ : Backend κ₂) (R : Eager κ₁ → Eager κ₂ → Prop) : Prop where
  same : ∀ {e₁ e₂}, R e₁ e₂ → e₁.origin = e₂.origin ∧ e₁.box = e₂.box
  create : ∀ {o b c₁}, B₁.create o b = .ok c₁ → ∃ c₂, B₂.create o b = .ok c₂ ∧ R ⟨o, b, c₁⟩ ⟨o, b, c₂⟩
  shape : ∀ {e₁ e₂ s c₁}, R e₁ e₂ → B₁.shape e₁ s = .ok c₁ →
    ∃ c₂, B₂.shape e₂ s = .ok c₂ ∧ R { e₁ with content := c₁ } { e₂ with content := c₂ }
  paste : ∀ {e₁ e₂ s₁ s₂ c n c₁}, R e₁ e₂ → R s₁ s₂ → B₁.paste e₁ s₁ c n = .ok c₁ →
    ∃ c₂, B₂.paste e₂ s₂ c n = .ok c₂ ∧ R { e₁ with content := c₁ } { e₂ with content := c₂ }

/-- Related layers, or no layer on both sides. -/
def RelL (R : Eager κ₁ → Eager κ₂ → Prop) : Option (Layer ι κ₁) → Option (Layer ι κ₂) → Prop
  | none, none => True
  | some (.deferred o ds), some (.deferred o' ds') => o = o' ∧ ds = ds'
  | some (.eager e), some (.eager e') => R e e'
  | _, _ => False

/-- Dictionaries of related layers. -/
def RelD (R : Eager κ₁ → Eager κ₂ → Prop) (L₁ : Dict ι (Layer ι κ₁)) (L₂ : Dict ι (Layer ι κ₂)) : Prop :=
  ∀ k, RelL R (L₁.get? k) (L₂.get? k)

/-- Machines in related states. -/
def RelM (R : Eager κ₁ → Eager κ₂ → Prop) (m₁ : Machine ι κ₁) (m₂ : Machine ι κ₂) : Prop :=
  m₁.deferring = m₂.deferring ∧ m₁.stack = m₂.stack ∧ RelD R m₁.layers m₂.layers

variable {B₁ : Backend κ₁} {B₂ : Backend κ₂} {R : Eager κ₁ → Eager κ₂ → Prop}

theorem RelD.set {L₁ : Dict ι (Layer ι κ₁)} {L₂ : Dict ι (Layer ι κ₂)} (h : RelD R L₁ L₂) (k : ι) {l₁ : Layer ι κ₁}
    {l₂ : Layer ι κ₂} (hl : RelL R (some l₁) (some l₂)) : RelD R (L₁.set k l₁) (L₂.set k l₂) := by
  intro k'
  rw [Dict.get?_set, Dict.get?_set]
  split_ifs
  · exact hl
  · exact h k'

theorem RelD.setE {L₁ : Dict ι (Layer ι κ₁)} {L₂ : Dict ι (Layer ι κ₂)} (h : RelD R L₁ L₂) (k : ι) {e₁ : Eager κ₁}
    {e₂ : Eager κ₂} (hl : R e₁ e₂) : RelD R (L₁.set k (.eager e₁)) (L₂.set k (.eager e₂)) := h.set k hl

theorem RelD.setD {L₁ : Dict ι (Layer ι κ₁)} {L₂ : Dict ι (Layer ι κ₂)} (h : RelD R L₁ L₂) (k : ι) (o : Vec ℝ)
    (ds : List (Draw ι)) : RelD R (L₁.set k (.deferred o ds)) (L₂.set k (.deferred o ds)) := h.set k ⟨rfl, rfl⟩

theorem RelD.none {L₁ : Dict ι (Layer ι κ₁)} {L₂ : Dict ι (Layer ι κ₂)} (h : RelD R L₁ L₂) {k : ι}
    (hk : L₁.get? k = none) : L₂.get? k = none := by
  have := h k
  rw [hk] at this
  revert this
  cases L₂.get? k with
  | none => simp
  | some l => cases l <;> exact False.elim

theorem RelD.eager {L₁ : Dict ι (Layer ι κ₁)} {L₂ : Dict ι (Layer ι κ₂)} (h : RelD R L₁ L₂) {k : ι} {e : Eager κ₁}
    (hk : L₁.get? k = some (.eager e)) : ∃ e', L₂.get? k = some (.eager e') ∧ R e e' := by
  have := h k
  rw [hk] at this
  revert this
  cases L₂.get? k with
  | none => exact False.elim
  | some l =>
    cases l with
    | deferred _ _ => exact False.elim
    | eager e' => exact fun h => ⟨e', rfl, h⟩

theorem RelD.deferred {L₁ : Dict ι (Layer ι κ₁)} {L₂ : Dict ι (Layer ι κ₂)} (h : RelD R L₁ L₂) {k : ι} {o : Vec ℝ}
    {ds : List (Draw ι)} (hk : L₁.get? k = some (.deferred o ds)) : L₂.get? k = some (.deferred o ds) := by
  have := h k
  rw [hk] at this
  revert this
  cases L₂.get? k with
  | none => exact False.elim
  | some l =>
    cases l with
    | deferred _ _ => rintro ⟨rfl, rfl⟩; rfl
    | eager e' => exact False.elim

theorem bind_eq_ok {α β : Type} {r : Except VErr α} {f : α → Except VErr β} {b : β} (h : r.bind f = .ok b) :
    ∃ a, r = .ok a ∧ f a = .ok b := by
  cases r with
  | error x => cases h
  | ok a => exact ⟨a, rfl, h⟩

theorem target_sim {L₁ : Dict ι (Layer ι κ₁)} {L₂ : Dict ι (Layer ι κ₂)} (h : RelD R L₁ L₂) {id : ι} {e : Eager κ₁}
    (ht : target L₁ id = .ok e) : ∃ e', target L₂ id = .ok e' ∧ R e e' := by
  unfold target at ht
  split at ht
  · rename_i e0 he
    cases ht
    obtain ⟨e', h1, h2⟩ := h.eager he
    exact ⟨e', by unfold target; rw [h1], h2⟩
  · cases ht
  · cases ht

theorem paint_sim (S : Simulates B₁ B₂ R) {id : ι} {d : Draw ι} {L₁ L₁' : Dict ι (Layer ι κ₁)}
    {L₂ : Dict ι (Layer ι κ₂)} (h : RelD R L₁ L₂) (hp : paint B₁ id d L₁ = .ok L₁') :
    ∃ L₂', paint B₂ id d L₂ = .ok L₂' ∧ RelD R L₁' L₂' := by
  cases d with
  | shape s =>
    simp only [paint] at hp ⊢
    obtain ⟨e, h1, hp⟩ := bind_eq_ok hp
    obtain ⟨c, h2, hp⟩ := bind_eq_ok hp
    cases hp
    obtain ⟨e', h3, hR⟩ := target_sim h h1
    obtain ⟨c', h4, hR'⟩ := S.shape hR h2
    exact ⟨_, by rw [h3]; simp only [bind, Except.bind, h4]; rfl, h.setE id hR'⟩
  | paste source center negative =>
    simp only [paint] at hp ⊢
    split at hp
    · cases hp
    · cases hp
    · rename_i src hsrc
      obtain ⟨src', h0, hRs⟩ := h.eager hsrc
      obtain ⟨e, h1, hp⟩ := bind_eq_ok hp
      obtain ⟨c, h2, hp⟩ := bind_eq_ok hp
      cases hp
      obtain ⟨e', h3, hR⟩ := target_sim h h1
      obtain ⟨c', h4, hR'⟩ := S.paste hR hRs h2
      exact ⟨_, by rw [h0]; simp only [h3, bind, Except.bind, h4]; rfl, h.setE id hR'⟩

theorem record_sim {id : ι} {d : Draw ι} {L₁ L₁' : Dict ι (Layer ι κ₁)} {L₂ : Dict ι (Layer ι κ₂)} (h : RelD R L₁ L₂)
    (hp : record id d L₁ = .ok L₁') : ∃ L₂', record id d L₂ = .ok L₂' ∧ RelD R L₁' L₂' := by
  unfold record at hp
  split at hp
  · rename_i o ds hl
    cases hp
    have := h.deferred hl
    exact ⟨_, by unfold record; rw [this], h.setD id _ _⟩
  · cases hp
  · cases hp

theorem replay_sim (S : Simulates B₁ B₂ R) {id : ι} : ∀ {ds : List (Draw ι)} {L₁ L₁' : Dict ι (Layer ι κ₁)}
    {L₂ : Dict ι (Layer ι κ₂)}, RelD R L₁ L₂ → replay B₁ id ds L₁ = .ok L₁' →
    ∃ L₂', replay B₂ id ds L₂ = .ok L₂' ∧ RelD R L₁' L₂'
  | [], L₁, L₁', L₂, h, hp => by cases hp; exact ⟨L₂, rfl, h⟩
  | d :: ds, L₁, L₁', L₂, h, hp => by
    simp only [replay] at hp ⊢
    obtain ⟨M₁, h1, hp⟩ := bind_eq_ok hp
    obtain ⟨M₂, h2, h3⟩ := paint_sim S h h1
    obtain ⟨L₂', h4, h5⟩ := replay_sim S h3 hp
    exact ⟨L₂', by rw [h2]; exact h4, h5⟩

theorem commandBox_sim (S : Simulates B₁ B₂ R) {d : Draw ι} {L₁ : Dict ι (Layer ι κ₁)} {L₂ : Dict ι (Layer ι κ₂)}
    (h : RelD R L₁ L₂) {b : Box ℝ} (hb : commandBox L₁ d = .ok b) : commandBox L₂ d = .ok b := by
  cases d with
  | shape s => exact hb
  | paste source center negative =>
    simp only [commandBox] at hb ⊢
    split at hb
    · cases hb
    · cases hb
    · rename_i e he
      obtain ⟨e', h1, hR⟩ := h.eager he
      rw [h1]
      obtain ⟨ho, hbx⟩ := S.same hR
      simp only
      rw [← ho, ← hbx]; exact hb

theorem boxLoop_sim (S : Simulates B₁ B₂ R) {L₁ : Dict ι (Layer ι κ₁)} {L₂ : Dict ι (Layer ι κ₂)} (h : RelD R L₁ L₂) :
    ∀ {ds : List (Draw ι)} {a b : Box ℝ}, boxLoop L₁ ds a = .ok b → boxLoop L₂ ds a = .ok b
  | [], a, b, hb => hb
  | d :: ds, a, b, hb => by
    simp only [boxLoop] at hb ⊢
    obtain ⟨c, h1, hb⟩ := bind_eq_ok hb
    rw [commandBox_sim S h h1]
    exact boxLoop_sim S h hb

theorem deferredBox_sim (S : Simulates B₁ B₂ R) {L₁ : Dict ι (Layer ι κ₁)} {L₂ : Dict ι (Layer ι κ₂)}
    (h : RelD R L₁ L₂) {ds : List (Draw ι)} {b : Option (Box ℝ)} (hb : deferredBox L₁ ds = .ok b) :
    deferredBox L₂ ds = .ok b := by
  cases ds with
  | nil => exact hb
  | cons d ds =>
    simp only [deferredBox] at hb ⊢
    obtain ⟨c, h1, hb⟩ := bind_eq_ok hb
    obtain ⟨c', h2, hb⟩ := bind_eq_ok hb
    rw [commandBox_sim S h h1]
    simp only [bind, Except.bind]
    rw [boxLoop_sim S h h2]
    exact hb

theorem settle_sim {L₁ : Dict ι (Layer ι κ₁)} {L₂ : Dict ι (Layer ι κ₂)} (h : RelD R L₁ L₂) (stack : List ι) :
    RelM R (settle L₁ stack) (settle L₂ stack) := by
  cases stack with
  | nil => exact ⟨rfl, rfl, h⟩
  | cons id rest =>
    have hk := h id
    revert hk
    unfold settle
    simp only
    cases h1 : L₁.get? id with
    | none =>
      cases h2 : L₂.get? id with
      | none => exact fun _ => ⟨rfl, rfl, h⟩
      | some l => cases l <;> exact False.elim
    | some l =>
      cases l with
      | deferred _ _ =>
        cases h2 : L₂.get? id with
        | none => exact False.elim
        | some l =>
          cases l with
          | deferred _ _ => exact fun _ => ⟨rfl, rfl, h⟩
          | eager _ => exact False.elim
      | eager _ =>
        cases h2 : L₂.get? id with
        | none => exact False.elim
        | some l =>
          cases l with
          | deferred _ _ => exact False.elim
          | eager _ => exact fun _ => ⟨rfl, rfl, h⟩

theorem onDraw_cons {κ : Type} (B : Backend κ) (d : Draw ι) (m : Machine ι κ) (id : ι) (rest : List ι)
    (h : m.stack = id :: rest) :
    onDraw B d m = (if m.deferring then record id d m.layers else paint B id d m.layers).bind
      (fun L => .ok { m with layers := L }) := by
  unfold onDraw; rw [h]; simp only; split_ifs <;> rfl

theorem step_sim (S : Simulates B₁ B₂ R) {fail : Bool} {c : Command ι} {m₁ m₁' : Machine ι κ₁} {m₂ : Machine ι κ₂}
    (h : RelM R m₁ m₂) (hp : step B₁ fail c m₁ = .ok m₁') : ∃ m₂', step B₂ fail c m₂ = .ok m₂' ∧ RelM R m₁' m₂' := by
  obtain ⟨hd, hst, hL⟩ := h
  cases c with
  | draw d =>
    simp only [step] at hp ⊢
    cases hs : m₁.stack with
    | nil =>
      exfalso
      unfold onDraw at hp
      rw [hs] at hp
      simp only at hp
      repeat' split at hp
      all_goals cases hp
    | cons id rest =>
      rw [onDraw_cons B₁ d m₁ id rest hs] at hp
      rw [onDraw_cons B₂ d m₂ id rest (hst ▸ hs), ← hd]
      obtain ⟨L, h1, h2⟩ := bind_eq_ok hp
      cases h2
      cases hdef : m₁.deferring with
      | true =>
        rw [hdef, if_pos rfl] at h1
        obtain ⟨L', h3, h4⟩ := record_sim hL h1
        exact ⟨{ m₂ with layers := L' }, by rw [if_pos rfl, h3, ← hdef, hd]; rfl, by rw [← hdef]; exact ⟨hd, hst, h4⟩⟩
      | false =>
        rw [hdef, if_neg (by simp)] at h1
        obtain ⟨L', h3, h4⟩ := paint_sim S hL h1
        exact ⟨{ m₂ with layers := L' }, by rw [if_neg (by simp), h3, ← hdef, hd]; rfl, by rw [← hdef]; exact ⟨hd, hst, h4⟩⟩
  | start id box origin =>
    simp only [step, onStart] at hp ⊢
    split at hp
    · cases hp
    · rename_i hn
      rw [hL.none hn]
      simp only
      cases box with
      | none =>
        simp only at hp ⊢
        cases hp
        exact ⟨_, rfl, rfl, by simp [hst], hL.setD id _ _⟩
      | some box =>
        simp only at hp ⊢
        obtain ⟨c, h1, hp⟩ := bind_eq_ok hp
        cases hp
        obtain ⟨c', h2, hR⟩ := S.create h1
        refine ⟨_, by rw [h2]; rfl, rfl, by simp [hst], hL.setE id hR⟩
  | stop =>
    simp only [step, onEnd] at hp ⊢
    rw [← hst]
    cases hs : m₁.stack with
    | nil => rw [hs] at hp; cases hp
    | cons id rest =>
      rw [hs] at hp
      simp only at hp ⊢
      split at hp
      · cases hp
      · rename_i e he
        obtain ⟨e', h1, -⟩ := hL.eager he
        rw [h1]
        cases hp
        exact ⟨_, rfl, settle_sim hL rest⟩
      · rename_i o ds hl
        rw [hL.deferred hl]
        simp only
        obtain ⟨ob, h1, hp⟩ := bind_eq_ok hp
        rw [deferredBox_sim S hL h1]
        simp only [bind, Except.bind]
        cases ob with
        | none =>
          simp only at hp ⊢
          cases hf : fail with
          | true => rw [hf] at hp; cases hp
          | false =>
            rw [hf] at hp
            cases hp
            exact ⟨_, rfl, hd, rfl, hL⟩
        | some box =>
          simp only at hp ⊢
          obtain ⟨c, h2, hp⟩ := bind_eq_ok hp
          obtain ⟨L', h3, hp⟩ := bind_eq_ok hp
          cases hp
          obtain ⟨c', h4, hR⟩ := S.create h2
          obtain ⟨L'', h5, h6⟩ := replay_sim S (hL.setE id hR) h3
          rw [h4]
          simp only [h5]
          exact ⟨_, rfl, settle_sim h6 rest⟩

theorem exec_sim (S : Simulates B₁ B₂ R) {fail : Bool} : ∀ {cs : List (Command ι)} {m₁ m₁' : Machine ι κ₁}
    {m₂ : Machine ι κ₂}, RelM R m₁ m₂ → exec B₁ fail cs m₁ = .ok m₁' →
    ∃ m₂', exec B₂ fail cs m₂ = .ok m₂' ∧ RelM R m₁' m₂'
  | [], m₁, m₁', m₂, h, hp => by cases hp; exact ⟨m₂, rfl, h⟩
  | c :: cs, m₁, m₁', m₂, h, hp => by
    simp only [exec] at hp ⊢
    obtain ⟨n₁, h1, hp⟩ := bind_eq_ok hp
    obtain ⟨n₂, h2, h3⟩ := step_sim S h h1
    obtain ⟨m₂', h4, h5⟩ := exec_sim S h3 hp
    exact ⟨m₂', by rw [h2]; exact h4, h5⟩

/-- A program that one backend runs, the other runs too, with related results. -/
theorem run_sim (S : Simulates B₁ B₂ R) {fail : Bool} {main : ι} {prog : List (Command ι)} {e₁ : Eager κ₁}
    (h : run B₁ fail main prog = .ok (some e₁)) : ∃ e₂, run B₂ fail main prog = .ok (some e₂) ∧ R e₁ e₂ := by
  unfold run at h ⊢
  obtain ⟨m₁, h1, h⟩ := bind_eq_ok h
  obtain ⟨m₂, h2, h3⟩ := exec_sim S (m₁ := Machine.init) (m₂ := Machine.init) ⟨rfl, rfl, fun k => trivial⟩ h1
  rw [h2]
  simp only [bind, Except.bind]
  split at h
  · split at h <;> cases h
  · cases h
  · rename_i e he
    cases h
    obtain ⟨e', h4, hR⟩ := h3.2.2.eager he
    exact ⟨e', by rw [h4]; rfl, hR⟩

end Verif.Vm
