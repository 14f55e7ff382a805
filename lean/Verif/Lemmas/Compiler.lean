import Verif.Model.Compiler
import Verif.Lemmas.State
import Verif.Spec.Drawing

/-!
# Frame facts about the compiler
-/

namespace Verif.Compiler
open Verif.Visitor Verif.Geom Verif.Rvmc Verif.Spec
noncomputable section

/-- A successful `do` step. -/
theorem bind_ok {ε α β : Type} {x : Except ε α} {f : α → Except ε β} {b : β} :
    (x >>= f) = .ok b ↔ ∃ a, x = .ok a ∧ f a = .ok b := by
  cases x with
  | error e => simp [bind, Except.bind]
  | ok a => simp [bind, Except.bind]

@[simp] theorem pure_ok {ε α : Type} {a b : α} : (pure a : Except ε α) = .ok b ↔ a = b := by
  simp [pure, Except.pure]

/-- Layers made by transforming others. -/
def LayerId.isXform : LayerId → Prop
  | .xform _ _ => True
  | _ => False

theorem xform_ne (id : LayerId) (m : Mat ℝ) : id ≠ .xform id m := by
  induction id with
  | xform b m' ih =>
    intro h
    injection h with h1 h2
    subst h2
    exact ih h1
  | _ => nofun

/-- How a command looks on the transformed layer. -/
def retarget (m : Mat ℝ) : Cmd → Cmd
  | .shape s => .shape (s.transform m)
  | .paste src center neg => .paste (.xform src m) (m.apply center) neg

theorem feed_append (env : Env) (es fs : List Event) (c : CState) :
    feed env (es ++ fs) c = (feed env es c >>= feed env fs) := by
  induction es generalizing c with
  | nil => rfl
  | cons e es ih =>
    simp only [List.cons_append, feed]
    cases step env e c with
    | error x => rfl
    | ok c' => exact ih c'

theorem feed_append_ok {env : Env} {es fs : List Event} {c c' : CState} :
    feed env (es ++ fs) c = .ok c' ↔ ∃ c1, feed env es c = .ok c1 ∧ feed env fs c1 = .ok c' := by
  rw [feed_append, bind_ok]

theorem feed_cons_ok {env : Env} {e : Event} {es : List Event} {c c' : CState} :
    feed env (e :: es) c = .ok c' ↔ ∃ c1, step env e c = .ok c1 ∧ feed env es c1 = .ok c' := by
  simp only [feed]; rw [bind_ok]

theorem feed_singleton {env : Env} {e : Event} {c : CState} : feed env [e] c = step env e c := by
  simp only [feed]
  cases step env e c <;> rfl

/-! ## Appending -/

theorem append_ok {cmds : List Cmd} {c c' : CState} (h : append cmds c = .ok c') :
    c'.stack = c.stack ∧ c'.contour = c.contour ∧ c'.calls = c.calls ∧
      (∀ id, c'.buffers.get? id =
        if c.stack.head? = some id then (c.buffers.get? id).map (· ++ cmds) else c.buffers.get? id) := by
  unfold append at h
  split at h
  · cases h
    refine ⟨rfl, rfl, rfl, fun id => ?_⟩
    split
    · cases c.buffers.get? id <;> simp
    · rfl
  · split at h
    · cases h
    · next id rest hs =>
      split at h
      · cases h
      · next b hb =>
        cases h
        refine ⟨rfl, rfl, rfl, fun id' => ?_⟩
        rw [hs, Dict.get?_set]
        simp only [List.head?_cons, Option.some.injEq]
        split
        · next e => subst e; simp [hb]
        · rfl

/-! ## Transformed layers -/

/-- What a successful creation of transformed layers does. -/
structure Grows (m : Mat ℝ) (c c' : CState) : Prop where
  stack : c'.stack = c.stack
  contour : c'.contour = c.contour
  calls : c'.calls = c.calls
  other : ∀ id, ¬ id.isXform → c'.buffers.get? id = c.buffers.get? id
  keeps : ∀ id b, c.buffers.get? id = some b → c'.buffers.get? id = some b
  news : ∀ y m' b, c'.buffers.get? (.xform y m') = some b → c.buffers.get? (.xform y m') = some b ∨
    (m' = m ∧ ∃ cmds, c'.buffers.get? y = some cmds ∧ b = cmds.map (retarget m))

theorem Grows.refl (m : Mat ℝ) (c : CState) : Grows m c c :=
  ⟨rfl, rfl, rfl, fun _ _ => rfl, fun _ _ h => h, fun _ _ _ h => .inl h⟩

theorem Grows.trans {m : Mat ℝ} {a b c : CState} (h : Grows m a b) (k : Grows m b c) : Grows m a c where
  stack := k.stack.trans h.stack
  contour := k.contour.trans h.contour
  calls := k.calls.trans h.calls
  other id hid := (k.other id hid).trans (h.other id hid)
  keeps id b hb := k.keeps id b (h.keeps id b hb)
  news y m' b hb := by
    rcases k.news y m' b hb with h1 | h1
    · rcases h.news y m' b h1 with h2 | ⟨rfl, cmds, h2, h3⟩
      · exact .inl h2
      · exact .inr ⟨rfl, cmds, k.keeps _ _ h2, h3⟩
    · exact .inr h1

theorem transformCmds_ok {m : Mat ℝ} {get : LayerId → CState → Except CErr (LayerId × CState)}
    (hget : ∀ id c r, get id c = .ok r → r.1 = .xform id m ∧ Grows m c r.2 ∧ ∃ b, r.2.buffers.get? r.1 = some b) :
    ∀ (cmds : List Cmd) (c : CState) (r : List Cmd × CState), transformCmds m get cmds c = .ok r →
      r.1 = cmds.map (retarget m) ∧ Grows m c r.2 ∧ ∀ s ∈ Draw.sources r.1, ∃ b, r.2.buffers.get? s = some b := by
  intro cmds
  induction cmds with
  | nil => intro c r h; cases h; exact ⟨rfl, Grows.refl m c, by simp [Draw.sources]⟩
  | cons d cmds ih =>
    intro c r h
    cases d with
    | shape s =>
      simp only [transformCmds] at h
      obtain ⟨r', h1, h2⟩ := bind_ok.1 h
      rw [pure_ok] at h2; subst h2
      obtain ⟨e, g, k⟩ := ih c r' h1
      exact ⟨by simp [e, retarget], g, by simpa [Draw.sources] using k⟩
    | paste src center neg =>
      simp only [transformCmds] at h
      obtain ⟨b, h1, h2⟩ := bind_ok.1 h
      obtain ⟨r', h3, h4⟩ := bind_ok.1 h2
      rw [pure_ok] at h4; subst h4
      obtain ⟨e1, g1, x, hx⟩ := hget src c b h1
      obtain ⟨e, g, k⟩ := ih b.2 r' h3
      refine ⟨by simp [e, e1, retarget], g1.trans g, ?_⟩
      intro s hs
      simp only [Draw.sources, List.filterMap_cons, List.mem_cons] at hs
      rcases hs with rfl | hs
      · exact ⟨x, g.keeps _ _ hx⟩
      · exact k s hs

theorem bufferWithTransform_ok {m : Mat ℝ} : ∀ (n : Nat) (id : LayerId) (c : CState) (r : LayerId × CState),
    bufferWithTransform m n id c = .ok r →
      r.1 = .xform id m ∧ Grows m c r.2 ∧ ∃ b, r.2.buffers.get? r.1 = some b := by
  intro n
  induction n with
  | zero => intro id c r h; simp [bufferWithTransform] at h
  | succ n ih =>
    intro id c r h
    simp only [bufferWithTransform] at h
    split at h
    · next b hb => cases h; exact ⟨rfl, Grows.refl m c, b, hb⟩
    · next hnone =>
      split at h
      · cases h
      · next cmds hcmds =>
        obtain ⟨r', h1, h2⟩ := bind_ok.1 h
        rw [pure_ok] at h2; subst h2
        obtain ⟨e, g, -⟩ := transformCmds_ok (ih) cmds c r' h1
        refine ⟨rfl, ?_, r'.1, by simp [create]⟩
        refine ⟨g.stack, g.contour, g.calls, ?_, ?_, ?_⟩
        · intro id' hid'
          simp only [create, Dict.get?_set]
          rw [if_neg (by rintro rfl; exact hid' trivial)]
          exact g.other id' hid'
        · intro id' b hb
          simp only [create, Dict.get?_set]
          rw [if_neg (by rintro rfl; rw [hnone] at hb; cases hb)]
          exact g.keeps id' b hb
        · intro y m' b hb
          simp only [create, Dict.get?_set] at hb ⊢
          split at hb
          · next heq =>
            cases heq
            cases hb
            right
            refine ⟨rfl, cmds, ?_, e⟩
            rw [if_neg]
            · exact g.keeps _ _ hcmds
            · exact fun h => xform_ne id m h.symm
          · rcases g.news y m' b hb with h3 | ⟨rfl, cmds', h4, h5⟩
            · exact .inl h3
            · right
              refine ⟨rfl, cmds', ?_, h5⟩
              split
              · next heq =>
                subst heq
                rcases g.news _ _ _ h4 with h6 | ⟨-, cmds2, h6, h7⟩
                · rw [hnone] at h6; cases h6
                · rw [g.keeps _ _ hcmds] at h6
                  cases h6
                  rw [e, h7]
              · exact h4

/-! ## Histories -/

theorem compiled_append {env : Env} {h bs : List Atom} (h1 : (run {} h).exn = none) :
    compiled env (h ++ bs) = (compiled env h >>= feed env (run (run {} h).st bs).ev) := by
  unfold compiled
  rw [run_append, Out.andThen_of_none h1, feed_append]

theorem compiled_snoc {env : Env} {h : List Atom} {a : Atom} (h1 : (run {} h).exn = none) :
    compiled env (h ++ [a]) = (compiled env h >>= feed env (Visitor.step (run {} h).st a).ev) := by
  rw [compiled_append h1, run_singleton]

theorem feed_inv {env : Env} {P : CState → Prop} (hs : ∀ e c c', P c → step env e c = .ok c' → P c') :
    ∀ (es : List Event) (c c' : CState), P c → feed env es c = .ok c' → P c' := by
  intro es
  induction es with
  | nil => intro c c' hc h; cases h; exact hc
  | cons e es ih =>
    intro c c' hc h
    obtain ⟨c1, h1, h2⟩ := feed_cons_ok.1 h
    exact ih c1 c' (hs e c c1 hc h1) h2

/-! ## Effect of the callbacks on the stack and on the contour -/

theorem flashAperture_ok {env : Env} {id s c c'} (h : flashAperture env id s c = .ok c') :
    ∃ c1 b, Grows (transformMatrix s.transform) c c1 ∧
      c1.buffers.get? (.xform (.ap id) (transformMatrix s.transform)) = some b ∧
      append [.paste (.xform (.ap id) (transformMatrix s.transform)) (endPoint s) s.isNegative] c1 = .ok c' := by
  obtain ⟨r, h1, h2⟩ := bind_ok.1 h
  obtain ⟨e1, g, b, hb⟩ := bufferWithTransform_ok _ _ _ _ h1
  rw [e1] at h2 hb
  exact ⟨r.2, b, g, hb, h2⟩

theorem flashBlock_ok {env : Env} {id s c c'} (h : flashBlock env id s c = .ok c') :
    ∃ c1 b, Grows (transformMatrix s.transform) c c1 ∧
      c1.buffers.get? (.xform (.ap id) (transformMatrix s.transform)) = some b ∧
      append (moved (Mat.newTranslate (s.coordinateX : ℝ) (s.coordinateY : ℝ)) b) c1 = .ok c' := by
  obtain ⟨r, h1, h2⟩ := bind_ok.1 h
  obtain ⟨e1, g, b, hb⟩ := bufferWithTransform_ok _ _ _ _ h1
  rw [e1] at h2 hb
  rw [hb] at h2
  exact ⟨r.2, b, g, hb, h2⟩

theorem runPrims_stack {env : Env} {id : LayerId} : ∀ (ps : List Macro.Prim) (scope cmds) (c c' : CState),
    runPrims env id ps scope cmds c = .ok c' → c'.stack = c.stack ∧ c'.contour = c.contour := by
  intro ps
  induction ps with
  | nil => intro scope cmds c c' h; cases h; exact ⟨rfl, rfl⟩
  | cons p ps ih =>
    intro scope cmds c c' h
    obtain ⟨o, h1, h2⟩ := bind_ok.1 h
    have := ih _ _ _ _ h2
    rw [this.1, this.2]
    cases o.layer <;> exact ⟨rfl, rfl⟩

theorem define_stack {env : Env} {id d s c c'} (h : define env id d s c = .ok c') :
    c'.stack = c.stack ∧ c'.contour = c.contour := by
  cases d with
  | circle _ _ => cases h; exact ⟨rfl, rfl⟩
  | rect _ _ _ => cases h; exact ⟨rfl, rfl⟩
  | obround _ _ _ => cases h; exact ⟨rfl, rfl⟩
  | polygon _ _ _ _ =>
    obtain ⟨g, h1, h2⟩ := bind_ok.1 h
    rw [pure_ok] at h2; subst h2; exact ⟨rfl, rfl⟩
  | «macro» name params =>
    simp only [define] at h
    split at h
    · cases h
    · have := runPrims_stack _ _ _ _ _ h
      exact this

theorem step_plain {env : Env} {e : Event} {c c' : CState} (hp : ∀ id ∈ c.stack, ¬ id.isXform)
    (hs : step env e c = .ok c') : ∀ id ∈ c'.stack, ¬ id.isXform := by
  have key : c'.stack = c.stack → ∀ id ∈ c'.stack, ¬ id.isXform := fun he => by rw [he]; exact hp
  cases e with
  | draw kind r s =>
    simp only [step, draw] at hs
    split at hs
    · cases kind <;> simp only at hs <;> first | (cases hs; exact hp) | skip
      all_goals
        split at hs
        · cases hs
        · cases hs; exact hp
    · obtain ⟨ss, _, h2⟩ := bind_ok.1 hs
      exact key (append_ok h2).1
  | flash k ap s =>
    have h1 : ∀ id, flashAperture env id s c = .ok c' → ∀ id ∈ c'.stack, ¬ id.isXform := by
      intro id h
      obtain ⟨c1, b, g, _, h2⟩ := flashAperture_ok h
      exact key ((append_ok h2).1.trans g.stack)
    simp only [step, flash] at hs
    split at hs
    · obtain ⟨c1, b, g, _, h2⟩ := flashBlock_ok hs
      exact key ((append_ok h2).1.trans g.stack)
    · cases hs
    · exact h1 _ hs
    · cases hs
  | startRegion => cases hs; exact hp
  | flushRegion s =>
    simp only [step, flushRegion] at hs
    split at hs
    · cases hs
    · cases hs; exact hp
    · obtain ⟨c1, h1, h2⟩ := bind_ok.1 hs
      rw [pure_ok] at h2; subst h2
      exact key (append_ok h1).1
  | endRegion => cases hs; exact hp
  | define id d s => exact key (define_stack hs).1
  | abOpen id =>
    cases hs
    intro id' hid
    rcases List.mem_cons.1 hid with rfl | hid
    · exact fun h => h
    · exact hp _ hid
  | abClose id =>
    simp only [step] at hs
    split at hs
    · cases hs
    · next id' rest he =>
      cases hs
      intro id'' hid; exact hp _ (by rw [he]; exact List.mem_cons_of_mem _ hid)
  | srOpen p =>
    cases hs
    intro id' hid
    rcases List.mem_cons.1 hid with rfl | hid
    · exact fun h => h
    · exact hp _ hid
  | srClose p s =>
    simp only [step, closeSr] at hs
    split at hs
    · cases hs
    · next id' rest he =>
      split at hs
      · cases hs
      · split at hs
        · cases hs
        · obtain ⟨c1, h1, h2⟩ := bind_ok.1 hs
          rw [pure_ok] at h2; subst h2
          intro id'' hid
          simp only [(append_ok h1).1] at hid
          exact hp _ (by rw [he]; exact List.mem_cons_of_mem _ hid)

/-- Layers being drawn are never transformed copies. -/
theorem stack_plain {env : Env} {h : List Atom} {c : CState} (hc : compiled env h = .ok c) :
    ∀ id ∈ c.stack, ¬ id.isXform := by
  refine feed_inv (P := fun c => ∀ id ∈ c.stack, ¬ id.isXform) (fun _ _ _ => step_plain) _ _ _ ?_ hc
  intro id hid
  simp only [CState.init, List.mem_singleton] at hid
  subst hid; exact fun h => h

/-- The general form of a command that draws. -/
theorem draws_of {env : Env} {h : List Atom} {a : Atom} {c c1 c2 c' : CState} {m : Mat ℝ} {new : List Cmd}
    (hc : compiled env h = .ok c) (hc' : compiled env (h ++ [a]) = .ok c') (g : Grows m c c1)
    (h1 : append new c1 = .ok c2) (e1 : c'.stack = c2.stack) (e2 : c'.buffers = c2.buffers) :
    Draws env h a new := by
  obtain ⟨a1, a2, a3, a4⟩ := append_ok h1
  refine ⟨c, c', hc, hc', by rw [e1, a1, g.stack], ?_, ?_⟩
  · intro id b hid hb
    rw [e2, a4, g.stack, if_pos hid, g.keeps id b hb]; rfl
  · intro id b hid hb
    rw [e2, a4, g.stack, if_neg hid, g.keeps id b hb]

end
end Verif.Compiler
