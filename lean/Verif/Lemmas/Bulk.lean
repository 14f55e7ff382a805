import Verif.Lemmas.Collinear
import Verif.Lemmas.Ordered
import Verif.Lemmas.MacroShape

/-!
# Layers that do not lie on a line
-/

namespace Verif.Compiler
open Verif.Visitor Verif.Geom Verif.Rvmc Verif.Spec Verif.Macro Verif.Props.State Verif.Lemmas.Collinear Verif.Sim
noncomputable section

/-- Copies are made by matrices of a kind, and thermals do not lie on a line. -/
structure Bulk (P : Mat ℝ → Prop) (c : CState) : Prop where
  copied : ∀ y m b, c.buffers.get? (.xform y m) = some b → P m
  full : ∀ n t b, c.buffers.get? (.code7 n t) = some b → ∃ s, .shape s ∈ b ∧ ¬ OnLine (areaOf s)

variable {P : Mat ℝ → Prop}

theorem Bulk.grows {m : Mat ℝ} {c c' : CState} (h : Bulk P c) (hm : P m) (g : Grows m c c') : Bulk P c' := by
  refine ⟨?_, ?_⟩
  · intro y m' b hb
    rcases g.news y m' b hb with h1 | ⟨rfl, -⟩
    · exact h.copied _ _ _ h1
    · exact hm
  · intro n t b hb
    rw [g.other _ (by simp [LayerId.isXform])] at hb
    exact h.full n t b hb

theorem Bulk.append {cmds : List Cmd} {c c' : CState} (h : Bulk P c) (ha : append cmds c = .ok c') : Bulk P c' := by
  obtain ⟨-, -, -, a4⟩ := append_ok ha
  have key : ∀ k b, c'.buffers.get? k = some b → ∃ b0, c.buffers.get? k = some b0 ∧ ∀ x ∈ b0, x ∈ b := by
    intro k b hb
    rw [a4] at hb
    split at hb
    · cases hg : c.buffers.get? k with
      | none => simp [hg] at hb
      | some b0 =>
        simp only [hg, Option.map_some, Option.some.injEq] at hb
        exact ⟨b0, rfl, fun x hx => by rw [← hb]; exact List.mem_append_left _ hx⟩
    · exact ⟨b, hb, fun _ h => h⟩
  refine ⟨?_, ?_⟩
  · intro y m b hb
    obtain ⟨b0, h1, -⟩ := key _ b hb
    exact h.copied y m b0 h1
  · intro n t b hb
    obtain ⟨b0, h1, h2⟩ := key _ b hb
    obtain ⟨s, h3, h4⟩ := h.full n t b0 h1
    exact ⟨s, h2 _ h3, h4⟩

theorem Bulk.create {id : LayerId} {cmds : List Cmd} {c : CState} (h : Bulk P c) (hx : ∀ y m, id ≠ .xform y m)
    (hf : (∃ n t, id = .code7 n t) → ∃ s, .shape s ∈ cmds ∧ ¬ OnLine (areaOf s)) : Bulk P (create id cmds c) := by
  have key : ∀ k b, (Compiler.create id cmds c).buffers.get? k = some b → c.buffers.get? k = some b ∨ (k = id ∧ b = cmds) := by
    intro k b hb
    simp only [Compiler.create, Dict.get?_set] at hb
    split at hb
    · next e => cases hb; exact .inr ⟨e.symm, rfl⟩
    · exact .inl hb
  refine ⟨?_, ?_⟩
  · intro y m b hb
    rcases key _ b hb with h1 | ⟨e, -⟩
    · exact h.copied y m b h1
    · exact absurd e.symm (hx y m)
  · intro n t b hb
    rcases key _ b hb with h1 | ⟨e, rfl⟩
    · exact h.full n t b h1
    · exact hf ⟨n, t, e.symm⟩

theorem primitive_bulk {now scope p o} (h : primitive now scope p = .ok o) :
    ∀ l, o.layer = some l → (∃ n t, l.1 = .code7 n t) ∧ ∃ s, .shape s ∈ l.2 ∧ ¬ OnLine (areaOf s) := by
  have base : ∀ sc ss, ∀ l, (PrimOut.shapes sc ss).layer = some l →
      (∃ n t, l.1 = .code7 n t) ∧ ∃ s, .shape s ∈ l.2 ∧ ¬ OnLine (areaOf s) := nofun
  cases p with
  | code0 => cases h; exact base _ _
  | code1 e d x y r =>
    simp only [primitive] at h
    obtain ⟨_, _, h⟩ := bind_ok.1 h
    obtain ⟨_, _, h⟩ := bind_ok.1 h
    obtain ⟨_, _, h⟩ := bind_ok.1 h
    obtain ⟨_, _, h⟩ := bind_ok.1 h
    cases r with
    | none => rw [pure_ok] at h; subst h; exact base _ _
    | some r =>
      obtain ⟨_, _, h⟩ := bind_ok.1 h
      rw [pure_ok] at h; subst h; exact base _ _
  | code7 node cx cy outer inner gap rotation =>
    simp only [primitive, thermal] at h
    obtain ⟨_, _, h⟩ := bind_ok.1 h
    obtain ⟨_, _, h⟩ := bind_ok.1 h
    obtain ⟨od, _, h⟩ := bind_ok.1 h
    obtain ⟨k, _, h⟩ := bind_ok.1 h
    split at h
    · rw [pure_ok] at h; subst h; exact base _ _
    · obtain ⟨_, _, h⟩ := bind_ok.1 h
      obtain ⟨r, _, h⟩ := bind_ok.1 h
      split at h
      · rw [pure_ok] at h; subst h; exact base _ _
      · obtain ⟨rs, hrs, h⟩ := bind_ok.1 h
        rw [pure_ok] at h; subst h
        intro l hl
        cases hl
        refine ⟨⟨_, _, rfl⟩, rotated r (Shape.newRing ⟨0, 0⟩ (od : ℝ) (k : ℝ) false).1, ?_, ?_⟩
        · unfold ring at hrs
          split at hrs
          · cases hrs; simp
          · cases hrs
        · unfold ring at hrs
          split at hrs
          · next hc =>
            obtain ⟨h1, h2⟩ := hc
            exact bulky_transform (Lemmas.MacroShape.similar_rotate r) (ring_bulky (by linarith) (by linarith) false)
          · cases hrs
  | _ =>
    simp only [primitive] at h
    repeat (obtain ⟨_, _, h⟩ := bind_ok.1 h)
    rw [pure_ok] at h; subst h; exact base _ _

theorem runPrims_bulk {env : Env} {id : Name} : ∀ (ps : List Prim) (scope cmds) (c c' : CState),
    runPrims env (.ap id) ps scope cmds c = .ok c' → Bulk P c → Bulk P c' := by
  intro ps
  induction ps with
  | nil =>
    intro scope cmds c c' h hf
    cases h
    exact hf.create nofun (by rintro ⟨n, t, e⟩; cases e)
  | cons p ps ih =>
    intro scope cmds c c' h hf
    obtain ⟨o, h1, h2⟩ := bind_ok.1 h
    refine ih _ _ _ _ h2 ?_
    have hf' : Bulk P { c with calls := c.calls + o.ticks } := ⟨hf.copied, hf.full⟩
    cases hl : o.layer with
    | none => exact hf'
    | some l =>
      obtain ⟨⟨n, t, e⟩, h3⟩ := primitive_bulk h1 l hl
      exact hf'.create (by rw [e]; nofun) (fun _ => h3)

theorem define_bulk {env : Env} {id d s c c'} (h : define env id d s c = .ok c') (hf : Bulk P c) : Bulk P c' := by
  have base : ∀ cmds, Bulk P (create (.ap id) cmds c) := fun cmds => hf.create nofun (by rintro ⟨n, t, e⟩; cases e)
  cases d with
  | circle _ _ => cases h; exact base _
  | rect _ _ _ => cases h; exact base _
  | obround _ _ _ => cases h; exact base _
  | polygon _ _ _ _ =>
    obtain ⟨_, _, h⟩ := bind_ok.1 h
    rw [pure_ok] at h; subst h; exact base _
  | «macro» name params =>
    simp only [define] at h
    split at h
    · cases h
    · exact runPrims_bulk _ _ _ _ _ h (base _)

/-- Flashes use matrices of the kind. -/
def Turns (P : Mat ℝ → Prop) : Event → Prop
  | .flash _ _ s => P (transformMatrix s.transform)
  | _ => True

theorem step_bulk {env : Env} {e : Event} {c c' : CState} (hm : Bulk P c) (hk : Turns P e) (h : step env e c = .ok c') : Bulk P c' := by
  cases e with
  | draw kind r s =>
    simp only [step, draw] at h
    split at h
    · cases kind <;> simp only at h <;> first | (cases h; exact hm) | skip
      all_goals
        split at h
        · cases h
        · cases h; exact ⟨hm.copied, hm.full⟩
    · obtain ⟨ss, _, h2⟩ := bind_ok.1 h
      exact hm.append h2
  | flash k ap s =>
    simp only [step, Compiler.flash] at h
    split at h
    · obtain ⟨c1, b, g, hb, h2⟩ := flashBlock_ok h
      exact (hm.grows hk g).append h2
    · cases h
    · obtain ⟨c1, b, g, hb, h2⟩ := flashAperture_ok h
      exact (hm.grows hk g).append h2
    · cases h
  | startRegion => cases h; exact ⟨hm.copied, hm.full⟩
  | flushRegion s =>
    simp only [step, flushRegion] at h
    split at h
    · cases h
    · cases h; exact ⟨hm.copied, hm.full⟩
    · obtain ⟨c1, h1, h2⟩ := bind_ok.1 h
      rw [pure_ok] at h2; subst h2
      have : Bulk P c1 := hm.append h1
      exact ⟨this.copied, this.full⟩
  | endRegion => cases h; exact ⟨hm.copied, hm.full⟩
  | define i d s => exact define_bulk h hm
  | abOpen i =>
    cases h
    have := hm.create (id := .ap i) (cmds := []) nofun (by rintro ⟨n, t, e⟩; cases e)
    exact ⟨this.copied, this.full⟩
  | abClose i =>
    simp only [step] at h
    split at h
    · cases h
    · cases h
      exact ⟨hm.copied, hm.full⟩
  | srOpen p =>
    cases h
    have := hm.create (id := .sr p.node (env.time c.calls)) (cmds := []) nofun (by rintro ⟨n, t, e⟩; cases e)
    exact ⟨this.copied, this.full⟩
  | srClose p s =>
    simp only [step, closeSr] at h
    split at h
    · cases h
    · next id' rest he =>
      split at h
      · cases h
      · next body hbody =>
        split at h
        · cases h
        · obtain ⟨c1, h1, h2⟩ := bind_ok.1 h
          rw [pure_ok] at h2; subst h2
          have : Bulk P c1 := Bulk.append (c := { c with stack := rest }) ⟨hm.copied, hm.full⟩ h1
          have pop : ∀ k b, (c1.buffers.pop id').get? k = some b → c1.buffers.get? k = some b := by
            intro k b hb
            simp only [Dict.get?_pop] at hb
            split at hb
            · cases hb
            · exact hb
          exact ⟨fun y m b hb => this.copied y m b (pop _ b hb), fun n t b hb => this.full n t b (pop _ b hb)⟩

theorem init_bulk : Bulk P CState.init := by
  have key : ∀ k b, CState.init.buffers.get? k = some b → k = .main := by
    intro k b hb
    simp only [CState.init, Dict.get?] at hb
    split at hb
    · next e => exact e.symm
    · cases hb
  exact ⟨fun y m b hb => (nomatch key _ b hb), fun n t b hb => (nomatch key _ b hb)⟩

theorem feed_bulk {env : Env} : ∀ (es : List Event) (c c' : CState), Bulk P c → (∀ e ∈ es, Turns P e) → feed env es c = .ok c' →
    Bulk P c' := by
  intro es
  induction es with
  | nil => intro c c' hf _ h; cases h; exact hf
  | cons e es ih =>
    intro c c' hf hr h
    obtain ⟨c1, h1, h2⟩ := feed_cons_ok.1 h
    exact ih c1 c' (step_bulk hf (hr e List.mem_cons_self) h1) (fun e he => hr e (List.mem_cons_of_mem _ he)) h2

open Verif.Props.FlashImage Verif.Props.Picture Verif.Props.Compiler in
/-- Copies are similar. -/
theorem bulk {env : Env} (h : List Atom) : ∀ c, (run {} h).exn = none → compiled env h = .ok c → Nested h → Avoids h →
    Bulk (fun m => ∃ e k, Similar m e k) c := by
  induction h using List.reverseRecOn with
  | nil => intro c _ hc _ _; cases hc; exact init_bulk
  | append_singleton h a ih =>
    intro c hr hc hn ha
    obtain ⟨c1, B⟩ := steps hr hc hn ha
    refine feed_bulk _ c1 c (ih c1 B.ran B.before (nested_prefix hn) ha.before) ?_ B.fed
    intro e he
    have k := ev_cases B.fine e he
    cases e with
    | flash kind ap t =>
      obtain ⟨⟨x, y, rfl⟩, -, k3⟩ := k
      obtain ⟨e, sim, -⟩ := flash_similar B
      exact ⟨e, _, by rw [k3]; exact sim⟩
    | _ => trivial

end
end Verif.Compiler
