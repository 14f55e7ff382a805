import Verif.Lemmas.Vm
import Verif.Lemmas.Geom
import Mathlib.Tactic.Linarith

/-!
# The virtual machine (C24, C25, C26)
-/

namespace Verif.Props.Vm
open Verif.Vm Verif.Rvmc Verif.Geom Verif.Spec
noncomputable section
variable {ι κ : Type} [DecidableEq ι] {B : Backend κ}

/-! ## The innermost layer -/

/-- The machine after some commands. -/
structure Inv (m : Machine ι κ) (os : List (Open ι)) : Prop where
  stack : m.stack = os.map Open.id
  nodup : m.stack.Nodup
  fixed : ∀ o ∈ os, o.fixed = true → ∃ e, m.layers.get? o.id = some (.eager e)
  auto : ∀ o ∈ os, o.fixed = false → ∃ origin, m.layers.get? o.id = some (.deferred origin o.draws)
  mode : ∀ o, os.head? = some o → o.fixed = false → m.deferring = true

theorem settle_inv {L : Dict ι (Layer ι κ)} {os : List (Open ι)} (hnd : (os.map Open.id).Nodup)
    (hf : ∀ o ∈ os, o.fixed = true → ∃ e, L.get? o.id = some (.eager e))
    (ha : ∀ o ∈ os, o.fixed = false → ∃ origin, L.get? o.id = some (.deferred origin o.draws)) :
    Inv (settle L (os.map Open.id)) os ∧
      ((settle L (os.map Open.id)).deferring = true ↔ ∃ o, os.head? = some o ∧ o.fixed = false) := by
  cases os with
  | nil => exact ⟨⟨rfl, hnd, hf, ha, nofun⟩, by simp [settle]⟩
  | cons o os =>
    cases hfx : o.fixed with
    | true =>
      obtain ⟨e, he⟩ := hf o (by simp) hfx
      have : settle L ((o :: os).map Open.id) = ⟨false, L, (o :: os).map Open.id⟩ := by simp [settle, he]
      rw [this]
      refine ⟨⟨rfl, hnd, hf, ha, ?_⟩, by simp [hfx]⟩
      intro o' h1 h2; cases h1; rw [hfx] at h2; cases h2
    | false =>
      obtain ⟨og, he⟩ := ha o (by simp) hfx
      have : settle L ((o :: os).map Open.id) = ⟨true, L, (o :: os).map Open.id⟩ := by simp [settle, he]
      rw [this]
      exact ⟨⟨rfl, hnd, hf, ha, fun _ _ _ => rfl⟩, by simp [hfx]⟩

/-- One command; the mode is right afterwards if it was right before and no empty layer ends. -/
theorem step_inv {fail : Bool} {c : Command ι} {m m' : Machine ι κ} {os : List (Open ι)} (h : Inv m os)
    (hs : step B fail c m = .ok m') :
    Inv m' (openStep os c) ∧
      ((m.deferring = true → ∃ o, os.head? = some o ∧ o.fixed = false) →
        (c = .stop → ∀ o, os.head? = some o → o.fixed = false → o.draws ≠ []) →
        (m'.deferring = true → ∃ o, (openStep os c).head? = some o ∧ o.fixed = false)) := by
  cases c with
  | start id box origin =>
    simp only [step, onStart] at hs
    cases hg : m.layers.get? id with
    | some l => rw [hg] at hs; cases hs
    | none =>
      rw [hg] at hs
      have hni : ∀ o ∈ os, o.id ≠ id := by
        intro o ho he
        cases hfx : o.fixed with
        | true => obtain ⟨e, h1⟩ := h.fixed o ho hfx; rw [he, hg] at h1; cases h1
        | false => obtain ⟨e, h1⟩ := h.auto o ho hfx; rw [he, hg] at h1; cases h1
      have hnd : (id :: m.stack).Nodup := by
        refine List.nodup_cons.2 ⟨?_, h.nodup⟩
        rw [h.stack]
        intro hm
        obtain ⟨o, ho, he⟩ := List.mem_map.1 hm
        exact hni o ho he
      cases box with
      | none =>
        cases hs
        refine ⟨⟨by simp [openStep, h.stack], hnd, ?_, ?_, fun _ _ _ => rfl⟩, by simp [openStep]⟩
        · intro o ho hf
          rcases List.mem_cons.1 ho with rfl | ho
          · cases hf
          · simpa [Dict.get?_set, (hni o ho).symm] using h.fixed o ho hf
        · intro o ho hf
          rcases List.mem_cons.1 ho with rfl | ho
          · exact ⟨origin, by simp⟩
          · simpa [Dict.get?_set, (hni o ho).symm] using h.auto o ho hf
      | some b =>
        obtain ⟨c, -, h2⟩ := bind_ok.1 hs
        cases h2
        refine ⟨⟨by simp [openStep, h.stack], hnd, ?_, ?_, ?_⟩, by simp⟩
        · intro o ho hf
          rcases List.mem_cons.1 ho with rfl | ho
          · exact ⟨⟨origin, b, c⟩, by simp⟩
          · simpa [Dict.get?_set, (hni o ho).symm] using h.fixed o ho hf
        · intro o ho hf
          rcases List.mem_cons.1 ho with rfl | ho
          · cases hf
          · simpa [Dict.get?_set, (hni o ho).symm] using h.auto o ho hf
        · intro o ho hf; cases ho; cases hf
  | draw d =>
    cases os with
    | nil =>
      simp only [step, onDraw] at hs
      have := h.stack
      simp only [List.map_nil] at this
      rw [this] at hs
      exfalso
      revert hs
      cases m.deferring <;> cases d <;> simp only [reduceCtorEq, imp_self]
      split <;> simp
    | cons o os =>
      have hst := h.stack
      simp only [List.map_cons] at hst
      rw [draw_step fail d hst] at hs
      obtain ⟨L, h1, h2⟩ := bind_ok.1 hs
      cases h2
      have hnd := h.nodup
      rw [hst] at hnd
      have hni : ∀ o' ∈ os, o.id ≠ o'.id := by
        intro o' ho' he
        exact (List.nodup_cons.1 hnd).1 (he ▸ List.mem_map.2 ⟨o', ho', rfl⟩)
      cases hdf : m.deferring with
      | true =>
        rw [hdf] at h1
        simp only [if_true, record] at h1
        cases hg : m.layers.get? o.id with
        | none => rw [hg] at h1; cases h1
        | some l =>
          rw [hg] at h1
          cases l with
          | eager e => cases h1
          | deferred og cs =>
            cases h1
            have hfx : o.fixed = false := by
              cases hfx : o.fixed with
              | false => rfl
              | true => obtain ⟨e, he⟩ := h.fixed o (by simp) hfx; rw [hg] at he; cases he
            obtain ⟨og', hog⟩ := h.auto o (by simp) hfx
            rw [hg] at hog; cases hog
            refine ⟨⟨by simp [openStep, hst], by rw [← hst] at hnd; exact hnd, ?_, ?_, fun _ _ _ => rfl⟩, ?_⟩
            · intro o' ho' hf
              rcases List.mem_cons.1 ho' with rfl | ho'
              · simp only at hf; rw [hfx] at hf; cases hf
              · simpa [Dict.get?_set, hni o' ho'] using h.fixed o' (by simp [ho']) hf
            · intro o' ho' hf
              rcases List.mem_cons.1 ho' with rfl | ho'
              · exact ⟨og, by simp⟩
              · simpa [Dict.get?_set, hni o' ho'] using h.auto o' (by simp [ho']) hf
            · intro _ _ _
              exact ⟨_, rfl, hfx⟩
      | false =>
        rw [hdf] at h1
        simp only [Bool.false_eq_true, if_false] at h1
        obtain ⟨e, c, he, rfl⟩ := paint_ok h1
        have hfx : o.fixed = true := by
          cases hfx : o.fixed with
          | true => rfl
          | false => obtain ⟨e', he'⟩ := h.auto o (by simp) hfx; rw [he] at he'; cases he'
        refine ⟨⟨by simp [openStep, hst], by rw [← hst] at hnd; exact hnd, ?_, ?_, ?_⟩, ?_⟩
        · intro o' ho' hf
          rcases List.mem_cons.1 ho' with rfl | ho'
          · exact ⟨_, by simp; rfl⟩
          · simpa [Dict.get?_set, hni o' ho'] using h.fixed o' (by simp [ho']) hf
        · intro o' ho' hf
          rcases List.mem_cons.1 ho' with rfl | ho'
          · simp only at hf; rw [hfx] at hf; cases hf
          · simpa [Dict.get?_set, hni o' ho'] using h.auto o' (by simp [ho']) hf
        · intro o' ho' hf
          cases ho'
          simp only at hf; rw [hfx] at hf; cases hf
        · intro _ _ hh; cases hh
  | stop =>
    simp only [step, onEnd] at hs
    cases os with
    | nil =>
      have := h.stack
      simp only [List.map_nil] at this
      rw [this] at hs
      cases hs
    | cons o os =>
      have hst := h.stack
      simp only [List.map_cons] at hst
      rw [hst] at hs
      simp only at hs
      have hnd := h.nodup
      rw [hst] at hnd
      have hni : ∀ o' ∈ os, o'.id ≠ o.id := by
        intro o' ho' he
        exact (List.nodup_cons.1 hnd).1 (he ▸ List.mem_map.2 ⟨o', ho', rfl⟩)
      have hnd' := (List.nodup_cons.1 hnd).2
      cases hfx : o.fixed with
      | true =>
        obtain ⟨e, he⟩ := h.fixed o (by simp) hfx
        rw [he] at hs
        cases hs
        obtain ⟨s1, s2⟩ := settle_inv hnd' (fun o' ho' => h.fixed o' (by simp [ho'])) (fun o' ho' => h.auto o' (by simp [ho']))
        exact ⟨s1, fun _ _ => s2.1⟩
      | false =>
        obtain ⟨og, he⟩ := h.auto o (by simp) hfx
        rw [he] at hs
        simp only at hs
        obtain ⟨ob, h1, h2⟩ := bind_ok.1 hs
        cases ob with
        | none =>
          simp only at h2
          split at h2
          · cases h2
          cases h2
          have hempty : o.draws = [] := by
            cases hds : o.draws with
            | nil => rfl
            | cons d ds =>
              rw [hds] at h1
              simp only [deferredBox] at h1
              obtain ⟨_, -, h3⟩ := bind_ok.1 h1
              obtain ⟨_, -, h4⟩ := bind_ok.1 h3
              cases h4
          refine ⟨⟨rfl, hnd', fun o' ho' => h.fixed o' (List.mem_cons_of_mem _ ho'),
            fun o' ho' => h.auto o' (List.mem_cons_of_mem _ ho'), fun _ _ _ => h.mode o rfl hfx⟩, ?_⟩
          intro _ hne
          exact absurd hempty (hne rfl o rfl hfx)
        | some b =>
          simp only at h2
          obtain ⟨c, -, h3⟩ := bind_ok.1 h2
          obtain ⟨L, h4, h5⟩ := bind_ok.1 h3
          cases h5
          obtain ⟨-, hk⟩ := replay_ok h4 (e := ⟨og, b, c⟩) (by simp)
          have hk' : ∀ o' ∈ os, L.get? o'.id = m.layers.get? o'.id := by
            intro o' ho'
            rw [hk _ (hni o' ho'), Dict.get?_set, if_neg (Ne.symm (hni o' ho'))]
          obtain ⟨s1, s2⟩ := settle_inv (L := L) hnd' (fun o' ho' hf => by rw [hk' o' ho']; exact h.fixed o' (by simp [ho']) hf)
            (fun o' ho' hf => by rw [hk' o' ho']; exact h.auto o' (by simp [ho']) hf)
          exact ⟨s1, fun _ _ => s2.1⟩

theorem exec_inv {fail : Bool} (cmds : List (Command ι)) {m : Machine ι κ} (h : exec B fail cmds Machine.init = .ok m) :
    Inv m (openLayers cmds) ∧
      (NoEmpty cmds → m.deferring = true → ∃ o, (openLayers cmds).head? = some o ∧ o.fixed = false) := by
  induction cmds using List.reverseRecOn generalizing m with
  | nil =>
    cases h
    exact ⟨⟨rfl, List.nodup_nil, nofun, nofun, nofun⟩, fun _ h => by cases h⟩
  | append_singleton cs c ih =>
    rw [exec_append] at h
    obtain ⟨m1, h1, h2⟩ := bind_ok.1 h
    rw [exec_singleton] at h2
    obtain ⟨i1, i2⟩ := ih h1
    obtain ⟨s1, s2⟩ := step_inv i1 h2
    have ho : openLayers (cs ++ [c]) = openStep (openLayers cs) c := by simp [openLayers]
    rw [ho]
    refine ⟨s1, fun hne => s2 (i2 ?_) ?_⟩
    · intro pre post he
      exact hne pre (post ++ [c]) (by rw [he]; simp)
    · intro hc
      exact hne cs [] (by rw [hc])

/-- **C26.** After any commands, none of which ends an empty automatically sized layer, the layer on top of the stack is
the innermost open one, it holds what was drawn on it if its size is not known, and the next drawing command is executed
at once exactly if it has a fixed box. -/
theorem c26_innermost {fail : Bool} {cmds : List (Command ι)} {m : Machine ι κ}
    (h : exec B fail cmds Machine.init = .ok m) (hne : NoEmpty cmds) :
    m.stack = (openLayers cmds).map Open.id ∧
      (∀ o ∈ openLayers cmds, o.fixed = false → ∃ origin, m.layers.get? o.id = some (.deferred origin o.draws)) ∧
      (∀ o ∈ openLayers cmds, o.fixed = true → ∃ e, m.layers.get? o.id = some (.eager e)) ∧
      (m.deferring = true ↔ ∃ o, (openLayers cmds).head? = some o ∧ o.fixed = false) := by
  obtain ⟨i, j⟩ := exec_inv cmds h
  exact ⟨i.stack, i.auto, i.fixed, j hne, fun ⟨o, h1, h2⟩ => i.mode o h1 h2⟩

/-- A balanced command list is a structured program. -/
theorem balanced_split : ∀ (cmds : List (Command ι)) (n : ℕ), Balanced n cmds →
    ∃ (ns : List (Node ι)) (rest : List (List (Node ι))), rest.length = n ∧ (n = 0 → Node.draws ns = []) ∧
      (∀ l, rest.getLast? = some l → Node.draws l = []) ∧
      cmds = Node.commandsAll ns ++ (rest.map fun ns => Command.stop :: Node.commandsAll ns).flatten
  | [], n, h => ⟨[], [], by simpa [Balanced] using h.symm, fun _ => rfl, nofun, rfl⟩
  | .start id box origin :: cs, n, h => by
    obtain ⟨ns, rest, h1, h2, h3, h4⟩ := balanced_split cs (n + 1) h
    cases rest with
    | nil => cases h1
    | cons l rest =>
      refine ⟨.layer id box origin ns :: l, rest, by simpa using h1, ?_, ?_, ?_⟩
      · intro hn
        have : rest = [] := by
          cases rest with
          | nil => rfl
          | cons a r => simp at h1; omega
        subst this
        simpa [Node.draws] using h3 l rfl
      · intro l' hl'
        refine h3 l' ?_
        cases rest with
        | nil => cases hl'
        | cons a r => simpa using hl'
      · rw [h4]
        simp [Node.commandsAll, Node.commands]
  | .draw d :: cs, n, h => by
    obtain ⟨ns, rest, h1, h2, h3, h4⟩ := balanced_split cs n h.2
    refine ⟨.draw d :: ns, rest, h1, fun hn => ?_, h3, by rw [h4]; simp [Node.commandsAll, Node.commands]⟩
    have := h.1
    omega
  | .stop :: cs, n, h => by
    obtain ⟨ns, rest, h1, h2, h3, h4⟩ := balanced_split cs (n - 1) h.2
    have hn := h.1
    refine ⟨[], ns :: rest, by simp [h1]; omega, fun h0 => by omega, ?_, ?_⟩
    · intro l hl
      cases rest with
      | nil =>
        simp at hl h1
        subst hl
        exact h2 (by omega)
      | cons a r => exact h3 l (by simpa using hl)
    · rw [h4]; simp [Node.commandsAll]

/-- **C26.** Every balanced command list is a structured program ... -/
theorem c26_balanced (cmds : List (Command ι)) (h : Balanced 0 cmds) :
    ∃ ns : List (Node ι), cmds = Node.commandsAll ns ∧ Node.draws ns = [] := by
  obtain ⟨ns, rest, h1, h2, -, h4⟩ := balanced_split cmds 0 h
  cases rest with
  | nil => exact ⟨ns, by simpa using h4, h2 rfl⟩
  | cons a r => cases h1

/-- **C26.** ... and structured programs without empty automatically sized layers are executed as they read: on layers of
fixed size at once, and on other layers in order when the layer ends, with the same results and the same errors. -/
theorem c26_program (fail : Bool) (ns : List (Node ι)) (hd : Node.DrawnAll ns) (ht : Node.draws ns = []) :
    match Node.evalAll B none ns (fun _ => none) with
    | .error e => exec B fail (Node.commandsAll ns) Machine.init = .error e
    | .ok V => ∃ m, exec B fail (Node.commandsAll ns) Machine.init = .ok m ∧ m.stack = [] ∧ store m.layers = V := by
  have h := nodes_agree (B := B) fail ns Machine.init none hd (.inl ⟨rfl, rfl, ht⟩)
  have hs : store (Machine.init : Machine ι κ).layers = fun _ => none := rfl
  rw [hs] at h
  cases he : Node.evalAll B none ns (fun _ => none) with
  | error e => rw [he] at h; exact h
  | ok V =>
    rw [he] at h
    obtain ⟨m, h1, h2, h3, -⟩ := h
    exact ⟨m, h1, h3, h2⟩

/-! ## Automatically sized layers -/

theorem commandBox_spec {L : Dict ι (Layer ι κ)} {d : Draw ι} {b : Box ℝ} (h : commandBox L d = .ok b) :
    ∀ b', BoxOf L.get? d b' ↔ b' = b := by
  intro b'
  cases d with
  | shape s => cases h; rfl
  | paste src ctr neg =>
    simp only [commandBox] at h
    simp only [BoxOf]
    cases hg : L.get? src with
    | none => rw [hg] at h; cases h
    | some l =>
      rw [hg] at h
      cases l with
      | deferred o cs => cases h
      | eager e =>
        cases h
        constructor
        · rintro ⟨e', h1, rfl⟩
          cases h1
          rfl
        · rintro rfl
          exact ⟨e, rfl, rfl⟩

theorem union_boxIn (a b X : Box ℝ) : BoxIn (a.union b) X ↔ BoxIn a X ∧ BoxIn b X := by
  simp only [BoxIn, Box.union, le_inf_iff, sup_le_iff]
  tauto

theorem boxLoop_spec {L : Dict ι (Layer ι κ)} : ∀ {ds : List (Draw ι)} {b0 b : Box ℝ}, boxLoop L ds b0 = .ok b →
    (∀ d ∈ ds, ∃ b', BoxOf L.get? d b') ∧
      ∀ X, BoxIn b X ↔ BoxIn b0 X ∧ ∀ d ∈ ds, ∀ b', BoxOf L.get? d b' → BoxIn b' X
  | [], b0, b, h => by cases h; simp
  | d :: ds, b0, b, h => by
    obtain ⟨b1, h1, h2⟩ := bind_ok.1 h
    obtain ⟨i1, i2⟩ := boxLoop_spec h2
    have hb := commandBox_spec h1
    refine ⟨?_, ?_⟩
    · intro d' hd'
      rcases List.mem_cons.1 hd' with rfl | hd'
      · exact ⟨b1, (hb b1).2 rfl⟩
      · exact i1 d' hd'
    · intro X
      rw [i2 X, union_boxIn, and_assoc]
      simp only [List.mem_cons, forall_eq_or_imp, hb, forall_eq]

/-- **C24.** When an automatically sized layer with something drawn on it ends, it gets a box that lies in a box `X`
exactly if everything drawn on it does: the smallest box around the shapes and the layers pasted. -/
theorem c24_smallest_box {fail : Bool} {cmds : List (Command ι)} {m m' : Machine ι κ} {o : Open ι} {os : List (Open ι)}
    (h : exec B fail cmds Machine.init = .ok m) (ho : openLayers cmds = o :: os) (ha : o.fixed = false)
    (hd : o.draws ≠ []) (hs : exec B fail (cmds ++ [.stop]) Machine.init = .ok m') :
    ∃ e, m'.layers.get? o.id = some (.eager e) ∧ (∀ d ∈ o.draws, ∃ b, BoxOf m.layers.get? d b) ∧
      ∀ X, BoxIn e.box X ↔ ∀ d ∈ o.draws, ∀ b, BoxOf m.layers.get? d b → BoxIn b X := by
  obtain ⟨i, -⟩ := exec_inv cmds h
  rw [exec_append, h] at hs
  replace hs : step B fail .stop m = .ok m' := by rw [← exec_singleton]; exact hs
  simp only [step, onEnd] at hs
  rw [ho] at i
  have hst := i.stack
  simp only [List.map_cons] at hst
  rw [hst] at hs
  obtain ⟨og, he⟩ := i.auto o (by simp) ha
  simp only [he] at hs
  obtain ⟨ob, h1, h2⟩ := bind_ok.1 hs
  cases hds : o.draws with
  | nil => exact absurd hds hd
  | cons d ds =>
    rw [hds] at h1 h2
    simp only [deferredBox] at h1
    obtain ⟨b0, h3, h4⟩ := bind_ok.1 h1
    obtain ⟨b, h5, h6⟩ := bind_ok.1 h4
    cases h6
    simp only at h2
    obtain ⟨c, -, h7⟩ := bind_ok.1 h2
    obtain ⟨L, h8, h9⟩ := bind_ok.1 h7
    cases h9
    obtain ⟨⟨c', hc⟩, -⟩ := replay_ok h8 (e := ⟨og, b, c⟩) (by simp)
    have hL : (settle L (os.map Open.id)).layers = L := by
      unfold settle
      split
      · rfl
      · split <;> rfl
    rw [hL]
    obtain ⟨j1, j2⟩ := boxLoop_spec h5
    have hb := commandBox_spec h3
    refine ⟨_, hc, ?_, ?_⟩
    · intro d' hd'
      rcases List.mem_cons.1 hd' with rfl | hd'
      · exact ⟨b0, (hb b0).2 rfl⟩
      · exact j1 d' hd'
    · intro X
      simp only [j2 X, List.mem_cons, forall_eq_or_imp, hb, forall_eq]

/-! ## Empty layers -/

/-- The machines agree but for the layer `a`. -/
def Alike (a : ι) (m n : Machine ι κ) : Prop :=
  m.stack = n.stack ∧ m.deferring = n.deferring ∧ (∀ k, k ≠ a → m.layers.get? k = n.layers.get? k) ∧ a ∉ m.stack

/-- The results agree but for the layer `a`. -/
def AlikeR {α : Type} (R : α → α → Prop) (r s : Except VErr α) : Prop :=
  match r, s with
  | .ok m, .ok n => R m n
  | .error e, .error f => e = f
  | _, _ => False

theorem AlikeR.bind {α β : Type} {R : α → α → Prop} {S : β → β → Prop} {r s : Except VErr α} {f g : α → Except VErr β}
    (h : AlikeR R r s) (hf : ∀ a b, R a b → AlikeR S (f a) (g b)) : AlikeR S (r >>= f) (s >>= g) := by
  cases r <;> cases s <;> first | exact h.elim | skip
  · exact h
  · exact hf _ _ h

/-- Dictionaries that agree but for `a`. -/
def AlikeL (a : ι) (L M : Dict ι (Layer ι κ)) : Prop := ∀ k, k ≠ a → L.get? k = M.get? k

theorem AlikeL.set {a : ι} {L M : Dict ι (Layer ι κ)} (h : AlikeL a L M) (k : ι) (l : Layer ι κ) :
    AlikeL a (L.set k l) (M.set k l) := by
  intro i hi
  simp only [Dict.get?_set]
  split
  · rfl
  · exact h i hi

theorem AlikeR.refl {α : Type} {R : α → α → Prop} (hR : ∀ a, R a a) (r : Except VErr α) : AlikeR R r r := by
  cases r with
  | error e => rfl
  | ok x => exact hR x

theorem target_alike {a id : ι} {L M : Dict ι (Layer ι κ)} (h : AlikeL a L M) (hi : id ≠ a) : target L id = target M id := by
  simp only [target, h id hi]

theorem paint_alike {a id : ι} {d : Draw ι} {L M : Dict ι (Layer ι κ)} (h : AlikeL a L M) (hi : id ≠ a)
    (hd : ¬ Mentions a (.draw d)) : AlikeR (AlikeL a) (paint B id d L) (paint B id d M) := by
  cases d with
  | shape s =>
    simp only [paint, target_alike h hi]
    refine AlikeR.bind (AlikeR.refl (R := Eq) (fun _ => rfl) _) ?_
    rintro e _ rfl
    refine AlikeR.bind (AlikeR.refl (R := Eq) (fun _ => rfl) _) ?_
    rintro c _ rfl
    exact h.set _ _
  | paste src ctr neg =>
    simp only [paint, h src hd, target_alike h hi]
    split
    · rfl
    · rfl
    · refine AlikeR.bind (AlikeR.refl (R := Eq) (fun _ => rfl) _) ?_
      rintro e _ rfl
      refine AlikeR.bind (AlikeR.refl (R := Eq) (fun _ => rfl) _) ?_
      rintro c _ rfl
      exact h.set _ _

theorem replay_alike {a id : ι} {ds : List (Draw ι)} {L M : Dict ι (Layer ι κ)} (h : AlikeL a L M) (hi : id ≠ a)
    (hd : ∀ d ∈ ds, ¬ Mentions a (.draw d)) : AlikeR (AlikeL a) (replay B id ds L) (replay B id ds M) := by
  induction ds generalizing L M with
  | nil => exact h
  | cons d ds ih =>
    exact AlikeR.bind (paint_alike h hi (hd d (by simp))) fun _ _ h' => ih h' (fun d' hd' => hd d' (by simp [hd']))

theorem commandBox_alike {a : ι} {d : Draw ι} {L M : Dict ι (Layer ι κ)} (h : AlikeL a L M)
    (hd : ¬ Mentions a (.draw d)) : commandBox L d = commandBox M d := by
  cases d with
  | shape s => rfl
  | paste src ctr neg => simp only [commandBox, h src hd]

theorem deferredBox_alike {a : ι} {ds : List (Draw ι)} {L M : Dict ι (Layer ι κ)} (h : AlikeL a L M)
    (hd : ∀ d ∈ ds, ¬ Mentions a (.draw d)) : deferredBox L ds = deferredBox M ds := by
  have hl : ∀ (ds : List (Draw ι)) (b : Box ℝ), (∀ d ∈ ds, ¬ Mentions a (.draw d)) → boxLoop L ds b = boxLoop M ds b := by
    intro ds
    induction ds with
    | nil => intro b _; rfl
    | cons d ds ih =>
      intro b hd
      simp only [boxLoop, commandBox_alike h (hd d (by simp)), fun b' => ih b' (fun d' hd' => hd d' (by simp [hd']))]
  cases ds with
  | nil => rfl
  | cons d ds =>
    simp only [deferredBox, commandBox_alike h (hd d (by simp)), fun b => hl ds b (fun d' hd' => hd d' (by simp [hd']))]

/-- No recorded command mentions `a`. -/
def Clean (a : ι) (m : Machine ι κ) : Prop :=
  ∀ k o cs, m.layers.get? k = some (.deferred o cs) → ∀ d ∈ cs, ¬ Mentions a (.draw d)

theorem settle_alike {a : ι} {L M : Dict ι (Layer ι κ)} {stack : List ι} (h : AlikeL a L M) (ha : a ∉ stack) :
    Alike a (settle L stack) (settle M stack) := by
  cases stack with
  | nil => exact ⟨rfl, rfl, h, by simp [settle]⟩
  | cons i rest =>
    simp only [settle]
    rw [← h i (fun hi => ha (by simp [hi]))]
    split
    · exact ⟨rfl, rfl, h, ha⟩
    · exact ⟨rfl, rfl, h, ha⟩

theorem step_alike {a : ι} {fail : Bool} {c : Command ι} {m n : Machine ι κ} (h : Alike a m n) (hm : Clean a m)
    (hc : ¬ Mentions a c) : AlikeR (Alike a) (step B fail c m) (step B fail c n) := by
  obtain ⟨h1, h2, h3, h4⟩ := h
  cases c with
  | start id box origin =>
    have hi : id ≠ a := hc
    simp only [step, onStart, h3 id hi]
    have hns : a ∉ id :: m.stack := by
      simp only [List.mem_cons, not_or]
      exact ⟨Ne.symm hi, h4⟩
    cases n.layers.get? id with
    | some l => rfl
    | none =>
      cases box with
      | none => exact ⟨by simp [h1], rfl, AlikeL.set h3 _ _, hns⟩
      | some b =>
        refine AlikeR.bind (AlikeR.refl (R := Eq) (fun _ => rfl) _) ?_
        rintro c _ rfl
        exact ⟨by simp [h1], rfl, AlikeL.set h3 _ _, hns⟩
  | draw d =>
    cases hs : m.stack with
    | nil =>
      simp only [step, onDraw, ← h1, ← h2, hs]
      cases m.deferring with
      | true => rfl
      | false =>
        cases d with
        | shape s => rfl
        | paste src ctr neg =>
          simp only [h3 src hc]
          split <;> rfl
    | cons i rest =>
      have hi : i ≠ a := fun hi => h4 (by rw [hs, hi]; simp)
      rw [draw_step fail d hs, draw_step fail d (h1 ▸ hs), ← h2]
      refine AlikeR.bind (R := AlikeL a) ?_ fun L M hLM => ⟨h1, rfl, hLM, h4⟩
      cases m.deferring with
      | true =>
        simp only [if_true, record, h3 i hi]
        cases n.layers.get? i with
        | none => rfl
        | some l =>
          cases l with
          | eager e => rfl
          | deferred o cs => exact AlikeL.set h3 _ _
      | false =>
        simp only [Bool.false_eq_true, if_false]
        exact paint_alike h3 hi hc
  | stop =>
    simp only [step, onEnd, ← h1]
    cases hs : m.stack with
    | nil => rfl
    | cons i rest =>
      have hi : i ≠ a := fun hi => h4 (by rw [hs, hi]; simp)
      have hr : a ∉ rest := fun hr => h4 (by rw [hs]; simp [hr])
      simp only [← h3 i hi]
      cases hg : m.layers.get? i with
      | none => rfl
      | some l =>
        cases l with
        | eager e => exact settle_alike h3 hr
        | deferred o cs =>
          have hcs := hm i o cs hg
          simp only [deferredBox_alike h3 hcs]
          refine AlikeR.bind (AlikeR.refl (R := Eq) (fun _ => rfl) _) ?_
          rintro ob _ rfl
          cases ob with
          | none =>
            cases fail with
            | true => rfl
            | false => exact ⟨rfl, h2, h3, hr⟩
          | some b =>
            refine AlikeR.bind (AlikeR.refl (R := Eq) (fun _ => rfl) _) ?_
            rintro c _ rfl
            exact AlikeR.bind (replay_alike (AlikeL.set h3 _ _) hi hcs) fun L M hLM => settle_alike hLM hr

theorem Clean.set {a : ι} {L : Dict ι (Layer ι κ)} {i : ι} {l : Layer ι κ} {st st' : List ι} {df df' : Bool}
    (hL : Clean a ⟨df, L, st⟩) (hl : ∀ o cs, l = .deferred o cs → ∀ d ∈ cs, ¬ Mentions a (.draw d)) :
    Clean a ⟨df', L.set i l, st'⟩ := by
  intro k o cs hg
  simp only [Dict.get?_set] at hg
  split at hg
  · cases hg; exact hl o cs rfl
  · exact hL k o cs hg

theorem Clean.settle {a : ι} {L : Dict ι (Layer ι κ)} {st st' : List ι} {df : Bool} (hL : Clean a ⟨df, L, st'⟩) :
    Clean a (settle L st) := by
  unfold Vm.settle
  split
  · exact hL
  · split <;> exact hL

theorem step_clean {a : ι} {fail : Bool} {c : Command ι} {m m' : Machine ι κ} (hm : Clean a m) (hc : ¬ Mentions a c)
    (h : step B fail c m = .ok m') : Clean a m' := by
  cases c with
  | start id box origin =>
    simp only [step, onStart] at h
    split at h
    · cases h
    · cases box with
      | none =>
        cases h
        exact Clean.set hm (by intro o cs he; cases he; simp)
      | some b =>
        obtain ⟨c, -, h2⟩ := bind_ok.1 h
        cases h2
        exact Clean.set hm (by intro o cs he; cases he)
  | draw d =>
    cases hs : m.stack with
    | nil =>
      simp only [step, onDraw, hs] at h
      split at h
      · split at h <;> cases h
      · cases h
    | cons i rest =>
      rw [draw_step fail d hs] at h
      obtain ⟨L, h1, h2⟩ := bind_ok.1 h
      cases h2
      cases hdf : m.deferring with
      | true =>
        simp only [hdf, if_true, record] at h1
        split at h1
        · rename_i o cs hg
          cases h1
          refine Clean.set hm ?_
          intro o' cs' he d' hd'
          cases he
          rcases List.mem_append.1 hd' with hd' | hd'
          · exact hm i _ cs hg d' hd'
          · cases List.mem_singleton.1 hd'; exact hc
        · cases h1
        · cases h1
      | false =>
        simp only [hdf, Bool.false_eq_true, if_false] at h1
        obtain ⟨e, c, -, rfl⟩ := paint_ok h1
        exact Clean.set hm (by intro o cs he; cases he)
  | stop =>
    simp only [step, onEnd] at h
    split at h
    · cases h
    · split at h
      · cases h
      · cases h; exact Clean.settle hm
      · rename_i i rest hs _ og cs hg
        obtain ⟨ob, -, h2⟩ := bind_ok.1 h
        cases ob with
        | none =>
          simp only at h2
          split at h2
          · cases h2
          · cases h2; exact hm
        | some b =>
          simp only at h2
          obtain ⟨c, -, h3⟩ := bind_ok.1 h2
          obtain ⟨L, h4, h5⟩ := bind_ok.1 h3
          cases h5
          refine Clean.settle (df := false) (st' := []) ?_
          obtain ⟨⟨c', hc'⟩, hk⟩ := replay_ok h4 (e := ⟨og, b, c⟩) (by simp)
          intro k o cs' hg'
          by_cases hki : k = i
          · subst hki; simp only [hc'] at hg'; cases hg'
          · simp only [hk k hki, Dict.get?_set, if_neg (Ne.symm hki)] at hg'
            exact hm k o cs' hg'

theorem exec_alike {a : ι} {fail : Bool} : ∀ {cs : List (Command ι)} {m n : Machine ι κ}, Alike a m n → Clean a m →
    (∀ c ∈ cs, ¬ Mentions a c) → AlikeR (Alike a) (exec B fail cs m) (exec B fail cs n)
  | [], _, _, h, _, _ => h
  | c :: cs, m, n, h, hm, hc => by
    have h1 := step_alike (B := B) (fail := fail) h hm (hc c (by simp))
    simp only [exec]
    cases hx : step B fail c m with
    | error e =>
      rw [hx] at h1
      cases hy : step B fail c n with
      | error f => rw [hy] at h1; exact h1
      | ok n' => rw [hy] at h1; exact h1.elim
    | ok m' =>
      rw [hx] at h1
      cases hy : step B fail c n with
      | error f => rw [hy] at h1; exact h1.elim
      | ok n' =>
        rw [hy] at h1
        exact exec_alike h1 (step_clean hm (hc c (by simp)) hx) (fun c' hc' => hc c' (by simp [hc']))

theorem exec_clean {a : ι} {fail : Bool} : ∀ {cs : List (Command ι)} {m m' : Machine ι κ}, Clean a m →
    (∀ c ∈ cs, ¬ Mentions a c) → (m.layers.get? a = none ∧ a ∉ m.stack) → exec B fail cs m = .ok m' →
    Clean a m' ∧ m'.layers.get? a = none ∧ a ∉ m'.stack
  | [], _, _, h, _, h2, he => by cases he; exact ⟨h, h2⟩
  | c :: cs, m, m', h, hc, h2, he => by
    obtain ⟨m1, h3, h4⟩ := bind_ok.1 he
    have hcc := hc c (by simp)
    refine exec_clean (step_clean h hcc h3) (fun c' hc' => hc c' (by simp [hc'])) ?_ h4
    have hsettle : ∀ (L : Dict ι (Layer ι κ)) (st : List ι), (settle L st).layers = L ∧ (settle L st).stack = st := by
      intro L st
      unfold settle
      split
      · exact ⟨rfl, rfl⟩
      · split <;> exact ⟨rfl, rfl⟩
    obtain ⟨h5, h6⟩ := h2
    cases c with
    | start id box origin =>
      have hi : id ≠ a := hcc
      have hns : a ∉ id :: m.stack := by
        simp only [List.mem_cons, not_or]
        exact ⟨Ne.symm hi, h6⟩
      simp only [step, onStart] at h3
      split at h3
      · cases h3
      · cases box with
        | none => cases h3; exact ⟨by simpa [Dict.get?_set, hi] using h5, hns⟩
        | some b =>
          obtain ⟨c, -, h2⟩ := bind_ok.1 h3
          cases h2
          exact ⟨by simpa [Dict.get?_set, hi] using h5, hns⟩
    | draw d =>
      cases hs : m.stack with
      | nil =>
        simp only [step, onDraw, hs] at h3
        split at h3
        · split at h3 <;> cases h3
        · cases h3
      | cons i rest =>
        have hi : i ≠ a := fun hi => h6 (by rw [hs, hi]; simp)
        rw [draw_step fail d hs] at h3
        obtain ⟨L, h7, h8⟩ := bind_ok.1 h3
        cases h8
        refine ⟨?_, h6⟩
        split at h7
        · simp only [record] at h7
          split at h7
          · cases h7; simpa [Dict.get?_set, hi] using h5
          · cases h7
          · cases h7
        · obtain ⟨e, c, -, rfl⟩ := paint_ok h7
          simpa [Dict.get?_set, hi] using h5
    | stop =>
      simp only [step, onEnd] at h3
      split at h3
      · cases h3
      · rename_i i rest hs
        have hi : i ≠ a := fun hi => h6 (by rw [hs, hi]; simp)
        have hr : a ∉ rest := fun hr => h6 (by rw [hs]; simp [hr])
        split at h3
        · cases h3
        · cases h3; rw [(hsettle _ _).1, (hsettle _ _).2]; exact ⟨h5, hr⟩
        · rename_i og cs hg
          obtain ⟨ob, -, h7⟩ := bind_ok.1 h3
          cases ob with
          | none =>
            simp only at h7
            split at h7
            · cases h7
            · cases h7; exact ⟨h5, hr⟩
          | some b =>
            simp only at h7
            obtain ⟨c, -, h8⟩ := bind_ok.1 h7
            obtain ⟨L, h9, h10⟩ := bind_ok.1 h8
            cases h10
            rw [(hsettle _ _).1, (hsettle _ _).2]
            obtain ⟨-, hk⟩ := replay_ok h9 (e := ⟨og, b, c⟩) (by simp)
            refine ⟨?_, hr⟩
            rw [hk a (Ne.symm hi), Dict.get?_set, if_neg hi, h5]

/-- An empty automatically sized layer leaves the handlers of automatically sized layers behind. -/
theorem empty_exec {a : ι} {origin : Vec ℝ} {m : Machine ι κ} (h : m.layers.get? a = none) :
    exec B false [.start a none origin, .stop] m = .ok ⟨true, m.layers.set a (.deferred origin []), m.stack⟩ := by
  simp [exec, step, onStart, h, onEnd, deferredBox, bind, Except.bind, pure, Except.pure]

/-- **C25** (partial).  An empty automatically sized layer that is never pasted changes nothing if the innermost layer
around it is automatically sized as well or if no drawing command follows it directly.  Missing: other positions, where
the claim is false (`c25_false_handlers`), and pasting the empty layer (`c25_false_paste`). -/
theorem c25_unused_layer_partial {a main : ι} {origin : Vec ℝ} {pre post : List (Command ι)}
    (hpos : (∃ o, (openLayers pre).head? = some o ∧ o.fixed = false) ∨ ∀ d, post.head? ≠ some (.draw d))
    (hpre : ∀ c ∈ pre, ¬ Mentions a c) (hpost : ∀ c ∈ post, ¬ Mentions a c) (hmain : main ≠ a) :
    run B false main (pre ++ .start a none origin :: .stop :: post) = run B false main (pre ++ post) := by
  have hkey : AlikeR (fun m n : Machine ι κ => AlikeL a m.layers n.layers) (exec B false (pre ++ post) Machine.init)
      (exec B false (pre ++ .start a none origin :: .stop :: post) Machine.init) := by
    rw [exec_append, exec_append]
    cases hp : exec B false pre Machine.init with
    | error e => rfl
    | ok m =>
      simp only [bind, Except.bind]
      obtain ⟨hcl, hno, hst⟩ := exec_clean (a := a) (m := Machine.init) (by intro k o cs h; cases h) hpre
        ⟨rfl, by simp [Machine.init]⟩ hp
      have he : exec B false (.start a none origin :: .stop :: post) m =
          exec B false post ⟨true, m.layers.set a (.deferred origin []), m.stack⟩ := by
        rw [show (Command.start a none origin :: .stop :: post : List (Command ι)) = [.start a none origin, .stop] ++ post
          from rfl, exec_append, empty_exec hno]
        rfl
      rw [he]
      have hL : AlikeL a m.layers (m.layers.set a (.deferred origin [])) := by
        intro k hk
        rw [Dict.get?_set, if_neg (Ne.symm hk)]
      have hA : Alike a ⟨true, m.layers, m.stack⟩ ⟨true, m.layers.set a (.deferred origin []), m.stack⟩ :=
        ⟨rfl, rfl, hL, hst⟩
      have hweak : ∀ {r s : Except VErr (Machine ι κ)}, AlikeR (Alike a) r s →
          AlikeR (fun m n : Machine ι κ => AlikeL a m.layers n.layers) r s := by
        intro r s h
        cases r <;> cases s <;> first | exact h.elim | exact h | exact h.2.2.1
      have hm' : ∀ c, post.head? = some c → step B false c ⟨true, m.layers, m.stack⟩ = step B false c m := by
        intro c hc
        by_cases ho : ∃ o, (openLayers pre).head? = some o ∧ o.fixed = false
        · obtain ⟨o, h1, h2⟩ := ho
          rw [← (exec_inv pre hp).1.mode o h1 h2]
        · have hi := (exec_inv pre hp).1
          cases c with
          | start id box o => rfl
          | draw d => exact absurd hc ((hpos.resolve_left ho) d)
          | stop =>
            simp only [step, onEnd]
            cases hop : openLayers pre with
            | nil =>
              rw [hi.stack, hop]
              rfl
            | cons o os =>
              have hfx : o.fixed = true := by
                cases hfx : o.fixed with
                | true => rfl
                | false => exact absurd ⟨o, by rw [hop]; rfl, hfx⟩ ho
              obtain ⟨e, hg⟩ := hi.fixed o (by rw [hop]; simp) hfx
              rw [hi.stack, hop]
              simp only [List.map_cons, hg]
      cases post with
      | nil => exact hL
      | cons c cs =>
        have : exec B false (c :: cs) m = exec B false (c :: cs) ⟨true, m.layers, m.stack⟩ := by
          simp only [exec, hm' c rfl]
        rw [this]
        exact hweak (exec_alike hA hcl hpost)
  simp only [run]
  cases hx : exec B false (pre ++ post) Machine.init with
  | error e =>
    rw [hx] at hkey
    cases hy : exec B false (pre ++ .start a none origin :: .stop :: post) Machine.init with
    | error f => rw [hy] at hkey; cases hkey; rfl
    | ok n => rw [hy] at hkey; exact hkey.elim
  | ok m =>
    rw [hx] at hkey
    cases hy : exec B false (pre ++ .start a none origin :: .stop :: post) Machine.init with
    | error f => rw [hy] at hkey; exact hkey.elim
    | ok n =>
      rw [hy] at hkey
      simp only [bind, Except.bind, hkey main hmain]

/-- A shape for the examples. -/
def dot : Shape := ⟨.line ⟨⟨0, 0⟩, ⟨1, 1⟩⟩, [], false⟩

/-- A backend for the examples that counts shapes. -/
def counting : Backend ℕ :=
  ⟨fun _ _ => .ok 0, fun e _ => .ok (e.content + 1), fun e src _ _ => .ok (e.content + src.content)⟩

/-- **C25** is false: after an empty automatically sized layer inside a layer of fixed size the next drawing command
fails. -/
theorem c25_false_handlers :
    run counting false "main" [.start "main" (some ⟨0, 0, 1, 1⟩) ⟨0, 0⟩, .draw (.shape dot), .stop] =
      .ok (some ⟨⟨0, 0⟩, ⟨0, 0, 1, 1⟩, 1⟩) ∧
    run counting false "main" [.start "main" (some ⟨0, 0, 1, 1⟩) ⟨0, 0⟩, .start "a" none ⟨0, 0⟩, .stop,
      .draw (.shape dot), .stop] = .error .assertion := by
  refine ⟨rfl, rfl⟩

/-- **C25** is false: an empty main layer fails, with `fail_on_empty_auto_sized_layer=False`. -/
theorem c25_false_main : run counting false "main" [.start "main" none ⟨0, 0⟩, .stop] = .error .assertion := rfl

/-- **C25** is false: pasting an empty layer fails. -/
theorem c25_false_paste :
    run counting false "main" [.start "a" none ⟨0, 0⟩, .stop, .start "main" (some ⟨0, 0, 1, 1⟩) ⟨0, 0⟩,
      .draw (.paste "a" ⟨0, 0⟩ false), .stop] = .error .pasteDeferredLayer := rfl

/-- The hypotheses of `c25_unused_layer_partial` are met, and the program renders. -/
example : run counting false "main" ([.start "main" none ⟨0, 0⟩, .draw (.shape dot)] ++
    .start "a" none ⟨0, 0⟩ :: .stop :: [.draw (.shape dot), .stop]) =
    run counting false "main" ([.start "main" none ⟨0, 0⟩, .draw (.shape dot)] ++ [.draw (.shape dot), .stop]) ∧
    ∃ e, run counting false "main" ([.start "main" none ⟨0, 0⟩, .draw (.shape dot)] ++ [.draw (.shape dot), .stop]) =
      .ok (some e) ∧ e.content = 2 :=
  ⟨c25_unused_layer_partial (.inl ⟨_, rfl, rfl⟩) (by simp [Mentions]) (by simp [Mentions]) (by simp), _, rfl, rfl⟩

/-- A structured program: a layer of fixed size inside an automatically sized one. -/
def nested : List (Node String) :=
  [.layer "main" none ⟨0, 0⟩ [.draw (.shape dot), .layer "a" (some ⟨0, 0, 1, 1⟩) ⟨0, 0⟩ [.draw (.shape dot)],
    .draw (.paste "a" ⟨2, 2⟩ false)]]

/-- The hypotheses of `c26_program` are met, and the program renders. -/
example : Node.DrawnAll nested ∧ Node.draws nested = [] ∧
    ∃ V, Node.evalAll counting none nested (fun _ => none) = .ok V ∧ (V "main").map (·.map (·.content)) = some (some 2) :=
  ⟨by simp [nested, Node.DrawnAll, Node.Drawn, Node.draws], rfl, _, rfl, rfl⟩

/-- The hypotheses of `c26_innermost` and `c24_smallest_box` are met: the box of the layer is found before it ends. -/
example : ∃ m m' : Machine String ℕ,
    exec counting false [.start "main" none ⟨0, 0⟩, .draw (.shape dot)] Machine.init = .ok m ∧
    exec counting false ([.start "main" none ⟨0, 0⟩, .draw (.shape dot)] ++ [.stop]) Machine.init = .ok m' ∧
    NoEmpty ([.start "main" none ⟨0, 0⟩, .draw (.shape dot)] : List (Command String)) ∧
    openLayers [.start "main" none ⟨0, 0⟩, .draw (.shape dot)] = [⟨"main", false, [.shape dot]⟩] := by
  refine ⟨_, _, rfl, rfl, ?_, rfl⟩
  intro pre post he
  have : Command.stop ∈ ([.start "main" none ⟨0, 0⟩, .draw (.shape dot)] : List (Command String)) := by
    rw [he]; simp
  simp at this

/-- The hypothesis of `c26_balanced` is met. -/
example : Balanced 0 (Node.commandsAll nested) := by
  simp [nested, Node.commandsAll, Node.commands, Balanced]

end
end Verif.Props.Vm
