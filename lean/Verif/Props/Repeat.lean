import Verif.Props.FlashImage

/-!
# C18: step and repeat
-/

namespace Verif.Props.Repeat
open Verif.Visitor Verif.Props Verif.Coord Verif.Geom Verif.Rvmc Verif.Compiler Verif.Spec Verif.Props.State Verif.Props.Compiler
noncomputable section

/-- Callbacks at the ends of blocks. -/
def isBlock : Event → Bool
  | .abOpen _ => true
  | .abClose _ => true
  | .srOpen _ => true
  | .srClose _ _ => true
  | _ => false

/-- Layers that are neither copies nor made under a name taken from the clock. -/
def Base (k : LayerId) : Prop := k = .main ∨ ∃ id, k = .ap id

theorem Base.not_xform {k : LayerId} (h : Base k) : ¬ k.isXform := by
  rcases h with rfl | ⟨id, rfl⟩ <;> exact fun h => h

/-- Callbacks that do not define the layer. -/
def Off (k : LayerId) (e : Event) : Prop := ∀ id, k = .ap id → ¬ defines id e

/-- The layer is kept unless it is the one being drawn, and it does not disappear. -/
def Stays (k : LayerId) (c c' : CState) : Prop :=
  (c.stack.head? ≠ some k → c'.buffers.get? k = c.buffers.get? k) ∧
    ((∃ b, c.buffers.get? k = some b) → ∃ b, c'.buffers.get? k = some b)

theorem Stays.of_eq {k : LayerId} {c c' : CState} (h : c'.buffers.get? k = c.buffers.get? k) : Stays k c c' :=
  ⟨fun _ => h, fun x => by rw [h]; exact x⟩

theorem stays_append (k : LayerId) {cmds c1 c2} (ha : append cmds c1 = .ok c2) : Stays k c1 c2 := by
  obtain ⟨a1, -, -, a4⟩ := append_ok ha
  refine ⟨fun hh => by rw [a4, if_neg hh], ?_⟩
  rintro ⟨b, hb⟩
  rw [a4, hb]
  split
  · exact ⟨_, rfl⟩
  · exact ⟨_, rfl⟩

theorem Stays.trans {k : LayerId} {a b c : CState} (h : Stays k a b) (h' : Stays k b c) (hs : b.stack = a.stack) :
    Stays k a c :=
  ⟨fun hh => (h'.1 (by rw [hs]; exact hh)).trans (h.1 hh), fun x => h'.2 (h.2 x)⟩

/-- Other callbacks keep the stack, and layers they do not define unless they are the one being drawn. -/
theorem step_inner {env : Env} {k : LayerId} (hk : Base k) {e : Event} {c c' : CState} (he : isBlock e = false)
    (hoff : Off k e) (h : Compiler.step env e c = .ok c') :
    c'.stack = c.stack ∧ Stays k c c' := by
  have app : ∀ {cmds c1 c2}, append cmds c1 = .ok c2 → c2.stack = c1.stack ∧ Stays k c1 c2 :=
    fun ha => ⟨(append_ok ha).1, stays_append k ha⟩
  cases e with
  | draw kind r s =>
    simp only [Compiler.step, draw] at h
    split at h
    · cases kind <;> simp only at h <;> first | (cases h; exact ⟨rfl, .of_eq rfl⟩) | skip
      all_goals
        split at h
        · cases h
        · cases h; exact ⟨rfl, .of_eq rfl⟩
    · obtain ⟨ss, _, h2⟩ := bind_ok.1 h
      exact app h2
  | flash _ ap s =>
    have fl : ∀ {m c1 cmds}, Grows m c c1 → append cmds c1 = .ok c' → c'.stack = c.stack ∧ Stays k c c' := by
      intro m c1 cmds g ha
      obtain ⟨a1, a2⟩ := app ha
      exact ⟨a1.trans g.stack, (Stays.of_eq (g.other k hk.not_xform)).trans a2 g.stack⟩
    simp only [Compiler.step, Compiler.flash] at h
    split at h
    · obtain ⟨c1, b, g, _, h2⟩ := flashBlock_ok h
      exact fl g h2
    · cases h
    · obtain ⟨c1, b, g, _, h2⟩ := flashAperture_ok h
      exact fl g h2
    · cases h
  | startRegion => cases h; exact ⟨rfl, .of_eq rfl⟩
  | flushRegion s =>
    simp only [Compiler.step, flushRegion] at h
    split at h
    · cases h
    · cases h; exact ⟨rfl, .of_eq rfl⟩
    · obtain ⟨c1, h1, h2⟩ := bind_ok.1 h
      rw [pure_ok] at h2; subst h2
      have := app h1
      exact this
  | endRegion => cases h; exact ⟨rfl, .of_eq rfl⟩
  | define i d s =>
    have r := define_ok h
    refine ⟨r.stack, .of_eq (r.other k ?_ ?_)⟩
    · rintro rfl; exact hoff i rfl rfl
    · rcases hk with rfl | ⟨id, rfl⟩ <;> nofun
  | _ => cases he

theorem leaf_ev {s : VState} {l : Leaf} (h : (Visitor.step s (.leaf l)).exn = none) :
    ∀ e ∈ (Visitor.step s (.leaf l)).ev, isBlock e = false := by
  have nil : ∀ {P : Event → Prop}, ∀ e ∈ ([] : List Event), P e := by intro P e he; cases he
  have one : ∀ {P : Event → Prop} (e0 : Event), P e0 → ∀ e ∈ [e0], P e := by
    intro P e0 h e he; rw [List.mem_singleton.1 he]; exact h
  cases l
  case d01 x y i j => rw [step_d01 h]; exact one _ rfl
  case d02 x y =>
    rw [step_d02 h]
    simp only [Out.ok]
    split
    · exact one _ rfl
    · exact nil
  case d03 x y =>
    obtain ⟨ap, k, e1, e2, e3⟩ := step_d03 h
    rw [e3]
    exact one _ rfl
  case dnn id =>
    simp only [Visitor.step, stepLeaf]
    split <;> exact nil
  case ad i d => exact one _ rfl
  case g36 => exact one _ rfl
  case g37 =>
    intro e he
    simp only [Visitor.step, stepLeaf, Out.ok, List.mem_cons, List.not_mem_nil, or_false] at he
    rcases he with rfl | rfl <;> rfl
  case td n => cases n <;> exact nil
  all_goals exact nil

/-- Callbacks after which the stack is as before, and the layer too unless it was the one being drawn. -/
def Balanced (env : Env) (k : LayerId) (es : List Event) : Prop :=
  ∀ c c', feed env es c = .ok c' → c'.stack = c.stack ∧ Stays k c c'

theorem Balanced.nil (env : Env) (k : LayerId) : Balanced env k [] := by
  intro c c' h; cases h; exact ⟨rfl, .of_eq rfl⟩

theorem Balanced.append {env : Env} {k : LayerId} {es fs : List Event} (h1 : Balanced env k es) (h2 : Balanced env k fs) :
    Balanced env k (es ++ fs) := by
  intro c c' h
  obtain ⟨c1, a, b⟩ := feed_append_ok.1 h
  obtain ⟨e1, m1⟩ := h1 c c1 a
  obtain ⟨e2, m2⟩ := h2 c1 c' b
  exact ⟨e2.trans e1, m1.trans m2 e1⟩

theorem balanced_inner {env : Env} {k : LayerId} (hk : Base k) : ∀ (es : List Event),
    (∀ e ∈ es, isBlock e = false ∧ Off k e) → Balanced env k es := by
  intro es
  induction es with
  | nil => intro _; exact .nil env k
  | cons e es ih =>
    intro h c c' hf
    obtain ⟨c1, h1, h2⟩ := feed_cons_ok.1 hf
    obtain ⟨a1, a2⟩ := step_inner hk (h e (by simp)).1 (h e (by simp)).2 h1
    obtain ⟨e2, m2⟩ := ih (fun e he => h e (List.mem_cons_of_mem _ he)) c1 c' h2
    exact ⟨e2.trans a1, a2.trans m2 a1⟩

/-- The end of a step and repeat block. -/
theorem closeSr_ok {p : SrParams} {s : VState} {c c' : CState} (h : closeSr p s c = .ok c') :
    ∃ id rest body c1, c.stack = id :: rest ∧ c.buffers.get? id = some body ∧ p.xRepeats ≠ 0 ∧ p.yRepeats ≠ 0 ∧
      append (copies p s body) { c with stack := rest } = .ok c1 ∧ c' = { c1 with buffers := c1.buffers.pop id } := by
  unfold closeSr at h
  split at h
  · cases h
  · next id rest he =>
    split at h
    · cases h
    · next body hb =>
      split at h
      · cases h
      · next hz =>
        obtain ⟨c1, h1, h2⟩ := bind_ok.1 h
        rw [pure_ok] at h2
        rw [not_or] at hz
        exact ⟨id, rest, body, c1, he, hb, hz.1, hz.2, h1, h2.symm⟩

theorem bracket_ab {env : Env} {k : LayerId} {id : Name} {es : List Event} (hne : k ≠ .ap id) (h : Balanced env k es) :
    Balanced env k (.abOpen id :: (es ++ [.abClose id])) := by
  intro c c' hf
  obtain ⟨c1, h1, h2⟩ := feed_cons_ok.1 hf
  obtain ⟨c2, h3, h4⟩ := feed_append_ok.1 h2
  rw [feed_singleton] at h4
  obtain ⟨e2, m2⟩ := h c1 c2 h3
  cases h1
  simp only [create] at e2
  simp only [Compiler.step, e2] at h4
  cases h4
  refine ⟨rfl, .of_eq ?_⟩
  rw [m2.1 (by simp only [List.head?_cons, ne_eq, Option.some.injEq]; exact fun h => hne h.symm)]
  simp only [create, Dict.get?_set]
  rw [if_neg (fun h => hne h.symm)]

theorem bracket_sr {env : Env} {k : LayerId} (hk : Base k) {p : SrParams} {s : VState} {es : List Event}
    (h : Balanced env k es) : Balanced env k (.srOpen p :: (es ++ [.srClose p s])) := by
  intro c c' hf
  obtain ⟨c1, h1, h2⟩ := feed_cons_ok.1 hf
  obtain ⟨c2, h3, h4⟩ := feed_append_ok.1 h2
  rw [feed_singleton] at h4
  obtain ⟨e2, m2⟩ := h c1 c2 h3
  cases h1
  simp only [create] at e2
  obtain ⟨id, rest, body, c3, f1, f2, -, -, f3, rfl⟩ := closeSr_ok h4
  rw [e2] at f1
  cases f1
  obtain ⟨a1, -, -, a4⟩ := append_ok f3
  have hne : ∀ n t, LayerId.sr n t ≠ k := by
    rintro n t rfl
    rcases hk with h | ⟨_, h⟩ <;> cases h
  have hm : Stays k { c2 with stack := c.stack } c3 := stays_append k f3
  have h0 : Stays k c { c2 with stack := c.stack } := .of_eq (by
    rw [show ({ c2 with stack := c.stack } : CState).buffers.get? k = c2.buffers.get? k from rfl,
      m2.1 (by simp only [List.head?_cons, ne_eq, Option.some.injEq]; exact hne _ _)]
    simp only [create, Dict.get?_set]
    rw [if_neg (hne _ _)])
  refine ⟨a1, (h0.trans hm rfl).trans (.of_eq ?_) a1⟩
  rw [Dict.get?_pop, if_neg (hne _ _)]

/-- Commands that do not define the layer. -/
def OffCmd (k : LayerId) (a : Atom) : Prop := ∀ id, k = .ap id → definesCode id a = false

theorem off_of_cmd {k : LayerId} {s : VState} {a : Atom} (h : (Visitor.step s a).exn = none) (ha : OffCmd k a) :
    ∀ e ∈ (Visitor.step s a).ev, Off k e := by
  intro e he id hid hd
  have := Flash.caused_defines (ev_cases h e he) hd
  rw [ha id hid] at this; cases this

mutual
theorem balanced_node (env : Env) {k : LayerId} (hk : Base k) : ∀ (cmd : Visitor.Cmd) (s : VState),
    (run s (atomsOf cmd)).exn = none → (∀ a ∈ atomsOf cmd, OffCmd k a) → Balanced env k (run s (atomsOf cmd)).ev
  | .leaf l, s, h, ho => by
    simp only [atomsOf] at h ho ⊢
    rw [run_singleton] at h ⊢
    exact balanced_inner hk _ (fun e he => ⟨leaf_ev h e he, off_of_cmd h (ho _ (by simp)) e he⟩)
  | .ab id body, s, h, ho => by
    simp only [atomsOf] at h ho ⊢
    rw [← List.singleton_append, run_append_none] at h
    obtain ⟨h1, h2⟩ := h
    obtain ⟨h3, h4⟩ := run_append_none.1 h2
    have ih := balanced_nodes env hk body _ h3 (fun a ha => ho a (by simp [ha]))
    rw [← List.singleton_append, run_append, Out.andThen_of_none h1, run_append, Out.andThen_of_none h3]
    refine bracket_ab ?_ ih
    rintro rfl
    have := ho (.abOpen id) (by simp) id rfl
    simp [definesCode] at this
  | .sr p body, s, h, ho => by
    simp only [atomsOf] at h ho ⊢
    rw [← List.singleton_append, run_append_none] at h
    obtain ⟨h1, h2⟩ := h
    obtain ⟨h3, h4⟩ := run_append_none.1 h2
    have ih := balanced_nodes env hk body _ h3 (fun a ha => ho a (by simp [ha]))
    rw [← List.singleton_append, run_append, Out.andThen_of_none h1, run_append, Out.andThen_of_none h3]
    exact bracket_sr hk ih
theorem balanced_nodes (env : Env) {k : LayerId} (hk : Base k) : ∀ (cmds : List Visitor.Cmd) (s : VState),
    (run s (atomsOfAll cmds)).exn = none → (∀ a ∈ atomsOfAll cmds, OffCmd k a) →
    Balanced env k (run s (atomsOfAll cmds)).ev
  | [], s, h, ho => Balanced.nil env k
  | cmd :: cmds, s, h, ho => by
    simp only [atomsOfAll] at h ho ⊢
    obtain ⟨h1, h2⟩ := run_append_none.1 h
    rw [run_append, Out.andThen_of_none h1]
    exact (balanced_node env hk cmd s h1 (fun a ha => ho a (by simp [ha]))).append
      (balanced_nodes env hk cmds _ h2 (fun a ha => ho a (by simp [ha])))
end

/-! ### The stack -/

/-- The stack holds the layers of the open blocks, which exist, above the main layer. -/
structure Upright (h : List Atom) (c : CState) : Prop where
  stack : ∃ front, c.stack = front ++ [.main] ∧ List.Forall₂ Names front (openBlocks h)
  live : ∀ k ∈ c.stack, Base k → ∃ b, c.buffers.get? k = some b

theorem feed_leaf {env : Env} : ∀ (es : List Event) (c c' : CState), (∀ e ∈ es, isBlock e = false) →
    feed env es c = .ok c' → c'.stack = c.stack ∧
      ∀ k, Base k → (∃ b, c.buffers.get? k = some b) → ∃ b, c'.buffers.get? k = some b := by
  intro es
  induction es with
  | nil => intro c c' _ h; cases h; exact ⟨rfl, fun _ _ h => h⟩
  | cons e es ih =>
    intro c c' he hf
    obtain ⟨c1, h1, h2⟩ := feed_cons_ok.1 hf
    obtain ⟨i1, i2⟩ := ih c1 c' (fun e h => he e (List.mem_cons_of_mem _ h)) h2
    have hst : c1.stack = c.stack := (step_inner (.inl rfl) (he e (by simp)) nofun h1).1
    refine ⟨i1.trans hst, fun k hk hb => i2 k hk ?_⟩
    by_cases hoff : Off k e
    · exact (step_inner hk (he e (by simp)) hoff h1).2.2 hb
    · unfold Off at hoff
      push Not at hoff
      obtain ⟨id, rfl, hd⟩ := hoff
      cases e with
      | define i d s => cases hd; exact (define_ok h1).made
      | abOpen i => cases he _ List.mem_cons_self
      | _ => exact hd.elim

theorem upright {env : Env} : ∀ h : List Atom, (run {} h).exn = none → ∀ c, compiled env h = .ok c → Nested h →
    Upright h c := by
  refine history_induction ?_ ?_
  · intro c hc _
    cases hc
    refine ⟨⟨[], rfl, .nil⟩, ?_⟩
    intro k hk _
    simp only [CState.init, List.mem_singleton] at hk
    subst hk
    exact ⟨[], by simp [CState.init, Dict.get?]⟩
  · intro h a h1 h2 ih c' hc hn
    rw [compiled_snoc h1] at hc
    obtain ⟨c, hc0, hf⟩ := bind_ok.1 hc
    obtain ⟨⟨front, e1, e2⟩, hl⟩ := ih c hc0 (nested_prefix hn)
    cases a with
    | leaf l =>
      obtain ⟨f1, f2⟩ := feed_leaf _ _ _ (leaf_ev h2) hf
      exact ⟨⟨front, f1.trans e1, by rw [openBlocks_snoc]; exact e2⟩, fun k hk hb => f2 k hb (hl k (by rw [← f1]; exact hk) hb)⟩
    | abOpen id =>
      change feed env [.abOpen id] c = .ok c' at hf
      rw [feed_singleton] at hf
      cases hf
      refine ⟨⟨.ap id :: front, by simp [e1], by rw [openBlocks_snoc]; exact .cons rfl e2⟩, ?_⟩
      intro k hk hb
      simp only [create, Dict.get?_set]
      split
      · exact ⟨_, rfl⟩
      · next hne =>
        rcases List.mem_cons.1 hk with h | h
        · exact absurd h.symm hne
        · exact hl k h hb
    | srOpen p =>
      change feed env [.srOpen p] c = .ok c' at hf
      rw [feed_singleton] at hf
      cases hf
      refine ⟨⟨.sr p.node (env.time c.calls) :: front, by simp [e1], by rw [openBlocks_snoc]; exact .cons trivial e2⟩, ?_⟩
      intro k hk hb
      simp only [create, Dict.get?_set]
      split
      · exact ⟨_, rfl⟩
      · next hne =>
        rcases List.mem_cons.1 hk with h | h
        · exact absurd h.symm hne
        · exact hl k h hb
    | abClose id =>
      change feed env [.abClose id] c = .ok c' at hf
      rw [feed_singleton] at hf
      have hlast := (hn h (.abClose id) [] rfl).1 id rfl
      cases ho : openBlocks h with
      | nil => rw [ho] at hlast; cases hlast
      | cons o os =>
        rw [ho] at e2
        cases e2 with
        | cons k1 k2 =>
          simp only [Compiler.step, e1, List.cons_append] at hf
          cases hf
          exact ⟨⟨_, rfl, by rw [openBlocks_snoc, ho]; exact k2⟩,
            fun k hk hb => hl k (by rw [e1]; exact List.mem_cons_of_mem _ hk) hb⟩
    | srClose p =>
      change feed env [.srClose p _] c = .ok c' at hf
      rw [feed_singleton] at hf
      have hlast := (hn h (.srClose p) [] rfl).2 p rfl
      cases ho : openBlocks h with
      | nil => rw [ho] at hlast; cases hlast
      | cons o os =>
        rw [ho] at e2 hlast
        cases hlast
        cases e2 with
        | @cons l _ ls _ k1 k2 =>
          obtain ⟨id, rest, body, c3, f1, f2, -, -, f3, rfl⟩ := closeSr_ok hf
          rw [e1] at f1
          cases f1
          refine ⟨⟨_, (append_ok f3).1, by rw [openBlocks_snoc, ho]; exact k2⟩, ?_⟩
          intro k hk hb
          rw [show c3.stack = _ from (append_ok f3).1] at hk
          have hne : l ≠ k := by
            rintro rfl
            rcases hb with rfl | ⟨_, rfl⟩ <;> exact k1
          simp only [Dict.get?_pop]
          rw [if_neg hne]
          exact (stays_append k f3).2 (hl k (by rw [e1]; exact List.mem_cons_of_mem _ hk) hb)

/-- The copies the code makes, in terms of the specification. -/
theorem copies_eq (p : SrParams) (s : VState) (body : List (Draw LayerId)) :
    copies p s body = (List.range p.xRepeats).flatMap fun k : ℕ => (List.range p.yRepeats).flatMap fun l : ℕ =>
      body.map (shift ⟨(s.coordinateX : ℝ) + k * p.xDelta, (s.coordinateY : ℝ) + l * p.yDelta⟩) := by
  have key : ∀ k l : ℕ, moved (Mat.newTranslate ((s.coordinateX + k * p.xDelta : ℚ) : ℝ)
      ((s.coordinateY + l * p.yDelta : ℚ) : ℝ)) body =
      body.map (shift ⟨(s.coordinateX : ℝ) + k * p.xDelta, (s.coordinateY : ℝ) + l * p.yDelta⟩) := by
    intro k l
    rw [← moved_translate]
    push_cast
    rfl
  simp only [copies, key]

/-- **C18** (partial: see `c18_false_displaced`; blocks that are open are not defined again in the body, and the block
is not in another step and repeat block, which the grammar rejects). A step and repeat block, at the top level of a file
or in block apertures, draws on the layer being drawn what its body drew, `nx * ny` times, column by column, displaced by
`(k * dx, l * dy)` - and by the current point at the end of the block. Nothing else of the block remains there or on
the layers of the other open blocks. -/
theorem c18_copies_partial (env : Env) (h : List Atom) (p : SrParams) (body : List Visitor.Cmd) (c' : CState)
    (hr : (run {} (h ++ atomsOf (.sr p body))).exn = none)
    (hc : compiled env (h ++ atomsOf (.sr p body)) = .ok c')
    (hn : Nested h) (hno : none ∉ openBlocks h)
    (hopen : ∀ id, some id ∈ openBlocks h → ∀ a ∈ atomsOfAll body, definesCode id a = false) :
    ∃ c0 c1 top old drawn layer x y, compiled env h = .ok c0 ∧ c0.stack.head? = some top ∧ c0.buffers.get? top = some old ∧
      compiled env (h ++ .srOpen p :: atomsOfAll body) = .ok c1 ∧ c1.stack = layer :: c0.stack ∧ layer ∉ c0.stack ∧
      c1.buffers.get? layer = some drawn ∧
      At (h ++ .srOpen p :: atomsOfAll body) ⟨x, y⟩ ∧ 0 < p.xRepeats ∧ 0 < p.yRepeats ∧
      c'.stack = c0.stack ∧
      c'.buffers.get? top = some (old ++ (List.range p.xRepeats).flatMap fun k : ℕ =>
        (List.range p.yRepeats).flatMap fun l : ℕ => drawn.map (shift ⟨x + k * p.xDelta, y + l * p.yDelta⟩)) ∧
      ∀ k ∈ c0.stack, k ≠ top → c'.buffers.get? k = c0.buffers.get? k := by
  have hsplit : h ++ atomsOf (.sr p body) = (h ++ .srOpen p :: atomsOfAll body) ++ [.srClose p] := by simp [atomsOf]
  rw [hsplit] at hr hc
  obtain ⟨h1, h2⟩ := run_snoc_none.1 hr
  have hs2 : h ++ .srOpen p :: atomsOfAll body = (h ++ [.srOpen p]) ++ atomsOfAll body := by simp
  have h1' := h1
  rw [hs2] at h1'
  obtain ⟨h3, h4⟩ := run_append_none.1 h1'
  obtain ⟨h5, -⟩ := run_snoc_none.1 h3
  rw [compiled_snoc h1] at hc
  obtain ⟨c1, hc1, hclose⟩ := bind_ok.1 hc
  have hc2 := hc1
  rw [hs2, compiled_append h3] at hc2
  obtain ⟨co, hco, hbody⟩ := bind_ok.1 hc2
  rw [compiled_snoc h5] at hco
  obtain ⟨c0, hc0, hop⟩ := bind_ok.1 hco
  have hup := upright h h5 c0 hc0 hn
  -- the layers on the stack are not made by the block
  have hbase : ∀ k ∈ c0.stack, Base k ∧ ∀ a ∈ atomsOfAll body, OffCmd k a := by
    intro k hk
    obtain ⟨front, e1, e2⟩ := hup.stack
    rw [e1] at hk
    rcases List.mem_append.1 hk with hk | hk
    · obtain ⟨o, ho, hname⟩ := forall₂_mem e2 _ hk
      cases o with
      | none => exact absurd ho hno
      | some id =>
        cases k with
        | ap i =>
          cases hname
          exact ⟨.inr ⟨_, rfl⟩, fun a ha j hj => by cases hj; exact hopen _ ho a ha⟩
        | _ => exact hname.elim
    · rw [List.mem_singleton] at hk
      subst hk
      exact ⟨.inl rfl, fun _ _ _ => nofun⟩
  change feed env [.srOpen p] c0 = .ok co at hop
  rw [feed_singleton] at hop
  cases hop
  have hlayer : LayerId.sr p.node (env.time c0.calls) ∉ c0.stack := by
    intro hm
    rcases (hbase _ hm).1 with h | ⟨_, h⟩ <;> cases h
  have r2 : c1.stack = .sr p.node (env.time c0.calls) :: c0.stack :=
    (balanced_nodes env (k := .main) (.inl rfl) body _ h4 (fun _ _ _ => nofun) _ _ hbody).1
  have r3 : ∀ k ∈ c0.stack, c1.buffers.get? k = c0.buffers.get? k := by
    intro k hk
    obtain ⟨b1, b2⟩ := hbase k hk
    have := (balanced_nodes env b1 body _ h4 b2 _ _ hbody).2.1 (by
      simp only [List.head?_cons, ne_eq, Option.some.injEq]
      rintro rfl; exact hlayer hk)
    rw [this]
    simp only [create, Dict.get?_set]
    rw [if_neg]
    rintro rfl; exact hlayer hk
  change feed env [.srClose p _] c1 = .ok c' at hclose
  rw [feed_singleton] at hclose
  obtain ⟨id, rest, drawn, c3, f1, f2, f3, f4, f5, rfl⟩ := closeSr_ok hclose
  rw [r2] at f1
  cases f1
  obtain ⟨a1, -, -, a4⟩ := append_ok f5
  obtain ⟨top, htop⟩ : ∃ top, c0.stack.head? = some top := by
    obtain ⟨front, e1, -⟩ := hup.stack
    rw [e1]; cases front <;> exact ⟨_, rfl⟩
  have hmem : top ∈ c0.stack := List.mem_of_head? htop
  obtain ⟨old, hold⟩ := hup.live top hmem (hbase top hmem).1
  obtain ⟨l1, l2⟩ := current_inv _ h1
  have hst := settled _ h1
  have hpop : ∀ k ∈ c0.stack, (c3.buffers.pop (.sr p.node (env.time c0.calls))).get? k = c3.buffers.get? k := by
    intro k hk
    rw [Dict.get?_pop, if_neg]
    rintro rfl; exact hlayer hk
  refine ⟨c0, c1, top, old, drawn, .sr p.node (env.time c0.calls), _, _, hc0, htop, hold, hc1, r2, hlayer, f2,
    ⟨_, _, l1, l2, rfl⟩, Nat.pos_of_ne_zero f3, Nat.pos_of_ne_zero f4, a1, ?_, ?_⟩
  · simp only
    rw [hpop top hmem, a4]
    simp only [htop, if_true, r3 top hmem, hold, Option.map_some, copies_eq]
    rw [settled_coordX hst, settled_coordY hst]
  · intro k hk hne
    simp only
    rw [hpop k hk, a4]
    simp only [htop, Option.some.injEq]
    rw [if_neg (fun h => hne h.symm)]
    exact r3 k hk

/-- **C18** (partial: the current point is the origin when the block ends). The copies are displaced by
`(k * dx, l * dy)` and by nothing else. -/
theorem c18_at_origin_partial (env : Env) (h : List Atom) (p : SrParams) (body : List Visitor.Cmd)
    (c' : CState) (hr : (run {} (h ++ atomsOf (.sr p body))).exn = none)
    (hc : compiled env (h ++ atomsOf (.sr p body)) = .ok c')
    (hn : Nested h) (hno : none ∉ openBlocks h)
    (hopen : ∀ id, some id ∈ openBlocks h → ∀ a ∈ atomsOfAll body, definesCode id a = false)
    (hat : At (h ++ .srOpen p :: atomsOfAll body) ⟨0, 0⟩) :
    ∃ c0 c1 top old drawn layer, compiled env h = .ok c0 ∧ c0.stack.head? = some top ∧ c0.buffers.get? top = some old ∧
      compiled env (h ++ .srOpen p :: atomsOfAll body) = .ok c1 ∧ c1.stack.head? = some layer ∧
      c1.buffers.get? layer = some drawn ∧
      c'.buffers.get? top = some (old ++ (List.range p.xRepeats).flatMap fun k : ℕ =>
        (List.range p.yRepeats).flatMap fun l : ℕ => drawn.map (shift ⟨k * p.xDelta, l * p.yDelta⟩)) := by
  obtain ⟨c0, c1, top, old, drawn, layer, x, y, h1, h0, h2, h3, h4, -, h5, h6, -, -, -, h7, -⟩ :=
    c18_copies_partial env h p body c' hr hc hn hno hopen
  have := at_unique hat h6
  simp only [Vec.mk.injEq] at this
  obtain ⟨rfl, rfl⟩ := this
  simp only [zero_add] at h7
  exact ⟨c0, c1, top, old, drawn, layer, h1, h0, h2, h3, by rw [h4]; rfl, h5, h7⟩

/-- **C18** (no repeats). A block that is repeated zero times in a direction does not compile. -/
theorem c18_zero_repeats (env : Env) (h : List Atom) (p : SrParams) (hz : p.xRepeats = 0 ∨ p.yRepeats = 0)
    (hr : (run {} h).exn = none) : ∀ c', compiled env (h ++ [.srClose p]) ≠ .ok c' := by
  intro c' hc
  rw [compiled_snoc hr] at hc
  obtain ⟨c, -, h2⟩ := bind_ok.1 hc
  change feed env [.srClose p _] c = .ok c' at h2
  rw [feed_singleton] at h2
  obtain ⟨id, rest, body, c1, -, -, f1, f2, -⟩ := closeSr_ok h2
  rcases hz with hz | hz
  · exact f1 hz
  · exact f2 hz

/-- An aperture is selected. -/
def srBefore : List Visitor.Cmd :=
  [.leaf (.fs {}), .leaf (.ad ['D','1','0'] (.circle 1 none)), .leaf (.dnn ['D','1','0'])]

/-- One flash away from the origin. -/
def srBody : List Visitor.Cmd := [.leaf (.d03 (some ['5']) none)]

/-- Repeated once. -/
def srOnce : SrParams := ⟨0, 1, 1, 0, 0⟩

theorem srSample_ok :
    (∃ c, compiled env0 (atomsOfAll srBefore) = .ok c ∧ c.buffers.get? .main = some []) ∧
    (∃ c, compiled env0 (atomsOfAll srBefore ++ .srOpen srOnce :: atomsOfAll srBody) = .ok c ∧
      c.stack.head? = some (.sr 0 0) ∧
      ∃ L, c.buffers.get? (.sr 0 0) = some [.paste L ⟨((5 / 1000000 : ℚ) : ℝ), 0⟩ false]) ∧
    ∃ c L, compiled env0 (atomsOfAll srBefore ++ atomsOf (.sr srOnce srBody)) = .ok c ∧
      c.buffers.get? .main = some [.paste L ⟨((5 / 1000000 : ℚ) : ℝ) + ((5 / 1000000 : ℚ) : ℝ), 0⟩ false] := by
  refine ⟨?_, ?_, ?_⟩
  · eval_compiler [srBefore, atomsOf, atomsOfAll]
  · eval_compiler [srBefore, srBody, srOnce, atomsOf, atomsOfAll, unpack5, VState.putX]
  · eval_compiler [srBefore, srBody, srOnce, atomsOf, atomsOfAll, unpack5, VState.putX, closeSr, copies, moved,
      Dict.pop, Mat.apply, Mat.newTranslate, Mat.ofRows]

/-- **C18 does not hold**: the copies are displaced by the current point as well. -/
theorem c18_false_displaced :
    ¬ ∀ (env : Env) (before : List Visitor.Cmd) (p : SrParams) (body : List Visitor.Cmd) (c' : CState),
      (run {} (atomsOfAll before ++ atomsOf (.sr p body))).exn = none →
      compiled env (atomsOfAll before ++ atomsOf (.sr p body)) = .ok c' →
      ∃ c0 c1 main drawn layer, compiled env (atomsOfAll before) = .ok c0 ∧ c0.buffers.get? .main = some main ∧
        compiled env (atomsOfAll before ++ .srOpen p :: atomsOfAll body) = .ok c1 ∧ c1.stack.head? = some layer ∧
        c1.buffers.get? layer = some drawn ∧
        c'.buffers.get? .main = some (main ++ (List.range p.xRepeats).flatMap fun k : ℕ =>
          (List.range p.yRepeats).flatMap fun l : ℕ => drawn.map (shift ⟨k * p.xDelta, l * p.yDelta⟩)) := by
  intro hall
  obtain ⟨⟨c0, a1, a2⟩, ⟨c1, b1, b2, L1, b3⟩, ⟨c', L, d1, d2⟩⟩ := srSample_ok
  obtain ⟨e0, e1, main, drawn, layer, h1, h2, h3, h4, h5, h6⟩ := hall env0 srBefore srOnce srBody c' (by decide +kernel) d1
  rw [a1] at h1; cases h1
  rw [a2] at h2; cases h2
  rw [b1] at h3; cases h3
  rw [b2] at h4; cases h4
  rw [b3] at h5; cases h5
  rw [d2] at h6
  simp [srOnce, shift] at h6

/-- Non-vacuity of C18: two by three copies; the current point is the origin at the end. -/
example : (run {} (atomsOfAll srBefore ++ atomsOf (.sr ⟨0, 2, 3, 1, 1⟩ [.leaf (.d03 none none)]))).exn = none ∧
    (∃ c', compiled env0 (atomsOfAll srBefore ++ atomsOf (.sr ⟨0, 2, 3, 1, 1⟩ [.leaf (.d03 none none)])) = .ok c') ∧
    At (atomsOfAll srBefore ++ .srOpen ⟨0, 2, 3, 1, 1⟩ :: atomsOfAll [.leaf (.d03 none none)]) ⟨0, 0⟩ := by
  refine ⟨by decide +kernel, ?_, ?_⟩
  · eval_compiler [srBefore, atomsOf, atomsOfAll, closeSr, Dict.pop, copies, moved, List.range, List.range.loop]
  · refine ⟨0, 0, Or.inr ⟨?_, rfl⟩, Or.inr ⟨?_, rfl⟩, by ext <;> simp⟩ <;> decide

/-- Non-vacuity of C18: a repetition in a block aperture. -/
def srBlock : List Atom := atomsOfAll srBefore ++ [.abOpen ['D','1','1'], .leaf (.d03 none none)]

example : (run {} (srBlock ++ atomsOf (.sr ⟨0, 2, 3, 1, 1⟩ [.leaf (.d03 none none)]))).exn = none ∧
    (∃ c', compiled env0 (srBlock ++ atomsOf (.sr ⟨0, 2, 3, 1, 1⟩ [.leaf (.d03 none none)])) = .ok c') ∧
    Nested srBlock ∧ openBlocks srBlock = [some ['D','1','1']] := by
  refine ⟨by decide +kernel, ?_, ?_, rfl⟩
  · eval_compiler [srBlock, srBefore, atomsOf, atomsOfAll, closeSr, Dict.pop, copies, moved, List.range, List.range.loop]
  · exact FlashImage.c17_files_nested true (srBefore ++ [.ab ['D','1','1'] [.leaf (.d03 none none)]]) _ [.abClose ['D','1','1']] rfl

end
end Verif.Props.Repeat
