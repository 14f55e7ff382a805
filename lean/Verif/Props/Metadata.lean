import Verif.Lemmas.Metadata
import Verif.Spec.Metadata
import Verif.Props.MacroShape
import Verif.Props.Layers

/-!
# C80: metadata
-/

namespace Verif.Props.Metadata
open Verif.Visitor Verif.Geom Verif.Rvmc Verif.Metadata Verif.Spec Verif.Lemmas.Metadata Verif.Props.State
open Verif.Compiler (LayerId CErr CState Env contourSegments drawShapes thermal transformMatrix endPoint bind_ok pure_ok)
noncomputable section

/-! ### Histories -/

theorem feed_append (env : Env) (inc : Bool) (es fs : List Event) (c : MState) :
    feed env inc (es ++ fs) c = (feed env inc es c >>= feed env inc fs) := by
  induction es generalizing c with
  | nil => rfl
  | cons e es ih =>
    simp only [List.cons_append, feed]
    cases Metadata.step env inc e c with
    | error x => rfl
    | ok c' => exact ih c'

theorem feed_cons_ok {env : Env} {inc : Bool} {e : Event} {es : List Event} {c c' : MState} :
    feed env inc (e :: es) c = .ok c' ↔ ∃ c1, Metadata.step env inc e c = .ok c1 ∧ feed env inc es c1 = .ok c' := bind_ok

theorem feed_singleton {env : Env} {inc : Bool} {e : Event} {c : MState} :
    feed env inc [e] c = Metadata.step env inc e c := by
  simp only [feed]
  cases Metadata.step env inc e c <;> rfl

theorem compiledWith_pre {env : Env} {inc : Bool} {h : List Atom} {a : Atom} {c' : MState}
    (hr : (run {} (h ++ [a])).exn = none) (hc : compiledWith inc env (h ++ [a]) = .ok c') :
    (run {} h).exn = none ∧ (Visitor.step (run {} h).st a).exn = none ∧
      ∃ c, compiledWith inc env h = .ok c ∧ feed env inc (Visitor.step (run {} h).st a).ev c = .ok c' := by
  obtain ⟨h1, h2⟩ := run_snoc_none.1 hr
  unfold compiledWith at hc
  rw [run_snoc_ev h1, feed_append, bind_ok] at hc
  exact ⟨h1, h2, hc⟩

/-! ### What callbacks see -/

/-- How a callback relates to the command that causes it. -/
def Sees (s : VState) (a : Atom) : Event → Prop
  | .draw _ _ s' => s'.objectAttrs = s.objectAttrs ∧ ∃ x y i j, a = .leaf (.d01 x y i j)
  | .flash _ _ s' => s'.objectAttrs = s.objectAttrs ∧ ∃ x y, a = .leaf (.d03 x y)
  | .define id d s' => s'.apertureAttrs = s.apertureAttrs ∧ s'.macros = s.macros ∧ a = .leaf (.ad id d)
  | .flushRegion _ => a = .leaf .g37 ∨ ∃ x y, a = .leaf (.d02 x y) ∧ s.isRegion = true
  | _ => True

theorem sees {s : VState} {a : Atom} (h : (Visitor.step s a).exn = none) : ∀ e ∈ (Visitor.step s a).ev, Sees s a e := by
  intro e he
  cases a with
  | leaf l =>
    cases l with
    | d01 x y i j =>
      rw [step_d01 h] at he
      simp only [Out.ok, List.mem_singleton] at he
      subst he
      exact ⟨rfl, _, _, _, _, rfl⟩
    | d02 x y =>
      rw [step_d02 h] at he
      simp only [Out.ok] at he
      split at he
      · next hr =>
        simp only [List.mem_singleton] at he
        subst he
        exact .inr ⟨x, y, rfl, by rw [updateCoordinates_eq] at hr; exact hr⟩
      · cases he
    | d03 x y =>
      obtain ⟨ap, k, -, -, e3⟩ := step_d03 h
      rw [e3] at he
      simp only [Out.ok, List.mem_singleton] at he
      subst he
      exact ⟨rfl, _, _, rfl⟩
    | ad id d =>
      simp only [Visitor.step, stepLeaf, Out.ok, List.mem_singleton] at he
      subst he
      exact ⟨rfl, rfl, rfl⟩
    | g37 =>
      simp only [Visitor.step, stepLeaf, Out.ok, List.mem_cons, List.not_mem_nil, or_false] at he
      rcases he with rfl | rfl
      · exact .inl rfl
      · trivial
    | g36 =>
      simp only [Visitor.step, stepLeaf, Out.ok, List.mem_singleton] at he
      subst he; trivial
    | dnn id =>
      simp only [Visitor.step, stepLeaf] at he
      split at he <;> cases he
    | td n => cases n <;> cases he
    | _ => cases he
  | _ =>
    simp only [Visitor.step, Out.ok, List.mem_singleton] at he
    subst he; trivial

/-! ### Metadata of all commands -/

/-- Every metadata in the buffers satisfies `P`. -/
def All (P : Info → Prop) (c : MState) : Prop := ∀ k b, c.buffers.get? k = some b → ∀ t ∈ b, P t.info

theorem All.create {P : Info → Prop} {c : MState} (hc : All P c) {id : LayerId} {cmds : List Tagged}
    (h : ∀ t ∈ cmds, P t.info) : All P (create id cmds c) := by
  intro k b hb
  simp only [Metadata.create, Dict.get?_set] at hb
  split at hb
  · cases hb; exact h
  · exact hc k b hb

theorem All.append {P : Info → Prop} {c c' : MState} (hc : All P c) {cmds : List Tagged} (h : ∀ t ∈ cmds, P t.info)
    (ha : append cmds c = .ok c') : All P c' := by
  unfold Metadata.append at ha
  split at ha
  · cases ha; exact hc
  · split at ha
    · cases ha
    · next id rest hs =>
      split at ha
      · cases ha
      · next b hb =>
        cases ha
        intro k b' hb'
        simp only [Dict.get?_set] at hb'
        split at hb'
        · cases hb'
          intro t ht
          rcases List.mem_append.1 ht with ht | ht
          · exact hc id b hb t ht
          · exact h t ht
        · exact hc k b' hb'

theorem all_tag {P : Info → Prop} {info : Info} (h : P info) (cmds : List Compiler.Cmd) :
    ∀ t ∈ tag info cmds, P t.info := by
  intro t ht
  obtain ⟨c, -, rfl⟩ := List.mem_map.1 ht
  exact h

theorem all_transform {P : Info → Prop} (m : Mat ℝ) {get : LayerId → MState → Except CErr (LayerId × MState)}
    (hget : ∀ id c r, All P c → get id c = .ok r → All P r.2) : ∀ (cmds : List Tagged) (c : MState)
    (r : List Tagged × MState), All P c → (∀ t ∈ cmds, P t.info) → transformCmds m get cmds c = .ok r →
      All P r.2 ∧ ∀ t ∈ r.1, P t.info := by
  intro cmds
  induction cmds with
  | nil => intro c r hc _ h; cases h; exact ⟨hc, by simp⟩
  | cons t cmds ih =>
    intro c r hc ht h
    rcases t with ⟨s | ⟨src, center, neg⟩, info⟩
    · simp only [transformCmds] at h
      obtain ⟨r', h1, h2⟩ := bind_ok.1 h
      rw [pure_ok] at h2; subst h2
      obtain ⟨g1, g2⟩ := ih c r' hc (fun t h => ht t (List.mem_cons_of_mem _ h)) h1
      exact ⟨g1, List.forall_mem_cons.2 ⟨ht ⟨.shape s, info⟩ List.mem_cons_self, g2⟩⟩
    · simp only [transformCmds] at h
      obtain ⟨b, h1, h2⟩ := bind_ok.1 h
      obtain ⟨r', h3, h4⟩ := bind_ok.1 h2
      rw [pure_ok] at h4; subst h4
      obtain ⟨g1, g2⟩ := ih b.2 r' (hget _ _ _ hc h1) (fun t h => ht t (List.mem_cons_of_mem _ h)) h3
      exact ⟨g1, List.forall_mem_cons.2 ⟨ht ⟨.paste src center neg, info⟩ List.mem_cons_self, g2⟩⟩

theorem all_buffer {P : Info → Prop} (m : Mat ℝ) : ∀ (n : Nat) (id : LayerId) (c : MState) (r : LayerId × MState),
    All P c → bufferWithTransform m n id c = .ok r → All P r.2 := by
  intro n
  induction n with
  | zero => intro id c r _ h; cases h
  | succ n ih =>
    intro id c r hc h
    simp only [bufferWithTransform] at h
    split at h
    · cases h; exact hc
    · split at h
      · cases h
      · next cmds hcmds =>
        obtain ⟨r', h1, h2⟩ := bind_ok.1 h
        rw [pure_ok] at h2; subst h2
        obtain ⟨g1, g2⟩ := all_transform m ih cmds c r' hc (hc id cmds hcmds) h1
        exact g1.create g2

theorem moved_info (m : Mat ℝ) (cmds : List Tagged) : (moved m cmds).map Tagged.info = cmds.map Tagged.info := by
  simp only [moved, List.map_map]
  refine List.map_congr_left fun t _ => ?_
  rcases t with ⟨_ | _, _⟩ <;> rfl

theorem all_info {P : Info → Prop} {cmds : List Tagged} : (∀ t ∈ cmds, P t.info) ↔ ∀ i ∈ cmds.map Tagged.info, P i := by
  simp

theorem all_moved {P : Info → Prop} (m : Mat ℝ) {cmds : List Tagged} (h : ∀ t ∈ cmds, P t.info) :
    ∀ t ∈ moved m cmds, P t.info := by
  rw [all_info, moved_info, ← all_info]; exact h

/-- The metadata of a primitive, in its own buffer and in the one a thermal creates. -/
theorem all_primitive {P : Info → Prop} {info : Info} {now : Nat} {scope : Dict Name ℚ} {p : Macro.Prim} {o : PrimOut}
    (hi : P info) (hn : isTarget p = true → P none) (h : primitive info now scope p = .ok o) :
    (∀ t ∈ o.cmds, P t.info) ∧ ∀ l ∈ o.layer, ∀ t ∈ l.2, P t.info := by
  cases p with
  | code6 a b c d e f g h' i =>
    simp only [primitive] at h
    obtain ⟨ts, h1, h2⟩ := bind_ok.1 h
    rw [pure_ok] at h2; subst h2
    refine ⟨?_, by simp⟩
    unfold moire at h1
    iterate 9 obtain ⟨_, -, h1⟩ := bind_ok.1 h1
    obtain ⟨as, bs, rfl⟩ : ∃ as bs, ts = tag info as ++ tag none bs := by
      dsimp only at h1
      split at h1 <;> split at h1 <;> obtain ⟨rs, -, h1⟩ := bind_ok.1 h1 <;> rw [pure_ok] at h1 <;> exact ⟨_, _, h1.symm⟩
    intro t ht
    rcases List.mem_append.1 ht with ht | ht
    · exact all_tag hi _ t ht
    · exact all_tag (hn rfl) _ t ht
  | code7 node a b c d e f =>
    simp only [primitive] at h
    obtain ⟨o', h1, h2⟩ := bind_ok.1 h
    rw [pure_ok] at h2; subst h2
    refine ⟨all_tag (hn rfl) _, ?_⟩
    intro l hl
    obtain ⟨l', -, rfl⟩ := Option.map_eq_some_iff.1 hl
    exact all_tag hi _
  | _ =>
    simp only [primitive] at h
    obtain ⟨o', h1, h2⟩ := bind_ok.1 h
    rw [pure_ok] at h2; subst h2
    refine ⟨all_tag hi _, ?_⟩
    intro l hl
    obtain ⟨l', -, rfl⟩ := Option.map_eq_some_iff.1 hl
    exact all_tag hi _

theorem all_runPrims {P : Info → Prop} {env : Env} {info : Info} {id : LayerId} (hi : P info) :
    ∀ (ps : List Macro.Prim) (scope : Dict Name ℚ) (cmds : List Tagged) (c c' : MState),
      (∀ p ∈ ps, isTarget p = true → P none) → All P c → (∀ t ∈ cmds, P t.info) →
      runPrims env info id ps scope cmds c = .ok c' → All P c' := by
  intro ps
  induction ps with
  | nil =>
    intro scope cmds c c' _ hc ht h
    cases h
    exact hc.create ht
  | cons p ps ih =>
    intro scope cmds c c' hn hc ht h
    obtain ⟨o, h1, h2⟩ := bind_ok.1 h
    obtain ⟨g1, g2⟩ := all_primitive hi (hn p List.mem_cons_self) h1
    refine ih _ _ _ _ (fun q hq => hn q (List.mem_cons_of_mem _ hq)) ?_ ?_ h2
    · have hc' : All P { c with calls := c.calls + o.ticks } := hc
      cases hl : o.layer with
      | none => exact hc'
      | some l => exact hc'.create (g2 l (by rw [hl]; rfl))
    · intro t hx
      rcases List.mem_append.1 hx with hx | hx
      · exact ht t hx
      · exact g1 t hx

theorem own_runPrims {P : Info → Prop} {env : Env} {info : Info} {id : LayerId} (hi : P info) :
    ∀ (ps : List Macro.Prim) (scope : Dict Name ℚ) (cmds : List Tagged) (c c' : MState),
      (∀ p ∈ ps, isTarget p = true → P none) → (∀ t ∈ cmds, P t.info) →
      runPrims env info id ps scope cmds c = .ok c' → ∃ b, c'.buffers.get? id = some b ∧ ∀ t ∈ b, P t.info := by
  intro ps
  induction ps with
  | nil =>
    intro scope cmds c c' _ ht h
    cases h
    exact ⟨cmds, Dict.get?_set_self .., ht⟩
  | cons p ps ih =>
    intro scope cmds c c' hn ht h
    obtain ⟨o, h1, h2⟩ := bind_ok.1 h
    refine ih _ _ _ _ (fun q hq => hn q (List.mem_cons_of_mem _ hq)) ?_ h2
    intro t hx
    rcases List.mem_append.1 hx with hx | hx
    · exact ht t hx
    · exact (all_primitive hi (hn p List.mem_cons_self) h1).1 t hx

theorem own_define {P : Info → Prop} {env : Env} {inc : Bool} {id : Name} {d : ApDef} {s : VState} {c c' : MState}
    (hi : P (keep inc s.apertureAttrs)) (hn : hasTarget (fun n => s.macros.get? n) d = true → P none)
    (h : define env inc id d s c = .ok c') : ∃ b, c'.buffers.get? (.ap id) = some b ∧ ∀ t ∈ b, P t.info := by
  cases d with
  | «macro» name params =>
    simp only [define] at h
    split at h
    · cases h
    · next body hb =>
      refine own_runPrims hi body _ _ _ _ ?_ (by simp) h
      intro p hp ht
      refine hn ?_
      simp only [hasTarget, hb, Option.getD_some, List.any_eq_true]
      exact ⟨p, hp, ht⟩
  | polygon a n r hole =>
    simp only [define] at h
    obtain ⟨s', h1, h2⟩ := bind_ok.1 h
    rw [pure_ok] at h2; subst h2
    exact ⟨_, Dict.get?_set_self .., all_tag hi _⟩
  | _ =>
    cases h
    exact ⟨_, Dict.get?_set_self .., all_tag hi _⟩

theorem all_define {P : Info → Prop} {env : Env} {inc : Bool} {id : Name} {d : ApDef} {s : VState} {c c' : MState}
    (hi : P (keep inc s.apertureAttrs)) (hn : hasTarget (fun n => s.macros.get? n) d = true → P none) (hc : All P c)
    (h : define env inc id d s c = .ok c') : All P c' := by
  cases d with
  | «macro» name params =>
    simp only [define] at h
    split at h
    · cases h
    · next body hb =>
      refine all_runPrims hi body _ _ _ _ ?_ (hc.create (by simp)) (by simp) h
      intro p hp ht
      refine hn ?_
      simp only [hasTarget, hb, Option.getD_some, List.any_eq_true]
      exact ⟨p, hp, ht⟩
  | polygon a n r hole =>
    simp only [define] at h
    obtain ⟨s', h1, h2⟩ := bind_ok.1 h
    rw [pure_ok] at h2; subst h2
    exact hc.create (all_tag hi _)
  | _ =>
    cases h
    exact hc.create (all_tag hi _)

/-- What a callback may write. -/
def May (inc : Bool) (P : Info → Prop) : Event → Prop
  | .draw _ _ s => P (keep inc s.objectAttrs)
  | .flash _ _ s => P (keep inc s.objectAttrs)
  | .define _ d s => P (keep inc s.apertureAttrs) ∧ (hasTarget (fun n => s.macros.get? n) d = true → P none)
  | .flushRegion _ => P none
  | _ => True

theorem all_step {P : Info → Prop} {env : Env} {inc : Bool} {e : Event} {c c' : MState} (hm : May inc P e) (hc : All P c)
    (h : Metadata.step env inc e c = .ok c') : All P c' := by
  cases e with
  | draw k r s =>
    simp only [Metadata.step, draw] at h
    split at h
    · cases k <;> simp only at h
      case cwSq => cases h; exact hc
      case ccwSq => cases h; exact hc
      all_goals
        split at h
        · cases h
        · cases h; exact hc
    · obtain ⟨ss, h1, h2⟩ := bind_ok.1 h
      exact hc.append (all_tag hm _) h2
  | flash k ap s =>
    have ha : ∀ id, flashAperture env inc id s c = .ok c' → All P c' := by
      intro id h
      obtain ⟨b, h1, h2⟩ := bind_ok.1 h
      exact (all_buffer _ _ _ _ _ hc h1).append (by intro t ht; rw [List.mem_singleton] at ht; subst ht; exact hm) h2
    have hb : ∀ id, flashBlock env id s c = .ok c' → All P c' := by
      intro id h
      obtain ⟨b, h1, h2⟩ := bind_ok.1 h
      have := all_buffer _ _ _ _ _ hc h1
      split at h2
      · cases h2
      · next cmds hcmds => exact this.append (all_moved _ (this _ _ hcmds)) h2
    cases k <;> cases ap <;> first | exact ha _ h | exact hb _ h | cases h
  | startRegion => cases h; exact hc
  | endRegion => cases h; exact hc
  | flushRegion s =>
    simp only [Metadata.step, flushRegion] at h
    split at h
    · cases h
    · cases h; exact hc
    · obtain ⟨c1, h1, h2⟩ := bind_ok.1 h
      rw [pure_ok] at h2; subst h2
      have : All P c1 := hc.append (by intro t ht; rw [List.mem_singleton] at ht; subst ht; exact hm) h1
      exact this
  | define id d s => exact all_define hm.1 hm.2 hc h
  | abOpen id =>
    cases h
    exact hc.create (cmds := []) (by simp)
  | abClose id =>
    simp only [Metadata.step] at h
    split at h
    · cases h
    · cases h; exact hc
  | srOpen p =>
    cases h
    exact hc.create (cmds := []) (by simp)
  | srClose p s =>
    simp only [Metadata.step, closeSr] at h
    split at h
    · cases h
    · split at h
      · cases h
      · next id rest hs _ body hb =>
        split at h
        · cases h
        · obtain ⟨c1, h1, h2⟩ := bind_ok.1 h
          rw [pure_ok] at h2; subst h2
          have h0 : All P { c with stack := rest } := hc
          have h3 : All P c1 := h0.append (by
            intro t ht
            simp only [copies, List.mem_flatMap] at ht
            obtain ⟨x, -, y, -, ht⟩ := ht
            exact all_moved _ (hc _ _ hb) t ht) h1
          intro k b hk
          refine h3 k b ?_
          simp only [Dict.get?_pop] at hk
          split at hk
          · cases hk
          · exact hk

theorem all_feed {P : Info → Prop} {env : Env} {inc : Bool} : ∀ (es : List Event) (c c' : MState),
    (∀ e ∈ es, May inc P e) → All P c → feed env inc es c = .ok c' → All P c'
  | [], _, _, _, hc, h => by cases h; exact hc
  | e :: es, c, c', hm, hc, h => by
    obtain ⟨c1, h1, h2⟩ := feed_cons_ok.1 h
    exact all_feed es c1 c' (fun e he => hm e (List.mem_cons_of_mem _ he)) (all_step (hm e List.mem_cons_self) hc h1) h2

theorem all_init (P : Info → Prop) : All P MState.init := by
  intro k b hb t ht
  simp only [MState.init, Dict.get?] at hb
  split at hb
  · cases hb; cases ht
  · cases hb

theorem object_info {h : List Atom} (hr : (run {} h).exn = none) {s : VState}
    (e : s.objectAttrs = (run {} h).st.objectAttrs) : IsObjectInfo h (keep true s.objectAttrs) :=
  ⟨_, rfl, fun n => by rw [e]; exact (attributes h hr n).2.2⟩

theorem aperture_info {h : List Atom} (hr : (run {} h).exn = none) {s : VState}
    (e : s.apertureAttrs = (run {} h).st.apertureAttrs) : IsApertureInfo h (keep true s.apertureAttrs) :=
  ⟨_, rfl, fun n => by rw [e]; exact (attributes h hr n).2.1⟩

theorem more {h : List Atom} {info : Info} (hi : ComesFrom h info) (a : Atom) : ComesFrom (h ++ [a]) info := by
  rcases hi with hi | ⟨pre, b, post, e, hi⟩
  · exact .inl hi
  · exact .inr ⟨pre, b, post ++ [a], by rw [e]; simp, hi⟩

theorem sources (env : Env) : ∀ h, (run {} h).exn = none → ∀ c, compiledWith true env h = .ok c → All (ComesFrom h) c := by
  refine history_induction ?_ ?_
  · intro c hc; cases hc; exact all_init _
  · intro h a h1 h2 ih c' hc'
    have hr : (run {} (h ++ [a])).exn = none := run_snoc_none.2 ⟨h1, h2⟩
    obtain ⟨-, -, c, hc, hf⟩ := compiledWith_pre hr hc'
    refine all_feed _ c c' ?_ (fun k b hb t ht => more (ih c hc k b hb t ht) a) hf
    intro e he
    have := sees h2 e he
    cases e with
    | draw k r s =>
      obtain ⟨e1, x, y, i, j, rfl⟩ := this
      exact .inr ⟨h, _, [], rfl, .inl ⟨.inl ⟨_, _, _, _, rfl⟩, object_info h1 e1⟩⟩
    | flash k ap s =>
      obtain ⟨e1, x, y, rfl⟩ := this
      exact .inr ⟨h, _, [], rfl, .inl ⟨.inr ⟨_, _, rfl⟩, object_info h1 e1⟩⟩
    | define id d s =>
      obtain ⟨e1, e2, rfl⟩ := this
      exact ⟨.inr ⟨h, _, [], rfl, .inr ⟨⟨_, _, rfl⟩, aperture_info h1 e1⟩⟩, fun _ => .inl rfl⟩
    | flushRegion s => exact .inl rfl
    | _ => trivial

/-! ### Programs -/

theorem compile_ok {env : Env} {inc ignore : Bool} {file : List Visitor.Cmd} {p : Program}
    (h : compile env inc ignore file = .ok p) : (run {} (executed (!ignore) file)).exn = none ∧
      ∃ c, compiledWith inc env (executed (!ignore) file) = .ok c ∧
        p.metadata = keep inc (run {} (executed (!ignore) file)).st.fileAttrs ∧
        ∀ x ∈ p.commands, (x.2 = none ∧ ∀ d, x.1 ≠ .draw d) ∨ ∃ k b, c.buffers.get? k = some b ∧ ∃ t ∈ b, x = (.draw t.cmd, t.info) := by
  unfold compile finish at h
  rw [file_is_run] at h
  obtain ⟨c, h1, h2⟩ := bind_ok.1 h
  split at h2
  · cases h2
  · next he =>
    refine ⟨he, c, h1, ?_⟩
    obtain ⟨order, h3, h4⟩ := bind_ok.1 h2
    rw [pure_ok] at h4; subst h4
    refine ⟨rfl, ?_⟩
    intro x hx
    obtain ⟨id, -, hx⟩ := List.mem_flatMap.1 hx
    simp only [layerCommands, List.cons_append, List.mem_cons, List.mem_append, List.mem_map, List.not_mem_nil, or_false] at hx
    rcases hx with rfl | ⟨t, ht, rfl⟩ | rfl
    · exact .inl ⟨rfl, by simp⟩
    · right
      cases hb : c.buffers.get? id with
      | none => rw [hb] at ht; cases ht
      | some b => rw [hb] at ht; exact ⟨id, b, hb, t, ht, rfl⟩
    · exact .inl ⟨rfl, by simp⟩

/-- **C80.** Metadata changes nothing else: with and without it, a file is compiled to the same commands, or fails in
the same way. -/
theorem c80_same (env : Env) (inc ignore : Bool) (file : List Visitor.Cmd) :
    (compile env inc ignore file).map (fun p => p.commands.map Prod.fst) = Compiler.compile env ignore file :=
  erase_finish env inc _

/-- **C80.** Without the option nothing carries metadata. -/
theorem c80_off (env : Env) (ignore : Bool) (file : List Visitor.Cmd) (p : Program)
    (h : compile env false ignore file = .ok p) : p.metadata = none ∧ ∀ x ∈ p.commands, x.2 = none := by
  obtain ⟨-, c, hc, h1, h2⟩ := compile_ok h
  refine ⟨h1, fun x hx => ?_⟩
  rcases h2 x hx with ⟨h3, -⟩ | ⟨k, b, hb, t, ht, rfl⟩
  · exact h3
  · refine all_feed (P := fun i => i = none) _ _ c ?_ (all_init _) hc k b hb t ht
    intro e _
    cases e <;> simp [May, keep]

/-- **C80.** A program carries the file attributes of the file, each with its last value. -/
theorem c80_file (env : Env) (ignore : Bool) (file : List Visitor.Cmd) (p : Program)
    (h : compile env true ignore file = .ok p) : IsFileInfo (executed (!ignore) file) p.metadata := by
  obtain ⟨hr, c, hc, h1, -⟩ := compile_ok h
  exact ⟨_, h1, fun n => (attributes _ hr n).1⟩

/-- **C80.** No metadata is made up: what a command carries is nothing, or the object attributes in force at a `D01` or
`D03` of the file, or the aperture attributes in force at an `AD` of the file. -/
theorem c80_sources (env : Env) (ignore : Bool) (file : List Visitor.Cmd) (p : Program)
    (h : compile env true ignore file = .ok p) : ∀ x ∈ p.commands, ComesFrom (executed (!ignore) file) x.2 := by
  obtain ⟨hr, c, hc, -, h2⟩ := compile_ok h
  intro x hx
  rcases h2 x hx with ⟨h3, -⟩ | ⟨k, b, hb, t, ht, rfl⟩
  · exact .inl h3
  · exact sources env _ hr c hc k b hb t ht

/-- **C80** (partial: see `c80_false_region` and `c80_false_target` for the rest). In a file without regions and without
moirés and thermals, every command that draws carries metadata. -/
theorem c80_complete_partial (env : Env) (ignore : Bool) (file : List Visitor.Cmd) (p : Program)
    (h : compile env true ignore file = .ok p)
    (hregion : .leaf .g36 ∉ executed (!ignore) file ∧ .leaf .g37 ∉ executed (!ignore) file)
    (htarget : ∀ name body, .leaf (.am name body) ∈ executed (!ignore) file → ∀ q ∈ body, isTarget q = false) :
    ∀ d info, (.draw d, info) ∈ p.commands → info ≠ none := by
  obtain ⟨hr, c, hc, -, h2⟩ := compile_ok h
  intro d info hx
  rcases h2 _ hx with ⟨-, h3⟩ | ⟨k, b, hb, t, ht, e⟩
  · exact absurd rfl (h3 d)
  cases e
  revert hc
  generalize executed (!ignore) file = as at *
  suffices hs : ∀ as, (run {} as).exn = none → (.leaf .g36 ∉ as ∧ .leaf .g37 ∉ as) →
      (∀ name body, .leaf (.am name body) ∈ as → ∀ q ∈ body, isTarget q = false) →
      ∀ c, compiledWith true env as = .ok c → All (fun i => i ≠ none) c from
    fun hc => hs as hr hregion htarget c hc k b hb t ht
  refine history_induction ?_ ?_
  · intro _ _ c hc; cases hc; exact all_init _
  · intro h a h1 h2 ih hg ht c' hc'
    have hr : (run {} (h ++ [a])).exn = none := run_snoc_none.2 ⟨h1, h2⟩
    obtain ⟨-, -, c, hc, hf⟩ := compiledWith_pre hr hc'
    simp only [List.mem_append, List.mem_singleton, not_or] at hg
    refine all_feed _ c c' ?_ (ih ⟨hg.1.1, hg.2.1⟩
      (fun name body hm => ht name body (List.mem_append_left _ hm)) c hc) hf
    intro e he
    have := sees h2 e he
    cases e with
    | draw k r s => simp [May, keep]
    | flash k ap s => simp [May, keep]
    | define id d s =>
      obtain ⟨e1, e2, rfl⟩ := this
      refine ⟨by simp [keep], ?_⟩
      intro hx
      cases d with
      | «macro» name params =>
        simp only [hasTarget, List.any_eq_true] at hx
        obtain ⟨q, hq, hqt⟩ := hx
        cases hb : s.macros.get? name with
        | none => rw [hb] at hq; cases hq
        | some body =>
          rw [hb] at hq
          rw [e2] at hb
          have := Layers.macros_inv h h1 name body hb
          rw [ht name body (List.mem_append_left _ this) q hq] at hqt
          cases hqt
      | _ => cases hx
    | flushRegion s =>
      rcases this with rfl | ⟨x, y, rfl, hx⟩
      · exact absurd rfl hg.2.2
      · exfalso
        rw [(modes h h1).2.2.1] at hx
        have : h.filterMap setsRegion = [] := by
          rw [List.filterMap_eq_nil_iff]
          intro b hb
          cases b with
          | leaf l => cases l <;> first | rfl | exact absurd hb hg.1.1 | exact absurd hb hg.2.1
          | _ => rfl
        rw [latest, this] at hx
        cases hx
    | _ => trivial

/-! ### One command -/

theorem append_ok {cmds : List Tagged} {c c' : MState} (h : append cmds c = .ok c') :
    c'.stack = c.stack ∧ (∀ id, c'.buffers.get? id =
        if c.stack.head? = some id then (c.buffers.get? id).map (· ++ cmds) else c.buffers.get? id) := by
  unfold Metadata.append at h
  split at h
  · cases h
    refine ⟨rfl, fun id => ?_⟩
    split
    · cases c.buffers.get? id <;> simp
    · rfl
  · split at h
    · cases h
    · next id rest hs =>
      split at h
      · cases h
      · next b hb =>
        cases h
        refine ⟨rfl, fun id' => ?_⟩
        rw [hs, Dict.get?_set]
        simp only [List.head?_cons, Option.some.injEq]
        split
        · next e => subst e; simp [hb]
        · rfl

/-- What the creation of transformed layers does to the metadata. -/
structure GrowsM (c c' : MState) : Prop where
  stack : c'.stack = c.stack
  keeps : ∀ id b, c.buffers.get? id = some b → c'.buffers.get? id = some b
  news : ∀ k b, c'.buffers.get? k = some b → c.buffers.get? k = some b ∨
    ∃ y m cmds, k = .xform y m ∧ c'.buffers.get? y = some cmds ∧ b.map Tagged.info = cmds.map Tagged.info

theorem GrowsM.refl (c : MState) : GrowsM c c := ⟨rfl, fun _ _ h => h, fun _ _ h => .inl h⟩

theorem GrowsM.trans {a b c : MState} (h : GrowsM a b) (k : GrowsM b c) : GrowsM a c where
  stack := k.stack.trans h.stack
  keeps id b hb := k.keeps id b (h.keeps id b hb)
  news y b hb := by
    rcases k.news y b hb with h1 | h1
    · rcases h.news y b h1 with h2 | ⟨z, m, cmds, rfl, h2, h3⟩
      · exact .inl h2
      · exact .inr ⟨z, m, cmds, rfl, k.keeps _ _ h2, h3⟩
    · exact .inr h1

theorem transformCmds_grows {m : Mat ℝ} {get : LayerId → MState → Except CErr (LayerId × MState)}
    (hget : ∀ id c r, get id c = .ok r → GrowsM c r.2) :
    ∀ (cmds : List Tagged) (c : MState) (r : List Tagged × MState), transformCmds m get cmds c = .ok r →
      r.1.map Tagged.info = cmds.map Tagged.info ∧ GrowsM c r.2 := by
  intro cmds
  induction cmds with
  | nil => intro c r h; cases h; exact ⟨rfl, GrowsM.refl c⟩
  | cons t cmds ih =>
    intro c r h
    rcases t with ⟨s | ⟨src, center, neg⟩, info⟩
    · simp only [transformCmds] at h
      obtain ⟨r', h1, h2⟩ := bind_ok.1 h
      rw [pure_ok] at h2; subst h2
      obtain ⟨e, g⟩ := ih c r' h1
      exact ⟨by simp [e], g⟩
    · simp only [transformCmds] at h
      obtain ⟨b, h1, h2⟩ := bind_ok.1 h
      obtain ⟨r', h3, h4⟩ := bind_ok.1 h2
      rw [pure_ok] at h4; subst h4
      obtain ⟨e, g⟩ := ih b.2 r' h3
      exact ⟨by simp [e], (hget _ _ _ h1).trans g⟩

theorem bufferWithTransform_grows {m : Mat ℝ} : ∀ (n : Nat) (id : LayerId) (c : MState) (r : LayerId × MState),
    bufferWithTransform m n id c = .ok r →
      r.1 = .xform id m ∧ GrowsM c r.2 ∧ ∃ b, r.2.buffers.get? (.xform id m) = some b := by
  intro n
  induction n with
  | zero => intro id c r h; cases h
  | succ n ih =>
    intro id c r h
    simp only [bufferWithTransform] at h
    split at h
    · next b hb => cases h; exact ⟨rfl, GrowsM.refl c, b, hb⟩
    · next hnone =>
      split at h
      · cases h
      · next cmds hcmds =>
        obtain ⟨r', h1, h2⟩ := bind_ok.1 h
        rw [pure_ok] at h2; subst h2
        obtain ⟨e, g⟩ := transformCmds_grows (fun id c r h => (ih id c r h).2.1) cmds c r' h1
        refine ⟨rfl, ⟨g.stack, ?_, ?_⟩, r'.1, Dict.get?_set_self ..⟩
        · intro id' b hb
          simp only [create, Dict.get?_set]
          rw [if_neg (by rintro rfl; rw [hnone] at hb; cases hb)]
          exact g.keeps id' b hb
        · have hbase : (create (.xform id m) r'.1 r'.2).buffers.get? id = some cmds := by
            simp only [create, Dict.get?_set]
            rw [if_neg (fun h => Compiler.xform_ne id m h.symm)]
            exact g.keeps _ _ hcmds
          intro k b hb
          simp only [create, Dict.get?_set] at hb
          split at hb
          · next heq =>
            cases hb
            exact .inr ⟨id, m, cmds, heq.symm, hbase, e⟩
          · rcases g.news k b hb with h3 | ⟨y, m', cmds', rfl, h4, h5⟩
            · exact .inl h3
            · right
              by_cases hy : LayerId.xform id m = y
              · subst hy
                refine ⟨_, m', r'.1, rfl, Dict.get?_set_self .., ?_⟩
                rcases g.news _ _ h4 with h6 | ⟨y2, m2, cmds2, he, h6, h7⟩
                · rw [hnone] at h6; cases h6
                · cases he
                  rw [g.keeps _ _ hcmds] at h6
                  cases h6
                  rw [e, ← h7, h5]
              · exact ⟨y, m', cmds', rfl, by simp only [create, Dict.get?_set, if_neg hy]; exact h4, h5⟩

theorem writes_of {env : Env} {h : List Atom} {a : Atom} {c c1 c2 c' : MState} {new : List Tagged}
    (hc : compiledWith true env h = .ok c) (hc' : compiledWith true env (h ++ [a]) = .ok c') (g : GrowsM c c1)
    (h1 : append new c1 = .ok c2) (e1 : c'.stack = c2.stack) (e2 : c'.buffers = c2.buffers) :
    Writes env h a new := by
  obtain ⟨a1, a4⟩ := append_ok h1
  refine ⟨c, c', hc, hc', by rw [e1, a1, g.stack], ?_, ?_⟩
  · intro id b hid hb
    rw [e2, a4, g.stack, if_pos hid, g.keeps id b hb]; rfl
  · intro id b hid hb
    rw [e2, a4, g.stack, if_neg hid, g.keeps id b hb]

/-- **C80.** The commands written with metadata are the commands drawn. -/
theorem c80_written (env : Env) (h : List Atom) (a : Atom) (new : List Tagged) (hw : Writes env h a new) :
    Draws env h a (new.map Tagged.cmd) := by
  obtain ⟨c, c', h1, h2, h3, h4, h5⟩ := hw
  have he : ∀ as c, compiledWith true env as = .ok c → compiled env as = .ok (erase c) := by
    intro as c hc
    have := erase_feed env true (run {} as).ev MState.init
    unfold compiledWith at hc
    rw [hc, erase_init] at this
    exact this.symm
  refine ⟨_, _, he _ _ h1, he _ _ h2, h3, ?_, ?_⟩
  · intro id b hid hb
    rw [erase_get?] at hb ⊢
    obtain ⟨b', hb', rfl⟩ := Option.map_eq_some_iff.1 hb
    rw [h4 id b' hid hb']
    simp
  · intro id b hid hb
    rw [erase_get?] at hb ⊢
    obtain ⟨b', hb', rfl⟩ := Option.map_eq_some_iff.1 hb
    rw [h5 id b' hid hb']
    rfl

/-- **C80** (partial: `D01` outside regions and `D03` of apertures defined by `AD`; see `c80_false_region` and
`c80_false_block` for the rest). Every command that a draw or a flash writes carries the object attributes in force,
each with its latest value. -/
theorem c80_objects_partial (env : Env) (h : List Atom) (a : Atom) (c' : MState)
    (hr : (run {} (h ++ [a])).exn = none) (hc : compiledWith true env (h ++ [a]) = .ok c')
    (ha : (∃ x y i j, a = .leaf (.d01 x y i j)) ∧ latest setsRegion false h = false ∨
      (∃ x y, a = .leaf (.d03 x y)) ∧ ∃ id d, (run {} h).st.currentAperture = .ok (.ad id d)) :
    ∃ new, Writes env h a new ∧ ∀ t ∈ new, IsObjectInfo h t.info := by
  obtain ⟨h1, h2, c, hc1, hf⟩ := compiledWith_pre hr hc
  rcases ha with ⟨⟨x, y, i, j, rfl⟩, hreg⟩ | ⟨⟨x, y, rfl⟩, id, d, hap⟩
  · obtain ⟨-, -, -, -, m⟩ := modes h h1
    rw [step_d01 h2, m, hreg] at hf
    change feed env true [_] c = .ok c' at hf
    rw [feed_singleton] at hf
    simp only [Metadata.step, draw, if_false, Bool.false_eq_true] at hf
    obtain ⟨ss, h3, h4⟩ := bind_ok.1 hf
    exact ⟨_, writes_of hc1 hc (GrowsM.refl c) h4 rfl rfl, all_tag (object_info h1 rfl) _⟩
  · obtain ⟨ap, k, e1, -, e3⟩ := step_d03 h2
    rw [hap] at e1; cases e1
    rw [e3] at hf
    change feed env true [_] c = .ok c' at hf
    rw [feed_singleton] at hf
    have hfl : flashAperture env true id (withXY (run {} h).st x y) c = .ok c' := by
      cases k with
      | block => cases hf
      | _ => exact hf
    obtain ⟨b, h3, h4⟩ := bind_ok.1 hfl
    obtain ⟨-, g, -⟩ := bufferWithTransform_grows _ _ _ _ h3
    exact ⟨_, writes_of hc1 hc g h4 rfl rfl, List.forall_mem_singleton.2 (object_info h1 rfl)⟩

/-- **C80** (partial: not for macros with moirés or thermals, see `c80_false_target`). Every command of an aperture
carries the aperture attributes in force at its `AD`. -/
theorem c80_apertures_partial (env : Env) (h : List Atom) (id : Name) (d : ApDef) (c' : MState)
    (hr : (run {} (h ++ [.leaf (.ad id d)])).exn = none)
    (hc : compiledWith true env (h ++ [.leaf (.ad id d)]) = .ok c')
    (ht : hasTarget (fun n => latest (givesMacro n) none h) d = false) :
    ∃ cmds, c'.buffers.get? (.ap id) = some cmds ∧ ∀ t ∈ cmds, IsApertureInfo h t.info := by
  obtain ⟨h1, h2, c, hc1, hf⟩ := compiledWith_pre hr hc
  simp only [Visitor.step, stepLeaf, Out.ok] at hf
  rw [feed_singleton] at hf
  refine own_define (s := storeAttributes id { (run {} h).st with apertures := _ }) (aperture_info h1 rfl) ?_ hf
  intro hx
  exfalso
  have e : (fun n => (storeAttributes id { (run {} h).st with
      apertures := (run {} h).st.apertures.set id d }).macros.get? n) = fun n => latest (givesMacro n) none h := by
    funext n
    exact MacroShape.macros_latest h h1 n
  rw [e, ht] at hx
  cases hx

theorem erased {inc : Bool} {env : Env} {as : List Atom} {c : MState} (hc : compiledWith inc env as = .ok c) :
    compiled env as = .ok (erase c) := by
  have := erase_feed env inc (run {} as).ev MState.init
  unfold compiledWith at hc
  rw [hc, erase_init] at this
  exact this.symm

theorem stack_plain {inc : Bool} {env : Env} {h : List Atom} {c : MState} (hc : compiledWith inc env h = .ok c) :
    ∀ id m, .xform id m ∉ c.stack := fun _ _ hm => Compiler.stack_plain (erased hc) _ hm trivial

/-- What a flash does: it creates copies, then writes. -/
theorem d03_split {env : Env} {h : List Atom} {x y : Option (List Char)} {c c' : MState}
    (hr : (run {} (h ++ [.leaf (.d03 x y)])).exn = none) (hc : compiledWith true env h = .ok c)
    (hc' : compiledWith true env (h ++ [.leaf (.d03 x y)]) = .ok c') :
    ∃ c1 new id b m, GrowsM c c1 ∧ append new c1 = .ok c' ∧ c1.buffers.get? (.xform (.ap id) m) = some b ∧
      ((∃ d, (run {} h).st.currentAperture = .ok (.ad id d)) ∨
        (run {} h).st.currentAperture = .ok (.ab id) ∧ new.map Tagged.info = b.map Tagged.info) := by
  obtain ⟨h1, h2, c0, hc0, hf⟩ := compiledWith_pre hr hc'
  rw [hc] at hc0; cases hc0
  obtain ⟨ap, k, e1, -, e3⟩ := step_d03 h2
  rw [e3] at hf
  change feed env true [_] c = .ok c' at hf
  rw [feed_singleton] at hf
  cases ap with
  | ad id d =>
    have hfl : flashAperture env true id (withXY (run {} h).st x y) c = .ok c' := by
      cases k with
      | block => cases hf
      | _ => exact hf
    obtain ⟨b, h3, h4⟩ := bind_ok.1 hfl
    obtain ⟨-, g, b', hb'⟩ := bufferWithTransform_grows _ _ _ _ h3
    exact ⟨b.2, _, id, b', _, g, h4, hb', .inl ⟨d, e1⟩⟩
  | ab id =>
    have hfl : flashBlock env id (withXY (run {} h).st x y) c = .ok c' := by
      cases k with
      | block => exact hf
      | _ => cases hf
    obtain ⟨b, h3, h4⟩ := bind_ok.1 hfl
    obtain ⟨e, g, b', hb'⟩ := bufferWithTransform_grows _ _ _ _ h3
    rw [e, hb'] at h4
    exact ⟨b.2, _, id, b', _, g, h4, hb', .inr ⟨e1, moved_info _ _⟩⟩

/-- **C80.** Copies keep the metadata: a layer that a `D03` creates is a transformed copy of a layer, and carries the
same metadata command by command.  (The flash itself may add commands to the copied layer afterwards, when that is the
layer being drawn.) -/
theorem c80_copies (env : Env) (h : List Atom) (x y : Option (List Char)) (c c' : MState)
    (hr : (run {} (h ++ [.leaf (.d03 x y)])).exn = none) (hc : compiledWith true env h = .ok c)
    (hc' : compiledWith true env (h ++ [.leaf (.d03 x y)]) = .ok c') (k : LayerId) (b : List Tagged)
    (hk : c'.buffers.get? k = some b) (hnew : c.buffers.get? k = none) :
    ∃ base m cmds added, k = .xform base m ∧ c'.buffers.get? base = some (cmds ++ added) ∧
      (added ≠ [] → c.stack.head? = some base) ∧ b.map Tagged.info = cmds.map Tagged.info := by
  obtain ⟨c1, new, id, b1, m1, g, ha, -, -⟩ := d03_split hr hc hc'
  obtain ⟨a1, a2⟩ := append_ok ha
  have hplain : ∀ y m, c1.stack.head? ≠ some (.xform y m) := by
    intro y m hx
    rw [g.stack] at hx
    exact stack_plain hc _ _ (List.mem_of_head? hx)
  have hk1 : ∃ b', c1.buffers.get? k = some b' := by
    rw [a2] at hk
    split at hk
    · obtain ⟨b', h1, -⟩ := Option.map_eq_some_iff.1 hk; exact ⟨b', h1⟩
    · exact ⟨b, hk⟩
  obtain ⟨b', hb'⟩ := hk1
  rcases g.news k b' hb' with h1 | ⟨base, m, cmds, rfl, h1, h2⟩
  · rw [hnew] at h1; cases h1
  · rw [a2, if_neg (hplain _ _), hb'] at hk
    cases hk
    by_cases hh : c1.stack.head? = some base
    · exact ⟨base, m, cmds, new, rfl, by rw [a2, if_pos hh, h1]; rfl, fun _ => by rw [← g.stack]; exact hh, h2⟩
    · exact ⟨base, m, cmds, [], rfl, by rw [a2, if_neg hh, h1]; simp, fun h => absurd rfl h, h2⟩

/-- **C80.** A flash of a block writes the metadata of the copy of the block, command by command. -/
theorem c80_block_copies (env : Env) (h : List Atom) (x y : Option (List Char)) (id : Name) (c' : MState)
    (hr : (run {} (h ++ [.leaf (.d03 x y)])).exn = none)
    (hc' : compiledWith true env (h ++ [.leaf (.d03 x y)]) = .ok c')
    (hap : (run {} h).st.currentAperture = .ok (.ab id)) :
    ∃ new b m, Writes env h (.leaf (.d03 x y)) new ∧ c'.buffers.get? (.xform (.ap id) m) = some b ∧
      new.map Tagged.info = b.map Tagged.info := by
  obtain ⟨-, -, c, hc, -⟩ := compiledWith_pre hr hc'
  obtain ⟨c1, new, id', b, m, g, ha, hb, hor⟩ := d03_split hr hc hc'
  rcases hor with ⟨d, e⟩ | ⟨e, hi⟩
  · rw [hap] at e; cases e
  rw [hap] at e; cases e
  refine ⟨new, b, m, writes_of hc hc' g ha rfl rfl, ?_, hi⟩
  rw [(append_ok ha).2, if_neg, hb]
  rw [g.stack]
  exact fun hx => stack_plain hc _ _ (List.mem_of_head? hx)

theorem copies_info (p : SrParams) (s : VState) (body : List Tagged) :
    (copies p s body).map Tagged.info = (List.replicate (p.xRepeats * p.yRepeats) (body.map Tagged.info)).flatten := by
  have h1 : ∀ n (l : List Info), (List.range n).flatMap (fun _ : ℕ => l) = (List.replicate n l).flatten := by
    intro n l
    rw [List.flatMap_def]
    congr 1
    exact List.eq_replicate_iff.2 ⟨by simp, by simp⟩
  simp only [copies, List.map_flatMap, moved_info, h1]
  generalize body.map Tagged.info = l
  generalize p.xRepeats = n
  generalize p.yRepeats = k
  induction n with
  | zero => simp
  | succ n ih =>
    rw [List.replicate_succ, List.flatten_cons, ih, Nat.succ_mul, Nat.add_comm, List.replicate_add, List.flatten_append]

/-- **C80.** The copies of a step and repeat block carry the metadata of its body, once for each copy. -/
theorem c80_repeats (env : Env) (h : List Atom) (p : SrParams) (c c' : MState) (id : LayerId) (rest : List LayerId)
    (body : List Tagged) (hr : (run {} (h ++ [.srClose p])).exn = none) (hc : compiledWith true env h = .ok c)
    (hc' : compiledWith true env (h ++ [.srClose p]) = .ok c') (hs : c.stack = id :: rest)
    (hb : c.buffers.get? id = some body) (parent : LayerId) (before : List Tagged) (hp : rest.head? = some parent)
    (hne : parent ≠ id) (hbefore : c.buffers.get? parent = some before) :
    ∃ new, c'.buffers.get? parent = some (before ++ new) ∧
      new.map Tagged.info = (List.replicate (p.xRepeats * p.yRepeats) (body.map Tagged.info)).flatten := by
  obtain ⟨h1, h2, c0, hc0, hf⟩ := compiledWith_pre hr hc'
  rw [hc] at hc0; cases hc0
  simp only [Visitor.step, Out.ok] at hf
  rw [feed_singleton] at hf
  simp only [Metadata.step, closeSr, hs, hb] at hf
  split at hf
  · cases hf
  · obtain ⟨c1, h3, h4⟩ := bind_ok.1 hf
    rw [pure_ok] at h4; subst h4
    refine ⟨_, ?_, copies_info p (run {} h).st body⟩
    simp only [Dict.get?_pop]
    rw [if_neg (Ne.symm hne), (append_ok h3).2]
    simp only [hp, if_true, hbefore, Option.map_some]

/-! ### Where attributes are lost -/

theorem bwt_stepM (m : Mat ℝ) (n : Nat) (base : LayerId) (c : MState) :
    bufferWithTransform m (n + 1) base c = match c.buffers.get? (.xform base m) with
    | some _ => .ok (.xform base m, c)
    | none =>
      match c.buffers.get? base with
      | none => .error .keyError
      | some cmds => do
        let r ← transformCmds m (bufferWithTransform m n) cmds c
        return (.xform base m, create (.xform base m) r.1 r.2) := rfl

/-- Evaluation of the compiler with metadata on a concrete history. -/
macro "eval_metadata" "[" ls:Lean.Parser.Tactic.simpLemma,* "]" : tactic =>
  `(tactic| simp [compiledWith, run, Visitor.step, stepLeaf, feed, Metadata.step, Out.ok, Out.andThen, define, create,
    MState.init, Dict.set, Dict.get?, storeAttributes, VState.currentAperture, visitXY, visitIJ, coordinate, flashKind,
    flashCurrent, flash, flashAperture, flashBlock, VState.updateCoordinates, bwt_stepM, transformCmds,
    Props.Compiler.env0, append, bind, Except.bind, pure, Except.pure, keep, tag, regionInfo, moved, Compiler.holeOf, $ls,*])

theorem lost {env : Env} {h : List Atom} {a : Atom} {c c' : MState} {t : Tagged}
    (h1 : compiledWith true env h = .ok c) (h2 : compiledWith true env (h ++ [a]) = .ok c')
    (hs : c.stack.head? = some .main) (hb : c.buffers.get? .main = some []) (hb' : c'.buffers.get? .main = some [t])
    (hi : ¬ IsObjectInfo h t.info) : ¬ ∃ new, Writes env h a new ∧ ∀ t ∈ new, IsObjectInfo h t.info := by
  rintro ⟨new, ⟨d, d', g1, g2, -, g3, -⟩, hn⟩
  rw [h1] at g1; cases g1
  rw [h2] at g2; cases g2
  have := g3 _ _ hs hb
  rw [hb'] at this
  simp only [List.nil_append, Option.some.injEq] at this
  subst this
  exact hi (hn _ (List.mem_singleton.2 rfl))

/-- A region on the net `N1`. -/
def regionSample : List Atom :=
  [.leaf (.fs {}), .leaf (.to ['.','N'] ['N','1']), .leaf .g36, .leaf (.d01 (some ['5']) none none none)]

theorem regionSample_ok : ∃ c c' t, compiledWith true Props.Compiler.env0 regionSample = .ok c ∧
    compiledWith true Props.Compiler.env0 (regionSample ++ [.leaf .g37]) = .ok c' ∧ c.stack.head? = some .main ∧
    c.buffers.get? .main = some [] ∧ c'.buffers.get? .main = some [t] ∧ t.info = none := by
  eval_metadata [regionSample, draw, flushRegion, VState.startRegion, VState.dispatch, VState.drawTable,
    contourSegments, Props.Compiler.unpack5, VState.putX]

/-- **C80 does not hold** for regions: the contour of a region carries nothing, whatever object attributes are in
force. -/
theorem c80_false_region :
    ¬ ∀ (env : Env) (h : List Atom) (c' : MState), (run {} (h ++ [.leaf .g37])).exn = none →
      compiledWith true env (h ++ [.leaf .g37]) = .ok c' →
      ∃ new, Writes env h (.leaf .g37) new ∧ ∀ t ∈ new, IsObjectInfo h t.info := by
  intro hall
  obtain ⟨c, c', t, h1, h2, h3, h4, h5, h6⟩ := regionSample_ok
  refine lost h1 h2 h3 h4 h5 ?_ (hall _ _ c' (by decide +kernel) h2)
  rintro ⟨d, hd, -⟩
  rw [h6] at hd; cases hd

/-- A block that flashes a circle, flashed on the net `N1`. -/
def blockSample : List Atom :=
  [.leaf (.ad ['D','1','1'] (.circle 1 none)), .abOpen ['D','1','0'], .leaf (.dnn ['D','1','1']),
    .leaf (.d03 none none), .abClose ['D','1','0'], .leaf (.dnn ['D','1','0']), .leaf (.to ['.','N'] ['N','1'])]

theorem blockSample_ok : ∃ c c' t, compiledWith true Props.Compiler.env0 blockSample = .ok c ∧
    compiledWith true Props.Compiler.env0 (blockSample ++ [.leaf (.d03 none none)]) = .ok c' ∧
    c.stack.head? = some .main ∧
    c.buffers.get? .main = some [] ∧ c'.buffers.get? .main = some [t] ∧ t.info = some [] := by
  eval_metadata [blockSample]

/-- **C80 does not hold** for flashes of blocks: the object attributes in force at the flash are not carried by
what it draws. -/
theorem c80_false_block :
    ¬ ∀ (env : Env) (h : List Atom) (c' : MState), (run {} (h ++ [.leaf (.d03 none none)])).exn = none →
      compiledWith true env (h ++ [.leaf (.d03 none none)]) = .ok c' →
      ∃ new, Writes env h (.leaf (.d03 none none)) new ∧ ∀ t ∈ new, IsObjectInfo h t.info := by
  intro hall
  obtain ⟨c, c', t, h1, h2, h3, h4, h5, h6⟩ := blockSample_ok
  refine lost h1 h2 h3 h4 h5 ?_ (hall _ _ c' (by decide +kernel) h2)
  rintro ⟨d, hd, hn⟩
  rw [h6] at hd; cases hd
  have := hn ['.','N']
  have e : latest (setsObjectAttr ['.','N']) none blockSample = some ['N','1'] := by decide +kernel
  rw [e] at this
  cases this

/-- A moiré that is a disc, and a thermal. -/
def targetSample (thermal : Bool) : List Atom :=
  [.leaf (.ta ['.','A'] ['x']), .leaf (.am ['M'] [if thermal then
      .code7 0 (.const 0) (.const 0) (.const 2) (.const 1) (.const 0) (.const 0)
    else .code6 (.const 0) (.const 0) (.const 1) (.const 1) (.const 0) (.const 1) (.const 0) (.const 0) (.const 0)])]

theorem truncQ_one : Compiler.truncQ 1 = 1 := by decide +kernel

theorem rings_disc (c : Vec ℝ) : Compiler.rings c 1 2 1 1 (1 - 2) = .ok [Shape.newCircle c ((1 : ℚ) : ℝ) false] := by
  simp [Compiler.rings]

theorem one_le_zero : ¬ (1 : ℝ) ≤ 0 := by norm_num

theorem targetSample_ok (b : Bool) : ∃ c' t,
    compiledWith true Props.Compiler.env0 (targetSample b ++ [.leaf (.ad ['D','1','1'] (.macro ['M'] []))]) = .ok c' ∧
    c'.buffers.get? (.ap ['D','1','1']) = some [t] ∧ t.info = none := by
  cases b <;>
  eval_metadata [targetSample, runPrims, primitive, moire, Compiler.thermal, Compiler.ring, Compiler.evalE, Math.eval,
    rings_disc, truncQ_one, one_le_zero, Compiler.paramScope]

/-- **C80 does not hold** for moirés and thermals: the rings of a moiré and the command that draws a thermal carry
nothing, whatever aperture attributes are in force. -/
theorem c80_false_target (thermal : Bool) :
    ¬ ∀ (env : Env) (h : List Atom) (id name : Name) (params : List ℚ) (c' : MState),
      latest (givesMacro name) none h = latest (givesMacro ['M']) none (targetSample thermal) →
      (run {} (h ++ [.leaf (.ad id (.macro name params))])).exn = none →
      compiledWith true env (h ++ [.leaf (.ad id (.macro name params))]) = .ok c' →
      ∃ cmds, c'.buffers.get? (.ap id) = some cmds ∧ ∀ t ∈ cmds, IsApertureInfo h t.info := by
  intro hall
  obtain ⟨c', t, h1, h2, h3⟩ := targetSample_ok thermal
  obtain ⟨cmds, h4, h5⟩ := hall _ _ _ _ _ c' rfl (by cases thermal <;> decide +kernel) h1
  rw [h2] at h4; cases h4
  obtain ⟨d, hd, -⟩ := h5 t (List.mem_singleton.2 rfl)
  rw [h3] at hd; cases hd

/-! ### Examples -/

/-- A flash of an aperture with a function, on a net; the file has an attribute. -/
def flashSample : List Visitor.Cmd :=
  [.leaf (.tf ['.','P'] ['x']), .leaf (.ta ['.','A'] ['y']), .leaf (.ad ['D','1','1'] (.circle 1 none)),
    .leaf (.dnn ['D','1','1']), .leaf (.to ['.','N'] ['N','1']), .leaf (.d03 none none)]

/-- Non-vacuity: the program of the sample, with metadata of all three kinds. -/
example : ∃ m v s, compile Props.Compiler.env0 true false flashSample = .ok
    ⟨[(.start m none ⟨0, 0⟩, none), (.draw (.shape s), some [(['.','A'], ['y'])]), (.stop, none),
      (.start .main none ⟨0, 0⟩, none), (.draw (.paste m v false), some [(['.','N'], ['N','1'])]), (.stop, none)],
      some [(['.','P'], ['x'])]⟩ := by
  have h : processFile false flashSample = run {} (executed true flashSample) := file_is_run false _
  have e : executed true flashSample = flashSample.flatMap atomsOf := rfl
  unfold compile finish
  rw [h, e]
  eval_metadata [flashSample, atomsOf, convert, Props.Compiler.resolve_step, dependsOn, Draw.sources,
    Compiler.resolve.loop, layerCommands, VState.isNegative]

/-- Non-vacuity of `c80_complete_partial`: the sample has no regions and no macros. -/
example : (.leaf .g36 ∉ executed true flashSample ∧ .leaf .g37 ∉ executed true flashSample) ∧
    ∀ name body, .leaf (.am name body) ∈ executed true flashSample → ∀ q ∈ body, isTarget q = false := by
  have e : executed true flashSample = flashSample.flatMap atomsOf := rfl
  rw [e]
  simp [flashSample, atomsOf]

/-- Non-vacuity of `c80_objects_partial` and `c80_copies`: a flash that creates a copy of its aperture. -/
example : ∃ c c' b,
    compiledWith true Props.Compiler.env0 [.leaf (.ad ['D','1','1'] (.circle 1 none)), .leaf (.dnn ['D','1','1']),
      .leaf (.to ['.','N'] ['N','1'])] = .ok c ∧
    compiledWith true Props.Compiler.env0 ([.leaf (.ad ['D','1','1'] (.circle 1 none)), .leaf (.dnn ['D','1','1']),
      .leaf (.to ['.','N'] ['N','1'])] ++ [.leaf (.d03 none none)]) = .ok c' ∧
    (∃ d, (run {} [.leaf (.ad ['D','1','1'] (.circle 1 none)), .leaf (.dnn ['D','1','1']),
      .leaf (.to ['.','N'] ['N','1'])]).st.currentAperture = .ok (.ad ['D','1','1'] d)) ∧
    c.buffers.get? (.xform (.ap ['D','1','1']) (transformMatrix {})) = none ∧
    c'.buffers.get? (.xform (.ap ['D','1','1']) (transformMatrix {})) = some b := by
  eval_metadata []

/-- Non-vacuity of `c80_repeats`: two copies of a flash. -/
example : ∃ c c' id body before,
    compiledWith true Props.Compiler.env0 [.leaf (.ad ['D','1','1'] (.circle 1 none)), .leaf (.dnn ['D','1','1']),
      .srOpen ⟨0, 2, 1, 3, 0⟩, .leaf (.d03 none none)] = .ok c ∧
    compiledWith true Props.Compiler.env0 ([.leaf (.ad ['D','1','1'] (.circle 1 none)), .leaf (.dnn ['D','1','1']),
      .srOpen ⟨0, 2, 1, 3, 0⟩, .leaf (.d03 none none)] ++ [.srClose ⟨0, 2, 1, 3, 0⟩]) = .ok c' ∧
    c.stack = [id, .main] ∧ .main ≠ id ∧ c.buffers.get? id = some body ∧ body.length = 1 ∧
    c.buffers.get? .main = some before := by
  eval_metadata [closeSr, copies, show List.range 2 = [0, 1] from rfl]

end
end Verif.Props.Metadata
