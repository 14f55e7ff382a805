import Verif.Lemmas.Synced
import Verif.Spec.Inside
import Verif.Props.State

/-!
# The invariant of `Verif.Lemmas.Synced` over histories
-/

namespace Verif.Compiler
open Verif.Visitor Verif.Geom Verif.Rvmc Verif.Spec Verif.Props.State
noncomputable section

/-! ## Blocks -/

theorem openBlocks_snoc (h : List Atom) (a : Atom) : openBlocks (h ++ [a]) = match a with
    | .abOpen id => some id :: openBlocks h
    | .srOpen _ => none :: openBlocks h
    | .abClose _ => (openBlocks h).tail
    | .srClose _ => (openBlocks h).tail
    | .leaf _ => openBlocks h := by
  unfold openBlocks
  rw [List.foldl_append]
  cases a <;> rfl

theorem nested_prefix {h q : List Atom} (hn : Nested (h ++ q)) : Nested h := by
  intro p a r e
  exact hn p a (r ++ q) (by rw [e]; simp)

/-- Beginnings of `AB` blocks. -/
def opensBlock (id : Name) : Atom → Bool
  | .abOpen i => i == id
  | _ => false

/-- Ends of `AB` blocks. -/
def closesBlock (id : Name) : Atom → Bool
  | .abClose i => i == id
  | _ => false

theorem blocks_balance (id : Name) : ∀ h : List Atom, Nested h →
    (openBlocks h).count (some id) + h.countP (closesBlock id) = h.countP (opensBlock id) := by
  intro h
  induction h using List.reverseRecOn with
  | nil => intro _; rfl
  | append_singleton h a ih =>
    intro hn
    have ih := ih (nested_prefix hn)
    have hlast := hn h a [] rfl
    rw [openBlocks_snoc, List.countP_append, List.countP_append]
    cases a with
    | leaf l => simpa [closesBlock, opensBlock] using ih
    | srOpen p => simpa [closesBlock, opensBlock] using ih
    | abOpen i =>
      by_cases e : i = id
      · subst e; simp [closesBlock, opensBlock]; omega
      · simp [closesBlock, opensBlock, e]; omega
    | abClose i =>
      have := hlast.1 i rfl
      cases ho : openBlocks h with
      | nil => rw [ho] at this; cases this
      | cons o os =>
        rw [ho] at this ih
        cases this
        by_cases e : i = id
        · subst e; simp [closesBlock, opensBlock] at ih ⊢; omega
        · simp [closesBlock, opensBlock, e] at ih ⊢; omega
    | srClose p =>
      have := hlast.2 p rfl
      cases ho : openBlocks h with
      | nil => rw [ho] at this; cases this
      | cons o os =>
        rw [ho] at this ih
        cases this
        simp [closesBlock, opensBlock] at ih ⊢; omega

/-! ## Thermals -/

/-- The macros after a history. -/
def macrosAfter (macros : Name → List Macro.Prim) (h : List Atom) : Name → List Macro.Prim :=
  h.foldl (fun ms a => match a with
    | .leaf (.am name body) => fun n => if n = name then body else ms n
    | _ => ms) macros

/-- The thermals drawn by one command. -/
def thermalsBy (macros : Name → List Macro.Prim) : Atom → List Nat
  | .leaf (.ad _ (.macro name _)) => thermals (macros name)
  | _ => []

theorem drawnThermals_append : ∀ (h q : List Atom) (macros : Name → List Macro.Prim),
    drawnThermals macros (h ++ q) = drawnThermals macros h ++ drawnThermals (macrosAfter macros h) q := by
  intro h
  induction h with
  | nil => intro q macros; rfl
  | cons a h ih =>
    intro q macros
    cases a with
    | leaf l =>
      cases l
      case am name body => exact ih _ _
      case ad i d =>
        cases d
        case «macro» name ps =>
          simp only [List.cons_append, drawnThermals, List.append_assoc]
          congr 1
          exact ih _ _
        all_goals exact ih _ _
      all_goals exact ih _ _
    | _ => exact ih _ _

theorem drawnThermals_snoc (h : List Atom) (a : Atom) (macros : Name → List Macro.Prim) :
    drawnThermals macros (h ++ [a]) = drawnThermals macros h ++ thermalsBy (macrosAfter macros h) a := by
  rw [drawnThermals_append]
  congr 1
  cases a with
  | leaf l =>
    cases l
    case ad i d => cases d <;> simp [drawnThermals, thermalsBy, thermals]
    all_goals rfl
  | _ => rfl

theorem step_macros {s : VState} {a : Atom} (h2 : (Visitor.step s a).exn = none)
    (hne : ∀ name body, a ≠ .leaf (.am name body)) : (Visitor.step s a).st.macros = s.macros := by
  refine step_elim h2 (P := fun a s' => (∀ name body, a ≠ .leaf (.am name body)) → s'.macros = s.macros) ?_ ?_ ?_ ?_ ?_ hne
  · intros; rfl
  · intros; rfl
  · intros; rfl
  · intros; rfl
  · intro a hp hs hne
    clear h2
    cases a with
    | leaf l =>
      cases l <;> try (simp [isPlain] at hp; done)
      all_goals try rfl
      case am n b => exact absurd rfl (hne n b)
      case td m => cases m <;> rfl
    | _ => rfl

theorem macros_after : ∀ h, (run {} h).exn = none → ∀ name,
    ((run {} h).st.macros.get? name).getD [] = macrosAfter (fun _ => []) h name := by
  refine history_induction (fun _ => rfl) ?_
  intro h a h1 h2 ih name
  rw [run_snoc_st h1]
  have e : macrosAfter (fun _ => []) (h ++ [a]) name = macrosAfter (macrosAfter (fun _ => []) h) [a] name := by
    simp only [macrosAfter, List.foldl_append]
  rw [e]
  by_cases hne : ∀ name body, a ≠ .leaf (.am name body)
  · rw [step_macros h2 hne, ih name]
    unfold macrosAfter
    simp only [List.foldl_cons, List.foldl_nil]
  · push Not at hne
    obtain ⟨n, b, rfl⟩ := hne
    change (((run {} h).st.macros.set n b).get? name).getD [] = if name = n then b else _
    rw [Dict.get?_set]
    by_cases he : n = name
    · subst he; simp
    · rw [if_neg he, if_neg (fun h => he h.symm), ih name]

theorem thermalsOf_eq {h : List Atom} (hr : (run {} h).exn = none) (id : Name) (d : ApDef) (s : VState)
    (hs : s.macros = (run {} h).st.macros) : thermalsOf d s = thermalsBy (macrosAfter (fun _ => []) h) (.leaf (.ad id d)) := by
  cases d with
  | «macro» name ps =>
    have := macros_after h hr name
    simp only [thermalsOf, thermalsBy, hs]
    rw [← this]
    cases (run {} h).st.macros.get? name <;> rfl
  | _ => rfl

/-! ## Events of plain commands -/

/-- Callbacks that leave the stack alone and make no layers but transformed copies. -/
def Quiet : Event → Prop
  | .draw _ _ _ => True
  | .flash _ _ _ => True
  | .startRegion => True
  | .flushRegion _ => True
  | .endRegion => True
  | _ => False

theorem leaf_quiet {s : VState} {l : Leaf} (hne : ∀ id d, l ≠ .ad id d) (h : (Visitor.step s (.leaf l)).exn = none) :
    ∀ e ∈ (Visitor.step s (.leaf l)).ev, Quiet e := by
  have nil : ∀ {P : Event → Prop}, ∀ e ∈ ([] : List Event), P e := by intro P e he; cases he
  have one : ∀ {P : Event → Prop} (e0 : Event), P e0 → ∀ e ∈ [e0], P e := by
    intro P e0 h e he; rw [List.mem_singleton.1 he]; exact h
  cases l
  case d01 x y i j => rw [step_d01 h]; exact one _ trivial
  case d02 x y =>
    rw [step_d02 h]
    simp only [Out.ok]
    split
    · exact one _ trivial
    · exact nil
  case d03 x y =>
    obtain ⟨ap, k, e1, e2, e3⟩ := step_d03 h
    rw [e3]
    exact one _ trivial
  case dnn id =>
    simp only [Visitor.step, stepLeaf]
    split <;> exact nil
  case ad i d => exact absurd rfl (hne i d)
  case g36 => exact one _ trivial
  case g37 =>
    intro e he
    simp only [Visitor.step, stepLeaf, Out.ok, List.mem_cons, List.not_mem_nil, or_false] at he
    rcases he with rfl | rfl <;> trivial
  case td n => cases n <;> exact nil
  all_goals exact nil

theorem step_quiet {env : Env} {e : Event} {c c' : CState} (hq : Quiet e) (hs : step env e c = .ok c') :
    c'.stack = c.stack ∧ ∀ k, ¬ k.isXform → (c'.buffers.get? k = none ↔ c.buffers.get? k = none) := by
  have app : ∀ {cmds : List Cmd} {c c' : CState}, append cmds c = .ok c' → c'.stack = c.stack ∧
      ∀ k, ¬ k.isXform → (c'.buffers.get? k = none ↔ c.buffers.get? k = none) := by
    intro cmds c c' h
    refine ⟨(append_ok h).1, fun k _ => ?_⟩
    rw [(append_ok h).2.2.2]; split <;> simp
  cases e with
  | draw kind r s =>
    simp only [step, draw] at hs
    split at hs
    · cases kind <;> simp only at hs <;> first | (cases hs; exact ⟨rfl, fun _ _ => .rfl⟩) | skip
      all_goals
        split at hs
        · cases hs
        · cases hs; exact ⟨rfl, fun _ _ => .rfl⟩
    · obtain ⟨ss, _, h2⟩ := bind_ok.1 hs
      exact app h2
  | flash k ap s =>
    simp only [step, flash] at hs
    split at hs
    · obtain ⟨c1, b, g, _, h2⟩ := flashBlock_ok hs
      obtain ⟨a1, a2⟩ := app h2
      exact ⟨a1.trans g.stack, fun k hk => (a2 k hk).trans (by rw [g.other k hk])⟩
    · cases hs
    · obtain ⟨c1, b, g, _, h2⟩ := flashAperture_ok hs
      obtain ⟨a1, a2⟩ := app h2
      exact ⟨a1.trans g.stack, fun k hk => (a2 k hk).trans (by rw [g.other k hk])⟩
    · cases hs
  | startRegion => cases hs; exact ⟨rfl, fun _ _ => .rfl⟩
  | flushRegion s =>
    simp only [step, flushRegion] at hs
    split at hs
    · cases hs
    · cases hs; exact ⟨rfl, fun _ _ => .rfl⟩
    · obtain ⟨c1, h1, h2⟩ := bind_ok.1 hs
      rw [pure_ok] at h2; subst h2
      exact app (c' := c1) h1
  | endRegion => cases hs; exact ⟨rfl, fun _ _ => .rfl⟩
  | _ => exact hq.elim

theorem feed_quiet {env : Env} : ∀ (es : List Event) (c c' : CState), (∀ e ∈ es, Quiet e) →
    (∀ e ∈ es, ∀ c2 : CState, c2.stack = c.stack → Safe c2 e) → Synced c → feed env es c = .ok c' →
    Synced c' ∧ Keeps c c' ∧ c'.stack = c.stack ∧
      ∀ k, ¬ k.isXform → (c'.buffers.get? k = none ↔ c.buffers.get? k = none) := by
  intro es
  induction es with
  | nil => intro c c' _ _ hn h; cases h; exact ⟨hn, Keeps.refl _, rfl, fun _ _ => .rfl⟩
  | cons e es ih =>
    intro c c' hq hsafe hn h
    obtain ⟨c1, h1, h2⟩ := feed_cons_ok.1 h
    obtain ⟨s1, s2⟩ := step_synced hn (hsafe e (by simp) c rfl) h1
    obtain ⟨q1, q2⟩ := step_quiet (hq e (by simp)) h1
    obtain ⟨i1, i2, i3, i4⟩ := ih c1 c' (fun e he => hq e (List.mem_cons_of_mem _ he))
      (fun e he c2 h => hsafe e (List.mem_cons_of_mem _ he) c2 (h.trans q1)) s1 h2
    exact ⟨i1, s2.trans i2, i3.trans q1, fun k hk => (i4 k hk).trans (q2 k hk)⟩

/-! ## Histories -/

/-- How an open block is named on the stack. -/
def Names : LayerId → Option Name → Prop
  | .ap id, some id' => id = id'
  | .sr _ _, none => True
  | _, _ => False

/-- The invariant. -/
structure Tidy (h : List Atom) (c : CState) : Prop where
  synced : Synced c
  stack : ∃ front, c.stack = front ++ [.main] ∧ List.Forall₂ Names front (openBlocks h)
  aps : ∀ id, (∀ a ∈ h, opensCode id a = false) → c.buffers.get? (.ap id) = none
  live : ∀ id, .ap id ∈ c.stack → c.buffers.get? (.ap id) ≠ none
  therm : ∀ n, n ∉ drawnThermals (fun _ => []) h → ∀ t, c.buffers.get? (.code7 n t) = none

/-- No aperture code is defined twice. -/
def DefinedOnce (h : List Atom) : Prop := ∀ id, h.countP (opensCode id) ≤ 1

theorem tidy_nil : Tidy [] CState.init := by
  refine ⟨⟨?_, ?_, ?_, ?_⟩, ⟨[], rfl, .nil⟩, ?_, ?_, ?_⟩
  · intro y m b hb
    simp [CState.init, Dict.get?] at hb
  · intro k b hb s hs
    simp only [CState.init, Dict.get?] at hb
    split at hb
    · cases hb; cases hs
    · cases hb
  · intro k hk
    simp only [CState.init, List.mem_singleton] at hk
    subst hk
    rintro (h | ⟨_, _, h⟩)
    · exact h
    · cases h
  · intro k b hb
    have : b = [] := by
      simp only [CState.init, Dict.get?] at hb
      split at hb
      · cases hb; rfl
      · cases hb
    subst this
    exact ⟨[], .layer ⟨k, []⟩ [] (mem_layersOf.2 hb) .nil⟩
  · intro id _; simp [CState.init, Dict.get?]
  · intro id hid; simp [CState.init] at hid
  · intro n _ t; simp [CState.init, Dict.get?]

theorem forall₂_mem {α β : Type} {R : α → β → Prop} {as : List α} {bs : List β} (h : List.Forall₂ R as bs) :
    ∀ a ∈ as, ∃ b ∈ bs, R a b := by
  induction h with
  | nil => intro a ha; cases ha
  | cons h1 _ ih =>
    intro a ha
    rcases List.mem_cons.1 ha with rfl | ha
    · exact ⟨_, List.mem_cons_self, h1⟩
    · obtain ⟨b, hb, hr⟩ := ih a ha
      exact ⟨b, List.mem_cons_of_mem _ hb, hr⟩

theorem Tidy.open_of_stack {h : List Atom} {c : CState} (ht : Tidy h c) {id : Name} (hm : .ap id ∈ c.stack) :
    some id ∈ openBlocks h := by
  obtain ⟨front, e, hf⟩ := ht.stack
  rw [e] at hm
  rcases List.mem_append.1 hm with hm | hm
  · obtain ⟨o, ho, hn⟩ := forall₂_mem hf _ hm
    cases o with
    | none => exact hn.elim
    | some id' => cases hn; exact ho
  · simp at hm

theorem codes_split (h : List Atom) (id : Name) :
    h.countP (opensBlock id) + h.countP (fun a => opensCode id a && !opensBlock id a) = h.countP (opensCode id) := by
  have := List.countP_eq_countP_filter_add h (opensCode id) (opensBlock id)
  rw [List.countP_filter, List.countP_filter] at this
  rw [this]
  congr 1
  refine List.countP_congr ?_
  intro a _
  cases a with
  | abOpen i => simp [opensBlock, opensCode]
  | _ => simp [opensBlock]

/-- The code of a block is not defined by an `AD` command. -/
theorem no_ad {h : List Atom} (hone : DefinedOnce h) (hn : Nested h) {id : Name} (hm : .abClose id ∈ h) :
    ∀ d, .leaf (.ad id d) ∉ h := by
  intro d hd
  have hb := blocks_balance id h hn
  have hsplit := codes_split h id
  have h1 : 0 < h.countP (fun a => opensCode id a && !opensBlock id a) :=
    List.countP_pos_iff.2 ⟨_, hd, by simp [opensCode, opensBlock]⟩
  have h2 : 0 < h.countP (closesBlock id) := List.countP_pos_iff.2 ⟨_, hm, by simp [closesBlock]⟩
  have := hone id
  omega

/-- A code whose definition is complete is not open. -/
theorem not_open_of_mem {h : List Atom} (hone : DefinedOnce h) (hn : Nested h) {id : Name} {a : Atom} (hm : a ∈ h)
    (ha : (∃ d, a = .leaf (.ad id d)) ∨ a = .abClose id) : some id ∉ openBlocks h := by
  intro ho
  have hb := blocks_balance id h hn
  have hpos : 0 < (openBlocks h).count (some id) := List.count_pos_iff.2 ho
  have hsplit := codes_split h id
  have := hone id
  rcases ha with ⟨d, rfl⟩ | rfl
  · have : 0 < h.countP (fun a => opensCode id a && !opensBlock id a) :=
      List.countP_pos_iff.2 ⟨_, hm, by simp [opensCode, opensBlock]⟩
    omega
  · have : 0 < h.countP (closesBlock id) := List.countP_pos_iff.2 ⟨_, hm, by simp [closesBlock]⟩
    omega

/-- Whatever can be flashed is not open. -/
theorem not_open {h : List Atom} (hr : (run {} h).exn = none) (hone : DefinedOnce h) (hn : Nested h) {ap : Aperture}
    (hcur : (run {} h).st.currentAperture = .ok ap) :
    (∀ id d, ap = .ad id d → some id ∉ openBlocks h) ∧ (∀ id, ap = .ab id → some id ∉ openBlocks h) := by
  obtain ⟨-, s2, s3, -, -⟩ := selected_inv h hr
  have some_of_latest : ∀ {α : Type} (f : Atom → Option (Option α)) (v : α), latest f none h = some v →
      ∃ a ∈ h, f a ≠ none := by
    intro α f v hv
    by_contra hno
    push Not at hno
    have := latest_append_of_none f none [] h hno
    rw [List.nil_append, hv] at this
    cases this
  unfold VState.currentAperture at hcur
  split at hcur
  · cases hcur
  · next id hid =>
    split at hcur
    · next d hd =>
      cases hcur
      refine ⟨?_, nofun⟩
      rintro id' d' ⟨⟩
      rw [s2 id] at hd
      obtain ⟨a, ha, hf⟩ := some_of_latest _ _ hd
      refine not_open_of_mem hone hn ha (.inl ?_)
      cases a with
      | leaf l =>
        cases l
        case ad i d =>
          simp only [adOf] at hf
          split at hf
          · next e => subst e; exact ⟨d, rfl⟩
          · exact absurd rfl hf
        all_goals exact absurd rfl hf
      | _ => exact absurd rfl hf
    · split at hcur
      · next hb =>
        cases hcur
        refine ⟨nofun, ?_⟩
        rintro id' ⟨⟩
        rw [s3 id] at hb
        obtain ⟨a, ha, hf⟩ := some_of_latest _ _ hb
        refine not_open_of_mem hone hn ha (.inr ?_)
        cases a with
        | abClose i =>
          simp only [abOf] at hf
          split at hf
          · next e => subst e; rfl
          · exact absurd rfl hf
        | _ => exact absurd rfl hf
      · cases hcur

theorem once_new {h : List Atom} {a : Atom} (hone : DefinedOnce (h ++ [a])) {id : Name} (ha : opensCode id a = true) :
    ∀ b ∈ h, opensCode id b = false := by
  intro b hb
  by_contra hne
  simp only [Bool.not_eq_false] at hne
  have := hone id
  rw [List.countP_append] at this
  have h1 : 0 < h.countP (opensCode id) := List.countP_pos_iff.2 ⟨b, hb, hne⟩
  have h2 : [a].countP (opensCode id) = 1 := by simp [ha]
  omega

theorem once_prefix {h q : List Atom} (hone : DefinedOnce (h ++ q)) : DefinedOnce h := by
  intro id
  have := hone id
  rw [List.countP_append] at this
  omega

/-- One more command. -/
theorem tidy_snoc {env : Env} {h : List Atom} {a : Atom} {c c' : CState} (hr : (run {} h).exn = none)
    (hs : (Visitor.step (run {} h).st a).exn = none) (hone : DefinedOnce (h ++ [a])) (hn : Nested (h ++ [a]))
    (hth : (drawnThermals (fun _ => []) (h ++ [a])).Nodup) (ht : Tidy h c)
    (hf : feed env (Visitor.step (run {} h).st a).ev c = .ok c') : Tidy (h ++ [a]) c' ∧ Keeps c c' := by
  have hmono : ∀ id, (∀ b ∈ h ++ [a], opensCode id b = false) → c.buffers.get? (.ap id) = none := fun id hid =>
    ht.aps id (fun b hb => hid b (by simp [hb]))
  have htmono : ∀ n, n ∉ drawnThermals (fun _ => []) (h ++ [a]) → ∀ t, c.buffers.get? (.code7 n t) = none := by
    intro n hnot t
    rw [drawnThermals_snoc, List.mem_append, not_or] at hnot
    exact ht.therm n hnot.1 t
  obtain ⟨front, e1, e2⟩ := ht.stack
  cases a with
  | leaf l =>
    by_cases had : ∃ id d, l = .ad id d
    · obtain ⟨id, d, rfl⟩ := had
      change feed env [.define id d _] c = .ok c' at hf
      rw [feed_singleton] at hf
      have hnew : c.buffers.get? (.ap id) = none := ht.aps id (once_new hone (by simp [opensCode]))
      have hte := thermalsOf_eq hr id d (storeAttributes id { (run {} h).st with apertures := (run {} h).st.apertures.set id d })
        rfl
      rw [drawnThermals_snoc] at hth
      obtain ⟨n1, n2, n3⟩ := List.nodup_append.1 hth
      have hd : (thermalsOf d (storeAttributes id { (run {} h).st with apertures := (run {} h).st.apertures.set id d })).Nodup := by
        rw [hte]; exact n2
      have hu : Unused (thermalsOf d (storeAttributes id { (run {} h).st with apertures := (run {} h).st.apertures.set id d })) c := by
        intro n hn1 t
        rw [hte] at hn1
        exact ht.therm n (fun hm => n3 n hm n hn1 rfl) t
      have r := define_synced hf ht.synced hnew hd hu
      refine ⟨⟨r.synced, ⟨front, by rw [r.stack, e1], by rw [openBlocks_snoc]; exact e2⟩, ?_, ?_, ?_⟩, r.keeps hnew hu⟩
      · intro i hi
        rw [r.other (.ap i)]
        · exact hmono i hi
        · rintro ⟨⟩
          have := hi (.leaf (.ad id d)) (by simp)
          simp [opensCode] at this
        · intro _ _ _; nofun
      · intro i hi
        rw [r.stack] at hi
        have hne : i ≠ id := by rintro rfl; exact ht.live _ hi hnew
        rw [r.other (.ap i) (by rintro ⟨⟩; exact hne rfl) (by intro _ _ _; nofun)]
        exact ht.live i hi
      · intro n hnot t
        rw [r.other (.code7 n t) nofun]
        · exact htmono n hnot t
        · intro n' hn' t' he
          cases he
          rw [hte] at hn'
          exact hnot (by rw [drawnThermals_snoc]; exact List.mem_append_right _ hn')
    · push Not at had
      obtain ⟨q1, q2, q3, q4⟩ := feed_quiet _ c c' (leaf_quiet had hs) (by
        intro e he c2 hc2
        have hcz := ev_cases hs e he
        have hq := leaf_quiet had hs e he
        cases e with
        | flash k ap s =>
          obtain ⟨-, h2, -⟩ := hcz
          obtain ⟨n1, n2⟩ := not_open hr (once_prefix hone) (nested_prefix hn) h2
          cases ap with
          | ad id d =>
            intro hm
            rw [hc2] at hm
            exact n1 id d rfl (ht.open_of_stack hm)
          | ab id =>
            intro hm
            rw [hc2] at hm
            exact n2 id rfl (ht.open_of_stack hm)
        | define id d s => exact hq.elim
        | abOpen id => exact hq.elim
        | _ => trivial) ht.synced hf
      refine ⟨⟨q1, ⟨front, by rw [q3, e1], by rw [openBlocks_snoc]; exact e2⟩, ?_, ?_, ?_⟩, q2⟩
      · intro i hi; exact (q4 (.ap i) (fun h => h)).2 (hmono i hi)
      · intro i hi hnone
        rw [q3] at hi
        exact ht.live i hi ((q4 (.ap i) (fun h => h)).1 hnone)
      · intro n hnot t; exact (q4 (.code7 n t) (fun h => h)).2 (htmono n hnot t)
  | abOpen id =>
    change feed env [.abOpen id] c = .ok c' at hf
    rw [feed_singleton] at hf
    have hnew : c.buffers.get? (.ap id) = none := ht.aps id (once_new hone (by simp [opensCode]))
    obtain ⟨s1, s2⟩ := step_synced ht.synced (e := .abOpen id) hnew hf
    cases hf
    refine ⟨⟨s1, ⟨.ap id :: front, by simp [e1], by rw [openBlocks_snoc]; exact .cons rfl e2⟩, ?_, ?_, ?_⟩, s2⟩
    · intro i hi
      simp only [create, Dict.get?_set]
      rw [if_neg]
      · exact hmono i hi
      · rintro ⟨⟩
        have := hi (.abOpen id) (by simp)
        simp [opensCode] at this
    · intro i hi
      simp only [create, Dict.get?_set]
      split
      · nofun
      · next hne =>
        rcases List.mem_cons.1 hi with h | h
        · cases h; exact absurd rfl hne
        · exact ht.live i h
    · intro n hnot t
      simp only [create, Dict.get?_set]
      rw [if_neg nofun]
      exact htmono n hnot t
  | srOpen p =>
    change feed env [.srOpen p] c = .ok c' at hf
    rw [feed_singleton] at hf
    obtain ⟨s1, s2⟩ := step_synced ht.synced (e := .srOpen p) trivial hf
    cases hf
    refine ⟨⟨s1, ⟨.sr p.node (env.time c.calls) :: front, by simp [e1], by
      rw [openBlocks_snoc]; exact .cons trivial e2⟩, ?_, ?_, ?_⟩, s2⟩
    · intro i hi
      simp only [create, Dict.get?_set]
      rw [if_neg nofun]
      exact hmono i hi
    · intro i hi
      simp only [create, Dict.get?_set]
      rw [if_neg nofun]
      rcases List.mem_cons.1 hi with h | h
      · cases h
      · exact ht.live i h
    · intro n hnot t
      simp only [create, Dict.get?_set]
      rw [if_neg nofun]
      exact htmono n hnot t
  | abClose id =>
    change feed env [.abClose id] c = .ok c' at hf
    rw [feed_singleton] at hf
    obtain ⟨s1, s2⟩ := step_synced ht.synced (e := .abClose id) trivial hf
    have hlast := (hn h (.abClose id) [] rfl).1 id rfl
    cases ho : openBlocks h with
    | nil => rw [ho] at hlast; cases hlast
    | cons o os =>
      rw [ho] at e2
      cases e2 with
      | cons h1 h2 =>
        simp only [step, e1, List.cons_append] at hf
        cases hf
        exact ⟨⟨s1, ⟨_, rfl, by rw [openBlocks_snoc, ho]; exact h2⟩, hmono,
          fun i hi => ht.live i (by rw [e1]; exact List.mem_cons_of_mem _ hi), htmono⟩, s2⟩
  | srClose p =>
    change feed env [.srClose p _] c = .ok c' at hf
    rw [feed_singleton] at hf
    obtain ⟨s1, s2⟩ := step_synced ht.synced (e := .srClose p _) trivial hf
    have hlast := (hn h (.srClose p) [] rfl).2 p rfl
    cases ho : openBlocks h with
    | nil => rw [ho] at hlast; cases hlast
    | cons o os =>
      rw [ho] at e2
      cases e2 with
      | cons h1 h2 =>
        simp only [step, closeSr, e1, List.cons_append] at hf
        split at hf
        · cases hf
        · split at hf
          · cases hf
          · obtain ⟨c1, k1, k2⟩ := bind_ok.1 hf
            rw [pure_ok] at k2; subst k2
            have hnone : ∀ k, c.buffers.get? k = none → c1.buffers.get? k = none := by
              intro k hk
              rw [(append_ok k1).2.2.2]
              simp only
              rw [hk]; simp
            have hpop : ∀ i k, c1.buffers.get? k = none → (c1.buffers.pop i).get? k = none := by
              intro i k hk
              rw [Dict.get?_pop]; split
              · rfl
              · exact hk
            refine ⟨⟨s1, ⟨_, (append_ok k1).1, by rw [openBlocks_snoc, ho]; exact h2⟩, ?_, ?_, ?_⟩, s2⟩
            · intro i hi; exact hpop _ _ (hnone _ (hmono i hi))
            · intro i hi hno
              have hlive : c.buffers.get? (.ap i) ≠ none := by
                refine ht.live i ?_
                rw [show c1.stack = _ from (append_ok k1).1] at hi
                rw [e1]; exact List.mem_cons_of_mem _ hi
              rw [Dict.get?_pop] at hno
              split at hno
              · next he =>
                rw [he] at h1
                rw [ho] at hlast
                cases hlast
                exact h1
              · rw [(append_ok k1).2.2.2] at hno
                simp only at hno
                split at hno
                · exact hlive (by simpa using hno)
                · exact hlive hno
            · intro n hnot t; exact hpop _ _ (hnone _ (htmono n hnot t))

theorem tidy {env : Env} : ∀ h : List Atom, (run {} h).exn = none → ∀ c, compiled env h = .ok c → DefinedOnce h → Nested h →
    (drawnThermals (fun _ => []) h).Nodup → Tidy h c := by
  refine history_induction ?_ ?_
  · intro c hc _ _ _; cases hc; exact tidy_nil
  · intro h a h1 h2 ih c hc hone hn hth
    rw [compiled_snoc h1] at hc
    obtain ⟨c0, hc0, hf⟩ := bind_ok.1 hc
    have hth' := hth
    rw [drawnThermals_snoc] at hth'
    exact (tidy_snoc h1 h2 hone hn hth (ih c0 hc0 (once_prefix hone) (nested_prefix hn) (List.nodup_append.1 hth').1) hf).1

/-- What is settled after a history stays as it is. -/
theorem keeps_of_history {env : Env} {h : List Atom} {c : CState} (hc : compiled env h = .ok c) : ∀ q : List Atom,
    (run {} (h ++ q)).exn = none → ∀ c', compiled env (h ++ q) = .ok c' → DefinedOnce (h ++ q) → Nested (h ++ q) →
      (drawnThermals (fun _ => []) (h ++ q)).Nodup → Keeps c c' := by
  intro q
  induction q using List.reverseRecOn with
  | nil =>
    intro _ c' hc' _ _ _
    rw [List.append_nil, hc] at hc'; cases hc'; exact Keeps.refl c
  | append_singleton q a ih =>
    intro hr c' hc' hone hn hth
    rw [← List.append_assoc] at hr hc' hone hn hth
    obtain ⟨h1, h2⟩ := run_snoc_none.1 hr
    rw [compiled_snoc h1] at hc'
    obtain ⟨c0, hc0, hf⟩ := bind_ok.1 hc'
    have hth' := hth
    rw [drawnThermals_snoc] at hth'
    have hth1 := (List.nodup_append.1 hth').1
    have k1 := ih h1 c0 hc0 (once_prefix hone) (nested_prefix hn) hth1
    exact k1.trans (tidy_snoc h1 h2 hone hn hth (tidy _ h1 c0 hc0 (once_prefix hone) (nested_prefix hn) hth1) hf).2

end
end Verif.Compiler
