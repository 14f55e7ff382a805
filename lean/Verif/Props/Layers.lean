import Verif.Lemmas.Flat
import Verif.Props.Compiler
import Verif.Props.Resolve

/-!
# C15: no layer is defined twice
-/

namespace Verif.Props.Layers
open Verif.Visitor Verif.Geom Verif.Rvmc Verif.Compiler Verif.Spec Verif.Props.State Verif.Props.Compiler
noncomputable section

theorem macros_inv : ∀ h, (run {} h).exn = none →
    ∀ name body, (run {} h).st.macros.get? name = some body → .leaf (.am name body) ∈ h := by
  refine history_induction ?_ ?_
  · intro name body h; cases h
  · intro h a h1 h2 ih
    rw [run_snoc_st h1]
    generalize (run {} h).st = s at *
    have key : ∀ s' : VState, s'.macros = s.macros → ∀ name body, s'.macros.get? name = some body →
        .leaf (.am name body) ∈ h ++ [a] := by
      intro s' e name body hb
      rw [e] at hb
      exact List.mem_append_left _ (ih name body hb)
    have key' : (∀ name body, a ≠ .leaf (.am name body)) → (Visitor.step s a).st.macros = s.macros := by
      intro hne
      refine step_elim h2 (P := fun a s' => (∀ name body, a ≠ .leaf (.am name body)) → s'.macros = s.macros) ?_ ?_ ?_ ?_ ?_ hne
      · intros; rfl
      · intros; rfl
      · intros; rfl
      · intros; rfl
      · intro a hp hs hne
        clear h2 key ih
        cases a with
        | leaf l =>
          cases l <;> try (simp [isPlain] at hp; done)
          all_goals try rfl
          case am n b => exact absurd rfl (hne n b)
          case td m => cases m <;> rfl
        | _ => rfl
    by_cases hne : ∀ name body, a ≠ .leaf (.am name body)
    · exact key _ (key' hne)
    · push Not at hne
      obtain ⟨n, b, rfl⟩ := hne
      intro name body hb
      change (s.macros.set n b).get? name = some body at hb
      rw [Dict.get?_set] at hb
      split at hb
      · next e => subst e; cases hb; simp
      · exact List.mem_append_left _ (ih name body hb)

theorem aperture_defined (h : List Atom) (hr : (run {} h).exn = none) {i d}
    (hc : (run {} h).st.currentAperture = .ok (.ad i d)) : ∃ d', .leaf (.ad i d') ∈ h := by
  obtain ⟨-, i2, -, -, -⟩ := selected_inv h hr
  have : (run {} h).st.apertures.get? i = some d := by
    unfold VState.currentAperture at hc
    split at hc
    · cases hc
    · split at hc
      · cases hc; assumption
      · split at hc <;> cases hc
  rw [i2 i] at this
  unfold latest at this
  cases hl : (h.filterMap (adOf i)).getLast? with
  | none => rw [hl] at this; cases this
  | some v =>
    rw [hl] at this
    obtain ⟨a, ha, hv⟩ := List.mem_filterMap.1 (List.mem_of_getLast? hl)
    unfold adOf at hv
    split at hv
    · split at hv
      · next e => subst e; exact ⟨_, ha⟩
      · cases hv
    · cases hv

theorem flat_inv {env : Env} {B : Name → Prop} (h : List Atom) : ∀ c, (run {} h).exn = none → compiled env h = .ok c →
    (∀ name body, .leaf (.am name body) ∈ h → noThermal body) → (∀ id d, .leaf (.ad id d) ∈ h → ¬ B id) →
    (∀ id, .abOpen id ∈ h → B id) → Flat B c := by
  induction h using List.reverseRecOn with
  | nil => intro c _ hc _ _ _; cases hc; exact init_flat B
  | append_singleton h a ih =>
    intro c hr hc hm had hab
    obtain ⟨hr1, hr2⟩ := run_snoc_none.1 hr
    rw [compiled_snoc hr1] at hc
    obtain ⟨c1, e1, e2⟩ := bind_ok.1 hc
    have hf := ih c1 hr1 e1 (fun n b hb => hm n b (List.mem_append_left _ hb))
      (fun n b hb => had n b (List.mem_append_left _ hb)) (fun n hb => hab n (List.mem_append_left _ hb))
    refine feed_flat _ _ _ hf ?_ e2
    intro e he
    have k := ev_cases hr2 e he
    cases e with
    | define i d s =>
      cases k
      refine ⟨had i d (by simp), ?_⟩
      have : s = storeAttributes i { (run {} h).st with apertures := (run {} h).st.apertures.set i d } := by
        change Event.define i d s ∈ [Event.define i d _] at he
        simp only [List.mem_singleton, Event.define.injEq, true_and] at he
        exact he
      subst this
      intro name body hb
      exact hm name body (List.mem_append_left _ (macros_inv h hr1 name body hb))
    | abOpen i => cases k; exact hab i (by simp)
    | flash kind ap t =>
      obtain ⟨-, k2, -⟩ := k
      cases ap with
      | ad i d =>
        obtain ⟨d', hd⟩ := aperture_defined h hr1 k2
        exact had i d' (List.mem_append_left _ hd)
      | ab i => trivial
    | _ => trivial

theorem executed_subset (resume : Bool) : ∀ (file : List Visitor.Cmd), ∀ a ∈ executed resume file, a ∈ atomsOfAll file := by
  intro file
  induction file with
  | nil => intro a ha; cases ha
  | cons c cs ih =>
    intro a ha
    simp only [executed] at ha
    simp only [atomsOfAll]
    split at ha
    · rcases List.mem_append.1 ha with ha | ha
      · exact List.mem_append_left _ ((List.takeWhile_sublist _).subset ha)
      · split at ha
        · exact List.mem_append_right _ (ih a ha)
        · cases ha
    · rcases List.mem_append.1 ha with ha | ha
      · exact List.mem_append_left _ ha
      · exact List.mem_append_right _ (ih a ha)

theorem loop_flat {ι : Type} [DecidableEq ι] {deps : ι → Option (List ι)} {n : Nat} {root : ι} : ∀ (ds order r : List ι),
    (∀ d ∈ ds, deps d = none ∨ deps d = some []) → resolve.loop (resolve deps n) root ds order = .ok r → r = order ++ ds := by
  intro ds
  induction ds with
  | nil => intro order r _ h; cases h; simp
  | cons d ds ih =>
    intro order r hd h
    obtain ⟨o, h1, h2⟩ := bind_ok.1 h
    split at h2
    · cases h2
    · have := ih _ _ (fun x hx => hd x (List.mem_cons_of_mem _ hx)) h2
      have ho : o = order ++ [d] := by
        cases n with
        | zero => cases h1
        | succ n =>
          rw [resolve_step] at h1
          rcases hd d List.mem_cons_self with e | e
          · rw [e] at h1; cases h1
          · rw [e] at h1; cases h1; rfl
      rw [this, ho]; simp

theorem started_program (order : List LayerId) (f : LayerId → List Compiler.Cmd) :
    started (order.flatMap fun id => layerCommands id (f id)) = order := by
  induction order with
  | nil => rfl
  | cons x xs ih =>
    simp only [List.flatMap_cons, started, List.filterMap_append] at ih ⊢
    rw [ih]
    simp [layerCommands, List.filterMap_map]

/-- **C15** (partial: no macro with a thermal, see `c15_false_thermal`, and no code that is defined both by `AD` and by
`AB`). Whatever the clock, the recursion limit and the order in which sets are iterated, a compiled program starts no
layer twice. -/
theorem c15_distinct_partial (env : Env) (hiter : ∀ l, (env.iter l).Perm l) (ignore : Bool) (file : List Visitor.Cmd)
    (prog : List (Command LayerId)) (h : compile env ignore file = .ok prog)
    (hth : ∀ name body, .leaf (.am name body) ∈ atomsOfAll file → ∀ p ∈ body, isThermal p = false)
    (hcodes : ∀ id d, .leaf (.ad id d) ∈ atomsOfAll file → .abOpen id ∉ atomsOfAll file) :
    (started prog).Nodup := by
  unfold compile finish at h
  obtain ⟨c, h1, h2⟩ := bind_ok.1 h
  rw [file_is_run] at h1 h2
  split at h2
  · cases h2
  · next hex =>
    obtain ⟨order, h3, h4⟩ := bind_ok.1 h2
    rw [pure_ok] at h4; subst h4
    rw [started_program]
    have sub := executed_subset (!ignore) file
    have hf : Flat (fun id => .abOpen id ∈ atomsOfAll file) c := by
      refine flat_inv (env := env) (executed (!ignore) file) c hex h1 ?_ ?_ ?_
      · intro name body hb n a b c d e f hx
        have := hth name body (sub _ hb) _ hx
        cases this
      · intro id d hd; exact hcodes id d (sub _ hd)
      · intro id hd; exact sub _ hd
    cases hn : env.depth with
    | zero => rw [hn] at h3; cases h3
    | succ n =>
      rw [hn, resolve_step] at h3
      split at h3
      · cases h3
      · next ds hds =>
        obtain ⟨o, k1, k2⟩ := bind_ok.1 h3
        rw [pure_ok] at k2; subst k2
        have hds' : ∃ b, c.buffers.get? .main = some b ∧ ds = env.iter (Draw.sources b).dedup := by
          unfold dependsOn at hds
          cases hb : c.buffers.get? .main with
          | none => rw [hb] at hds; cases hds
          | some b => rw [hb] at hds; cases hds; exact ⟨b, rfl, rfl⟩
        obtain ⟨b, hb, rfl⟩ := hds'
        have hflat : ∀ d ∈ env.iter (Draw.sources b).dedup, d.flat fun id => .abOpen id ∈ atomsOfAll file := by
          intro d hd
          rw [(hiter _).mem_iff, List.mem_dedup] at hd
          exact hf.pasted _ _ hb d hd
        have := loop_flat _ _ _ (fun d hd => by
          cases hg : c.buffers.get? d with
          | none => left; simp [dependsOn, hg]
          | some b' =>
            right
            have e := hf.leafs d b' (hflat d hd) hg
            have : env.iter (Draw.sources b').dedup = [] := by
              rw [e]; exact List.perm_nil.1 (hiter [])
            simp only [dependsOn, hg, Option.map_some, this]) k1
        rw [this, List.nil_append]
        refine List.nodup_append.2 ⟨(hiter _).nodup_iff.2 (List.nodup_dedup _), List.nodup_singleton _, ?_⟩
        intro x hx y hy e
        rw [List.mem_singleton] at hy
        subst e hy
        exact hflat _ hx

/-- A thermal without gaps. -/
def thermalMacro : List Macro.Prim :=
  [.code7 0 (.const 0) (.const 0) (.const 2) (.const 1) (.const 0) (.const 0)]

/-- Two apertures made from the same macro, one flash of each. -/
def thermalFile : List Visitor.Cmd :=
  [.leaf (.fs {}), .leaf (.am ['T'] thermalMacro), .leaf (.ad ['D','1','0'] (.macro ['T'] [])),
    .leaf (.ad ['D','1','1'] (.macro ['T'] [])), .leaf (.dnn ['D','1','0']), .leaf (.d03 none none),
    .leaf (.dnn ['D','1','1']), .leaf (.d03 none none)]

theorem thermalFile_ok : ∃ prog, compile env0 false thermalFile = .ok prog ∧ ¬ (started prog).Nodup := by
  eval_compiler [compile, finish, file_is_run, executed, isStop, atomsOf, atomsOfAll, thermalFile, thermalMacro, runPrims, primitive, thermal,
    show ¬ ((1 : ℝ) ≤ 0) by norm_num, Math.eval, evalE, ring, convert, resolve_step, resolve.loop, dependsOn,
    Draw.sources, List.dedup_cons_of_mem, List.dedup_cons_of_notMem]
  simp [started, layerCommands]

/-- **C15 does not hold**: two apertures made in the same second from a macro with a thermal share a layer, which the
program then starts twice. -/
theorem c15_false_thermal :
    ¬ ∀ (env : Env) (ignore : Bool) (file : List Visitor.Cmd) (prog : List (Command LayerId)),
      (∀ l, (env.iter l).Perm l) → compile env ignore file = .ok prog → (started prog).Nodup := by
  intro hall
  obtain ⟨prog, h1, h2⟩ := thermalFile_ok
  exact h2 (hall env0 false thermalFile prog (fun l => .refl l) h1)

/-- A macro without a thermal, a block and a standard aperture. -/
def layersFile : List Visitor.Cmd :=
  [.leaf (.fs {}), .leaf (.am ['T'] [.code1 (.const 1) (.const 1) (.const 0) (.const 0) none]),
    .leaf (.ad ['D','1','0'] (.macro ['T'] [])), .leaf (.ad ['D','1','1'] (.circle 1 none)),
    .leaf (.dnn ['D','1','0']), .leaf (.d03 none none),
    .leaf (.dnn ['D','1','1']), .leaf (.d03 none none), .ab ['D','1','2'] [.leaf (.d03 none none)],
    .leaf (.dnn ['D','1','2']), .leaf (.lr 90), .leaf (.d03 none none)]

/-- Non-vacuity of C15. -/
example : (∀ l, (env0.iter l).Perm l) ∧ (∃ prog, compile env0 false layersFile = .ok prog) ∧
    (∀ name body, .leaf (.am name body) ∈ atomsOfAll layersFile → ∀ p ∈ body, isThermal p = false) ∧
    (∀ id d, .leaf (.ad id d) ∈ atomsOfAll layersFile → .abOpen id ∉ atomsOfAll layersFile) := by
  refine ⟨fun l => .refl l, ?_, ?_, ?_⟩
  · by_cases h : (transformMatrix ({ } : Transform)) = (transformMatrix ({ rotation := 90 } : Transform))
    all_goals eval_compiler [compile, finish, file_is_run, executed, isStop, atomsOf, atomsOfAll, layersFile, runPrims, primitive,
      PrimOut.shapes, Math.eval, evalE, moved, convert, resolve_step, resolve.loop, dependsOn,
      Draw.sources, List.dedup_cons_of_mem, List.dedup_cons_of_notMem, h]
  · intro name body h p hp
    simp [layersFile, atomsOf, atomsOfAll] at h
    obtain ⟨rfl, rfl⟩ := h
    simp at hp
    subst hp; rfl
  · intro id d h
    simp [layersFile, atomsOf, atomsOfAll] at h ⊢
    rcases h with ⟨rfl, -⟩ | ⟨rfl, -⟩ <;> decide

end
end Verif.Props.Layers
