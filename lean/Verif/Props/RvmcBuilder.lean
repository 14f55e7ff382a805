import Verif.Lemmas.RvmcBuilder
import Verif.Props.Vm

/-!
# Programs made with the RVMC builder (C23)
-/

namespace Verif.Props.RvmcBuilder
open Verif.Vm Verif.Rvmc Verif.Geom Verif.Spec Verif.Props.Vm
open Verif.RvmcBuilder hiding step
noncomputable section
variable {ι κ : Type}

/-- **C23.** Whatever is done with the builder, the commands collected are balanced. -/
theorem c23_balanced (main : ι) (ops : List (Op ι)) : Balanced 0 (steps main ops State.init).commands := by
  obtain ⟨ns, h1, h2⟩ := (steps_invB (main := main) ops init_invB).out
  rw [h1]
  simpa using nodes_balanced ns 0 [] (fun _ => h2) rfl

/-- **C23.** With careful use every layer pasted is complete before it is pasted, and no layer is started twice. -/
theorem c23_order_partial (main : ι) (ops : List (Op ι)) (hc : Careful main ops State.init) :
    PastesComplete (steps main ops State.init).commands ∧ (starts (steps main ops State.init).commands).Nodup := by
  obtain ⟨-, h⟩ := steps_invC ops init_invB init_invC hc
  exact ⟨h.outPastes, h.outNames⟩

/-! ## The machine -/

variable [DecidableEq ι] {B : Backend κ}

theorem settle_layers (L : Dict ι (Layer ι κ)) (st : List ι) : (settle L st).layers = L := by
  unfold settle
  split
  · rfl
  · split <;> rfl

theorem settle_stack (L : Dict ι (Layer ι κ)) (st : List ι) : (settle L st).stack = st := by
  unfold settle
  split
  · rfl
  · split <;> rfl

/-- Layers that exist after a command. -/
theorem step_keys {fail : Bool} {c : Command ι} {m m' : Machine ι κ} (h : step B fail c m = .ok m') (id : ι) :
    m'.layers.get? id ≠ none ↔ m.layers.get? id ≠ none ∨ id ∈ starts [c] := by
  have hset : ∀ (i : ι) (l : Layer ι κ), m.layers.get? i ≠ none →
      ((m.layers.set i l).get? id ≠ none ↔ m.layers.get? id ≠ none) := by
    intro i l hi
    rw [Dict.get?_set]
    split
    · rename_i h; subst h; simp [hi]
    · rfl
  cases c with
  | start i box origin =>
    simp only [step, onStart] at h
    split at h
    · cases h
    · cases box with
      | none =>
        cases h
        simp only [Dict.get?_set, starts, List.mem_singleton]
        by_cases hi : i = id
        · simp [hi]
        · simp [hi, Ne.symm hi]
      | some b =>
        obtain ⟨c, -, h2⟩ := bind_ok.1 h
        cases h2
        simp only [Dict.get?_set, starts, List.mem_singleton]
        by_cases hi : i = id
        · simp [hi]
        · simp [hi, Ne.symm hi]
  | draw d =>
    simp only [starts, List.not_mem_nil, or_false]
    cases hs : m.stack with
    | nil =>
      simp only [step, onDraw, hs] at h
      split at h
      · split at h <;> cases h
      · cases h
    | cons i rest =>
      rw [draw_step fail d hs] at h
      obtain ⟨L, h1, h2⟩ := bind_ok.1 h
      cases h2
      split at h1
      · simp only [record] at h1
        split at h1
        · rename_i o cs hg
          cases h1
          exact hset i _ (by rw [hg]; simp)
        · cases h1
        · cases h1
      · obtain ⟨e, c, hg, rfl⟩ := paint_ok h1
        exact hset i _ (by rw [hg]; simp)
  | stop =>
    simp only [starts, List.not_mem_nil, or_false]
    simp only [step, onEnd] at h
    split at h
    · cases h
    · rename_i i rest hs
      split at h
      · cases h
      · cases h; rw [settle_layers]
      · rename_i og cs hg
        obtain ⟨ob, -, h2⟩ := bind_ok.1 h
        cases ob with
        | none =>
          simp only at h2
          split at h2
          · cases h2
          · cases h2; rfl
        | some b =>
          simp only at h2
          obtain ⟨c, -, h3⟩ := bind_ok.1 h2
          obtain ⟨L, h4, h5⟩ := bind_ok.1 h3
          cases h5
          rw [settle_layers]
          obtain ⟨⟨c', hc'⟩, hk⟩ := replay_ok h4 (e := ⟨og, b, c⟩) (by simp)
          by_cases hi : id = i
          · subst hi; simp [hc', hg]
          · rw [hk id hi, Dict.get?_set, if_neg (Ne.symm hi)]

/-- Layers pasted by recorded commands exist. -/
def Recorded (m : Machine ι κ) : Prop :=
  ∀ k o cs, m.layers.get? k = some (.deferred o cs) → ∀ src ctr neg, Draw.paste src ctr neg ∈ cs → m.layers.get? src ≠ none

/-- The layer that a command pastes. -/
def Source (c : Command ι) (src : ι) : Prop := ∃ ctr neg, c = .draw (.paste src ctr neg)

theorem step_recorded {fail : Bool} {c : Command ι} {m m' : Machine ι κ} (hm : Recorded m)
    (hc : ∀ src, Source c src → m.layers.get? src ≠ none) (h : step B fail c m = .ok m') : Recorded m' := by
  have hkeys := step_keys h
  have hmono : ∀ src, m.layers.get? src ≠ none → m'.layers.get? src ≠ none := fun src hs => (hkeys src).2 (.inl hs)
  have hkeep : ∀ k o cs, m.layers.get? k = some (.deferred o cs) → ∀ src ctr neg, Draw.paste src ctr neg ∈ cs →
      m'.layers.get? src ≠ none := fun k o cs hg src ctr neg hd => hmono src (hm k o cs hg src ctr neg hd)
  intro k o cs hg src ctr neg hd
  have hcase : (m.layers.get? k = some (.deferred o cs)) ∨ (∃ o' cs' d, m.layers.get? k = some (.deferred o' cs') ∧
      c = .draw d ∧ cs = cs' ++ [d]) ∨ cs = [] := by
    cases c with
    | start i box origin =>
      simp only [step, onStart] at h
      split at h
      · cases h
      · cases box with
        | none =>
          cases h
          simp only [Dict.get?_set] at hg
          split at hg
          · cases hg; exact .inr (.inr rfl)
          · exact .inl hg
        | some b =>
          obtain ⟨c, -, h2⟩ := bind_ok.1 h
          cases h2
          simp only [Dict.get?_set] at hg
          split at hg
          · cases hg
          · exact .inl hg
    | draw d =>
      cases hs : m.stack with
      | nil =>
        simp only [step, onDraw, hs] at h
        split at h
        · split at h <;> cases h
        · cases h
      | cons i rest =>
        rw [draw_step fail d hs] at h
        obtain ⟨L, h1, h2⟩ := bind_ok.1 h
        cases h2
        split at h1
        · simp only [record] at h1
          split at h1
          · rename_i o' cs' hg'
            cases h1
            simp only [Dict.get?_set] at hg
            split at hg
            · rename_i hik
              cases hg
              exact .inr (.inl ⟨_, cs', d, hik ▸ hg', rfl, rfl⟩)
            · exact .inl hg
          · cases h1
          · cases h1
        · obtain ⟨e, c, -, rfl⟩ := paint_ok h1
          simp only [Dict.get?_set] at hg
          split at hg
          · cases hg
          · exact .inl hg
    | stop =>
      simp only [step, onEnd] at h
      split at h
      · cases h
      · rename_i i rest hs
        split at h
        · cases h
        · cases h; rw [settle_layers] at hg; exact .inl hg
        · rename_i og cs' hg'
          obtain ⟨ob, -, h2⟩ := bind_ok.1 h
          cases ob with
          | none =>
            simp only at h2
            split at h2
            · cases h2
            · cases h2; exact .inl hg
          | some b =>
            simp only at h2
            obtain ⟨c, -, h3⟩ := bind_ok.1 h2
            obtain ⟨L, h4, h5⟩ := bind_ok.1 h3
            cases h5
            rw [settle_layers] at hg
            obtain ⟨⟨c', hc'⟩, hk⟩ := replay_ok h4 (e := ⟨og, b, c⟩) (by simp)
            by_cases hi : k = i
            · subst hi; rw [hc'] at hg; cases hg
            · rw [hk k hi, Dict.get?_set, if_neg (Ne.symm hi)] at hg; exact .inl hg
  rcases hcase with h1 | ⟨o', cs', d, h1, rfl, rfl⟩ | rfl
  · exact hkeep k o cs h1 src ctr neg hd
  · rcases List.mem_append.1 hd with hd | hd
    · exact hkeep k o' cs' h1 src ctr neg hd
    · exact hmono src (hc src ⟨ctr, neg, by rw [List.mem_singleton.1 hd]⟩)
  · cases hd

/-- The errors that must not happen. -/
def Bad (e : VErr) : Prop := e = .layerNotFound ∨ e = .layerAlreadyExists ∨ e = .noLayerSet

theorem bind_error {ε α β : Type} {x : Except ε α} {f : α → Except ε β} {e : ε} (h : (x >>= f) = .error e) :
    x = .error e ∨ ∃ a, x = .ok a ∧ f a = .error e := by
  cases x with
  | error e' => cases h; exact .inl rfl
  | ok a => exact .inr ⟨a, rfl, h⟩

theorem paint_error (hB : OwnErrors B) {id : ι} {d : Draw ι} {L : Dict ι (Layer ι κ)} {e : VErr}
    (hd : ∀ src ctr neg, d = .paste src ctr neg → L.get? src ≠ none) (h : paint B id d L = .error e) : ¬ Bad e := by
  have ht : ∀ e, target L id = .error e → ¬ Bad e := by
    intro e he
    unfold target at he
    split at he <;> cases he <;> simp [Bad]
  cases d with
  | shape s =>
    rcases bind_error h with h1 | ⟨x, h1, h2⟩
    · exact ht e h1
    · rcases bind_error h2 with h3 | ⟨y, h3, h4⟩
      · rw [hB.2.1 _ _ _ h3]; simp [Bad]
      · cases h4
  | paste src ctr neg =>
    simp only [paint] at h
    split at h
    · rename_i hn; exact absurd hn (hd src ctr neg rfl)
    · cases h; simp [Bad]
    · rcases bind_error h with h1 | ⟨x, h1, h2⟩
      · exact ht e h1
      · rcases bind_error h2 with h3 | ⟨y, h3, h4⟩
        · rw [hB.2.2 _ _ _ _ _ h3]; simp [Bad]
        · cases h4

theorem replay_error (hB : OwnErrors B) {id : ι} {ds : List (Draw ι)} {L : Dict ι (Layer ι κ)} {e : VErr}
    (hd : ∀ src ctr neg, Draw.paste src ctr neg ∈ ds → L.get? src ≠ none) (h : replay B id ds L = .error e) : ¬ Bad e := by
  induction ds generalizing L with
  | nil => cases h
  | cons d ds ih =>
    rcases bind_error h with h1 | ⟨L', h1, h2⟩
    · exact paint_error hB (fun src ctr neg hx => hd src ctr neg (by rw [← hx]; simp)) h1
    · obtain ⟨e', c, hg, rfl⟩ := paint_ok h1
      refine ih ?_ h2
      intro src ctr neg hx
      rw [Dict.get?_set]
      split
      · simp
      · exact hd src ctr neg (by simp [hx])

theorem commandBox_error {L : Dict ι (Layer ι κ)} {d : Draw ι} {e : VErr} (h : commandBox L d = .error e) : ¬ Bad e := by
  cases d with
  | shape s => cases h
  | paste src ctr neg =>
    simp only [commandBox] at h
    split at h <;> cases h <;> simp [Bad]

theorem deferredBox_error {L : Dict ι (Layer ι κ)} {ds : List (Draw ι)} {e : VErr} (h : deferredBox L ds = .error e) :
    ¬ Bad e := by
  have hl : ∀ (ds : List (Draw ι)) (b : Box ℝ), boxLoop L ds b = .error e → ¬ Bad e := by
    intro ds
    induction ds with
    | nil => intro b h; cases h
    | cons d ds ih =>
      intro b h
      rcases bind_error h with h1 | ⟨b', h1, h2⟩
      · exact commandBox_error h1
      · exact ih _ h2
  cases ds with
  | nil => cases h
  | cons d ds =>
    rcases bind_error h with h1 | ⟨b', h1, h2⟩
    · exact commandBox_error h1
    · rcases bind_error h2 with h3 | ⟨b'', h3, h4⟩
      · exact hl ds _ h3
      · cases h4

theorem step_error (hB : OwnErrors B) {fail : Bool} {c : Command ι} {m : Machine ι κ} {e : VErr} (hm : Recorded m)
    (hc : ∀ src, Source c src → m.layers.get? src ≠ none) (hst : (∀ i b o, c ≠ .start i b o) → m.stack ≠ [])
    (hnew : ∀ i ∈ starts [c], m.layers.get? i = none) (h : step B fail c m = .error e) : ¬ Bad e := by
  cases c with
  | start i box origin =>
    simp only [step, onStart, hnew i (by simp [starts])] at h
    cases box with
    | none => cases h
    | some b =>
      rcases bind_error h with h1 | ⟨x, h1, h2⟩
      · rw [hB.1 _ _ _ h1]; simp [Bad]
      · cases h2
  | draw d =>
    cases hs : m.stack with
    | nil => exact absurd hs (hst (by simp))
    | cons i rest =>
      rw [draw_step fail d hs] at h
      rcases bind_error h with h1 | ⟨x, h1, h2⟩
      · split at h1
        · simp only [record] at h1
          split at h1 <;> cases h1 <;> simp [Bad]
        · exact paint_error hB (fun src ctr neg hx => hc src ⟨ctr, neg, by rw [hx]⟩) h1
      · cases h2
  | stop =>
    simp only [step, onEnd] at h
    split at h
    · rename_i hs; exact absurd hs (hst (by simp))
    · rename_i i rest hs
      split at h
      · cases h; simp [Bad]
      · cases h
      · rename_i og cs hg
        rcases bind_error h with h1 | ⟨ob, h1, h2⟩
        · exact deferredBox_error h1
        · cases ob with
          | none =>
            simp only at h2
            split at h2
            · cases h2; simp [Bad]
            · cases h2
          | some b =>
            simp only at h2
            rcases bind_error h2 with h3 | ⟨c, h3, h4⟩
            · rw [hB.1 _ _ _ h3]; simp [Bad]
            · rcases bind_error h4 with h5 | ⟨L, h5, h6⟩
              · refine replay_error hB ?_ h5
                intro src ctr neg hx
                rw [Dict.get?_set]
                split
                · simp
                · exact hm i og cs hg src ctr neg hx
              · cases h6

omit [DecidableEq ι] in
theorem complete_starts {id : ι} {cs : List (Command ι)} (h : Complete id cs) : id ∈ starts cs := by
  obtain ⟨a, b, o, body, c, rfl⟩ := h
  simp [starts_append, Node.commands, starts]

omit [DecidableEq ι] in
theorem balanced_open : ∀ (pre rest : List (Command ι)) (n : ℕ) (os : List (Open ι)), os.length = n →
    Balanced n (pre ++ rest) → Balanced (pre.foldl openStep os).length rest
  | [], rest, n, os, hn, h => by simpa [hn] using h
  | c :: cs, rest, n, os, hn, h => by
    cases c with
    | start i b o => exact balanced_open cs rest (n + 1) _ (by simp [openStep, hn]) h
    | draw d =>
      cases os with
      | nil =>
        have := h.1
        simp at hn
        omega
      | cons o os => exact balanced_open cs rest n _ (by simpa [openStep] using hn) h.2
    | stop => exact balanced_open cs rest (n - 1) _ (by simp [openStep, hn]) h.2

/-- A balanced program that pastes only what it has defined and that defines layers once. -/
theorem safe (hB : OwnErrors B) {fail : Bool} {cs : List (Command ι)} (hbal : Balanced 0 cs) (hp : PastesComplete cs)
    (hn : (starts cs).Nodup) {e : VErr} (h : exec B fail cs Machine.init = .error e) : ¬ Bad e := by
  have key : ∀ (post pre : List (Command ι)) (m : Machine ι κ), cs = pre ++ post →
      exec B fail pre Machine.init = .ok m → Recorded m → (∀ id, m.layers.get? id ≠ none ↔ id ∈ starts pre) →
      exec B fail post m = .error e → ¬ Bad e := by
    intro post
    induction post with
    | nil => intro pre m _ _ _ _ h; cases h
    | cons c post ih =>
      intro pre m hcs hpre hrec hkeys h
      have hsrc : ∀ src, Source c src → m.layers.get? src ≠ none := by
        rintro src ⟨ctr, neg, rfl⟩
        exact (hkeys src).2 (complete_starts (hp pre src ctr neg post hcs))
      rcases bind_error h with h1 | ⟨m', h1, h2⟩
      · refine step_error hB hrec hsrc ?_ ?_ h1
        · intro hns hst
          have hb := balanced_open pre (c :: post) 0 [] rfl (hcs ▸ hbal)
          have := (exec_inv pre hpre).1.stack
          rw [hst] at this
          have hol : openLayers pre = [] := by simpa using this.symm
          have hz : (pre.foldl openStep []).length = 0 := by
            have : pre.foldl openStep [] = openLayers pre := rfl
            rw [this, hol]; rfl
          rw [hz] at hb
          cases c with
          | start i b o => exact hns i b o rfl
          | draw d => exact absurd hb.1 (by omega)
          | stop => exact absurd hb.1 (by omega)
        · intro i hi
          by_contra hne
          have h2 := (hkeys i).1 hne
          rw [hcs, starts_append, show c :: post = [c] ++ post from rfl, starts_append] at hn
          exact (List.disjoint_of_nodup_append hn) h2 (List.mem_append_left _ hi)
      · refine ih (pre ++ [c]) m' (by rw [hcs]; simp) ?_ (step_recorded hrec hsrc h1) ?_ h2
        · rw [exec_append, hpre]
          simpa [bind, Except.bind, exec_singleton] using h1
        · intro id
          rw [step_keys h1 id, hkeys id, starts_append, List.mem_append]
  refine key cs [] Machine.init rfl rfl ?_ ?_ h
  · intro k o cs' hg; cases hg
  · intro id; simp [Machine.init, starts]

/-- **C23** (partial).  With careful use the program made with the builder never fails with 'layer not found', 'layer
already exists' or 'no layer set', whatever the backend and whether empty layers are refused or not.  Missing: names used
twice (`c23_false_duplicate`), more than one main layer, and pastes made on a layer while a layer nested in it is open
(`c23_false_outer_paste`). -/
theorem c23_renders_partial (hB : OwnErrors B) (main : ι) (ops : List (Op ι)) (hc : Careful main ops State.init)
    (fail : Bool) : ∀ e, run B fail main (steps main ops State.init).commands = .error e →
      e ≠ .layerNotFound ∧ e ≠ .layerAlreadyExists ∧ e ≠ .noLayerSet := by
  intro e he
  have hnb : ¬ Bad e := by
    obtain ⟨h1, h2⟩ := c23_order_partial main ops hc
    rcases bind_error he with h3 | ⟨m, h3, h4⟩
    · exact safe hB (c23_balanced main ops) h1 h2 h3
    · split at h4
      · split at h4
        · cases h4; simp [Bad]
        · cases h4
      · cases h4; simp [Bad]
      · cases h4
  simp only [Bad, not_or] at hnb
  exact hnb

/-- Use of the builder: a nested layer that is pasted twice. -/
def sampleOps : List (Op String) :=
  [.enterMain none ⟨0, 0⟩, .enter 0 "a" none ⟨0, 0⟩, .shapes 1 [dot], .shapes 0 [dot], .exit,
    .paste 0 1 ⟨1, 1⟩ false, .paste 0 1 ⟨2, 2⟩ false, .exit, .getRvmc]

/-- The hypotheses of `c23_renders_partial` are met, and the program renders. -/
example : Careful "main" sampleOps State.init ∧ OwnErrors counting ∧
    ∃ e, run counting true "main" (steps "main" sampleOps State.init).commands = .ok (some e) ∧ e.content = 3 := by
  refine ⟨?_, ⟨nofun, nofun, nofun⟩, ?_⟩
  · simp [Careful, sampleOps, CarefulStep, RvmcBuilder.step, enterMain, enter, exit, add, State.init, LayerBuilder.new,
      LayerBuilder.finalize]
  · exact ⟨_, rfl, rfl⟩

/-- **C23** is false when a name is used twice. -/
theorem c23_false_duplicate : ∃ ops : List (Op String), PastesFinished "main" ops State.init ∧
    (steps "main" ops State.init).blocks = [] ∧
    run counting true "main" (steps "main" ops State.init).commands = .error .layerAlreadyExists := by
  refine ⟨[.enterMain none ⟨0, 0⟩, .enter 0 "a" none ⟨0, 0⟩, .shapes 1 [dot], .exit, .enter 0 "a" none ⟨0, 0⟩,
    .shapes 2 [dot], .exit, .shapes 0 [dot], .exit], ?_, rfl, rfl⟩
  simp [PastesFinished]

/-- **C23** is false when a finished layer is pasted on a layer outside the one it was made in, while that one is open:
the paste comes before the layer. -/
theorem c23_false_outer_paste : ∃ ops : List (Op String), PastesFinished "main" ops State.init ∧
    (steps "main" ops State.init).blocks = [] ∧
    run counting true "main" (steps "main" ops State.init).commands = .error .layerNotFound := by
  refine ⟨[.enterMain (some ⟨0, 0, 1, 1⟩) ⟨0, 0⟩, .enter 0 "a" none ⟨0, 0⟩, .enter 1 "b" none ⟨0, 0⟩, .shapes 2 [dot],
    .exit, .paste 0 2 ⟨1, 1⟩ false, .shapes 1 [dot], .exit, .exit], ?_, rfl, rfl⟩
  simp [PastesFinished, RvmcBuilder.step, enterMain, enter, exit, add, State.init, LayerBuilder.new,
    LayerBuilder.finalize]

end
end Verif.Props.RvmcBuilder
