import Verif.Spec.Vm

/-!
# The machine executes structured programs as they read
-/

namespace Verif.Vm
open Verif.Rvmc Verif.Geom Verif.Spec
noncomputable section
variable {ι κ : Type} [DecidableEq ι] {B : Backend κ}

theorem bind_ok {ε α β : Type} {x : Except ε α} {f : α → Except ε β} {b : β} :
    (x >>= f) = .ok b ↔ ∃ a, x = .ok a ∧ f a = .ok b := by
  cases x with
  | error e => simp [bind, Except.bind]
  | ok a => simp [bind, Except.bind]

theorem exec_append (fail : Bool) (as bs : List (Command ι)) (m : Machine ι κ) :
    exec B fail (as ++ bs) m = (exec B fail as m >>= exec B fail bs) := by
  induction as generalizing m with
  | nil => rfl
  | cons a as ih =>
    simp only [List.cons_append, exec]
    cases step B fail a m with
    | error e => rfl
    | ok m' => exact ih m'

theorem exec_singleton (fail : Bool) (c : Command ι) (m : Machine ι κ) : exec B fail [c] m = step B fail c m := by
  simp only [exec]
  cases step B fail c m <;> rfl

theorem draw_step (fail : Bool) (d : Draw ι) {m : Machine ι κ} {id : ι} {rest : List ι} (hs : m.stack = id :: rest) :
    step B fail (.draw d) m = ((if m.deferring then record id d m.layers else paint B id d m.layers) >>= fun layers =>
      .ok { m with layers := layers }) := by
  simp only [step, onDraw, hs]
  cases m.deferring <;> rfl

theorem store_set (layers : Dict ι (Layer ι κ)) (id : ι) (l : Layer ι κ) :
    store (layers.set id l) = Function.update (store layers) id (match l with
      | .deferred _ _ => some none
      | .eager e => some (some e)) := by
  funext k
  simp only [store, Dict.get?_set, Function.update]
  by_cases h : id = k
  · subst h; cases l <;> simp
  · rw [if_neg h, dif_neg (Ne.symm h)]

/-- The two results agree. -/
def Same (r : Except VErr (Dict ι (Layer ι κ))) (s : Except VErr (Store ι κ)) : Prop :=
  match s with
  | .error e => r = .error e
  | .ok V => ∃ L, r = .ok L ∧ store L = V

theorem paint_same (id : ι) (d : Draw ι) (L : Dict ι (Layer ι κ)) : Same (paint B id d L) (execute B id (store L) d) := by
  have htarget : target L id = match store L id with
      | some (some e) => .ok e
      | some none => .error .attributeError
      | none => .error .keyError := by
    simp only [target, store]
    cases L.get? id with
    | none => rfl
    | some l => cases l <;> rfl
  cases d with
  | shape s =>
    simp only [paint, execute, htarget]
    cases h : store L id with
    | none => rfl
    | some o =>
      cases o with
      | none => rfl
      | some e =>
        simp only [bind, Except.bind]
        cases B.shape e s with
        | error x => rfl
        | ok c => exact ⟨_, rfl, by rw [store_set]⟩
  | paste src ctr neg =>
    simp only [paint, execute]
    cases hs : L.get? src with
    | none => simp only [store, hs]; rfl
    | some l =>
      cases l with
      | deferred o cs =>
        simp only [store, hs]; rfl
      | eager e0 =>
        have : store L src = some (some e0) := by simp only [store, hs]
        simp only [this, htarget]
        cases h : store L id with
        | none => rfl
        | some o =>
          cases o with
          | none => rfl
          | some e =>
            simp only [bind, Except.bind]
            cases B.paste e e0 ctr neg with
            | error x => rfl
            | ok c => exact ⟨_, rfl, by rw [store_set]⟩

theorem paint_ok {id : ι} {d : Draw ι} {L L' : Dict ι (Layer ι κ)} (h : paint B id d L = .ok L') :
    ∃ e c, L.get? id = some (.eager e) ∧ L' = L.set id (.eager { e with content := c }) := by
  have ht : ∀ e, target L id = .ok e → L.get? id = some (.eager e) := by
    intro e he
    unfold target at he
    split at he
    · cases he; assumption
    · cases he
    · cases he
  cases d with
  | shape s =>
    obtain ⟨e, h1, h2⟩ := bind_ok.1 h
    obtain ⟨c, h3, h4⟩ := bind_ok.1 h2
    cases h4
    exact ⟨e, c, ht e h1, rfl⟩
  | paste src ctr neg =>
    simp only [paint] at h
    split at h
    · cases h
    · cases h
    · obtain ⟨e, h1, h2⟩ := bind_ok.1 h
      obtain ⟨c, h3, h4⟩ := bind_ok.1 h2
      cases h4
      exact ⟨e, c, ht e h1, rfl⟩

theorem replay_same (id : ι) (ds : List (Draw ι)) (L : Dict ι (Layer ι κ)) :
    Same (replay B id ds L) (executeAll B id ds (store L)) := by
  induction ds generalizing L with
  | nil => exact ⟨L, rfl, rfl⟩
  | cons d ds ih =>
    have := paint_same (B := B) id d L
    simp only [replay, executeAll]
    cases h : execute B id (store L) d with
    | error e =>
      rw [h] at this
      simp only [Same] at this
      rw [this]; rfl
    | ok V =>
      rw [h] at this
      obtain ⟨L', h1, rfl⟩ := this
      rw [h1]
      exact ih L'

theorem replay_ok {id : ι} : ∀ {ds : List (Draw ι)} {L L' : Dict ι (Layer ι κ)} {e : Eager κ}, replay B id ds L = .ok L' →
    L.get? id = some (.eager e) →
    (∃ c, L'.get? id = some (.eager { e with content := c })) ∧ ∀ k, k ≠ id → L'.get? k = L.get? k := by
  intro ds
  induction ds with
  | nil => intro L L' e h he; cases h; exact ⟨⟨e.content, he⟩, fun _ _ => rfl⟩
  | cons d ds ih =>
    intro L L' e h he
    obtain ⟨L1, h1, h2⟩ := bind_ok.1 h
    obtain ⟨e', c, h3, rfl⟩ := paint_ok h1
    rw [he] at h3; cases h3
    obtain ⟨⟨c', i1⟩, i2⟩ := ih h2 (e := { e with content := c }) (by simp)
    refine ⟨⟨c', i1⟩, ?_⟩
    intro k hk
    rw [i2 k hk, Dict.get?_set, if_neg (Ne.symm hk)]

theorem commandBox_eq (L : Dict ι (Layer ι κ)) (d : Draw ι) : commandBox L d = drawBox (store L) d := by
  cases d with
  | shape s => rfl
  | paste src ctr neg =>
    simp only [commandBox, drawBox, store]
    cases L.get? src with
    | none => rfl
    | some l => cases l <;> rfl

theorem boxLoop_eq (L : Dict ι (Layer ι κ)) (ds : List (Draw ι)) (b : Box ℝ) :
    boxLoop L ds b = drawBoxes (store L) b ds := by
  induction ds generalizing b with
  | nil => rfl
  | cons d ds ih =>
    simp only [boxLoop, drawBoxes, commandBox_eq]
    cases drawBox (store L) d with
    | error e => rfl
    | ok b' => exact ih _

/-- The handlers and the stack fit the layer around a body. -/
def Ready (m : Machine ι κ) (now : Option ι) (draws : List (Draw ι)) : Prop :=
  match now with
  | some id => m.deferring = false ∧ m.stack.head? = some id ∧ ∃ e, m.layers.get? id = some (.eager e)
  | none => m.stack = [] ∧ m.deferring = false ∧ draws = [] ∨
      ∃ id o cmds, m.deferring = true ∧ m.stack.head? = some id ∧ m.layers.get? id = some (.deferred o cmds)

/-- What executing a body does. -/
def Done (m m' : Machine ι κ) (draws : List (Draw ι)) : Prop :=
  m'.stack = m.stack ∧ m'.deferring = m.deferring ∧
    (∀ k, m.stack.head? ≠ some k → m.layers.get? k ≠ none → m'.layers.get? k = m.layers.get? k) ∧
    ∀ k, m.stack.head? = some k →
      (∀ e, m.layers.get? k = some (.eager e) → ∃ c, m'.layers.get? k = some (.eager { e with content := c })) ∧
      ∀ o cmds, m.layers.get? k = some (.deferred o cmds) → m'.layers.get? k = some (.deferred o (cmds ++ draws))

/-- The result of executing commands agrees with the meaning. -/
def Agrees (m : Machine ι κ) (draws : List (Draw ι)) (r : Except VErr (Machine ι κ)) (s : Except VErr (Store ι κ)) : Prop :=
  match s with
  | .error e => r = .error e
  | .ok V => ∃ m', r = .ok m' ∧ store m'.layers = V ∧ Done m m' draws

theorem Done.ready {m m' : Machine ι κ} {now : Option ι} {ds ds' ds'' : List (Draw ι)} (h : Done m m' ds)
    (hr : Ready m now ds'') (hd : ds'' = [] → ds' = []) : Ready m' now ds' := by
  obtain ⟨h1, h2, h3, h4⟩ := h
  cases now with
  | some id =>
    obtain ⟨r1, r2, e, r3⟩ := hr
    obtain ⟨c, hc⟩ := (h4 id r2).1 e r3
    exact ⟨h2.trans r1, by rw [h1]; exact r2, _, hc⟩
  | none =>
    rcases hr with ⟨r1, r2, r3⟩ | ⟨id, o, cmds, r1, r2, r3⟩
    · exact .inl ⟨h1.trans r1, h2.trans r2, hd r3⟩
    · exact .inr ⟨id, o, _, h2.trans r1, by rw [h1]; exact r2, (h4 id r2).2 o cmds r3⟩

theorem Done.trans {m m1 m2 : Machine ι κ} {ds ds' : List (Draw ι)} (h : Done m m1 ds) (k : Done m1 m2 ds') :
    Done m m2 (ds ++ ds') := by
  obtain ⟨h1, h2, h3, h4⟩ := h
  obtain ⟨k1, k2, k3, k4⟩ := k
  refine ⟨k1.trans h1, k2.trans h2, ?_, ?_⟩
  · intro i hi hn
    rw [k3 i (by rw [h1]; exact hi) (by rw [h3 i hi hn]; exact hn), h3 i hi hn]
  · intro i hi
    refine ⟨?_, ?_⟩
    · intro e he
      obtain ⟨c, hc⟩ := (h4 i hi).1 e he
      obtain ⟨c', hc'⟩ := (k4 i (by rw [h1]; exact hi)).1 _ hc
      exact ⟨c', hc'⟩
    · intro o cmds hc
      have := (k4 i (by rw [h1]; exact hi)).2 o _ ((h4 i hi).2 o cmds hc)
      rw [this, List.append_assoc]

omit [DecidableEq ι] in
theorem draws_cons (n : Node ι) (ns : List (Node ι)) : Node.draws (n :: ns) = Node.draws [n] ++ Node.draws ns := by
  cases n <;> rfl

/-- The handlers after the end of a nested layer are those of the layer around it. -/
theorem settle_eq {m : Machine ι κ} {now : Option ι} {ds : List (Draw ι)} (hr : Ready m now ds) {L : Dict ι (Layer ι κ)}
    (hL : ∀ k, m.layers.get? k ≠ none → L.get? k = m.layers.get? k) : settle L m.stack = ⟨m.deferring, L, m.stack⟩ := by
  cases now with
  | some id =>
    obtain ⟨r1, r2, e, r3⟩ := hr
    cases hs : m.stack with
    | nil => rw [hs] at r2; cases r2
    | cons a rest =>
      rw [hs] at r2; cases r2
      simp only [settle, hL id (by rw [r3]; simp), r3, r1]
  | none =>
    rcases hr with ⟨r1, r2, r3⟩ | ⟨id, o, cmds, r1, r2, r3⟩
    · simp only [r1, r2, settle]
    · cases hs : m.stack with
      | nil => rw [hs] at r2; cases r2
      | cons a rest =>
        rw [hs] at r2; cases r2
        simp only [settle, hL id (by rw [r3]; simp), r3, r1]

theorem draw_agrees (fail : Bool) (d : Draw ι) (m : Machine ι κ) (now : Option ι) (hr : Ready m now [d]) :
    Agrees m [d] (step B fail (.draw d) m) ((Node.draw d).eval B now (store m.layers)) := by
  cases now with
  | some id =>
    obtain ⟨r1, r2, e, r3⟩ := hr
    cases hs : m.stack with
    | nil => rw [hs] at r2; cases r2
    | cons a rest =>
      rw [hs] at r2; cases r2
      simp only [step, onDraw, hs, r1, Node.eval]
      have hp := paint_same (B := B) id d m.layers
      cases hx : execute B id (store m.layers) d with
      | error x =>
        rw [hx] at hp
        simp only [Same] at hp
        simp [hp, Agrees, bind, Except.bind]
      | ok V =>
        rw [hx] at hp
        obtain ⟨L, h1, h2⟩ := hp
        obtain ⟨e', c, h3, h4⟩ := paint_ok h1
        rw [r3] at h3; cases h3
        refine ⟨{ m with layers := L }, by simp [h1, bind, Except.bind, pure, Except.pure, r1, hs], h2, rfl, rfl, ?_, ?_⟩
        · intro k hk hn
          have : ¬ id = k := fun h => hk (by rw [hs, h]; rfl)
          simp only [h4, Dict.get?_set, if_neg this]
        · intro k hk
          rw [hs] at hk; cases hk
          refine ⟨?_, ?_⟩
          · intro e0 he0; rw [r3] at he0; cases he0; exact ⟨c, by simp [h4]⟩
          · intro o cs h0; rw [r3] at h0; cases h0
  | none =>
    rcases hr with ⟨-, -, h⟩ | ⟨id, o, cmds, r1, r2, r3⟩
    · cases h
    · cases hs : m.stack with
      | nil => rw [hs] at r2; cases r2
      | cons a rest =>
        rw [hs] at r2; cases r2
        refine ⟨{ m with layers := m.layers.set id (.deferred o (cmds ++ [d])) }, ?_, ?_, rfl, rfl, ?_, ?_⟩
        · simp only [step, onDraw, hs, r1, record, r3]; rfl
        · funext k
          simp only [store, Dict.get?_set]
          by_cases hk : id = k
          · subst hk; simp [r3]
          · rw [if_neg hk]
        · intro k hk hn
          have : ¬ id = k := fun h => hk (by rw [hs, h]; rfl)
          simp only [Dict.get?_set, if_neg this]
        · intro k hk
          rw [hs] at hk; cases hk
          refine ⟨?_, ?_⟩
          · intro e0 he0; rw [r3] at he0; cases he0
          · intro o cs h0; rw [r3] at h0; cases h0; simp

mutual
theorem node_agrees (fail : Bool) : ∀ (n : Node ι) (m : Machine ι κ) (now : Option ι), n.Drawn →
    Ready m now (Node.draws [n]) →
    Agrees m (Node.draws [n]) (exec B fail n.commands m) (n.eval B now (store m.layers))
  | .draw d, m, now, _, hr => by
    rw [Node.commands, exec_singleton]
    exact draw_agrees fail d m now hr
  | .layer id box origin body, m, now, hd, hr => by
    simp only [Node.commands, Node.eval, List.cons_append, exec, step, onStart]
    have hst : store m.layers id = none ↔ m.layers.get? id = none := by
      simp only [store]
      cases m.layers.get? id with
      | none => simp
      | some l => cases l <;> simp
    cases hg : m.layers.get? id with
    | some l =>
      cases hs : store m.layers id with
      | none => rw [hst] at hs; rw [hs] at hg; cases hg
      | some v => rfl
    | none =>
      rw [hst.2 hg]
      cases box with
      | some b =>
        simp only
        cases hc : B.create origin b with
        | error e => rfl
        | ok c =>
          simp only [bind, Except.bind, pure, Except.pure]
          have ih := nodes_agree fail body ⟨false, m.layers.set id (.eager ⟨origin, b, c⟩), id :: m.stack⟩ (some id) hd.2
            ⟨rfl, rfl, ⟨origin, b, c⟩, by simp⟩
          rw [store_set] at ih
          simp only [exec_append, exec_singleton, bind, Except.bind]
          cases he : Node.evalAll B (some id) body (Function.update (store m.layers) id (some (some ⟨origin, b, c⟩))) with
          | error e =>
            rw [he] at ih
            simp only [Agrees] at ih
            simp only [ih, Agrees]
          | ok V =>
            rw [he] at ih
            obtain ⟨m1, i1, i2, i3, i4, i5, i6⟩ := ih
            obtain ⟨c', hc'⟩ := (i6 id rfl).1 _ (Dict.get?_set_self ..)
            have hL : ∀ k, m.layers.get? k ≠ none → m1.layers.get? k = m.layers.get? k := by
              intro k hk
              have hne : ¬ id = k := fun h => hk (h ▸ hg)
              rw [i5 k (by simpa using hne) (by rw [Dict.get?_set, if_neg hne]; exact hk), Dict.get?_set, if_neg hne]
            rw [i1]
            simp only [step, onEnd, i3, hc', settle_eq hr hL]
            refine ⟨_, rfl, i2, rfl, rfl, fun k _ hk => hL k hk, fun k _ => ⟨fun e he => ⟨e.content, ?_⟩, fun o cs he => ?_⟩⟩
            · exact (hL k (by rw [he]; simp)).trans he
            · simpa [Node.draws] using (hL k (by rw [he]; simp)).trans he
      | none =>
        simp only [bind, Except.bind]
        have ih := nodes_agree fail body ⟨true, m.layers.set id (.deferred origin []), id :: m.stack⟩ none hd.2
          (.inr ⟨id, origin, [], rfl, rfl, by simp⟩)
        rw [store_set] at ih
        simp only [exec_append, exec_singleton, bind, Except.bind]
        cases he : Node.evalAll B none body (Function.update (store m.layers) id (some none)) with
        | error e =>
          rw [he] at ih
          simp only [Agrees] at ih
          simp only [ih, Agrees]
        | ok V =>
          rw [he] at ih
          obtain ⟨m1, i1, i2, i3, i4, i5, i6⟩ := ih
          have hc' := (i6 id rfl).2 _ _ (Dict.get?_set_self ..)
          have hL : ∀ k, m.layers.get? k ≠ none → m1.layers.get? k = m.layers.get? k := by
            intro k hk
            have hne : ¬ id = k := fun h => hk (h ▸ hg)
            rw [i5 k (by simpa using hne) (by rw [Dict.get?_set, if_neg hne]; exact hk), Dict.get?_set, if_neg hne]
          rw [i1]
          simp only [step, onEnd, i3, hc', List.nil_append]
          cases hds : Node.draws body with
          | nil => exact absurd hds (hd.1 rfl)
          | cons d ds =>
            simp only [deferredBox, commandBox_eq, i2, boxLoop_eq, bind, Except.bind]
            cases drawBox V d with
            | error e => rfl
            | ok b =>
              simp only
              cases drawBoxes V b ds with
              | error e => rfl
              | ok bb =>
                simp only [pure, Except.pure]
                cases hcr : B.create origin bb with
                | error e => rfl
                | ok c =>
                  simp only
                  have hs := replay_same (B := B) id (d :: ds) (m1.layers.set id (.eager ⟨origin, bb, c⟩))
                  rw [store_set, i2] at hs
                  cases hx : executeAll B id (d :: ds) (Function.update V id (some (some ⟨origin, bb, c⟩))) with
                  | error e =>
                    rw [hx] at hs
                    simp only [Same] at hs
                    simp only [hs, Agrees]
                  | ok W =>
                    rw [hx] at hs
                    obtain ⟨L, h1, h2⟩ := hs
                    obtain ⟨-, h3⟩ := replay_ok h1 (e := ⟨origin, bb, c⟩) (by simp)
                    have hL' : ∀ k, m.layers.get? k ≠ none → L.get? k = m.layers.get? k := by
                      intro k hk
                      have hne : k ≠ id := fun h => hk (h ▸ hg)
                      rw [h3 k hne, Dict.get?_set, if_neg (Ne.symm hne), hL k hk]
                    simp only [h1, settle_eq hr hL']
                    refine ⟨_, rfl, h2, rfl, rfl, fun k _ hk => hL' k hk,
                      fun k _ => ⟨fun e he => ⟨e.content, ?_⟩, fun o cs he => ?_⟩⟩
                    · exact (hL' k (by rw [he]; simp)).trans he
                    · simpa [Node.draws] using (hL' k (by rw [he]; simp)).trans he

theorem nodes_agree (fail : Bool) : ∀ (ns : List (Node ι)) (m : Machine ι κ) (now : Option ι), Node.DrawnAll ns →
    Ready m now (Node.draws ns) →
    Agrees m (Node.draws ns) (exec B fail (Node.commandsAll ns) m) (Node.evalAll B now ns (store m.layers))
  | [], m, now, _, hr => by
    refine ⟨m, rfl, rfl, rfl, rfl, fun _ _ _ => rfl, fun k _ => ⟨fun e he => ⟨e.content, he⟩, fun o cs he => ?_⟩⟩
    simpa [Node.draws] using he
  | n :: ns, m, now, hd, hr => by
    have hr1 : Ready m now (Node.draws [n]) := by
      cases now with
      | some id => exact hr
      | none =>
        rcases hr with ⟨r1, r2, r3⟩ | h
        · rw [draws_cons] at r3
          exact .inl ⟨r1, r2, (List.append_eq_nil_iff.1 r3).1⟩
        · exact .inr h
    have h1 := node_agrees fail n m now hd.1 hr1
    rw [Node.commandsAll, exec_append, Node.evalAll, draws_cons]
    cases he : n.eval B now (store m.layers) with
    | error e =>
      rw [he] at h1
      simp only [Agrees] at h1
      rw [h1]; rfl
    | ok V =>
      rw [he] at h1
      obtain ⟨m1, i1, i2, i3⟩ := h1
      have h2 := nodes_agree fail ns m1 now hd.2 (i3.ready hr (fun h => by
        rw [draws_cons] at h; exact (List.append_eq_nil_iff.1 h).2))
      rw [i1]
      subst i2
      simp only [bind, Except.bind]
      cases he2 : Node.evalAll B now ns (store m1.layers) with
      | error e =>
        rw [he2] at h2
        exact h2
      | ok W =>
        rw [he2] at h2
        obtain ⟨m2, j1, j2, j3⟩ := h2
        exact ⟨m2, j1, j2, i3.trans j3⟩
end

end
end Verif.Vm
