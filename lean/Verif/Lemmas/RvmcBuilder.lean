import Verif.Spec.RvmcBuilder
import Verif.Lemmas.Vm

/-!
# Invariants of the builder
-/

namespace Verif.RvmcBuilder
open Verif.Rvmc Verif.Geom Verif.Spec
variable {ι : Type}

theorem commandsAll_append (a b : List (Node ι)) : Node.commandsAll (a ++ b) = Node.commandsAll a ++ Node.commandsAll b := by
  induction a with
  | nil => simp [Node.commandsAll]
  | cons n ns ih => simp [Node.commandsAll, ih]

theorem draws_append (a b : List (Node ι)) : Node.draws (a ++ b) = Node.draws a ++ Node.draws b := by
  induction a with
  | nil => rfl
  | cons n ns ih => cases n <;> simp [Node.draws, ih]

theorem commandsAll_draws (ds : List (Draw ι)) : Node.commandsAll (ds.map Node.draw) = ds.map Command.draw := by
  induction ds with
  | nil => rfl
  | cons d ds ih => simp [Node.commandsAll, Node.commands, ih]

mutual
theorem node_balanced : ∀ (x : Node ι) (n : ℕ) (rest : List (Command ι)), (n = 0 → Node.draws [x] = []) →
    Balanced n rest → Balanced n (x.commands ++ rest)
  | .draw d, n, rest, h, hr => by
    refine ⟨?_, hr⟩
    by_contra hn
    exact absurd (h (by omega)) (by simp [Node.draws])
  | .layer id box o body, n, rest, h, hr => by
    simp only [Node.commands, List.cons_append, List.append_assoc, Balanced]
    refine nodes_balanced body (n + 1) _ (by omega) ?_
    simpa [Balanced] using hr
theorem nodes_balanced : ∀ (xs : List (Node ι)) (n : ℕ) (rest : List (Command ι)), (n = 0 → Node.draws xs = []) →
    Balanced n rest → Balanced n (Node.commandsAll xs ++ rest)
  | [], n, rest, _, hr => hr
  | x :: xs, n, rest, h, hr => by
    rw [Node.commandsAll, List.append_assoc]
    have h' : n = 0 → Node.draws [x] = [] ∧ Node.draws xs = [] := by
      intro hn
      have := h hn
      rw [Vm.draws_cons] at this
      exact List.append_eq_nil_iff.1 this
    exact node_balanced x n _ (fun hn => (h' hn).1) (nodes_balanced xs n rest (fun hn => (h' hn).2) hr)
end

/-! ## Balance -/

/-- The layer around a block is open as well. -/
def Parents : List (ℕ × Option ℕ) → Prop
  | [] => True
  | (_, p) :: bs => (∀ r, p = some r → r ∈ bs.map Prod.fst) ∧ Parents bs

/-- The commands of an open layer. -/
def Begun (l : LayerBuilder ι) : Prop := ∃ b o ns, l.commands = .start l.id b o :: Node.commandsAll ns

/-- Holds after any operations. -/
structure InvB (s : State ι) : Prop where
  open_ : ∀ k ∈ s.blocks.map Prod.fst, ∃ l, s.objs[k]? = some l ∧ l.finalized = false ∧ Begun l
  nodup : (s.blocks.map Prod.fst).Nodup
  parents : Parents s.blocks
  unfinished : ∀ k l, s.objs[k]? = some l → l.finalized = false → k ∈ s.blocks.map Prod.fst
  out : ∃ ns, s.commands = Node.commandsAll ns ∧ Node.draws ns = []

theorem getElem?_set_some {α : Type} {l : List α} {i : ℕ} {x y : α} (h : l[i]? = some y) (j : ℕ) :
    (l.set i x)[j]? = if i = j then some x else l[j]? := by
  have hi : i < l.length := by
    by_contra hn
    rw [List.getElem?_eq_none (by omega)] at h
    cases h
  rw [List.getElem?_set]
  split
  · rename_i h'; subst h'; simp
  · rfl

theorem lt_of_some {α : Type} {l : List α} {i : ℕ} {y : α} (h : l[i]? = some y) : i < l.length := by
  by_contra hn
  rw [List.getElem?_eq_none (by omega)] at h
  cases h

theorem Begun.add {l : LayerBuilder ι} (h : Begun l) (ds : List (Draw ι)) :
    Begun { l with commands := l.commands ++ ds.map Command.draw } := by
  obtain ⟨b, o, ns, h⟩ := h
  refine ⟨b, o, ns ++ ds.map Node.draw, ?_⟩
  simp [h, commandsAll_append, commandsAll_draws]

theorem add_invB {s : State ι} (h : InvB s) (r : ℕ) (ds : List (Draw ι)) : InvB (add r (ds.map Command.draw) s).1 := by
  unfold add
  split
  · exact h
  · rename_i l hl
    split
    · exact h
    · rename_i hf
      simp only [Bool.not_eq_true] at hf
      refine ⟨?_, h.nodup, h.parents, ?_, h.out⟩
      · intro k hk
        simp only [getElem?_set_some hl]
        obtain ⟨l', h1, h2, h3⟩ := h.open_ k hk
        split
        · rename_i hrk; subst hrk
          rw [hl] at h1; cases h1
          exact ⟨_, rfl, hf, h3.add ds⟩
        · exact ⟨l', h1, h2, h3⟩
      · intro k l' h1 h2
        simp only [getElem?_set_some hl] at h1
        split at h1
        · rename_i hrk; subst hrk
          exact h.unfinished r l hl hf
        · exact h.unfinished k l' h1 h2

theorem step_invB {main : ι} {s : State ι} (h : InvB s) (op : Op ι) : InvB (step main op s).1 := by
  cases op with
  | enterMain box origin =>
    simp only [step, enterMain]
    split
    · exact h
    · refine ⟨?_, ?_, ?_, ?_, h.out⟩
      · intro k hk
        simp only [List.map_cons, List.mem_cons] at hk
        rcases hk with rfl | hk
        · exact ⟨_, by simp; rfl, rfl, box, origin, [], rfl⟩
        · obtain ⟨l, h1, h2, h3⟩ := h.open_ k hk
          exact ⟨l, by rw [List.getElem?_append_left (lt_of_some h1)]; exact h1, h2, h3⟩
      · simp only [List.map_cons, List.nodup_cons]
        refine ⟨fun hk => ?_, h.nodup⟩
        obtain ⟨l, h1, -⟩ := h.open_ _ hk
        exact absurd (lt_of_some h1) (by simp)
      · exact ⟨nofun, h.parents⟩
      · intro k l h1 h2
        by_cases hk : k < s.objs.length
        · rw [List.getElem?_append_left hk] at h1
          exact List.mem_cons_of_mem _ (h.unfinished k l h1 h2)
        · have := lt_of_some h1
          simp at this
          have : k = s.objs.length := by omega
          subst this; simp
  | enter r id box origin =>
    simp only [step, enter]
    split
    · exact h
    · rename_i lr hr
      split
      · exact h
      · split
        · exact h
        · rename_i hf
          simp only [Bool.not_eq_true] at hf
          have hlen : (s.objs.set r { lr with active := some id }).length = s.objs.length := by simp
          refine ⟨?_, ?_, ?_, ?_, h.out⟩
          · intro k hk
            simp only [List.map_cons, List.mem_cons] at hk
            rcases hk with rfl | hk
            · exact ⟨_, by rw [List.getElem?_append_right (by simp)]; simp; rfl, rfl, box, origin, [], rfl⟩
            · obtain ⟨l, h1, h2, h3⟩ := h.open_ k hk
              simp only
              rw [List.getElem?_append_left (by rw [hlen]; exact lt_of_some h1), getElem?_set_some hr]
              split
              · rename_i hrk; subst hrk
                rw [hr] at h1; cases h1
                exact ⟨_, rfl, h2, h3⟩
              · exact ⟨l, h1, h2, h3⟩
          · simp only [List.map_cons, List.nodup_cons]
            refine ⟨fun hk => ?_, h.nodup⟩
            obtain ⟨l, h1, -⟩ := h.open_ _ hk
            exact absurd (lt_of_some h1) (by simp)
          · refine ⟨?_, h.parents⟩
            intro r' hr'
            cases hr'
            exact h.unfinished r lr hr hf
          · intro k l h1 h2
            simp only at h1
            by_cases hk : k < s.objs.length
            · rw [List.getElem?_append_left (by rw [hlen]; exact hk), getElem?_set_some hr] at h1
              split at h1
              · rename_i hrk; subst hrk
                exact List.mem_cons_of_mem _ (h.unfinished r lr hr hf)
              · exact List.mem_cons_of_mem _ (h.unfinished k l h1 h2)
            · have := lt_of_some h1
              simp at this
              have : k = s.objs.length := by omega
              subst this; simp
  | exit =>
    simp only [step, exit]
    split
    · exact h
    · rename_i k parent blocks hb
      split
      · exact h
      · rename_i l hl
        have hnd := h.nodup
        rw [hb] at hnd
        simp only [List.map_cons, List.nodup_cons] at hnd
        obtain ⟨hk, hnd⟩ := hnd
        have hpar := h.parents
        rw [hb] at hpar
        obtain ⟨hp1, hp2⟩ := hpar
        obtain ⟨l0, hl0, hf, b, o, ns, hc⟩ := h.open_ k (by rw [hb]; simp)
        rw [hl] at hl0; cases hl0
        have hunf : ∀ j l', s.objs[j]? = some l' → l'.finalized = false → j ≠ k → j ∈ blocks.map Prod.fst := by
          intro j l' h1 h2 h3
          have := h.unfinished j l' h1 h2
          rw [hb] at this
          simp only [List.map_cons, List.mem_cons] at this
          exact this.resolve_left h3
        have hopen : ∀ j ∈ blocks.map Prod.fst, ∃ l', (s.objs.set k l.finalize)[j]? = some l' ∧ l'.finalized = false ∧
            Begun l' := by
          intro j hj
          obtain ⟨l', h1, h2, h3⟩ := h.open_ j (by rw [hb]; exact List.mem_cons_of_mem _ hj)
          rw [getElem?_set_some hl, if_neg (fun hkj : k = j => hk (hkj ▸ hj))]
          exact ⟨l', h1, h2, h3⟩
        have hunf' : ∀ j l', (s.objs.set k l.finalize)[j]? = some l' → l'.finalized = false → j ∈ blocks.map Prod.fst := by
          intro j l' h1 h2
          rw [getElem?_set_some hl] at h1
          split at h1
          · cases h1; cases h2
          · rename_i hkj
            exact hunf j l' h1 h2 (Ne.symm hkj)
        cases parent with
        | none =>
          simp only
          split
          · exact ⟨hopen, hnd, hp2, hunf', h.out⟩
          · refine ⟨hopen, hnd, hp2, hunf', ?_⟩
            obtain ⟨ms, h1, h2⟩ := h.out
            refine ⟨ms ++ [.layer l.id b o ns], ?_, ?_⟩
            · simp [LayerBuilder.finalize, h1, hc, commandsAll_append, Node.commandsAll, Node.commands]
            · simp [draws_append, h2, Node.draws]
        | some r =>
          simp only
          split
          · exact h
          · rename_i p hp
            have hr := hp1 r rfl
            obtain ⟨p', q1, q2, q3⟩ := hopen r hr
            rw [hp] at q1; cases q1
            refine ⟨?_, hnd, hp2, ?_, h.out⟩
            · intro j hj
              simp only [getElem?_set_some hp]
              split
              · obtain ⟨b', o', ns', hc'⟩ := q3
                refine ⟨_, rfl, q2, b', o', ns' ++ [.layer l.id b o ns], ?_⟩
                simp [LayerBuilder.finalize, hc, hc', commandsAll_append, Node.commandsAll, Node.commands]
              · exact hopen j hj
            · intro j l' h1 h2
              simp only [getElem?_set_some hp] at h1
              split at h1
              · rename_i hrj; subst hrj; exact hr
              · exact hunf' j l' h1 h2
  | shapes r ss =>
    have := add_invB h r (ss.map Draw.shape)
    simpa [step, Function.comp_def] using this
  | paste r src c neg =>
    simp only [step]
    split
    · exact h
    · rename_i l _
      have := add_invB h r [Draw.paste l.id c neg]
      simpa using this
  | getRvmc => exact ⟨h.open_, h.nodup, h.parents, h.unfinished, h.out⟩

theorem steps_invB {main : ι} (ops : List (Op ι)) {s : State ι} (h : InvB s) : InvB (steps main ops s) := by
  induction ops generalizing s with
  | nil => exact h
  | cons op ops ih => exact ih (step_invB h op)

theorem init_invB : InvB (State.init : State ι) :=
  ⟨by simp [State.init], by simp [State.init], trivial, by simp [State.init], [], rfl, rfl⟩

/-! ## Order -/

/-- The commands of a layer builder. -/
def cmds (objs : List (LayerBuilder ι)) (k : ℕ) : List (Command ι) :=
  match objs[k]? with
  | some l => l.commands
  | none => []

/-- The commands of the open layers, innermost first. -/
def chain (objs : List (LayerBuilder ι)) (blocks : List (ℕ × Option ℕ)) : List (List (Command ι)) :=
  blocks.map fun b => cmds objs b.1

/-- Pastes come after the layers that they paste. -/
def PastesOK : List (List (Command ι)) → Prop
  | [] => True
  | c :: cs => (∀ pre src ctr neg post, c = pre ++ .draw (.paste src ctr neg) :: post →
      Complete src pre ∨ ∃ c' ∈ cs, Complete src c') ∧ PastesOK cs

/-- Each block was entered from the next one. -/
def Linked (objs : List (LayerBuilder ι)) : List (ℕ × Option ℕ) → Prop
  | [] => True
  | [(_, p)] => p = none
  | (_, p) :: (k, q) :: bs => p = some k ∧ (∃ l, objs[k]? = some l ∧ l.active.isSome = true) ∧ Linked objs ((k, q) :: bs)

theorem complete_append {id : ι} {a : List (Command ι)} (h : Complete id a) (b : List (Command ι)) : Complete id (a ++ b) := by
  obtain ⟨x, bx, o, body, c, rfl⟩ := h
  exact ⟨x, bx, o, body, c ++ b, by simp⟩

theorem complete_prepend {id : ι} {a : List (Command ι)} (h : Complete id a) (b : List (Command ι)) : Complete id (b ++ a) := by
  obtain ⟨x, bx, o, body, c, rfl⟩ := h
  exact ⟨b ++ x, bx, o, body, c, by simp⟩

theorem split_left {α : Type} {a w pre post : List α} {c : α} (h : a ++ w = pre ++ c :: post) (hc : c ∉ w) :
    ∃ post', a = pre ++ c :: post' := by
  rcases List.append_eq_append_iff.1 h with ⟨x, h1, h2⟩ | ⟨x, h1, h2⟩
  · exact absurd (by rw [h2]; simp) hc
  · cases x with
    | nil => simp at h2; exact absurd (by rw [← h2]; simp) hc
    | cons y ys =>
      simp at h2
      exact ⟨ys, by rw [h1, h2.1]⟩

/-- The second list extends the first by shapes. -/
def ByShapes (a b : List (Command ι)) : Prop := ∃ ss : List Shape, b = a ++ ss.map fun x => .draw (.shape x)

theorem forall₂_left {α : Type} {R : α → α → Prop} {a b : List α} (h : List.Forall₂ R a b) {x : α} (hx : x ∈ a) :
    ∃ y ∈ b, R x y := by
  induction h with
  | nil => cases hx
  | cons h1 _ ih =>
    rcases List.mem_cons.1 hx with rfl | hx
    · exact ⟨_, by simp, h1⟩
    · obtain ⟨y, h2, h3⟩ := ih hx
      exact ⟨y, by simp [h2], h3⟩

theorem forall₂_right {α : Type} {R : α → α → Prop} {a b : List α} (h : List.Forall₂ R a b) {y : α} (hy : y ∈ b) :
    ∃ x ∈ a, R x y := by
  induction h with
  | nil => cases hy
  | cons h1 _ ih =>
    rcases List.mem_cons.1 hy with rfl | hy
    · exact ⟨_, by simp, h1⟩
    · obtain ⟨y, h2, h3⟩ := ih hy
      exact ⟨y, by simp [h2], h3⟩

theorem PastesOK.extend : ∀ {ch ch' : List (List (Command ι))}, List.Forall₂ ByShapes ch ch' → PastesOK ch → PastesOK ch'
  | [], _, h, _ => by cases h; trivial
  | c :: cs, _, h, hp => by
    cases h with
    | cons h1 h2 =>
      rename_i c' cs'
      obtain ⟨ss, rfl⟩ := h1
      refine ⟨?_, PastesOK.extend h2 hp.2⟩
      intro pre src ctr neg post he
      obtain ⟨post', he'⟩ := split_left he (by simp)
      rcases hp.1 pre src ctr neg post' he' with h | ⟨d, hd, hc⟩
      · exact .inl h
      · right
        obtain ⟨d', hd', ss', rfl⟩ := forall₂_left h2 hd
        exact ⟨_, hd', complete_append hc _⟩

theorem Linked.congr {objs objs' : List (LayerBuilder ι)} : ∀ {bs : List (ℕ × Option ℕ)}, Linked objs bs →
    (∀ j ∈ bs.tail.map Prod.fst, ∀ l, objs[j]? = some l → l.active.isSome = true →
      ∃ l', objs'[j]? = some l' ∧ l'.active.isSome = true) → Linked objs' bs
  | [], _, _ => trivial
  | [_], h, _ => h
  | (_, _) :: (k, q) :: bs, ⟨h1, ⟨l, h2, h3⟩, h4⟩, hc => by
    refine ⟨h1, hc k (by simp) l h2 h3, Linked.congr h4 ?_⟩
    intro j hj
    exact hc j (by simp at hj ⊢; exact .inr hj)

theorem Linked.active {objs : List (LayerBuilder ι)} : ∀ {bs : List (ℕ × Option ℕ)}, Linked objs bs →
    ∀ j ∈ bs.tail.map Prod.fst, ∃ l, objs[j]? = some l ∧ l.active.isSome = true
  | [], _, j, hj => by simp at hj
  | [_], _, j, hj => by simp at hj
  | (_, _) :: (k, q) :: bs, ⟨h1, h2, h4⟩, j, hj => by
    simp only [List.tail_cons, List.map_cons, List.mem_cons] at hj
    rcases hj with rfl | hj
    · exact h2
    · exact Linked.active h4 j (by simpa using hj)

theorem starts_append (a b : List (Command ι)) : starts (a ++ b) = starts a ++ starts b := by
  induction a with
  | nil => rfl
  | cons c cs ih => cases c <;> simp [starts, ih]

theorem starts_draws (ds : List (Draw ι)) : starts (ds.map Command.draw) = [] := by
  induction ds with
  | nil => rfl
  | cons d ds ih => simpa [starts] using ih

/-- Holds after careful operations. -/
structure InvC (s : State ι) : Prop where
  linked : Linked s.objs s.blocks
  done : s.blocks ≠ [] → ∀ (k : ℕ) (l : LayerBuilder ι), s.objs[k]? = some l → l.finalized = true → ∃ c ∈ chain s.objs s.blocks, Complete l.id c
  pastes : PastesOK (chain s.objs s.blocks)
  names : ((chain s.objs s.blocks).flatMap starts).Nodup
  known : ∀ c ∈ chain s.objs s.blocks, ∀ id ∈ starts c, ∃ l ∈ s.objs, l.id = id
  empty : s.blocks ≠ [] ∨ s.objs = [] → s.commands = []
  outPastes : PastesComplete s.commands
  outNames : (starts s.commands).Nodup

/-- Adding commands to a layer builder. -/
theorem cmds_set {objs : List (LayerBuilder ι)} {r : ℕ} {l : LayerBuilder ι} (hl : objs[r]? = some l) (x : LayerBuilder ι)
    (k : ℕ) : cmds (objs.set r x) k = if r = k then x.commands else cmds objs k := by
  simp only [cmds, getElem?_set_some hl]
  by_cases h : r = k <;> simp [h]

theorem chain_set_not_mem {objs : List (LayerBuilder ι)} {r : ℕ} {l : LayerBuilder ι} (hl : objs[r]? = some l)
    (x : LayerBuilder ι) {bs : List (ℕ × Option ℕ)} (h : r ∉ bs.map Prod.fst) : chain (objs.set r x) bs = chain objs bs := by
  refine List.map_congr_left ?_
  intro b hb
  rw [cmds_set hl, if_neg]
  rintro rfl
  exact h (List.mem_map.2 ⟨b, hb, rfl⟩)

theorem chain_append {objs : List (LayerBuilder ι)} (x : List (LayerBuilder ι)) {bs : List (ℕ × Option ℕ)}
    (h : ∀ k ∈ bs.map Prod.fst, ∃ l, objs[k]? = some l) : chain (objs ++ x) bs = chain objs bs := by
  refine List.map_congr_left ?_
  intro b hb
  obtain ⟨l, hl⟩ := h b.1 (List.mem_map.2 ⟨b, hb, rfl⟩)
  simp only [cmds, List.getElem?_append_left (lt_of_some hl)]

theorem chain_same_commands {objs : List (LayerBuilder ι)} {r : ℕ} {l : LayerBuilder ι} (hl : objs[r]? = some l)
    (x : LayerBuilder ι) (hx : x.commands = l.commands) (bs : List (ℕ × Option ℕ)) :
    chain (objs.set r x) bs = chain objs bs := by
  refine List.map_congr_left ?_
  intro b _
  rw [cmds_set hl]
  split
  · rename_i h; subst h; simp [cmds, hl, hx]
  · rfl

theorem ids_set {objs : List (LayerBuilder ι)} {r : ℕ} {l x : LayerBuilder ι} (hl : objs[r]? = some l) (hx : x.id = l.id)
    {id : ι} (h : ∃ l ∈ objs, l.id = id) : ∃ l ∈ objs.set r x, l.id = id := by
  obtain ⟨y, hy, rfl⟩ := h
  obtain ⟨j, hj⟩ := List.mem_iff_getElem?.1 hy
  by_cases hrj : r = j
  · subst hrj
    rw [hl] at hj; cases hj
    exact ⟨x, List.mem_iff_getElem?.2 ⟨r, by rw [getElem?_set_some hl, if_pos rfl]⟩, hx⟩
  · exact ⟨y, List.mem_iff_getElem?.2 ⟨j, by rw [getElem?_set_some hl, if_neg hrj]; exact hj⟩, rfl⟩

/-- Adding shapes to any open layer. -/
theorem shapes_invC {s : State ι} (hb : InvB s) (h : InvC s) (r : ℕ) (ss : List Shape) :
    InvC (add r (ss.map fun x => .draw (.shape x)) s).1 := by
  unfold add
  split
  · exact h
  · rename_i l hl
    split
    · exact h
    · rename_i hf
      simp only [Bool.not_eq_true] at hf
      have hr := hb.unfinished r l hl hf
      have hbl : s.blocks ≠ [] := by
        intro h0; rw [h0] at hr; simp at hr
      set x : LayerBuilder ι := { l with commands := l.commands ++ ss.map fun x => .draw (.shape x) } with hx
      have hch : ∀ bs : List (ℕ × Option ℕ), List.Forall₂ ByShapes (chain s.objs bs) (chain (s.objs.set r x) bs) := by
        intro bs
        induction bs with
        | nil => exact .nil
        | cons b bs ih =>
          refine .cons ?_ ih
          show ByShapes (cmds s.objs b.1) (cmds (s.objs.set r x) b.1)
          rw [cmds_set hl]
          split
          · rename_i hrb
            exact ⟨ss, by simp [cmds, ← hrb, hl, hx]⟩
          · exact ⟨[], by simp⟩
      have hst : ∀ {a b : List (Command ι)}, ByShapes a b → starts b = starts a := by
        rintro a _ ⟨ss, rfl⟩
        have := starts_draws (ι := ι) (ss.map Draw.shape)
        rw [List.map_map] at this
        rw [starts_append]
        have h2 : starts (ss.map fun x => (Command.draw (Draw.shape x) : Command ι)) = [] := this
        rw [h2, List.append_nil]
      have hfl : ∀ {c d : List (List (Command ι))}, List.Forall₂ ByShapes c d → d.flatMap starts = c.flatMap starts := by
        intro c d hcd
        induction hcd with
        | nil => rfl
        | cons h1 _ ih => simp [List.flatMap_cons, hst h1, ih]
      refine ⟨?_, ?_, ?_, ?_, ?_, ?_, h.outPastes, h.outNames⟩
      · refine h.linked.congr ?_
        intro j _ l' hl' ha
        simp only [getElem?_set_some hl]
        split
        · rename_i hrj; subst hrj
          rw [hl] at hl'; cases hl'
          exact ⟨_, rfl, ha⟩
        · exact ⟨l', hl', ha⟩
      · intro _ k l' h1 h2
        simp only [getElem?_set_some hl] at h1
        split at h1
        · cases h1
          simp only [hx] at h2
          rw [hf] at h2; cases h2
        · obtain ⟨c, hc, hcc⟩ := h.done hbl k l' h1 h2
          obtain ⟨c', hc', ss', rfl⟩ := forall₂_left (hch s.blocks) hc
          exact ⟨_, hc', complete_append hcc _⟩
      · exact h.pastes.extend (hch s.blocks)
      · simp only [hfl (hch s.blocks)]; exact h.names
      · intro c hc id hid
        obtain ⟨c', hc', hby⟩ := forall₂_right (hch s.blocks) hc
        rw [hst hby] at hid
        exact ids_set hl (x := x) rfl (h.known c' hc' id hid)
      · intro _; exact h.empty (.inl hbl)

/-- Pasting on the innermost layer. -/
theorem paste_invC {s : State ι} (hb : InvB s) (h : InvC s) {r : ℕ} {src : LayerBuilder ι} {k : ℕ} (ctr : Vec ℝ) (neg : Bool)
    (hr : s.blocks.head?.map Prod.fst = some r) (hk : s.objs[k]? = some src) (hsrc : src.finalized = true) :
    InvC (add r [.draw (.paste src.id ctr neg)] s).1 := by
  unfold add
  split
  · exact h
  · rename_i l hl
    split
    · exact h
    · rename_i hf
      simp only [Bool.not_eq_true] at hf
      cases hbs : s.blocks with
      | nil => rw [hbs] at hr; cases hr
      | cons b bs =>
        have hbl : s.blocks ≠ [] := by rw [hbs]; simp
        rw [hbs] at hr
        simp only [List.head?_cons, Option.map_some, Option.some.injEq] at hr
        subst hr
        have hnd := hb.nodup
        rw [hbs] at hnd
        simp only [List.map_cons, List.nodup_cons] at hnd
        set x : LayerBuilder ι := { l with commands := l.commands ++ [.draw (.paste src.id ctr neg)] } with hx
        have hch : chain (s.objs.set b.1 x) (b :: bs) = x.commands :: chain s.objs bs := by
          rw [chain, List.map_cons, cmds_set hl, if_pos rfl]
          exact congrArg _ (chain_set_not_mem hl x hnd.1)
        have hch0 : chain s.objs (b :: bs) = l.commands :: chain s.objs bs := by
          simp [chain, cmds, hl]
        have hdone := h.done hbl
        have hpast := h.pastes
        have hnames := h.names
        have hknown := h.known
        rw [hbs, hch0] at hdone hpast hnames hknown
        have hsx : starts x.commands = starts l.commands := by simp [hx, starts_append, starts]
        refine ⟨?_, ?_, ?_, ?_, ?_, ?_, h.outPastes, h.outNames⟩
        · have hlink := h.linked
          rw [hbs] at hlink
          refine hlink.congr ?_
          intro j _ l' hl' ha
          simp only [getElem?_set_some hl]
          split
          · rename_i hrj; rw [← hrj, hl] at hl'; cases hl'
            exact ⟨_, rfl, ha⟩
          · exact ⟨l', hl', ha⟩
        · simp only [hch]
          intro _ k l' h1 h2
          simp only [getElem?_set_some hl] at h1
          split at h1
          · cases h1
            simp only [hx] at h2
            rw [hf] at h2; cases h2
          · obtain ⟨c, hc, hcc⟩ := hdone k l' h1 h2
            rcases List.mem_cons.1 hc with rfl | hc
            · exact ⟨_, List.mem_cons_self .., complete_append hcc _⟩
            · exact ⟨c, List.mem_cons_of_mem _ hc, hcc⟩
        · simp only [hch]
          refine ⟨?_, hpast.2⟩
          intro pre src' ctr' neg' post he
          rcases List.eq_nil_or_concat post with rfl | ⟨post', z, rfl⟩
          · have : x.commands = l.commands ++ [.draw (.paste src.id ctr neg)] := rfl
            rw [this] at he
            obtain ⟨h1, h2⟩ := List.append_inj' he rfl
            cases h2
            subst h1
            obtain ⟨c, hc, hcc⟩ := hdone k src hk hsrc
            rcases List.mem_cons.1 hc with rfl | hc
            · exact .inl hcc
            · exact .inr ⟨c, hc, hcc⟩
          · have : x.commands = l.commands ++ [.draw (.paste src.id ctr neg)] := rfl
            rw [this] at he
            have he' : l.commands ++ [.draw (.paste src.id ctr neg)] = (pre ++ .draw (.paste src' ctr' neg') :: post') ++ [z] := by
              rw [he]; simp
            obtain ⟨h1, -⟩ := List.append_inj' he' rfl
            exact hpast.1 pre src' ctr' neg' post' h1
        · simp only [hch, List.flatMap_cons, hsx]
          simpa [List.flatMap_cons] using hnames
        · simp only [hch]
          intro c hc id hid
          rcases List.mem_cons.1 hc with rfl | hc
          · rw [hsx] at hid
            exact ids_set hl (x := x) rfl (hknown _ (List.mem_cons_self ..) id hid)
          · exact ids_set hl (x := x) rfl (hknown c (List.mem_cons_of_mem _ hc) id hid)
        · intro _; exact h.empty (.inl hbl)

theorem step_invC {main : ι} {s : State ι} (hb : InvB s) (h : InvC s) {op : Op ι} (hc : CarefulStep s op) :
    InvC (step main op s).1 := by
  cases op with
  | enterMain box origin =>
    simp only [step, enterMain]
    split
    · exact h
    · have ho : s.objs = [] := hc
      have hbs : s.blocks = [] := by
        cases hbl : s.blocks with
        | nil => rfl
        | cons b bs =>
          obtain ⟨l, hl, -⟩ := hb.open_ b.1 (by rw [hbl]; simp)
          rw [ho] at hl; simp at hl
      have hcm := h.empty (.inr ho)
      simp only [hbs, ho]
      have hch : chain [LayerBuilder.new main box origin] [(0, none)] = [[.start main box origin]] := rfl
      refine ⟨rfl, ?_, ?_, ?_, ?_, fun _ => hcm, h.outPastes, h.outNames⟩
      · intro _ k l h1 h2
        have hk := lt_of_some h1
        simp at hk
        subst hk
        simp [LayerBuilder.new] at h1
        subst h1; cases h2
      · refine ⟨?_, trivial⟩
        intro pre src ctr neg post he
        have : (.draw (.paste src ctr neg) : Command ι) ∈ ([.start main box origin] : List (Command ι)) := by
          have : cmds [LayerBuilder.new main box origin] 0 = [.start main box origin] := rfl
          rw [← this]
          have he' : cmds [LayerBuilder.new main box origin] 0 = pre ++ .draw (.paste src ctr neg) :: post := he
          rw [he']; simp
        simp at this
      · simp [chain, cmds, LayerBuilder.new, starts]
      · intro c hcc id hid
        simp [chain, cmds, LayerBuilder.new] at hcc
        subst hcc
        simp [starts] at hid
        exact ⟨_, List.mem_singleton.2 rfl, hid.symm⟩
  | enter r id box origin =>
    simp only [step, enter]
    split
    · exact h
    · rename_i lr hr
      split
      · exact h
      · rename_i hact
        split
        · exact h
        · rename_i hf
          simp only [Bool.not_eq_true] at hf hact
          have hrb := hb.unfinished r lr hr hf
          cases hbs : s.blocks with
          | nil => rw [hbs] at hrb; simp at hrb
          | cons b bs =>
            have hbl : s.blocks ≠ [] := by rw [hbs]; simp
            have hrtop : b.1 = r := by
              rw [hbs] at hrb
              simp only [List.map_cons, List.mem_cons] at hrb
              rcases hrb with h1 | h1
              · exact h1.symm
              · obtain ⟨l', hl', ha⟩ := h.linked.active r (by rw [hbs]; exact h1)
                rw [hr] at hl'; cases hl'
                rw [hact] at ha; cases ha
            set x : LayerBuilder ι := { lr with active := some id } with hx
            have hlen : (s.objs.set r x).length = s.objs.length := by simp
            have hch : chain (s.objs.set r x ++ [LayerBuilder.new id box origin]) (b :: bs) = chain s.objs (b :: bs) := by
              rw [chain_append, chain_same_commands hr x rfl]
              intro k hk
              obtain ⟨l, hl, -⟩ := hb.open_ k (by rw [hbs]; exact hk)
              rw [getElem?_set_some hr]
              split
              · exact ⟨_, rfl⟩
              · exact ⟨l, hl⟩
            have hch' : chain (s.objs.set r x ++ [LayerBuilder.new id box origin]) ((s.objs.length, some r) :: b :: bs) =
                [.start id box origin] :: chain s.objs (b :: bs) := by
              have : chain (s.objs.set r x ++ [LayerBuilder.new id box origin]) ((s.objs.length, some r) :: b :: bs) =
                cmds (s.objs.set r x ++ [LayerBuilder.new id box origin]) s.objs.length ::
                  chain (s.objs.set r x ++ [LayerBuilder.new id box origin]) (b :: bs) := rfl
              rw [this, hch]
              congr 1
              simp only [cmds]
              rw [List.getElem?_append_right (by simp)]
              simp [LayerBuilder.new]
            have hids : ∀ {id' : ι}, (∃ l ∈ s.objs, l.id = id') →
                ∃ l ∈ s.objs.set r x ++ [LayerBuilder.new id box origin], l.id = id' := by
              intro id' hid'
              obtain ⟨l, h1, h2⟩ := ids_set hr (x := x) rfl hid'
              exact ⟨l, List.mem_append_left _ h1, h2⟩
            have hdone := h.done hbl
            have hpast := h.pastes
            have hnames := h.names
            have hknown := h.known
            have hlink := h.linked
            rw [hbs] at hdone hpast hnames hknown hlink
            refine ⟨?_, ?_, ?_, ?_, ?_, fun _ => h.empty (.inl hbl), h.outPastes, h.outNames⟩
            · have hlk : Linked (s.objs.set r x ++ [LayerBuilder.new id box origin]) (b :: bs) := by
                refine hlink.congr ?_
                intro j hj l' hl' ha
                have : r ≠ j := by
                  rintro rfl
                  rw [hr] at hl'; cases hl'
                  rw [hact] at ha; cases ha
                rw [List.getElem?_append_left (by rw [hlen]; exact lt_of_some hl'), getElem?_set_some hr, if_neg this]
                exact ⟨l', hl', ha⟩
              obtain ⟨b1, b2⟩ := b
              simp only at hrtop
              subst hrtop
              refine ⟨rfl, ⟨x, ?_, rfl⟩, hlk⟩
              rw [List.getElem?_append_left (by rw [hlen]; exact lt_of_some hr), getElem?_set_some hr, if_pos rfl]
            · simp only [hch']
              intro _ k l' h1 h2
              by_cases hk : k < s.objs.length
              · rw [List.getElem?_append_left (by rw [hlen]; exact hk), getElem?_set_some hr] at h1
                split at h1
                · cases h1
                  simp only [hx] at h2
                  rw [hf] at h2; cases h2
                · obtain ⟨c, hc1, hc2⟩ := hdone k l' h1 h2
                  exact ⟨c, List.mem_cons_of_mem _ hc1, hc2⟩
              · have := lt_of_some h1
                simp at this
                have : k = s.objs.length := by omega
                subst this
                rw [List.getElem?_append_right (by simp)] at h1
                simp [LayerBuilder.new] at h1
                subst h1; cases h2
            · simp only [hch']
              refine ⟨?_, hpast⟩
              intro pre src ctr neg post he
              have : (.draw (.paste src ctr neg) : Command ι) ∈ ([.start id box origin] : List (Command ι)) := by
                rw [he]; simp
              simp at this
            · simp only [hch', List.flatMap_cons, starts, List.cons_append, List.nil_append, List.nodup_cons]
              refine ⟨?_, hnames⟩
              intro hm
              obtain ⟨c, hc1, hc2⟩ := List.mem_flatMap.1 hm
              obtain ⟨l, hl1, hl2⟩ := hknown c hc1 id hc2
              exact hc l hl1 hl2
            · simp only [hch']
              intro c hcc id' hid'
              rcases List.mem_cons.1 hcc with rfl | hcc
              · simp [starts] at hid'
                exact ⟨LayerBuilder.new id box origin, by simp, hid'.symm⟩
              · exact hids (hknown c hcc id' hid')
  | exit =>
    simp only [step, exit]
    split
    · exact h
    · rename_i k parent blocks hbs
      split
      · exact h
      · rename_i l hl
        have hbl : s.blocks ≠ [] := by rw [hbs]; simp
        have hnd := hb.nodup
        rw [hbs] at hnd
        simp only [List.map_cons, List.nodup_cons] at hnd
        obtain ⟨l0, hl0, hf, bx, o, ns, hcm⟩ := hb.open_ k (by rw [hbs]; simp)
        rw [hl] at hl0; cases hl0
        have hlay : l.finalize.commands = (Node.layer l.id bx o ns).commands := by
          simp [LayerBuilder.finalize, hcm, Node.commands]
        have hlc : l.finalize.commands = l.commands ++ [.stop] := rfl
        have hdone := h.done hbl
        have hpast := h.pastes
        have hnames := h.names
        have hknown := h.known
        have hlink := h.linked
        have hempty := h.empty (.inl hbl)
        rw [hbs] at hdone hpast hnames hknown hlink
        have hch0 : chain s.objs ((k, parent) :: blocks) = l.commands :: chain s.objs blocks := by
          simp [chain, cmds, hl]
        rw [hch0] at hdone hpast hnames hknown
        have hobj : s.objs.set k l.finalize ≠ [] := by
          have := lt_of_some hl
          intro h0
          have := congrArg List.length h0
          simp at this
          rw [this] at hl
          simp at hl
        cases blocks with
        | nil =>
          simp only [Linked] at hlink
          subst hlink
          simp only
          split
          · refine ⟨trivial, ?_, trivial, ?_, ?_, fun _ => hempty, h.outPastes, h.outNames⟩
            · intro hh; exact absurd rfl hh
            · simp [chain]
            · simp [chain]
          · refine ⟨trivial, ?_, trivial, ?_, ?_, ?_, ?_, ?_⟩
            · intro hh; exact absurd rfl hh
            · simp [chain]
            · simp [chain]
            · rintro (hh | hh)
              · exact absurd rfl hh
              · exact absurd hh hobj
            · simp only [hempty, List.nil_append, hlc]
              intro pre src ctr neg post he
              obtain ⟨post', he'⟩ := split_left he (by simp)
              rcases hpast.1 pre src ctr neg post' he' with h1 | ⟨c, hc1, -⟩
              · exact h1
              · simp [chain] at hc1
            · simp only [hempty, List.nil_append, hlc, starts_append]
              simpa [starts, chain] using hnames
        | cons b2 bs =>
          obtain ⟨k2, p2⟩ := b2
          obtain ⟨hp, -, hlink2⟩ := hlink
          subst hp
          simp only
          split
          · exact h
          · rename_i p hp
            have hkk : k ≠ k2 := by
              rintro rfl
              exact hnd.1 (by simp)
            rw [getElem?_set_some hl, if_neg hkk] at hp
            set x : LayerBuilder ι := { p with commands := p.commands ++ l.finalize.commands, active := none } with hx
            have hp' : (s.objs.set k l.finalize)[k2]? = some p := by rw [getElem?_set_some hl, if_neg hkk]; exact hp
            have hk2 : k2 ∉ bs.map Prod.fst := by
              have := hnd.2
              simp only [List.map_cons, List.nodup_cons] at this
              exact this.1
            have hkbs : k ∉ bs.map Prod.fst := fun hh => hnd.1 (List.mem_cons_of_mem _ hh)
            have hch : chain ((s.objs.set k l.finalize).set k2 x) ((k2, p2) :: bs) =
                (p.commands ++ l.commands ++ [.stop]) :: chain s.objs bs := by
              have h1 : chain ((s.objs.set k l.finalize).set k2 x) ((k2, p2) :: bs) =
                  cmds ((s.objs.set k l.finalize).set k2 x) k2 :: chain ((s.objs.set k l.finalize).set k2 x) bs := rfl
              rw [h1, chain_set_not_mem hp' x hk2, chain_set_not_mem hl _ hkbs, cmds_set hp', if_pos rfl]
              simp [hx, hlc]
            have hch2 : chain s.objs ((k2, p2) :: bs) = p.commands :: chain s.objs bs := by simp [chain, cmds, hp]
            rw [hch2] at hdone hpast hnames hknown
            have hids : ∀ {id' : ι}, (∃ l ∈ s.objs, l.id = id') →
                ∃ l' ∈ (s.objs.set k l.finalize).set k2 x, l'.id = id' := by
              intro id' hid'
              exact ids_set hp' (x := x) rfl (ids_set hl (x := l.finalize) rfl hid')
            refine ⟨?_, ?_, ?_, ?_, ?_, fun _ => hempty, h.outPastes, h.outNames⟩
            · refine hlink2.congr ?_
              intro j hj l' hl' ha
              simp only [List.tail_cons] at hj
              have h1 : k2 ≠ j := by rintro rfl; exact hk2 hj
              have h2 : k ≠ j := by rintro rfl; exact hkbs hj
              rw [getElem?_set_some hp', if_neg h1, getElem?_set_some hl, if_neg h2]
              exact ⟨l', hl', ha⟩
            · simp only [hch]
              intro _ j l' h1 h2
              rw [getElem?_set_some hp'] at h1
              have hold : ∀ {id' : ι}, (∃ c ∈ l.commands :: p.commands :: chain s.objs bs, Complete id' c) →
                  ∃ c ∈ (p.commands ++ l.commands ++ [.stop]) :: chain s.objs bs, Complete id' c := by
                rintro id' ⟨c, hc1, hc2⟩
                rcases List.mem_cons.1 hc1 with rfl | hc1
                · exact ⟨_, List.mem_cons_self .., complete_append (complete_prepend hc2 _) _⟩
                · rcases List.mem_cons.1 hc1 with rfl | hc1
                  · exact ⟨_, List.mem_cons_self .., by rw [List.append_assoc]; exact complete_append hc2 _⟩
                  · exact ⟨c, List.mem_cons_of_mem _ hc1, hc2⟩
              split at h1
              · rename_i hj
                cases h1
                have : p.finalized = true := h2
                exact hold (hdone k2 p hp this)
              · rw [getElem?_set_some hl] at h1
                split at h1
                · cases h1
                  refine ⟨_, List.mem_cons_self .., ?_⟩
                  rw [List.append_assoc, ← hlc, hlay]
                  exact ⟨p.commands, bx, o, ns, [], by simp [LayerBuilder.finalize]⟩
                · exact hold (hdone j l' h1 h2)
            · simp only [hch]
              refine ⟨?_, hpast.2.2⟩
              intro pre src ctr neg post he
              obtain ⟨post', he'⟩ := split_left he (by simp)
              rcases List.append_eq_append_iff.1 he' with ⟨y, h1, h2⟩ | ⟨y, h1, h2⟩
              · rw [h1]
                rcases hpast.1 y src ctr neg post' h2 with h3 | ⟨c, hc1, hc2⟩
                · exact .inl (complete_prepend h3 _)
                · rcases List.mem_cons.1 hc1 with rfl | hc1
                  · exact .inl (complete_append hc2 _)
                  · exact .inr ⟨c, hc1, hc2⟩
              · cases y with
                | nil =>
                  simp at h1 h2
                  rw [← h1]
                  rcases hpast.1 [] src ctr neg post' (by rw [← h2]; rfl) with h3 | ⟨c, hc1, hc2⟩
                  · exact .inl (by simpa using complete_prepend h3 p.commands)
                  · rcases List.mem_cons.1 hc1 with rfl | hc1
                    · exact .inl hc2
                    · exact .inr ⟨c, hc1, hc2⟩
                | cons z zs =>
                  simp at h2
                  rw [← h2.1] at h1
                  exact hpast.2.1 pre src ctr neg zs h1
            · simp only [hch, List.flatMap_cons, starts_append]
              simp only [List.flatMap_cons] at hnames
              have : List.Perm (starts p.commands ++ starts l.commands ++ starts [(.stop : Command ι)] ++
                  (chain s.objs bs).flatMap starts)
                  (starts l.commands ++ (starts p.commands ++ (chain s.objs bs).flatMap starts)) := by
                simp only [starts, List.append_nil, ← List.append_assoc]
                exact List.Perm.append_right _ List.perm_append_comm
              exact this.nodup_iff.2 hnames
            · simp only [hch]
              intro c hc1 id hid
              rcases List.mem_cons.1 hc1 with rfl | hc1
              · simp only [starts_append, starts, List.append_nil, List.mem_append] at hid
                rcases hid with hid | hid
                · exact hids (hknown p.commands (by simp) id hid)
                · exact hids (hknown l.commands (by simp) id hid)
              · exact hids (hknown c (by simp [hc1]) id hid)
  | shapes r ss => exact shapes_invC hb h r ss
  | paste r src ctr neg =>
    simp only [step]
    split
    · exact h
    · rename_i l hl
      exact paste_invC hb h ctr neg hc.1 hl (hc.2 l hl)
  | getRvmc => exact ⟨h.linked, h.done, h.pastes, h.names, h.known, h.empty, h.outPastes, h.outNames⟩

theorem init_invC : InvC (State.init : State ι) := by
  refine ⟨trivial, ?_, trivial, by simp [State.init, chain], by simp [State.init, chain], fun _ => rfl, ?_, List.nodup_nil⟩
  · intro hh; exact absurd rfl hh
  · intro pre src ctr neg post he
    have : (.draw (.paste src ctr neg) : Command ι) ∈ (State.init : State ι).commands := by rw [he]; simp
    simp [State.init] at this

theorem steps_invC {main : ι} (ops : List (Op ι)) {s : State ι} (hb : InvB s) (h : InvC s) (hc : Careful main ops s) :
    InvB (steps main ops s) ∧ InvC (steps main ops s) := by
  induction ops generalizing s with
  | nil => exact ⟨hb, h⟩
  | cons op ops ih => exact ih (step_invB hb op) (step_invC hb h hc.1) hc.2

end Verif.RvmcBuilder
