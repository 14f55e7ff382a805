import Verif.Lemmas.RvmcBuilder
import Verif.Spec.Render

/-!
# Structured programs whose layers are complete when they are pasted
-/

namespace Verif.Sketch
open Verif.Rvmc Verif.Geom Verif.Vm Verif.Spec
noncomputable section
variable {ι : Type}

mutual
/-- The layers of a node. -/
def ids : Node ι → List ι
  | .draw _ => []
  | .layer id _ _ body => id :: idsAll body
/-- The layers of nodes. -/
def idsAll : List (Node ι) → List ι
  | [] => []
  | n :: ns => ids n ++ idsAll ns
end

mutual
/-- Layers that are pasted are complete, the layers `D` being complete before. -/
def Ready (D : ι → Prop) : Node ι → Prop
  | .draw (.shape _) => True
  | .draw (.paste src _ _) => D src
  | .layer _ _ _ body => ReadyAll D body
/-- The same for nodes. -/
def ReadyAll (D : ι → Prop) : List (Node ι) → Prop
  | [] => True
  | n :: ns => Ready D n ∧ ReadyAll (fun k => D k ∨ k ∈ ids n) ns
end

/-- The object that a command draws, `Good` being what is known of the origins and the objects of the layers. -/
def Match (outline : Shape → Except VErr (Set (Vec ℝ))) (Good : ι → Vec ℝ × List (Painted (Vec ℝ)) → Prop) : Draw ι → Painted (Vec ℝ) → Prop
  | .shape s, o => ∃ points, outline s = .ok points ∧ o = ⟨!s.negative, points⟩
  | .paste src c neg, o => ∃ x, Good src x ∧ o = ⟨!neg, {p | Covered x.2 (p - c + x.1)}⟩

/-- The outlines of shapes can be found. -/
def Outlined (outline : Shape → Except VErr (Set (Vec ℝ))) (ds : List (Draw ι)) : Prop :=
  ∀ s, Draw.shape s ∈ ds → ∃ points, outline s = .ok points

mutual
/-- What is known of the layers of a node follows from what is known of those that they paste. -/
def Filled (outline : Shape → Except VErr (Set (Vec ℝ))) (Good : ι → Vec ℝ × List (Painted (Vec ℝ)) → Prop) : Node ι → Prop
  | .draw _ => True
  | .layer id _ o body => (∀ os, List.Forall₂ (Match outline Good) (Node.draws body) os → Good id (o, os)) ∧
      Outlined outline (Node.draws body) ∧ FilledAll outline Good body
/-- The same for nodes. -/
def FilledAll (outline : Shape → Except VErr (Set (Vec ℝ))) (Good : ι → Vec ℝ × List (Painted (Vec ℝ)) → Prop) : List (Node ι) → Prop
  | [] => True
  | n :: ns => Filled outline Good n ∧ FilledAll outline Good ns
end

theorem forall₂_append_left {α β : Type} {R : α → β → Prop} : ∀ {a b : List α} {os : List β}, List.Forall₂ R (a ++ b) os →
    ∃ os1 os2, List.Forall₂ R a os1 ∧ List.Forall₂ R b os2 ∧ os = os1 ++ os2
  | [], _, os, h => ⟨[], os, .nil, h, rfl⟩
  | _ :: _, _, _, .cons h1 h2 => by
    obtain ⟨o1, o2, k1, k2, rfl⟩ := forall₂_append_left h2
    exact ⟨_ :: o1, o2, .cons h1 k1, k2, rfl⟩

theorem idsAll_append (a b : List (Node ι)) : idsAll (a ++ b) = idsAll a ++ idsAll b := by
  induction a with
  | nil => rfl
  | cons n ns ih => simp [idsAll, ih]

mutual
theorem Ready.mono {D E : ι → Prop} (h : ∀ k, D k → E k) : ∀ n : Node ι, Ready D n → Ready E n
  | .draw (.shape _), _ => trivial
  | .draw (.paste src _ _), hd => h src hd
  | .layer _ _ _ body, hb => ReadyAll.mono h body hb
theorem ReadyAll.mono {D E : ι → Prop} (h : ∀ k, D k → E k) : ∀ ns : List (Node ι), ReadyAll D ns → ReadyAll E ns
  | [], _ => trivial
  | n :: ns, hn => ⟨Ready.mono h n hn.1, ReadyAll.mono (fun k hk => hk.imp (h k) id) ns hn.2⟩
end

theorem readyAll_append : ∀ (a b : List (Node ι)) (D : ι → Prop), ReadyAll D (a ++ b) ↔
    ReadyAll D a ∧ ReadyAll (fun k => D k ∨ k ∈ idsAll a) b
  | [], b, D => by simp [ReadyAll, idsAll]
  | n :: ns, b, D => by
    simp only [List.cons_append, ReadyAll, idsAll, List.mem_append, and_assoc]
    rw [readyAll_append ns b]
    simp only [or_assoc]

theorem drawnAll_append (a b : List (Node ι)) : Node.DrawnAll (a ++ b) ↔ Node.DrawnAll a ∧ Node.DrawnAll b := by
  induction a with
  | nil => simp [Node.DrawnAll]
  | cons n ns ih => simp [Node.DrawnAll, ih, and_assoc]

theorem ready_sources : ∀ (ns : List (Node ι)) (D : ι → Prop), ReadyAll D ns → ∀ src c neg, Draw.paste src c neg ∈ Node.draws ns →
    D src ∨ src ∈ idsAll ns
  | [], _, _, _, _, _, h => by simp [Node.draws] at h
  | .draw (.shape s) :: ns, D, hr, src, c, neg, h => by
    simp only [Node.draws, List.mem_cons, reduceCtorEq, false_or] at h
    rcases ready_sources ns _ hr.2 src c neg h with (h | h) | h
    · exact .inl h
    · cases h
    · exact .inr (by simp [idsAll, h])
  | .draw (.paste src' c' neg') :: ns, D, hr, src, c, neg, h => by
    simp only [Node.draws, List.mem_cons, Draw.paste.injEq] at h
    rcases h with ⟨rfl, -, -⟩ | h
    · exact .inl hr.1
    · rcases ready_sources ns _ hr.2 src c neg h with (h | h) | h
      · exact .inl h
      · cases h
      · exact .inr (by simp [idsAll, h])
  | .layer id b o body :: ns, D, hr, src, c, neg, h => by
    simp only [Node.draws] at h
    rcases ready_sources ns _ hr.2 src c neg h with (h | h) | h
    · exact .inl h
    · exact .inr (by simp [idsAll, h])
    · exact .inr (by simp [idsAll, h])

variable [DecidableEq ι] {outline : Shape → Except VErr (Set (Vec ℝ))} {Good : ι → Vec ℝ × List (Painted (Vec ℝ)) → Prop}

/-- The layer has what it should have. -/
def Has (Good : ι → Vec ℝ × List (Painted (Vec ℝ)) → Prop) (V : Store ι (List (Painted (Vec ℝ)))) (k : ι) : Prop :=
  ∃ b x, Good k x ∧ V k = some (some ⟨x.1, b, x.2⟩)

theorem execute_match {id : ι} {V : Store ι (List (Painted (Vec ℝ)))} {d : Draw ι} {e : Eager (List (Painted (Vec ℝ)))}
    (hv : V id = some (some e)) (ho : Outlined outline [d]) (hs : ∀ src c neg, d = .paste src c neg → Has Good V src) :
    ∃ o, Match outline Good d o ∧
      execute (painting outline) id V d = .ok (Function.update V id (some (some { e with content := e.content ++ [o] }))) := by
  cases d with
  | shape s =>
    obtain ⟨pts, h1⟩ := ho s (by simp)
    exact ⟨_, ⟨pts, h1, rfl⟩, by simp [execute, hv, painting, h1]⟩
  | paste src c neg =>
    obtain ⟨b, x, hx, hb⟩ := hs src c neg rfl
    exact ⟨_, ⟨x, hx, rfl⟩, by simp [execute, hv, hb, painting]⟩

theorem executeAll_match {id : ι} : ∀ (ds : List (Draw ι)) (V : Store ι (List (Painted (Vec ℝ))))
    (e : Eager (List (Painted (Vec ℝ)))), V id = some (some e) → Outlined outline ds →
    (∀ src c neg, Draw.paste src c neg ∈ ds → src ≠ id ∧ Has Good V src) →
    ∃ os, List.Forall₂ (Match outline Good) ds os ∧
      executeAll (painting outline) id ds V = .ok (Function.update V id (some (some { e with content := e.content ++ os })))
  | [], V, e, hv, _, _ => by
    refine ⟨[], .nil, ?_⟩
    simp only [executeAll, List.append_nil]
    congr 1
    funext k
    by_cases h : k = id
    · subst h; simp [hv]
    · simp [Function.update, h]
  | d :: ds, V, e, hv, ho, hs => by
    simp only [executeAll]
    obtain ⟨o, h1, h2⟩ := execute_match (Good := Good) (d := d) hv (fun s h => ho s (by simp at h; simp [h])) (fun src c neg hd => (hs src c neg (by simp [hd])).2)
    rw [h2]
    simp only [bind, Except.bind]
    obtain ⟨os, h3, h4⟩ := executeAll_match ds (Function.update V id (some (some { e with content := e.content ++ [o] })))
      { e with content := e.content ++ [o] } (Function.update_self ..) (fun s h => ho s (List.mem_cons_of_mem _ h)) (fun src c neg hd => by
        obtain ⟨hne, b, x, hx, hb⟩ := hs src c neg (by simp [hd])
        exact ⟨hne, b, x, hx, by simp [hne, hb]⟩)
    refine ⟨o :: os, .cons h1 h3, ?_⟩
    rw [h4]
    simp

omit [DecidableEq ι] in
theorem drawBox_has {V : Store ι (List (Painted (Vec ℝ)))} {d : Draw ι} (hs : ∀ src c neg, d = .paste src c neg → Has Good V src) :
    ∃ b, drawBox V d = .ok b := by
  cases d with
  | shape s => exact ⟨_, rfl⟩
  | paste src c neg =>
    obtain ⟨b, x, hx, hb⟩ := hs src c neg rfl
    simp [drawBox, hb]

omit [DecidableEq ι] in
theorem drawBoxes_has {V : Store ι (List (Painted (Vec ℝ)))} : ∀ (ds : List (Draw ι)) (b : Box ℝ),
    (∀ src c neg, Draw.paste src c neg ∈ ds → Has Good V src) → ∃ b', drawBoxes V b ds = .ok b'
  | [], b, _ => ⟨b, rfl⟩
  | d :: ds, b, hs => by
    obtain ⟨b1, h1⟩ := drawBox_has (d := d) (fun src c neg hd => hs src c neg (by simp [hd]))
    simp only [drawBoxes, h1, bind, Except.bind]
    exact drawBoxes_has ds _ (fun src c neg hd => hs src c neg (by simp [hd]))

mutual
theorem eval_node : ∀ (n : Node ι) (D : ι → Prop) (V : Store ι (List (Painted (Vec ℝ)))) (now : Option ι), Ready D n → (ids n).Nodup →
    (∀ k ∈ ids n, V k = none) → (∀ k, D k → Has Good V k) → Filled outline Good n → n.Drawn →
    (∀ id, now = some id → (∃ e, V id = some (some e)) ∧ ¬ D id) → Outlined outline (Node.draws [n]) →
    ∃ V', n.eval (painting outline) now V = .ok V' ∧ (∀ k ∈ ids n, Has Good V' k) ∧
      (∀ k, k ∉ ids n → now ≠ some k → V' k = V k) ∧
      ∀ id e, now = some id → V id = some (some e) → ∃ os, List.Forall₂ (Match outline Good) (Node.draws [n]) os ∧
        V' id = some (some { e with content := e.content ++ os })
  | .draw d, D, V, now, hr, _, _, hD, _, _, hnow, hm => by
    simp only [Node.draws] at hm ⊢
    cases now with
    | none => exact ⟨V, rfl, by simp [ids], fun _ _ _ => rfl, nofun⟩
    | some id =>
      obtain ⟨⟨e, he⟩, hid⟩ := hnow id rfl
      obtain ⟨o, ho, hx⟩ := execute_match (Good := Good) he hm (by
        rintro src c neg rfl
        exact hD src hr)
      refine ⟨_, hx, by simp [ids], ?_, ?_⟩
      · intro k _ hk
        have : k ≠ id := fun h => hk (by rw [h])
        simp [this]
      · rintro id' e' h1 h2
        cases h1
        rw [he] at h2; cases h2
        exact ⟨[o], .cons ho .nil, by simp⟩
  | .layer id box o body, D, V, now, hr, hn, hnone, hD, hf, hd, hnow, _ => by
    simp only [Node.draws]
    simp only [ids, List.nodup_cons] at hn
    obtain ⟨hn1, hn2⟩ := hn
    obtain ⟨ho, hc, hfb⟩ := hf
    have hid : V id = none := hnone id (by simp [ids])
    have hDid : ¬ D id := fun h => by
      obtain ⟨b, _, _, hb⟩ := hD id h
      rw [hid] at hb; cases hb
    have hnowid : now ≠ some id := fun h => by
      obtain ⟨⟨e, he⟩, -⟩ := hnow id h
      rw [hid] at he; cases he
    have hnone' : ∀ x, ∀ k ∈ idsAll body, Function.update V id x k = none := by
      intro x k hk
      have : k ≠ id := fun h => hn1 (h ▸ hk)
      simp only [Function.update, this, dite_false]
      exact hnone k (by simp [ids, hk])
    have hD' : ∀ x, ∀ k, D k → Has Good (Function.update V id x) k := by
      intro x k hk
      have : k ≠ id := fun h => hDid (h ▸ hk)
      obtain ⟨b, x, hx, hb⟩ := hD k hk
      exact ⟨b, x, hx, by simp [this, hb]⟩
    have hlast : ∀ V' : Store ι (List (Painted (Vec ℝ))), (∀ k, k ∉ ids (.layer id box o body) → now ≠ some k → V' k = V k) →
        (∀ k, k ∉ ids (.layer id box o body) → V' k = V k) → ∀ id' e, now = some id' → V id' = some (some e) →
        ∃ os, List.Forall₂ (Match outline Good) [] os ∧ V' id' = some (some { e with content := e.content ++ os }) := by
      intro V' _ h id' e _ h2
      refine ⟨[], .nil, ?_⟩
      rw [h id' (fun hk => by rw [hnone id' hk] at h2; cases h2), h2]
      simp
    cases box with
    | some b =>
      obtain ⟨V', h1, h2, h3, h4⟩ := eval_nodes body D (Function.update V id (some (some ⟨o, b, []⟩))) (some id) hr hn2 (hnone' _)
        (hD' _) hfb hd.2 (by rintro _ ⟨⟩; exact ⟨⟨⟨o, b, []⟩, by simp⟩, hDid⟩) hc
      have hout : ∀ k, k ∉ ids (.layer id (some b) o body) → V' k = V k := by
        intro k hk
        simp only [ids, List.mem_cons, not_or] at hk
        rw [h3 k hk.2 (by simp [Ne.symm hk.1])]
        simp [hk.1]
      refine ⟨V', ?_, ?_, fun k hk _ => hout k hk, hlast V' (fun k hk _ => hout k hk) hout⟩
      · simp only [Node.eval, hid, painting, bind, Except.bind]
        exact h1
      · intro k hk
        simp only [ids, List.mem_cons] at hk
        rcases hk with rfl | hk
        · obtain ⟨os, hos, hv⟩ := h4 k ⟨o, b, []⟩ rfl (by simp)
          exact ⟨b, (o, os), ho os hos, by rw [hv]; simp⟩
        · exact h2 k hk
    | none =>
      obtain ⟨V', h1, h2, h3, -⟩ := eval_nodes body D (Function.update V id (some none)) none hr hn2 (hnone' _)
        (hD' _) hfb hd.2 nofun hc
      have hsrc : ∀ x src c neg, Draw.paste src c neg ∈ Node.draws body → src ≠ id ∧ Has Good (Function.update V' id x) src := by
        intro x src c neg hp
        have hne : src ≠ id ∧ Has Good V' src := by
          rcases ready_sources body D hr src c neg hp with h | h
          · have : src ≠ id := fun he => hDid (he ▸ h)
            refine ⟨this, ?_⟩
            by_cases hb : src ∈ idsAll body
            · exact h2 src hb
            · obtain ⟨b, x, hx, hb'⟩ := hD src h
              exact ⟨b, x, hx, by rw [h3 src hb nofun]; simp [this, hb']⟩
          · exact ⟨fun he => hn1 (he ▸ h), h2 src h⟩
        obtain ⟨hne, b, x, hx, hb⟩ := hne
        exact ⟨hne, b, x, hx, by simp [hne, hb]⟩
      have hsrc' : ∀ src c neg, Draw.paste src c neg ∈ Node.draws body → Has Good V' src := by
        intro src c neg hp
        obtain ⟨hne, b, x, hx, hb⟩ := hsrc none src c neg hp
        exact ⟨b, x, hx, by simpa [hne] using hb⟩
      have hdr := hd.1 rfl
      cases hds : Node.draws body with
      | nil => exact absurd hds hdr
      | cons d ds =>
        rw [hds] at hc hsrc hsrc' ho
        obtain ⟨b1, hb1⟩ := drawBox_has (V := V') (d := d) (fun src c neg h => hsrc' src c neg (by simp [h]))
        obtain ⟨b2, hb2⟩ := drawBoxes_has (V := V') ds b1 (fun src c neg h => hsrc' src c neg (by simp [h]))
        obtain ⟨os, hos, hex⟩ := executeAll_match (outline := outline) (id := id) (d :: ds)
          (Function.update V' id (some (some ⟨o, b2, []⟩))) ⟨o, b2, []⟩ (by simp) hc (hsrc _)
        have hout : ∀ k, k ∉ ids (.layer id none o body) → Function.update (Function.update V' id (some (some ⟨o, b2, []⟩))) id
            (some (some ({ origin := o, box := b2, content := [] ++ os } : Eager (List (Painted (Vec ℝ)))))) k = V k := by
          intro k hk
          simp only [ids, List.mem_cons, not_or] at hk
          simp only [Function.update, hk.1, dite_false]
          rw [h3 k hk.2 nofun]
          simp [hk.1]
        refine ⟨_, ?_, ?_, fun k hk _ => hout k hk, hlast _ (fun k hk _ => hout k hk) hout⟩
        · simp only [Node.eval, hid, bind, Except.bind]
          rw [h1]
          simp only [hds, hb1, hb2, painting]
          exact hex
        · intro k hk
          simp only [ids, List.mem_cons] at hk
          rcases hk with rfl | hk
          · exact ⟨b2, (o, os), ho os hos, by simp⟩
          · have hne : k ≠ id := fun h => hn1 (h ▸ hk)
            obtain ⟨b, x, hx, hb⟩ := h2 k hk
            exact ⟨b, x, hx, by simp [hne, hb]⟩
theorem eval_nodes : ∀ (ns : List (Node ι)) (D : ι → Prop) (V : Store ι (List (Painted (Vec ℝ)))) (now : Option ι), ReadyAll D ns →
    (idsAll ns).Nodup → (∀ k ∈ idsAll ns, V k = none) → (∀ k, D k → Has Good V k) → FilledAll outline Good ns → Node.DrawnAll ns →
    (∀ id, now = some id → (∃ e, V id = some (some e)) ∧ ¬ D id) → Outlined outline (Node.draws ns) →
    ∃ V', Node.evalAll (painting outline) now ns V = .ok V' ∧ (∀ k ∈ idsAll ns, Has Good V' k) ∧
      (∀ k, k ∉ idsAll ns → now ≠ some k → V' k = V k) ∧
      ∀ id e, now = some id → V id = some (some e) → ∃ os, List.Forall₂ (Match outline Good) (Node.draws ns) os ∧
        V' id = some (some { e with content := e.content ++ os })
  | [], D, V, now, _, _, _, _, _, _, _, _ => by
    refine ⟨V, rfl, by simp [idsAll], fun _ _ _ => rfl, ?_⟩
    intro id e _ h
    exact ⟨[], .nil, by simp [h]⟩
  | n :: ns, D, V, now, hr, hn, hnone, hD, hf, hd, hnow, hm => by
    rw [Vm.draws_cons] at hm ⊢
    simp only [idsAll] at hn hnone
    rw [List.nodup_append'] at hn
    obtain ⟨hn1, hn2, hdis⟩ := hn
    obtain ⟨V1, h1, h2, h3, h4⟩ := eval_node n D V now hr.1 hn1 (fun k hk => hnone k (by simp [hk])) hD hf.1 hd.1 hnow (fun x hx => hm x (by simp [hx]))
    have hkeep : ∀ k, D k → V1 k = V k := by
      intro k hk
      refine h3 k (fun hi => ?_) (fun h => (hnow k h).2 hk)
      obtain ⟨b, _, _, hb⟩ := hD k hk
      rw [hnone k (by simp [hi])] at hb; cases hb
    obtain ⟨V2, i1, i2, i3, i4⟩ := eval_nodes ns (fun k => D k ∨ k ∈ ids n) V1 now hr.2 hn2
      (fun k hk => by
        rw [h3 k (fun hi => hdis hi hk) (fun h => by
          obtain ⟨⟨e, he⟩, -⟩ := hnow k h
          rw [hnone k (by simp [hk])] at he; cases he)]
        exact hnone k (by simp [hk]))
      (fun k hk => by
        rcases hk with hk | hk
        · obtain ⟨b, x, hx, hb⟩ := hD k hk
          exact ⟨b, x, hx, by rw [hkeep k hk, hb]⟩
        · exact h2 k hk) hf.2 hd.2
      (fun id h => by
        obtain ⟨⟨e, he⟩, hni⟩ := hnow id h
        obtain ⟨os, -, hv⟩ := h4 id e h he
        refine ⟨⟨_, hv⟩, ?_⟩
        rintro (h' | h')
        · exact hni h'
        · rw [hnone id (by simp [h'])] at he; cases he) (fun x hx => hm x (by simp [hx]))
    refine ⟨V2, ?_, ?_, ?_, ?_⟩
    · simp only [Node.evalAll, h1, bind, Except.bind]
      exact i1
    · intro k hk
      simp only [idsAll, List.mem_append] at hk
      rcases hk with hk | hk
      · obtain ⟨b, x, hx, hb⟩ := h2 k hk
        refine ⟨b, x, hx, ?_⟩
        rw [i3 k (fun h => hdis hk h) (fun h => by
          obtain ⟨⟨e, he⟩, -⟩ := hnow k h
          rw [hnone k (by simp [hk])] at he; cases he), hb]
      · exact i2 k hk
    · intro k hk hne
      simp only [idsAll, List.mem_append, not_or] at hk
      rw [i3 k hk.2 hne, h3 k hk.1 hne]
    · intro id e h he
      obtain ⟨os1, k1, k2⟩ := h4 id e h he
      obtain ⟨os2, k3, k4⟩ := i4 id _ h k2
      exact ⟨os1 ++ os2, List.rel_append k1 k3, by rw [k4]; simp⟩
end

end
end Verif.Sketch
