import Verif.Lemmas.SketchRun

/-!
# Evaluating structured programs with any backend
-/

namespace Verif.Sketch
open Verif.Rvmc Verif.Geom Verif.Vm Verif.Spec Verif.RvmcBuilder
noncomputable section
variable {ι κ : Type} {B : Backend κ} {Good : ι → Eager κ → Prop}

/-- The backend draws the commands, one after the other, `Good` being what is known of layers that are pasted. -/
inductive Paints (B : Backend κ) (Good : ι → Eager κ → Prop) : List (Draw ι) → Eager κ → Eager κ → Prop
  | nil (e) : Paints B Good [] e e
  | shape (s ds e c e') : B.shape e s = .ok c → Paints B Good ds { e with content := c } e' → Paints B Good (.shape s :: ds) e e'
  | paste (src c neg ds e x k e') : Good src x → B.paste e x c neg = .ok k → Paints B Good ds { e with content := k } e' →
      Paints B Good (.paste src c neg :: ds) e e'

theorem Paints.append {a b : List (Draw ι)} {e f g : Eager κ} (h1 : Paints B Good a e f) (h2 : Paints B Good b f g) :
    Paints B Good (a ++ b) e g := by
  induction h1 with
  | nil => exact h2
  | shape s ds e c e' h _ ih => exact .shape s _ e c g h (ih h2)
  | paste src c neg ds e x k e' hx h _ ih => exact .paste src c neg _ e x k g hx h (ih h2)

/-- The box of a command. -/
def BoxBy (Good : ι → Eager κ → Prop) : Draw ι → Box ℝ → Prop
  | .shape s, b => b = s.outerBox
  | .paste src c _, b => ∃ e, Good src e ∧ b = ⟨e.box.minX + c.x - e.origin.x, e.box.minY + c.y - e.origin.y,
        e.box.maxX + c.x - e.origin.x, e.box.maxY + c.y - e.origin.y⟩

/-- The box is around the commands. -/
def Around (Good : ι → Eager κ → Prop) (ds : List (Draw ι)) (b : Box ℝ) : Prop := ∀ d ∈ ds, ∃ b', BoxBy Good d b' ∧ BoxIn b' b

/-- The backend draws the shapes. -/
def Drawable (B : Backend κ) (ds : List (Draw ι)) : Prop := ∀ s, Draw.shape s ∈ ds → ∀ e, ∃ c, B.shape e s = .ok c

mutual
/-- What is known of the layers of a node follows from what is known of those that they paste. -/
def Meets (B : Backend κ) (Good : ι → Eager κ → Prop) : Node ι → Prop
  | .draw _ => True
  | .layer id box o body => (∀ b, (∀ b', box = some b' → b = b') → (box = none → Around Good (Node.draws body) b) →
      ∃ c, B.create o b = .ok c ∧ ∀ e, Paints B Good (Node.draws body) ⟨o, b, c⟩ e → Good id e) ∧
      Drawable B (Node.draws body) ∧ MeetsAll B Good body
/-- The same for nodes. -/
def MeetsAll (B : Backend κ) (Good : ι → Eager κ → Prop) : List (Node ι) → Prop
  | [] => True
  | n :: ns => Meets B Good n ∧ MeetsAll B Good ns
end

mutual
theorem meets_of {h : List (Deed ι)} {P : ℕ → ι → Vec ℝ × List (Painted (Vec ℝ)) → Prop} {F : ι → Option (Box ℝ) → Prop}
    (hgood : ∀ k id x box b ds, P k id x → F id box → List.Forall₂ (MatchR h P k) ds x.2 → (∀ b', box = some b' → b = b') →
      (box = none → ds ≠ [] ∧ Around Good ds b) → ∃ c, B.create x.1 b = .ok c ∧ ∀ e, Paints B Good ds ⟨x.1, b, c⟩ e → Good id e)
    (hout : ∀ k s o, MatchR h P k (.shape s) o → ∀ e, ∃ c, B.shape e s = .ok c) : ∀ n : Node ι, n.Drawn → FilledR h P n →
    (∀ id box o, Command.start id box o ∈ n.commands → F id box) → Meets B Good n
  | .draw _, _, _, _ => trivial
  | .layer id box o body, hd, hf, hF => by
    obtain ⟨k, x, h1, rfl, h3, h4⟩ := hf
    refine ⟨fun b hb1 hb2 => hgood k id x box b _ h1 (hF id box x.1 (by simp [Node.commands])) h3 hb1 (fun hn => ⟨hd.1 hn, hb2 hn⟩), fun s hs => ?_,
      meetsAll_of hgood hout body hd.2 h4 (fun id box o hm => hF id box o (by simp [Node.commands, hm]))⟩
    obtain ⟨o, -, ho⟩ := forall₂_some h3 hs
    exact hout k s o ho
theorem meetsAll_of {h : List (Deed ι)} {P : ℕ → ι → Vec ℝ × List (Painted (Vec ℝ)) → Prop} {F : ι → Option (Box ℝ) → Prop}
    (hgood : ∀ k id x box b ds, P k id x → F id box → List.Forall₂ (MatchR h P k) ds x.2 → (∀ b', box = some b' → b = b') →
      (box = none → ds ≠ [] ∧ Around Good ds b) → ∃ c, B.create x.1 b = .ok c ∧ ∀ e, Paints B Good ds ⟨x.1, b, c⟩ e → Good id e)
    (hout : ∀ k s o, MatchR h P k (.shape s) o → ∀ e, ∃ c, B.shape e s = .ok c) : ∀ ns : List (Node ι), Node.DrawnAll ns → FilledAllR h P ns →
    (∀ id box o, Command.start id box o ∈ Node.commandsAll ns → F id box) → MeetsAll B Good ns
  | [], _, _, _ => trivial
  | n :: ns, hd, hf, hF => ⟨meets_of hgood hout n hd.1 hf.1 (fun id box o hm => hF id box o (by simp [Node.commandsAll, hm])),
      meetsAll_of hgood hout ns hd.2 hf.2 (fun id box o hm => hF id box o (by simp [Node.commandsAll, hm]))⟩
end

variable [DecidableEq ι]

/-- The layer is as it should be. -/
def Holds (Good : ι → Eager κ → Prop) (V : Store ι κ) (k : ι) : Prop := ∃ e, Good k e ∧ V k = some (some e)

theorem execute_paints (hpaste : ∀ e x c neg, ∃ k, B.paste e x c neg = .ok k) {id : ι} {V : Store ι κ} {d : Draw ι} {e : Eager κ}
    (hv : V id = some (some e)) (ho : Drawable B [d]) (hs : ∀ src c neg, d = .paste src c neg → Holds Good V src) :
    ∃ e', Paints B Good [d] e e' ∧ execute B id V d = .ok (Function.update V id (some (some e'))) := by
  cases d with
  | shape s =>
    obtain ⟨c, h1⟩ := ho s (by simp) e
    exact ⟨_, .shape s [] e c _ h1 (.nil _), by simp [execute, hv, h1]⟩
  | paste src c neg =>
    obtain ⟨x, hx, hb⟩ := hs src c neg rfl
    obtain ⟨k, hk⟩ := hpaste e x c neg
    exact ⟨_, .paste src c neg [] e x k _ hx hk (.nil _), by simp [execute, hv, hb, hk]⟩

theorem executeAll_paints (hpaste : ∀ e x c neg, ∃ k, B.paste e x c neg = .ok k) {id : ι} : ∀ (ds : List (Draw ι)) (V : Store ι κ)
    (e : Eager κ), V id = some (some e) → Drawable B ds →
    (∀ src c neg, Draw.paste src c neg ∈ ds → src ≠ id ∧ Holds Good V src) →
    ∃ e', Paints B Good ds e e' ∧ executeAll B id ds V = .ok (Function.update V id (some (some e')))
  | [], V, e, hv, _, _ => by
    refine ⟨e, .nil _, ?_⟩
    simp only [executeAll]
    congr 1
    funext k
    by_cases h : k = id
    · subst h; simp [hv]
    · simp [Function.update, h]
  | d :: ds, V, e, hv, ho, hs => by
    simp only [executeAll]
    obtain ⟨e1, h1, h2⟩ := execute_paints (Good := Good) hpaste (d := d) hv (fun s h => ho s (by simp at h; simp [h]))
      (fun src c neg hd => (hs src c neg (by simp [hd])).2)
    rw [h2]
    simp only [bind, Except.bind]
    obtain ⟨e2, h3, h4⟩ := executeAll_paints hpaste ds (Function.update V id (some (some e1))) e1 (Function.update_self ..)
      (fun s h => ho s (List.mem_cons_of_mem _ h)) (fun src c neg hd => by
        obtain ⟨hne, x, hx, hb⟩ := hs src c neg (by simp [hd])
        exact ⟨hne, x, hx, by simp [hne, hb]⟩)
    refine ⟨e2, h1.append h3, ?_⟩
    rw [h4]
    simp

omit [DecidableEq ι] in
theorem drawBox_holds {V : Store ι κ} {d : Draw ι} (hs : ∀ src c neg, d = .paste src c neg → Holds Good V src) :
    ∃ b, drawBox V d = .ok b ∧ BoxBy Good d b := by
  cases d with
  | shape s => exact ⟨_, rfl, rfl⟩
  | paste src c neg =>
    obtain ⟨x, hx, hb⟩ := hs src c neg rfl
    exact ⟨_, by simp only [drawBox, hb], x, hx, rfl⟩

theorem boxIn_union_left (a b : Box ℝ) : BoxIn a (a.union b) := ⟨min_le_left .., min_le_left .., le_max_left .., le_max_left ..⟩

theorem boxIn_union_right (a b : Box ℝ) : BoxIn b (a.union b) := ⟨min_le_right .., min_le_right .., le_max_right .., le_max_right ..⟩

theorem boxIn_trans {a b c : Box ℝ} (h1 : BoxIn a b) (h2 : BoxIn b c) : BoxIn a c :=
  ⟨h2.1.trans h1.1, h2.2.1.trans h1.2.1, h1.2.2.1.trans h2.2.2.1, h1.2.2.2.trans h2.2.2.2⟩

omit [DecidableEq ι] in
theorem drawBoxes_holds {V : Store ι κ} : ∀ (ds : List (Draw ι)) (b : Box ℝ),
    (∀ src c neg, Draw.paste src c neg ∈ ds → Holds Good V src) → ∃ b', drawBoxes V b ds = .ok b' ∧ BoxIn b b' ∧ Around Good ds b'
  | [], b, _ => ⟨b, rfl, ⟨le_rfl, le_rfl, le_rfl, le_rfl⟩, nofun⟩
  | d :: ds, b, hs => by
    obtain ⟨b1, h1, h2⟩ := drawBox_holds (d := d) (fun src c neg hd => hs src c neg (by simp [hd]))
    simp only [drawBoxes, h1, bind, Except.bind]
    obtain ⟨b2, h3, h4, h5⟩ := drawBoxes_holds ds (b.union b1) (fun src c neg hd => hs src c neg (by simp [hd]))
    refine ⟨b2, h3, boxIn_trans (boxIn_union_left _ _) h4, ?_⟩
    intro x hx
    rcases List.mem_cons.1 hx with rfl | hx
    · exact ⟨b1, h2, boxIn_trans (boxIn_union_right _ _) h4⟩
    · exact h5 x hx

mutual
theorem eval_meets (hpaste : ∀ e x c neg, ∃ k, B.paste e x c neg = .ok k) : ∀ (n : Node ι) (D : ι → Prop) (V : Store ι κ) (now : Option ι), Ready D n → (ids n).Nodup →
    (∀ k ∈ ids n, V k = none) → (∀ k, D k → Holds Good V k) → Meets B Good n → n.Drawn →
    (∀ id, now = some id → (∃ e, V id = some (some e)) ∧ ¬ D id) → Drawable B (Node.draws [n]) →
    ∃ V', n.eval B now V = .ok V' ∧ (∀ k ∈ ids n, Holds Good V' k) ∧
      (∀ k, k ∉ ids n → now ≠ some k → V' k = V k) ∧
      ∀ id e, now = some id → V id = some (some e) → ∃ e', Paints B Good (Node.draws [n]) e e' ∧ V' id = some (some e')
  | .draw d, D, V, now, hr, _, _, hD, _, _, hnow, hm => by
    simp only [Node.draws] at hm ⊢
    cases now with
    | none => exact ⟨V, rfl, by simp [ids], fun _ _ _ => rfl, nofun⟩
    | some id =>
      obtain ⟨⟨e, he⟩, hid⟩ := hnow id rfl
      obtain ⟨e1, ho, hx⟩ := execute_paints (Good := Good) hpaste he hm (by
        rintro src c neg rfl
        exact hD src hr)
      refine ⟨_, hx, by simp [ids], ?_, ?_⟩
      · intro k _ hk
        have : k ≠ id := fun h => hk (by rw [h])
        simp [this]
      · rintro id' e' h1 h2
        cases h1
        rw [he] at h2; cases h2
        exact ⟨e1, ho, by simp⟩
  | .layer id box o body, D, V, now, hr, hn, hnone, hD, hf, hd, hnow, _ => by
    simp only [Node.draws]
    simp only [ids, List.nodup_cons] at hn
    obtain ⟨hn1, hn2⟩ := hn
    obtain ⟨ho, hc, hfb⟩ := hf
    have hid : V id = none := hnone id (by simp [ids])
    have hDid : ¬ D id := fun h => by
      obtain ⟨_, _, hb⟩ := hD id h
      rw [hid] at hb; cases hb
    have hnowid : now ≠ some id := fun h => by
      obtain ⟨⟨e, he⟩, -⟩ := hnow id h
      rw [hid] at he; cases he
    have hnone' : ∀ x, ∀ k ∈ idsAll body, Function.update V id x k = none := by
      intro x k hk
      have : k ≠ id := fun h => hn1 (h ▸ hk)
      simp only [Function.update, this, dite_false]
      exact hnone k (by simp [ids, hk])
    have hD' : ∀ x, ∀ k, D k → Holds Good (Function.update V id x) k := by
      intro x k hk
      have : k ≠ id := fun h => hDid (h ▸ hk)
      obtain ⟨x, hx, hb⟩ := hD k hk
      exact ⟨x, hx, by simp [this, hb]⟩
    have hlast : ∀ V' : Store ι κ, (∀ k, k ∉ ids (.layer id box o body) → V' k = V k) → ∀ id' e, now = some id' → V id' = some (some e) →
        ∃ e', Paints B Good [] e e' ∧ V' id' = some (some e') := by
      intro V' h id' e _ h2
      refine ⟨e, .nil _, ?_⟩
      rw [h id' (fun hk => by rw [hnone id' hk] at h2; cases h2), h2]
    cases box with
    | some b =>
      obtain ⟨c, hcr, hgood⟩ := ho b (fun _ h => by cases h; rfl) nofun
      obtain ⟨V', h1, h2, h3, h4⟩ := eval_meetsAll hpaste body D (Function.update V id (some (some ⟨o, b, c⟩))) (some id) hr hn2 (hnone' _)
        (hD' _) hfb hd.2 (by rintro _ ⟨⟩; exact ⟨⟨⟨o, b, c⟩, by simp⟩, hDid⟩) hc
      have hout : ∀ k, k ∉ ids (.layer id (some b) o body) → V' k = V k := by
        intro k hk
        simp only [ids, List.mem_cons, not_or] at hk
        rw [h3 k hk.2 (by simp [Ne.symm hk.1])]
        simp [hk.1]
      refine ⟨V', ?_, ?_, fun k hk _ => hout k hk, hlast V' hout⟩
      · simp only [Node.eval, hid, hcr, bind, Except.bind]
        exact h1
      · intro k hk
        simp only [ids, List.mem_cons] at hk
        rcases hk with rfl | hk
        · obtain ⟨e', hos, hv⟩ := h4 k ⟨o, b, c⟩ rfl (by simp)
          exact ⟨e', hgood e' hos, hv⟩
        · exact h2 k hk
    | none =>
      obtain ⟨V', h1, h2, h3, -⟩ := eval_meetsAll hpaste body D (Function.update V id (some none)) none hr hn2 (hnone' _)
        (hD' _) hfb hd.2 nofun hc
      have hsrc : ∀ x src c neg, Draw.paste src c neg ∈ Node.draws body → src ≠ id ∧ Holds Good (Function.update V' id x) src := by
        intro x src c neg hp
        have hne : src ≠ id ∧ Holds Good V' src := by
          rcases ready_sources body D hr src c neg hp with h | h
          · have : src ≠ id := fun he => hDid (he ▸ h)
            refine ⟨this, ?_⟩
            by_cases hb : src ∈ idsAll body
            · exact h2 src hb
            · obtain ⟨x, hx, hb'⟩ := hD src h
              exact ⟨x, hx, by rw [h3 src hb nofun]; simp [this, hb']⟩
          · exact ⟨fun he => hn1 (he ▸ h), h2 src h⟩
        obtain ⟨hne, x, hx, hb⟩ := hne
        exact ⟨hne, x, hx, by simp [hne, hb]⟩
      have hsrc' : ∀ src c neg, Draw.paste src c neg ∈ Node.draws body → Holds Good V' src := by
        intro src c neg hp
        obtain ⟨hne, x, hx, hb⟩ := hsrc none src c neg hp
        exact ⟨x, hx, by simpa [hne] using hb⟩
      have hdr := hd.1 rfl
      cases hds : Node.draws body with
      | nil => exact absurd hds hdr
      | cons d ds =>
        rw [hds] at hc hsrc hsrc' ho
        obtain ⟨b1, hb1, hb1'⟩ := drawBox_holds (V := V') (d := d) (fun src c neg h => hsrc' src c neg (by simp [h]))
        obtain ⟨b2, hb2, hb3, hb4⟩ := drawBoxes_holds (V := V') ds b1 (fun src c neg h => hsrc' src c neg (by simp [h]))
        obtain ⟨c, hcr, hgood⟩ := ho b2 nofun (fun _ x hx => by
          rcases List.mem_cons.1 hx with rfl | hx
          · exact ⟨b1, hb1', hb3⟩
          · exact hb4 x hx)
        obtain ⟨e', hos, hex⟩ := executeAll_paints hpaste (id := id) (d :: ds)
          (Function.update V' id (some (some ⟨o, b2, c⟩))) ⟨o, b2, c⟩ (by simp) hc (hsrc _)
        have hout : ∀ k, k ∉ ids (.layer id none o body) → Function.update (Function.update V' id (some (some ⟨o, b2, c⟩))) id
            (some (some e')) k = V k := by
          intro k hk
          simp only [ids, List.mem_cons, not_or] at hk
          simp only [Function.update, hk.1, dite_false]
          rw [h3 k hk.2 nofun]
          simp [hk.1]
        refine ⟨_, ?_, ?_, fun k hk _ => hout k hk, hlast _ hout⟩
        · simp only [Node.eval, hid, bind, Except.bind]
          rw [h1]
          simp only [hds, hb1, hb2, hcr]
          exact hex
        · intro k hk
          simp only [ids, List.mem_cons] at hk
          rcases hk with rfl | hk
          · exact ⟨e', hgood e' hos, by simp⟩
          · have hne : k ≠ id := fun h => hn1 (h ▸ hk)
            obtain ⟨x, hx, hb⟩ := h2 k hk
            exact ⟨x, hx, by simp [hne, hb]⟩
theorem eval_meetsAll (hpaste : ∀ e x c neg, ∃ k, B.paste e x c neg = .ok k) : ∀ (ns : List (Node ι)) (D : ι → Prop) (V : Store ι κ) (now : Option ι), ReadyAll D ns →
    (idsAll ns).Nodup → (∀ k ∈ idsAll ns, V k = none) → (∀ k, D k → Holds Good V k) → MeetsAll B Good ns → Node.DrawnAll ns →
    (∀ id, now = some id → (∃ e, V id = some (some e)) ∧ ¬ D id) → Drawable B (Node.draws ns) →
    ∃ V', Node.evalAll B now ns V = .ok V' ∧ (∀ k ∈ idsAll ns, Holds Good V' k) ∧
      (∀ k, k ∉ idsAll ns → now ≠ some k → V' k = V k) ∧
      ∀ id e, now = some id → V id = some (some e) → ∃ e', Paints B Good (Node.draws ns) e e' ∧ V' id = some (some e')
  | [], D, V, now, _, _, _, _, _, _, _, _ => by
    refine ⟨V, rfl, by simp [idsAll], fun _ _ _ => rfl, ?_⟩
    intro id e _ h
    exact ⟨e, .nil _, h⟩
  | n :: ns, D, V, now, hr, hn, hnone, hD, hf, hd, hnow, hm => by
    rw [Vm.draws_cons] at hm ⊢
    simp only [idsAll] at hn hnone
    rw [List.nodup_append'] at hn
    obtain ⟨hn1, hn2, hdis⟩ := hn
    obtain ⟨V1, h1, h2, h3, h4⟩ := eval_meets hpaste n D V now hr.1 hn1 (fun k hk => hnone k (by simp [hk])) hD hf.1 hd.1 hnow (fun x hx => hm x (by simp [hx]))
    have hkeep : ∀ k, D k → V1 k = V k := by
      intro k hk
      refine h3 k (fun hi => ?_) (fun h => (hnow k h).2 hk)
      obtain ⟨_, _, hb⟩ := hD k hk
      rw [hnone k (by simp [hi])] at hb; cases hb
    obtain ⟨V2, i1, i2, i3, i4⟩ := eval_meetsAll hpaste ns (fun k => D k ∨ k ∈ ids n) V1 now hr.2 hn2
      (fun k hk => by
        rw [h3 k (fun hi => hdis hi hk) (fun h => by
          obtain ⟨⟨e, he⟩, -⟩ := hnow k h
          rw [hnone k (by simp [hk])] at he; cases he)]
        exact hnone k (by simp [hk]))
      (fun k hk => by
        rcases hk with hk | hk
        · obtain ⟨x, hx, hb⟩ := hD k hk
          exact ⟨x, hx, by rw [hkeep k hk, hb]⟩
        · exact h2 k hk) hf.2 hd.2
      (fun id h => by
        obtain ⟨⟨e, he⟩, hni⟩ := hnow id h
        obtain ⟨e', -, hv⟩ := h4 id e h he
        refine ⟨⟨_, hv⟩, ?_⟩
        rintro (h' | h')
        · exact hni h'
        · rw [hnone id (by simp [h'])] at he; cases he) (fun x hx => hm x (by simp [hx]))
    refine ⟨V2, ?_, ?_, ?_, ?_⟩
    · simp only [Node.evalAll, h1, bind, Except.bind]
      exact i1
    · intro k hk
      simp only [idsAll, List.mem_append] at hk
      rcases hk with hk | hk
      · obtain ⟨x, hx, hb⟩ := h2 k hk
        refine ⟨x, hx, ?_⟩
        rw [i3 k (fun h => hdis hk h) (fun h => by
          obtain ⟨⟨e, he⟩, -⟩ := hnow k h
          rw [hnone k (by simp [hk])] at he; cases he), hb]
      · exact i2 k hk
    · intro k hk hne
      simp only [idsAll, List.mem_append, not_or] at hk
      rw [i3 k hk.2 hne, h3 k hk.1 hne]
    · intro id e h he
      obtain ⟨e1, k1, k2⟩ := h4 id e h he
      obtain ⟨e2, k3, k4⟩ := i4 id _ h k2
      exact ⟨e2, k1.append k3, k4⟩
end

/-! ### Programs of scripts -/

/-- Running the program of a script with a backend. -/
theorem runs_with {main : ι} {h : List (Deed ι)} {s : State ι} {d : Plates ι} (hO : Out main h s d) (hopen : d.opened = [])
    (hpaste : ∀ e x c neg, ∃ k, B.paste e x c neg = .ok k) {F : ι → Option (Box ℝ) → Prop}
    (hF : ∀ id box o, Command.start id box o ∈ s.commands → F id box)
    (hgood : ∀ k id x box b ds, Done d k id x → F id box → List.Forall₂ (MatchR h (Done d) k) ds x.2 → (∀ b', box = some b' → b = b') →
      (box = none → ds ≠ [] ∧ Around Good ds b) → ∃ c, B.create x.1 b = .ok c ∧ ∀ e, Paints B Good ds ⟨x.1, b, c⟩ e → Good id e)
    (hout : ∀ k s o, MatchR h (Done d) k (.shape s) o → ∀ e, ∃ c, B.shape e s = .ok c) (fail : Bool) :
    ∃ e, run B fail main s.commands = .ok (some e) ∧ Good main e := by
  obtain ⟨b, ns, pl, h1, h2, h3, h4, h5, h6, h7, h8⟩ := hO
  have hd : Done d 0 pl.name (pl.origin, pl.objects) := ⟨pl, h1, by rw [hopen]; simp, rfl, rfl⟩
  have hf : MeetsAll B Good [.layer pl.name b pl.origin ns] :=
    meetsAll_of (F := F) hgood hout _ ⟨h8, trivial⟩ ⟨⟨0, _, hd, rfl, h6, h7⟩, trivial⟩ (by
      intro id box o hm
      exact hF id box o (by rw [h3]; simpa [Node.commandsAll] using hm))
  obtain ⟨V, k1, k2, -, -⟩ := eval_meetsAll (Good := Good) hpaste [.layer pl.name b pl.origin ns] (fun _ => False) (fun _ => none) none
    ⟨h4, trivial⟩ (by simpa [idsAll, ids] using h5) (fun _ _ => rfl) (fun _ h => h.elim) hf ⟨h8, trivial⟩ nofun (fun s hs => by simp [Node.draws] at hs)
  have hp := Props.Vm.c26_program (B := B) fail [.layer pl.name b pl.origin ns] ⟨h8, trivial⟩ rfl
  rw [k1] at hp
  obtain ⟨m, m1, -, m3⟩ := hp
  obtain ⟨x, x1, x2⟩ := k2 pl.name (by simp [idsAll, ids])
  rw [← m3] at x2
  have hm1 : exec B fail s.commands Machine.init = .ok m := by
    rw [h3, ← m1]; simp [Node.commandsAll]
  refine ⟨x, ?_, h2 ▸ x1⟩
  unfold run
  rw [hm1]
  simp only [bind, Except.bind]
  rw [h2] at x2
  unfold store at x2
  cases hl : m.layers.get? main with
  | none => rw [hl] at x2; cases x2
  | some l =>
    rw [hl] at x2
    cases l with
    | deferred => cases x2
    | eager e =>
      simp only [Option.some.injEq] at x2
      cases x2
      rfl

end
end Verif.Sketch
