import Verif.Lemmas.SketchBuild
import Verif.Lemmas.SolidLayers
import Verif.Lemmas.RoundPolygon
import Verif.Props.Pixels
import Verif.Props.Vm
import Verif.Spec.Bow

/-!
# Running the programs of the RVMC builder
-/

namespace Verif.Sketch
open Verif.Rvmc Verif.Geom Verif.Vm Verif.Spec Verif.RvmcBuilder Verif.Halves Verif.SolidLayers Verif.Lemmas.MacroShape
noncomputable section
variable {ι : Type}

theorem forall₂_some {α β : Type} {R : α → β → Prop} {as : List α} {bs : List β} (h : List.Forall₂ R as bs) {a : α} (ha : a ∈ as) :
    ∃ b ∈ bs, R a b := by
  induction h with
  | nil => cases ha
  | cons h1 _ ih =>
    rcases List.mem_cons.1 ha with rfl | ha
    · exact ⟨_, by simp, h1⟩
    · obtain ⟨b, hb, h⟩ := ih ha
      exact ⟨b, by simp [hb], h⟩

/-- Objects of the same commands. -/
theorem forall₂_pair {α β γ : Type} {R : α → β → Prop} {S : α → γ → Prop} {T : β → γ → Prop} (h : ∀ a b c, R a b → S a c → T b c)
    {as : List α} {bs : List β} (h1 : List.Forall₂ R as bs) : ∀ {cs : List γ}, List.Forall₂ S as cs → List.Forall₂ T bs cs := by
  induction h1 with
  | nil => intro cs h2; cases h2; exact .nil
  | cons k1 _ ih => intro cs h2; cases h2 with | cons k2 k3 => exact .cons (h _ _ _ k1 k2) (ih k3)

mutual
theorem filled_of {outline : Shape → Except VErr (Set (Vec ℝ))} {Good : ι → Vec ℝ × List (Painted (Vec ℝ)) → Prop} {h : List (Deed ι)}
    {P : ℕ → ι → Vec ℝ × List (Painted (Vec ℝ)) → Prop}
    (hgood : ∀ k id x os ds, P k id x → List.Forall₂ (MatchR h P k) ds x.2 → List.Forall₂ (Match outline Good) ds os → Good id (x.1, os))
    (hout : ∀ k s o, MatchR h P k (.shape s) o → ∃ points, outline s = .ok points) : ∀ n : Node ι, FilledR h P n → Filled outline Good n
  | .draw _, _ => trivial
  | .layer id _ _ body, hf => by
    obtain ⟨k, x, h1, rfl, h3, h4⟩ := hf
    refine ⟨fun os hos => hgood k id x os _ h1 h3 hos, fun s hs => ?_, filledAll_of hgood hout body h4⟩
    obtain ⟨o, -, ho⟩ := forall₂_some h3 hs
    exact hout k s o ho
theorem filledAll_of {outline : Shape → Except VErr (Set (Vec ℝ))} {Good : ι → Vec ℝ × List (Painted (Vec ℝ)) → Prop} {h : List (Deed ι)}
    {P : ℕ → ι → Vec ℝ × List (Painted (Vec ℝ)) → Prop}
    (hgood : ∀ k id x os ds, P k id x → List.Forall₂ (MatchR h P k) ds x.2 → List.Forall₂ (Match outline Good) ds os → Good id (x.1, os))
    (hout : ∀ k s o, MatchR h P k (.shape s) o → ∃ points, outline s = .ok points) : ∀ ns : List (Node ι), FilledAllR h P ns →
    FilledAll outline Good ns
  | [], _ => trivial
  | n :: ns, hf => ⟨filled_of hgood hout n hf.1, filledAll_of hgood hout ns hf.2⟩
end

theorem done_unique {d : Plates ι} (hn : (d.plates.map Plate.name).Nodup) {j k : ℕ} {i : ι} {x y : Vec ℝ × List (Painted (Vec ℝ))}
    (hx : Done d j i x) (hy : Done d k i y) : j = k ∧ x = y := by
  obtain ⟨p, p1, -, p2, rfl⟩ := hx
  obtain ⟨q, q1, -, q2, rfl⟩ := hy
  have hjk : j = k := by
    have hi := List.nodup_iff_injective_getElem.1 hn
    have hj := lt_of_some p1
    have hk := lt_of_some q1
    have : (⟨j, by simpa using hj⟩ : Fin (d.plates.map Plate.name).length) = ⟨k, by simpa using hk⟩ := by
      apply hi
      simp only [List.getElem_map]
      rw [List.getElem?_eq_getElem hj] at p1
      rw [List.getElem?_eq_getElem hk] at q1
      cases p1; cases q1
      rw [p2, q2]
    rwa [Fin.mk.injEq] at this
  subst hjk
  rw [p1] at q1
  cases q1
  exact ⟨rfl, rfl⟩

/-- Running the program of a script. -/
theorem runs_of [DecidableEq ι] {main : ι} {h : List (Deed ι)} {s : State ι} {d : Plates ι} (hO : Out main h s d) (hopen : d.opened = [])
    {outline : Shape → Except VErr (Set (Vec ℝ))} {Good : ι → Vec ℝ × List (Painted (Vec ℝ)) → Prop}
    (hgood : ∀ k id x os ds, Done d k id x → List.Forall₂ (MatchR h (Done d) k) ds x.2 → List.Forall₂ (Match outline Good) ds os →
      Good id (x.1, os))
    (hout : ∀ k s o, MatchR h (Done d) k (.shape s) o → ∃ points, outline s = .ok points) (fail : Bool) :
    ∃ e, run (painting outline) fail main s.commands = .ok (some e) ∧ Good main (e.origin, e.content) := by
  obtain ⟨b, ns, pl, h1, h2, h3, h4, h5, h6, h7, h8⟩ := hO
  have hd : Done d 0 pl.name (pl.origin, pl.objects) := ⟨pl, h1, by rw [hopen]; simp, rfl, rfl⟩
  have hf : FilledAll outline Good [.layer pl.name b pl.origin ns] :=
    filledAll_of hgood hout _ ⟨⟨0, _, hd, rfl, h6, h7⟩, trivial⟩
  obtain ⟨V, k1, k2, -, -⟩ := eval_nodes (outline := outline) (Good := Good) [.layer pl.name b pl.origin ns] (fun _ => False) (fun _ => none) none
    ⟨h4, trivial⟩ (by simpa [idsAll, ids] using h5) (fun _ _ => rfl) (fun _ h => h.elim) hf ⟨h8, trivial⟩ nofun (fun s hs => by simp [Node.draws] at hs)
  have hp := Props.Vm.c26_program (B := painting outline) fail [.layer pl.name b pl.origin ns] ⟨h8, trivial⟩ rfl
  rw [k1] at hp
  obtain ⟨m, m1, -, m3⟩ := hp
  obtain ⟨box, x, x1, x2⟩ := k2 pl.name (by simp [idsAll, ids])
  rw [← m3] at x2
  have hm1 : exec (painting outline) fail s.commands Machine.init = .ok m := by
    rw [h3, ← m1]; simp [Node.commandsAll]
  refine ⟨⟨x.1, box, x.2⟩, ?_, h2 ▸ x1⟩
  unfold run
  rw [hm1]
  simp only [bind, Except.bind]
  rw [h2] at x2
  unfold store at x2
  cases hl : m.layers.get? main with
  | none => rw [hl] at x2; cases x2
  | some l =>
    rw [hl] at x2
    cases l with
    | deferred => cases x2
    | eager e =>
      simp only [Option.some.injEq] at x2
      cases x2
      rfl

/-! ### The points of the figures -/

theorem matched_within {h : List (Deed ι)} {d : Plates ι} (hn : (d.plates.map Plate.name).Nodup) {k : ℕ} {c : Draw ι} {o o' : Painted (Vec ℝ)}
    (h1 : MatchR h (Done d) k c o) (h2 : Match within (fun i x => ∃ k, Done d k i x) c o') : o = o' := by
  cases c with
  | shape s =>
    obtain ⟨pts, h3, rfl⟩ := h2
    cases h3
    exact h1.1
  | paste id c neg =>
    obtain ⟨src, x, h3, -, rfl⟩ := h1
    obtain ⟨y, ⟨k', h4⟩, rfl⟩ := h2
    rw [(done_unique hn h3 h4).2]

/-! ### The points of the polygons -/

/-- Clear of the outlines on the `k`-th layer. -/
def ClearAt (n : ℕ) (h : List (Deed ι)) (d : Plates ι) (k : ℕ) (p : Vec ℝ) : Prop := ∀ s v, OutlineAt h d k s v → ClearOf n s (p - v)

/-- The layer agrees with what is asked for but for the outlines. -/
def Near (n : ℕ) (h : List (Deed ι)) (d : Plates ι) (i : ι) (x : Vec ℝ × List (Painted (Vec ℝ))) : Prop :=
  ∃ k y, Done d k i y ∧ y.1 = x.1 ∧ ∀ p, ClearAt n h d k p →
    List.Forall₂ (fun o o' => o.dark = o'.dark ∧ (p ∈ o.points ↔ p ∈ o'.points)) y.2 x.2

theorem matched_near {h : List (Deed ι)} {d : Plates ι} (hn : (d.plates.map Plate.name).Nodup) {n : ℕ}
    {outline : Shape → Except VErr (Set (Vec ℝ))}
    (ho : ∀ k s v points, OutlineAt h d k s v → outline s = .ok points → ∀ p, ClearOf n s p → (p ∈ areaOf s ↔ p ∈ points))
    {k : ℕ} {p : Vec ℝ} (hp : ClearAt n h d k p) {c : Draw ι} {o o' : Painted (Vec ℝ)}
    (h1 : MatchR h (Done d) k c o) (h2 : Match outline (Near n h d) c o') : o.dark = o'.dark ∧ (p ∈ o.points ↔ p ∈ o'.points) := by
  cases c with
  | shape s =>
    obtain ⟨pts, h3, rfl⟩ := h2
    obtain ⟨rfl, f, neg, ss, k1, -, k3, k4⟩ := h1
    have hO : OutlineAt h d k s ⟨0, 0⟩ := .mark k f neg ss s k1 k3 k4
    refine ⟨rfl, ho k s _ pts hO h3 p ?_⟩
    have := hp s _ hO
    have e : p - (⟨0, 0⟩ : Vec ℝ) = p := by ext <;> simp
    rwa [e] at this
  | paste id c neg =>
    obtain ⟨src, x, h3, h4, rfl⟩ := h1
    obtain ⟨y, ⟨k', z, h5, h6, h7⟩, rfl⟩ := h2
    obtain ⟨rfl, rfl⟩ := done_unique hn h3 h5
    refine ⟨rfl, ?_⟩
    show Covered x.2 _ ↔ Covered y.2 _
    rw [← h6]
    refine Props.Pixels.covered_congr (h7 _ ?_)
    intro s v hv
    obtain ⟨pl, q1, -, -, rfl⟩ := h3
    have := hp s _ (.paste k src c neg pl s v h4 q1 hv)
    have e : p - (v + c - pl.origin) = p - c + pl.origin - v := by ext <;> simp <;> ring
    rwa [e] at this

/-! ### Outlines that go round once -/

theorem shapes_sound (m : Mark) (hm : Plausible m) (ha : Ample m) (neg : Bool) {ss : List Shape} (h : m.shapes neg = .ok ss) :
    ∀ s ∈ ss, Sound s ∧ Solid s := by
  have round : ∀ {s : Shape}, Round s → Sound s := fun h => ⟨h.pieces, h.once⟩
  cases m with
  | circle c d => cases h; simp only [List.mem_singleton]; rintro _ rfl; exact ⟨round (round_circle c ha neg), solid_circle ..⟩
  | rectangle c w h' => cases h; simp only [List.mem_singleton]; rintro _ rfl; exact ⟨round (round_rectangle c hm.1 hm.2 neg), solid_rectangle ..⟩
  | obround c w h' => cases h; simp only [List.mem_singleton]; rintro _ rfl; exact ⟨round (round_obround c ha.1 ha.2 neg), solid_obround ..⟩
  | line a b t => cases h; simp only [List.mem_singleton]; rintro _ rfl; exact ⟨round (round_line a b hm.1 neg), solid_line ..⟩
  | cross c w h' t =>
    cases h
    simp only [List.mem_cons, List.not_mem_nil, or_false]
    rintro _ (rfl | rfl)
    · exact ⟨round (round_rectangle c hm.1 hm.2.2 neg), solid_rectangle ..⟩
    · exact ⟨round (round_rectangle c hm.2.2 hm.2.1 neg), solid_rectangle ..⟩
  | x c l t =>
    cases h
    simp only [List.mem_cons, List.not_mem_nil, or_false]
    rintro _ (rfl | rfl) <;> exact ⟨round (round_line _ _ hm.2 neg), solid_line ..⟩
  | polygon c d n r =>
    obtain ⟨hn, h0, h1⟩ := hm
    obtain ⟨s, k1, -, k3⟩ := polygon_made c d r neg hn h0 h1
    simp only [Mark.shapes, k1, bind, Except.bind, pure, Except.pure, Except.ok.injEq] at h
    subst h
    simp only [List.mem_singleton]
    rintro _ rfl
    refine ⟨polygon_sound (by omega) ha _ c k3, solid_of_length ?_⟩
    rw [k3]
    have : (regularCorners c d n.toNat r).length = n.toNat := by simp [regularCorners]
    simp only [polygonSides, List.length_map, List.length_zip, List.length_append, List.length_tail, List.length_take, this]
    omega

/-! ### The shapes of a script -/

theorem marks_plausible {main : ι} {h : List (Deed ι)} {d : Plates ι} (ha : AskedFor main h d) :
    ∀ r figure negative, .mark r figure negative ∈ h → Plausible figure := by
  induction ha with
  | layer => intro r f neg hm; simp at hm
  | mark r' l figure negative _ _ _ hp ih =>
    intro r f neg hm
    rcases List.mem_append.1 hm with hm | hm
    · exact ih r f neg hm
    · simp only [List.mem_singleton, Deed.mark.injEq] at hm
      rw [hm.2.1]; exact hp
  | _ =>
    rename_i ih
    intro r f neg hm
    exact ih r f neg (by simpa using hm)

/-- The shapes that the calls of a script draw. -/
def drawnShapes (h : List (Deed ι)) : List Shape := h.flatMap fun c =>
  match c with
  | .mark _ figure negative =>
    match figure.shapes negative with
    | .ok ss => ss
    | .error _ => []
  | _ => []

theorem mem_drawnShapes {h : List (Deed ι)} {s : Shape} : s ∈ drawnShapes h ↔
    ∃ r figure negative ss, .mark r figure negative ∈ h ∧ figure.shapes negative = .ok ss ∧ s ∈ ss := by
  unfold drawnShapes
  rw [List.mem_flatMap]
  constructor
  · rintro ⟨c, hc, hs⟩
    cases c with
    | mark r f neg =>
      simp only at hs
      split at hs
      · rename_i ss hss
        exact ⟨r, f, neg, ss, hc, hss, hs⟩
      · cases hs
    | _ => cases hs
  · rintro ⟨r, f, neg, ss, h1, h2, h3⟩
    exact ⟨_, h1, by simp only [h2]; exact h3⟩

theorem outline_drawn {h : List (Deed ι)} {d : Plates ι} {k : ℕ} {s : Shape} {v : Vec ℝ} (hO : OutlineAt h d k s v) :
    ∃ r figure negative ss, .mark r figure negative ∈ h ∧ figure.shapes negative = .ok ss ∧ s ∈ ss := by
  induction hO with
  | mark r f neg ss s h1 h2 h3 => exact ⟨r, f, neg, ss, h1, h2, h3⟩
  | paste _ _ _ _ _ _ _ _ _ _ ih => exact ih

end
end Verif.Sketch
