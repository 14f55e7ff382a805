import Verif.Spec.Picture
import Verif.Props.FlashImage
import Verif.Props.MacroShape

/-!
# Lists of objects that look the same, and what macros with thermals show
-/

namespace Verif.Lemmas.Picture
open Verif.Visitor Verif.Coord Verif.Geom Verif.Rvmc Verif.Compiler Verif.Spec Verif.Props.FlashImage Verif.Math Verif.Macro
  Verif.Props.MacroShape Verif.Lemmas.MacroShape Real
noncomputable section

/-! ## Tones -/

open Classical in
/-- The polarity of the last object that contains a point. -/
def tone : List (Painted (Vec ℝ)) → Vec ℝ → Option Bool
  | [], _ => none
  | o :: os, p => (tone os p).or (if p ∈ o.points then some o.dark else none)

theorem tone_append (os ps : List (Painted (Vec ℝ))) (p : Vec ℝ) : tone (os ++ ps) p = (tone ps p).or (tone os p) := by
  induction os with
  | nil => simp [tone]
  | cons o os ih => simp only [List.cons_append, tone, ih, Option.or_assoc]

theorem tone_none {os : List (Painted (Vec ℝ))} {p : Vec ℝ} : tone os p = none ↔ ∀ o ∈ os, p ∉ o.points := by
  induction os with
  | nil => simp [tone]
  | cons o os ih => simp [tone, ih, and_comm]

theorem tone_some {os : List (Painted (Vec ℝ))} {p : Vec ℝ} {b : Bool} : tone os p = some b ↔
    ∃ before o after, os = before ++ o :: after ∧ p ∈ o.points ∧ (∀ o' ∈ after, p ∉ o'.points) ∧ o.dark = b := by
  constructor
  · induction os with
    | nil => intro h; cases h
    | cons o os ih =>
      intro h
      cases ht : tone os p with
      | some b' =>
        simp only [tone, ht, Option.some_or] at h
        obtain ⟨bs, o', as, e, h1, h2, h3⟩ := ih (ht.trans h)
        exact ⟨o :: bs, o', as, by rw [e]; rfl, h1, h2, h3⟩
      | none =>
        simp only [tone, ht, Option.none_or] at h
        split at h
        · next hm => exact ⟨[], o, os, rfl, hm, tone_none.1 ht, Option.some.inj h⟩
        · cases h
  · rintro ⟨bs, o, as, rfl, h1, h2, rfl⟩
    rw [tone_append]
    simp [tone, tone_none.2 h2, h1]

theorem covered_tone {os : List (Painted (Vec ℝ))} {p : Vec ℝ} : Covered os p ↔ tone os p = some true := tone_some.symm

/-- Objects that leave every point as the others do, whatever was drawn before. -/
def Same (os ps : List (Painted (Vec ℝ))) : Prop := ∀ p, tone os p = tone ps p

theorem Same.refl (os : List (Painted (Vec ℝ))) : Same os os := fun _ => rfl

theorem Same.covered {os ps : List (Painted (Vec ℝ))} (h : Same os ps) (p : Vec ℝ) : Covered os p ↔ Covered ps p := by
  rw [covered_tone, covered_tone, h p]

theorem Same.append {os ps os' ps' : List (Painted (Vec ℝ))} (h : Same os ps) (h' : Same os' ps') :
    Same (os ++ os') (ps ++ ps') := fun p => by rw [tone_append, tone_append, h p, h' p]

theorem tone_image {f : Vec ℝ → Vec ℝ} (hf : Function.Injective f) (os : List (Painted (Vec ℝ))) (p : Vec ℝ) :
    tone (os.map (Painted.image f)) (f p) = tone os p := by
  induction os with
  | nil => rfl
  | cons o os ih =>
    have : f p ∈ (o.image f).points ↔ p ∈ o.points := hf.mem_set_image
    simp only [List.map_cons, tone, ih]
    by_cases hp : p ∈ o.points
    · rw [if_pos hp, if_pos (this.2 hp)]; rfl
    · rw [if_neg hp, if_neg (fun h => hp (this.1 h))]

theorem tone_off {f : Vec ℝ → Vec ℝ} {os : List (Painted (Vec ℝ))} {q : Vec ℝ} (h : ∀ p, f p ≠ q) :
    tone (os.map (Painted.image f)) q = none := by
  rw [tone_none]
  intro o ho hq
  obtain ⟨o', -, rfl⟩ := List.mem_map.1 ho
  obtain ⟨p, -, hp⟩ := hq
  exact h p hp

theorem Same.image {os ps : List (Painted (Vec ℝ))} (h : Same os ps) {f : Vec ℝ → Vec ℝ} (hf : Function.Injective f) :
    Same (os.map (Painted.image f)) (ps.map (Painted.image f)) := by
  intro q
  by_cases hq : ∃ p, f p = q
  · obtain ⟨p, rfl⟩ := hq
    rw [tone_image hf, tone_image hf, h p]
  · push Not at hq
    rw [tone_off hq, tone_off hq]

theorem Same.flatMap {α : Type} {F G : α → List (Painted (Vec ℝ))} (l : List α) (h : ∀ x ∈ l, Same (F x) (G x)) :
    Same (l.flatMap F) (l.flatMap G) := by
  induction l with
  | nil => exact .refl _
  | cons a l ih =>
    rw [List.flatMap_cons, List.flatMap_cons]
    exact (h a (by simp)).append (ih fun x hx => h x (by simp [hx]))

/-- Objects of one polarity look like their union. -/
theorem same_union {os : List (Painted (Vec ℝ))} {dark : Bool} {S : Vec ℝ → Prop} (hd : ∀ o ∈ os, o.dark = dark)
    (hS : ∀ p, S p ↔ ∃ o ∈ os, p ∈ o.points) : Same os [⟨dark, {p | S p}⟩] := by
  intro p
  have e : tone [⟨dark, {p | S p}⟩] p = some dark ↔ S p := by
    simp [tone]
  by_cases hp : S p
  · rw [e.2 hp]
    cases ht : tone os p with
    | none =>
      obtain ⟨o, ho, hpo⟩ := (hS p).1 hp
      exact absurd hpo (tone_none.1 ht o ho)
    | some b =>
      obtain ⟨bs, o, as, e, -, -, rfl⟩ := tone_some.1 ht
      rw [hd o (by rw [e]; simp)]
  · have h1 : tone os p = none := tone_none.2 fun o ho hpo => hp ((hS p).2 ⟨o, ho, hpo⟩)
    rw [h1]
    simp [tone, hp]

/-! ## Commands -/

theorem showsAll_append {ls : List (Spec.Layer LayerId)} {ds es : List (Draw LayerId)} {os ps : List (Painted (Vec ℝ))}
    (h : ShowsAll within ls ds os) (h' : ShowsAll within ls es ps) : ShowsAll within ls (ds ++ es) (os ++ ps) := by
  induction ds generalizing os with
  | nil => cases h; exact h'
  | cons d ds ih =>
    cases h with
    | shape s points _ os ins more => exact .shape s points _ _ ins (ih more)
    | paste src ctr neg objects _ os pasted more => exact .paste src ctr neg objects _ _ pasted (ih more)

theorem showsAll_fixed {c c' : CState} (hknown : ∀ k b, c.buffers.get? k = some b → ∀ s ∈ Draw.sources b, Fixed s)
    (hkeep : ∀ k b, Fixed k → c.buffers.get? k = some b → c'.buffers.get? k = some b) {ds : List (Draw LayerId)}
    {os : List (Painted (Vec ℝ))} (h : ShowsAll within (layersOf c) ds os) (hs : ∀ s ∈ Draw.sources ds, Fixed s) :
    ShowsAll within (layersOf c') ds os := by
  induction ds generalizing os with
  | nil => cases h; exact .nil
  | cons d ds ih =>
    cases h with
    | shape s points _ os ins more => exact .shape s points _ _ ins (ih more hs)
    | paste src ctr neg objects _ os pasted more =>
      exact .paste src ctr neg objects _ _
        (shows_fixed hknown hkeep pasted fun b hb => hkeep _ b (hs src (by simp [Draw.sources])) hb)
        (ih more fun s h => hs s (by simp only [Draw.sources, List.filterMap_cons, List.mem_cons]; exact .inr h))

theorem shows_buffer {c : CState} {k : LayerId} {b : List (Draw LayerId)} {os : List (Painted (Vec ℝ))}
    (hb : c.buffers.get? k = some b) (h : ShowsAll within (layersOf c) b os) : Shows within (layersOf c) k os :=
  .layer ⟨k, b⟩ os (mem_layersOf.2 hb) h

/-- Shapes that depict figures show them. -/
theorem depicted_shows {ls : List (Spec.Layer LayerId)} {figures : List (Bool × Figure)} {ds : List (Draw LayerId)}
    (h : List.Forall₂ Depicts figures ds) : ShowsAll within ls ds (figures.map asObject) := by
  induction h with
  | nil => exact .nil
  | cons hd _ ih =>
    rename_i f d fs ds _
    obtain ⟨s, rfl, h1, h2⟩ := hd
    have e : asObject f = ⟨!s.negative, areaOf s⟩ := by
      unfold asObject
      rw [h1, Bool.not_not]
      congr 1
      ext p
      exact (h2 p).symm
    rw [List.map_cons, e]
    exact .shape s _ _ _ rfl ih

theorem depicted_sources {figures : List (Bool × Figure)} {ds : List (Draw LayerId)}
    (h : List.Forall₂ Depicts figures ds) : Draw.sources ds = [] := by
  induction h with
  | nil => rfl
  | cons hd _ ih =>
    obtain ⟨s, rfl, -, -⟩ := hd
    exact ih

/-! ## Thermals -/

theorem turned_shift (r : ℚ) (S : Vec ℝ → Prop) (c p : Vec ℝ) :
    Turned r S (p - rotCcw ((r : ℝ) * π / 180) c) ↔ Turned r (fun q => S (q - c)) p := by
  have hadd : ∀ u v : Vec ℝ, rotCcw ((r : ℝ) * π / 180) (u + v) = rotCcw ((r : ℝ) * π / 180) u + rotCcw ((r : ℝ) * π / 180) v := by
    intro u v; ext <;> simp [rotCcw] <;> ring
  constructor
  · rintro ⟨q, hq, e⟩
    refine ⟨q + c, ?_, ?_⟩
    · have : q + c - c = q := by ext <;> simp
      show S _
      rw [this]; exact hq
    · rw [hadd, ← e]; ext <;> simp
  · rintro ⟨q, hq, e⟩
    refine ⟨q - c, hq, ?_⟩
    have : q = (q - c) + c := by ext <;> simp
    rw [e, this, hadd, ← this]
    ext <;> simp

theorem abs_le_of_sq {a b : ℝ} (hb : 0 ≤ b) (h : a ^ 2 ≤ b ^ 2) : |a| ≤ b := abs_le_of_sq_le_sq h hb

/-- The points that the ring and the bars of a thermal leave covered. -/
theorem thermal_covered {od k g r l : ℚ} (hod : 0 ≤ od) (hl : od ≤ l) (p : Vec ℝ) :
    Covered ((thermalFigures od k g r l).map asObject) p ↔ Turned r (Thermal ⟨0, 0⟩ od k g) p := by
  have hod' : (0 : ℝ) ≤ (od : ℝ) := by exact_mod_cast hod
  have hl' : (od : ℝ) ≤ (l : ℝ) := by exact_mod_cast hl
  rw [covered_tone]
  have ht : ∀ S : Vec ℝ → Prop, Turned r S p ↔ S (rotCcw (-((r : ℝ) * π / 180)) p) := fun _ => turned_iff
  simp only [thermalFigures, ringHalves, List.map_append, List.map_cons, List.map_nil, List.cons_append, List.nil_append,
    asObject, tone, Set.mem_ofPred_eq, ht]
  generalize rotCcw (-((r : ℝ) * π / 180)) p = q at ht ⊢
  have h1 : Rectangle (point (-l / 2) (-g / 2)) (point (l / 2) (g / 2)) q ↔ |q.x| ≤ (l : ℝ) / 2 ∧ |q.y| ≤ (g : ℝ) / 2 := by
    unfold Rectangle point
    rw [abs_le, abs_le]
    push_cast
    constructor
    · rintro ⟨a, b, c, d⟩; refine ⟨⟨?_, ?_⟩, ?_, ?_⟩ <;> linarith
    · rintro ⟨⟨a, b⟩, c, d⟩; refine ⟨?_, ?_, ?_, ?_⟩ <;> linarith
  have h2 : Rectangle (point (-g / 2) (-l / 2)) (point (g / 2) (l / 2)) q ↔ |q.x| ≤ (g : ℝ) / 2 ∧ |q.y| ≤ (l : ℝ) / 2 := by
    unfold Rectangle point
    rw [abs_le, abs_le]
    push_cast
    constructor
    · rintro ⟨a, b, c, d⟩; refine ⟨⟨?_, ?_⟩, ?_, ?_⟩ <;> linarith
    · rintro ⟨⟨a, b⟩, c, d⟩; refine ⟨?_, ?_, ?_, ?_⟩ <;> linarith
  have h3 : HalfRing true (point 0 0) od k q ∨ HalfRing false (point 0 0) od k q ↔
      ((k : ℝ) / 2) ^ 2 ≤ q.x ^ 2 + q.y ^ 2 ∧ q.x ^ 2 + q.y ^ 2 ≤ ((od : ℝ) / 2) ^ 2 := by
    simp only [HalfRing, point, if_true, Bool.false_eq_true, if_false, Rat.cast_zero, sub_zero]
    constructor
    · rintro (⟨a, b, -⟩ | ⟨a, b, -⟩) <;> exact ⟨a, b⟩
    · rintro ⟨a, b⟩
      rcases le_total q.y 0 with h | h
      · exact .inl ⟨a, b, h⟩
      · exact .inr ⟨a, b, h⟩
  have h4 : Thermal ⟨0, 0⟩ od k g q ↔ (((k : ℝ) / 2) ^ 2 ≤ q.x ^ 2 + q.y ^ 2 ∧ q.x ^ 2 + q.y ^ 2 ≤ ((od : ℝ) / 2) ^ 2) ∧
      (g : ℝ) / 2 < |q.x| ∧ (g : ℝ) / 2 < |q.y| := by
    simp only [Thermal, sub_zero, and_assoc]
  have hx : q.x ^ 2 + q.y ^ 2 ≤ ((od : ℝ) / 2) ^ 2 → |q.x| ≤ (l : ℝ) / 2 := fun h =>
    (abs_le_of_sq (b := (od : ℝ) / 2) (by linarith) (by nlinarith [sq_nonneg q.y])).trans (by linarith)
  have hy : q.x ^ 2 + q.y ^ 2 ≤ ((od : ℝ) / 2) ^ 2 → |q.y| ≤ (l : ℝ) / 2 := fun h =>
    (abs_le_of_sq (b := (od : ℝ) / 2) (by linarith) (by nlinarith [sq_nonneg q.x])).trans (by linarith)
  rw [h4, ← h3]
  by_cases b2 : Rectangle (point (-g / 2) (-l / 2)) (point (g / 2) (l / 2)) q
  · have : ¬ (g : ℝ) / 2 < |q.x| := not_lt.2 (h2.1 b2).1
    simp [ht, b2, this]
  · by_cases b1 : Rectangle (point (-l / 2) (-g / 2)) (point (l / 2) (g / 2)) q
    · have : ¬ (g : ℝ) / 2 < |q.y| := not_lt.2 (h1.1 b1).2
      simp [ht, b1, b2, this]
    · by_cases hr : HalfRing true (point 0 0) od k q ∨ HalfRing false (point 0 0) od k q
      · have hb := (h3.1 hr).2
        have c1 : (g : ℝ) / 2 < |q.x| := by
          by_contra hn
          exact b2 (h2.2 ⟨not_lt.1 hn, hy hb⟩)
        have c2 : (g : ℝ) / 2 < |q.y| := by
          by_contra hn
          exact b1 (h1.2 ⟨hx hb, not_lt.1 hn⟩)
        rcases hr with hr | hr <;> by_cases hr' : HalfRing false (point 0 0) od k q <;> simp [ht, b1, b2, hr, hr', c1, c2]
      · have hr2 := not_or.1 hr
        simp [ht, b1, b2, hr2.1, hr2.2]

/-! ## Macros -/

theorem thermals_prescribed {ρ : List Char → Option ℚ} {p : Prim} {drawn : List (Bool × Figure)} (h : Prescribed ρ p drawn)
    (ps : List Prim) : thermals (p :: ps) = thermals ps := by
  cases h <;> rfl

theorem runPrims_paints {env : Env} {id : Name} {ρ : List Char → Option ℚ} {body : List Prim}
    {figures : List (Bool × Figure)} (h : MacroPaints ρ body figures) :
    ∀ (scope : Dict Name ℚ) (cmds : List Compiler.Cmd) (c c' : CState) (os : List (Painted (Vec ℝ))), scope.get? = ρ →
      SoundMacro ρ body → runPrims env (.ap id) body scope cmds c = .ok c' → Synced c → (thermals body).Nodup →
      Unused (thermals body) c → ShowsAll within (layersOf c) cmds os → (∀ s ∈ Draw.sources cmds, Fixed s) →
      ∃ drawn, c'.buffers.get? (.ap id) = some drawn ∧ ShowsAll within (layersOf c') drawn (os ++ figures.map asObject) := by
  induction h with
  | nil ρ =>
    intro scope cmds c c' os _ _ hrun hn _ _ hos hsrc
    cases hrun
    refine ⟨cmds, by simp [create], ?_⟩
    rw [List.map_nil, List.append_nil]
    refine showsAll_fixed (fun k b hb s hs => (hn.known k b hb s hs).1) ?_ hos hsrc
    intro k b hf hb
    simp only [create, Dict.get?_set]
    rw [if_neg]
    · exact hb
    · rintro rfl
      rcases hf with h | ⟨_, _, h⟩
      · exact h
      · cases h
  | assign hv _ ih =>
    rename_i ρ name e v rest figures _
    intro scope cmds c c' os hρ hs hrun hn hd hu hos hsrc
    subst hρ
    refine ih (scope.set name v) cmds c c' os (by
      funext n
      rw [Dict.get?_set]
      by_cases hn : name = n
      · subst hn; simp
      · rw [if_neg hn, if_neg (Ne.symm hn)]) (hs v hv) ?_ hn hd hu hos hsrc
    simp only [runPrims, primitive, value_evalE hv] at hrun
    simpa [PrimOut.shapes, bind, Except.bind, pure, Except.pure] using hrun
  | primitive hp _ ih =>
    rename_i ρ p rest drawn figures _
    intro scope cmds c c' os hρ hs hrun hn hd hu hos hsrc
    subst hρ
    obtain ⟨hs1, hs2⟩ := soundMacro_prim hp hs
    obtain ⟨o, o1, o2, o3, o4⟩ := c65_primitive_partial (env.time c.calls) scope p drawn hp hs1
    rw [thermals_prescribed hp] at hd hu
    have hn' : Synced { c with calls := c.calls + o.ticks } := ⟨hn.copy, hn.known, hn.plain, hn.shown⟩
    have := ih o.scope (cmds ++ o.cmds) { c with calls := c.calls + o.ticks } c' (os ++ drawn.map asObject) (by rw [o2]) hs2
      (by simp only [runPrims, o1, bind, Except.bind, o3] at hrun; exact hrun) hn' hd hu
      (showsAll_append hos (depicted_shows o4))
      (by intro s hs; rw [sources_append, depicted_sources o4, List.append_nil] at hs; exact hsrc s hs)
    rwa [List.map_append, ← List.append_assoc]
  | thermal hv hk hod hg _ ih =>
    rename_i ρ node cx cy outer inner gap rotation x y od k g r rest figures _
    intro scope cmds c c' os hρ hs hrun hn hd hu hos hsrc
    subst hρ
    obtain ⟨hs1, hs2⟩ : Sound scope.get? (.code7 node cx cy outer inner gap rotation) ∧ SoundMacro scope.get? rest := hs
    have hv' := hv
    rcases hv' with _ | ⟨v1, _ | ⟨v2, _ | ⟨v3, _ | ⟨v4, _ | ⟨v5, _ | ⟨v6, _ | _⟩⟩⟩⟩⟩⟩
    have hgap := hs1 k g v4 v5
    obtain ⟨o, layer, drawn, l, o1, o2, o3, o4, o5, o6⟩ := c65_thermal_partial (env.time c.calls) scope node cx cy outer inner gap
      rotation x y od k g r hv hk hod hg hgap
    obtain ⟨-, k2⟩ := primitive_thermals o1
    obtain ⟨⟨n, e, en⟩, hlsrc⟩ := k2 _ o4
    rw [thermals_cons] at hd hu
    obtain ⟨hd1, hd2, hd3⟩ := List.nodup_append.1 hd
    have hn' : Synced { c with calls := c.calls + o.ticks } := ⟨hn.copy, hn.known, hn.plain, hn.shown⟩
    simp only at e hlsrc
    obtain ⟨s1, s2⟩ := hn'.create (id := layer) (cmds := drawn) (by rw [e]; exact fun h => h)
      (.inl (by rw [e]; exact hu n (by rw [en]; simp) _)) (by rw [hlsrc]; intro s hs; cases hs)
    have hlayer : Shows within (layersOf (create layer drawn { c with calls := c.calls + o.ticks })) layer
        ((thermalFigures od k g r l).map asObject) :=
      shows_buffer (by simp [create]) (depicted_shows o6)
    have hpaste := ShowsAll.paste (outline := within) layer (rotCcw ((r : ℝ) * π / 180) (point x y)) false _ _ _ hlayer .nil
    have hset : ({p | Covered ((thermalFigures od k g r l).map asObject) (p - rotCcw ((r : ℝ) * π / 180) (point x y))} : Set (Vec ℝ)) =
        {p | Turned r (Thermal (point x y) od k g) p} := by
      ext p
      rw [Set.mem_ofPred_eq, Set.mem_ofPred_eq, thermal_covered (by linarith) o5, turned_shift]
      refine turned_congr (fun q => ?_) p
      simp [Thermal]
    rw [hset] at hpaste
    have := ih o.scope (cmds ++ o.cmds) (create layer drawn { c with calls := c.calls + o.ticks }) c'
      (os ++ [asObject (true, Turned r (Thermal (point x y) od k g))]) (by rw [o2]) hs2
      (by simp only [runPrims, o1, bind, Except.bind, o4] at hrun; exact hrun) s1 hd2 (by
        intro n' hn1 t
        simp only [create, Dict.get?_set]
        rw [if_neg]
        · exact hu n' (List.mem_append_right _ hn1) t
        · rw [e]; rintro ⟨⟩
          exact hd3 n (by rw [en]; simp) n hn1 rfl)
      (showsAll_append (showsAll_fixed (c := c) (fun k b hb s hs => (hn.known k b hb s hs).1)
        (fun k b hf hb => (s2 k b (hn'.settled hf) hb).2) hos hsrc) (by rw [o3]; exact hpaste)) (by
        intro s hs
        rw [sources_append] at hs
        rcases List.mem_append.1 hs with hs | hs
        · exact hsrc s hs
        · rw [o3] at hs
          simp only [Draw.sources, List.filterMap_cons, List.filterMap_nil, List.mem_singleton] at hs
          rw [hs]; exact .inr ⟨_, _, e⟩)
    rw [List.map_cons]
    rwa [List.append_assoc] at this

/-- The layer of an aperture shows the figures of its definition. -/
theorem define_paints {env : Env} {id : Name} {d : ApDef} {s : VState} {c c' : CState} {figures : List (Bool × Figure)}
    (h : define env id d s c = .ok c') (hn : Synced c) (hnew : c.buffers.get? (.ap id) = none) (hd : (thermalsOf d s).Nodup)
    (hu : Unused (thermalsOf d s) c) (hf : AperturePaints s.macros.get? d figures) (hs : SoundAperture s.macros.get? d) :
    Shows within (layersOf c') (.ap id) (figures.map asObject) := by
  cases hf with
  | standard hm hf =>
    obtain ⟨c2, drawn, h1, h2, h3⟩ := define_depicts env id d s c figures hf hs
    rw [h1] at h; cases h
    exact shows_buffer h2 (depicted_shows h3)
  | «macro» hm hb =>
    rename_i name params body
    simp only [define, hm] at h
    have e : thermalsOf (.macro name params) s = thermals body := by simp only [thermalsOf, hm]
    rw [e] at hd hu
    have s1 := hn.create (id := .ap id) (cmds := []) (fun h => h) (.inl hnew) (by intro s hs; cases hs)
    obtain ⟨drawn, h1, h2⟩ := runPrims_paints hb (paramScope params) [] _ c' [] (parameter_scope params) (hs body hm) h s1.1 hd (by
      intro n hn1 t
      simp only [create, Dict.get?_set]
      rw [if_neg nofun]; exact hu n hn1 t) .nil (by intro s hs; cases hs)
    exact shows_buffer h1 h2

end
end Verif.Lemmas.Picture
