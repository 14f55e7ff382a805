import Verif.Spec.SketchImage
import Verif.Lemmas.SketchEval
import Verif.Props.Sketch
import Verif.Props.Enclosed

/-!
# Images of the programs of the RVMC builder
-/

namespace Verif.Sketch
open Verif.Rvmc Verif.Geom Verif.Vm Verif.Spec Verif.RvmcBuilder Verif.Render Verif.Props.Painting Verif.Props.Pixels
  Verif.Props.Enclosed Verif.Lemmas.Collinear Verif.Crossing Verif.Fine Verif.Sim Real
noncomputable section
variable {ι : Type}

/-! ### Boxes that are given -/

/-- The layers that are started are known. -/
def Begun (T : ι → Option (Box ℝ) → Prop) (s : State ι) : Prop :=
  (∀ id b o, .start id b o ∈ s.commands → T id b) ∧ ∀ l ∈ s.objs, ∀ id b o, .start id b o ∈ l.commands → T id b

theorem mem_set_or {α : Type} {l : List α} {k : ℕ} {x y : α} (h : y ∈ l.set k x) : y = x ∨ y ∈ l := by
  rcases List.mem_or_eq_of_mem_set h with h | h
  · exact .inr h
  · exact .inl h

theorem begun_add {T : ι → Option (Box ℝ) → Prop} {s : State ι} (h : Begun T s) (r : ℕ) (ds : List (Draw ι)) :
    Begun T (add r (ds.map Command.draw) s).1 := by
  unfold add
  split
  · exact h
  · rename_i l hl
    split_ifs
    · exact h
    · refine ⟨h.1, fun x hx id b o hm => ?_⟩
      rcases mem_set_or hx with rfl | hx
      · simp only [List.mem_append] at hm
        rcases hm with hm | hm
        · exact h.2 l (List.mem_of_getElem? hl) id b o hm
        · simp at hm
      · exact h.2 x hx id b o hm

theorem begun_exit {T : ι → Option (Box ℝ) → Prop} {s : State ι} (h : Begun T s) : Begun T (exit s).1 := by
  unfold exit
  split
  · exact h
  · rename_i k parent blocks _
    split
    · exact h
    · rename_i l hl
      have hfin : ∀ id b o, .start id b o ∈ l.finalize.commands → T id b := by
        intro id b o hm
        simp only [LayerBuilder.finalize, List.mem_append, List.mem_singleton, reduceCtorEq, or_false] at hm
        exact h.2 l (List.mem_of_getElem? hl) id b o hm
      have hobjs : ∀ x ∈ s.objs.set k l.finalize, ∀ id b o, .start id b o ∈ x.commands → T id b := by
        intro x hx id b o hm
        rcases mem_set_or hx with rfl | hx
        · exact hfin id b o hm
        · exact h.2 x hx id b o hm
      simp only
      split
      · split_ifs
        · exact ⟨h.1, hobjs⟩
        · refine ⟨fun id b o hm => ?_, hobjs⟩
          rcases List.mem_append.1 hm with hm | hm
          · exact h.1 id b o hm
          · exact hfin id b o hm
      · split
        · exact h
        · rename_i p hp
          refine ⟨h.1, fun x hx id b o hm => ?_⟩
          rcases mem_set_or hx with rfl | hx
          · simp only [List.mem_append] at hm
            rcases hm with hm | hm
            · exact hobjs p (List.mem_of_getElem? hp) id b o hm
            · exact hfin id b o hm
          · exact hobjs x hx id b o hm

theorem begun_perform {T : ι → Option (Box ℝ) → Prop} {main : ι} {c : Deed ι} {s s' : State ι} (h : Begun T s)
    (h1 : ∀ b o, c = .layer b o → T main b) (h2 : ∀ r id b o, c = .nested r id b o → T id b) (hp : perform main c s = .ok s') : Begun T s' := by
  unfold perform at hp
  cases hop : c.op with
  | error x => rw [hop] at hp; cases hp
  | ok op =>
    rw [hop] at hp
    simp only at hp
    split at hp
    · rename_i s1 hs
      cases hp
      have : s' = (RvmcBuilder.step main op s).1 := by rw [hs]
      subst this
      have hnew : ∀ i b o, T i b → ∀ id b' o', .start id b' o' ∈ (LayerBuilder.new i b o).commands → T id b' := by
        intro i b o ht id b' o' hm
        simp only [LayerBuilder.new, List.mem_singleton, Command.start.injEq] at hm
        rw [hm.1, hm.2.1]; exact ht
      cases c with
      | layer b o =>
        cases hop
        simp only [RvmcBuilder.step, enterMain]
        split_ifs
        · exact h
        · refine ⟨h.1, fun x hx => ?_⟩
          rcases List.mem_append.1 hx with hx | hx
          · exact h.2 x hx
          · rw [List.mem_singleton.1 hx]; exact hnew _ _ _ (h1 b o rfl)
      | nested r id b o =>
        cases hop
        simp only [RvmcBuilder.step, enter]
        split
        · exact h
        · rename_i l hl
          split_ifs
          · exact h
          · exact h
          · refine ⟨h.1, fun x hx => ?_⟩
            rcases List.mem_append.1 hx with hx | hx
            · rcases mem_set_or hx with rfl | hx
              · exact h.2 l (List.mem_of_getElem? hl)
              · exact h.2 x hx
            · rw [List.mem_singleton.1 hx]; exact hnew _ _ _ (h2 r id b o rfl)
      | leave => cases hop; exact begun_exit h
      | mark r m neg =>
        simp only [Deed.op, bind, Except.bind, pure, Except.pure] at hop
        split at hop
        · cases hop
        · rename_i ss _
          cases hop
          have := begun_add h r (ss.map fun x => Draw.shape x)
          rw [List.map_map] at this
          exact this
      | paste r src c neg =>
        cases hop
        simp only [RvmcBuilder.step]
        split
        · exact h
        · exact begun_add h r [_]
      | getRvmc => cases hop; exact h
    · cases hp

theorem begun_all {T : ι → Option (Box ℝ) → Prop} {main : ι} : ∀ (cs : List (Deed ι)) (s s' : State ι), Begun T s →
    (∀ b o, .layer b o ∈ cs → T main b) → (∀ r id b o, .nested r id b o ∈ cs → T id b) → performAll main cs s = .ok s' → Begun T s'
  | [], _, _, h, _, _, hp => by cases hp; exact h
  | c :: cs, s, s', h, h1, h2, hp => by
    simp only [performAll] at hp
    obtain ⟨s1, k1, k2⟩ := ebind.1 hp
    exact begun_all cs s1 s' (begun_perform h (fun b o e => h1 b o (by simp [e])) (fun r id b o e => h2 r id b o (by simp [e])) k1)
      (fun b o e => h1 b o (by simp [e])) (fun r id b o e => h2 r id b o (by simp [e])) k2

theorem asked_begins {main : ι} {h : List (Deed ι)} {d : Plates ι} (ha : AskedFor main h d) :
    (∃ l ∈ d.plates, l.name = main) ∧ ∃ b0 o0 rest, h = .layer b0 o0 :: rest ∧ (∀ b o, .layer b o ∉ rest) ∧
      ∀ r id b o, .nested r id b o ∈ rest → id ≠ main := by
  have keep : ∀ {ps : List (Plate ι)} {r : ℕ} {l l' : Plate ι}, (∃ l ∈ ps, l.name = main) → ps[r]? = some l → l'.name = l.name →
      ∃ l ∈ ps.set r l', l.name = main := by
    rintro ps r l l' ⟨x, hx, hn⟩ hl hne
    obtain ⟨j, hj⟩ := List.mem_iff_getElem?.1 hx
    by_cases hrj : r = j
    · subst hrj
      rw [hl] at hj; cases hj
      exact ⟨l', List.mem_iff_getElem?.2 ⟨r, by rw [List.getElem?_set_self (lt_of_some hl)]⟩, hne.trans hn⟩
    · exact ⟨x, List.mem_iff_getElem?.2 ⟨j, by rw [List.getElem?_set_ne hrj]; exact hj⟩, hn⟩
  induction ha with
  | layer box origin => exact ⟨⟨⟨main, _, _, _⟩, List.mem_singleton.2 rfl, rfl⟩, box, origin, [], rfl, by simp, by simp⟩
  | nested r rest id box origin _ _ hnew ih =>
    obtain ⟨⟨l, hl, hn⟩, b0, o0, rest, rfl, h1, h2⟩ := ih
    refine ⟨⟨l, by simp [hl], hn⟩, b0, o0, rest ++ [_], rfl, by simpa using h1, ?_⟩
    intro r' id' b o hm
    rcases List.mem_append.1 hm with hm | hm
    · exact h2 r' id' b o hm
    · simp only [List.mem_singleton, Deed.nested.injEq] at hm
      rw [hm.2.1]
      rintro rfl
      exact hnew l hl hn
  | mark r l figure negative _ _ hl _ ih =>
    obtain ⟨hm, b0, o0, rest, rfl, h1, h2⟩ := ih
    exact ⟨keep hm hl rfl, b0, o0, rest ++ [_], rfl, by simpa using h1, by simpa using h2⟩
  | paste r rest l src source center negative _ _ hl _ _ ih =>
    obtain ⟨hm, b0, o0, rest, rfl, h1, h2⟩ := ih
    exact ⟨keep hm hl rfl, b0, o0, rest ++ [_], rfl, by simpa using h1, by simpa using h2⟩
  | leave k rest l _ _ _ _ ih =>
    obtain ⟨hm, b0, o0, rest, rfl, h1, h2⟩ := ih
    exact ⟨hm, b0, o0, rest ++ [_], rfl, by simpa using h1, by simpa using h2⟩
  | getRvmc _ _ ih =>
    obtain ⟨hm, b0, o0, rest, rfl, h1, h2⟩ := ih
    exact ⟨hm, b0, o0, rest ++ [_], rfl, by simpa using h1, by simpa using h2⟩

/-- The main layer is not pasted. -/
theorem asked_pastes {main : ι} {h : List (Deed ι)} {d : Plates ι} (ha : AskedFor main h d) :
    (d.opened = [] ∨ d.opened.getLast? = some 0) ∧ ∀ r src c neg, .paste r src c neg ∈ h → src ≠ 0 := by
  induction ha with
  | layer box origin => exact ⟨.inr rfl, by simp⟩
  | nested r rest id box origin _ ho _ ih =>
    refine ⟨.inr ?_, by simpa using ih.2⟩
    rcases ih.1 with h | h
    · rw [ho] at h; cases h
    · simp only [List.getLast?_cons, h, Option.getD_some]
  | mark r l figure negative _ _ _ _ ih => exact ⟨ih.1, by simpa using ih.2⟩
  | @paste h d r rest l src source center negative _ ho _ _ hs ih =>
    refine ⟨ih.1, ?_⟩
    intro r' src' c neg hm
    rcases List.mem_append.1 hm with hm | hm
    · exact ih.2 r' src' c neg hm
    · simp only [List.mem_singleton, Deed.paste.injEq] at hm
      rw [hm.2.1]
      rintro rfl
      rcases ih.1 with h | h
      · rw [ho] at h; cases h
      · exact hs (List.mem_of_getLast? h)
  | @leave h d k rest l _ ho _ _ ih =>
    refine ⟨?_, by simpa using ih.2⟩
    rcases ih.1 with h | h
    · rw [ho] at h; cases h
    · rw [ho] at h
      cases rest with
      | nil => exact .inl rfl
      | cons a rest => exact .inr (by simpa [List.getLast?_cons] using h)
  | getRvmc _ _ ih => exact ⟨ih.1, by simpa using ih.2⟩

/-! ### Areas and boxes -/

theorem area_reach {s : Shape} {p : Vec ℝ} (hp : p ∈ areaOf s) {u : Vec ℝ} (hu : u ≠ ⟨0, 0⟩) :
    ∃ t : ℝ, 0 ≤ t ∧ OnRim s ⟨p.x + t * u.x, p.y + t * u.y⟩ := by
  by_contra h
  push Not at h
  exact not_surrounded hu (fun t ht hr => h t ht hr) hp

/-- Points of a shape that are away from its outline are far within boxes around the outline. -/
theorem area_margin {s : Shape} {p v : Vec ℝ} {b : Box ℝ} {δ : ℝ} (hp : p - v ∈ areaOf s)
    (hr : ∀ w, OnRim s w → ¬ Close δ p (w + v)) (hb : ∀ w, OnRim s w → InBox (w + v) b) (hδ : 0 ≤ δ) :
    b.minX + δ ≤ p.x ∧ p.x + δ ≤ b.maxX ∧ b.minY + δ ≤ p.y ∧ p.y + δ ≤ b.maxY := by
  obtain ⟨t1, k1, r1⟩ := area_reach hp (u := ⟨1, 0⟩) (by intro h; simpa using congrArg Vec.x h)
  obtain ⟨t2, k2, r2⟩ := area_reach hp (u := ⟨-1, 0⟩) (by intro h; simpa using congrArg Vec.x h)
  obtain ⟨t3, k3, r3⟩ := area_reach hp (u := ⟨0, 1⟩) (by intro h; simpa using congrArg Vec.y h)
  obtain ⟨t4, k4, r4⟩ := area_reach hp (u := ⟨0, -1⟩) (by intro h; simpa using congrArg Vec.y h)
  obtain ⟨-, a1, -, -⟩ := hb _ r1
  obtain ⟨a2, -, -, -⟩ := hb _ r2
  obtain ⟨-, -, -, a3⟩ := hb _ r3
  obtain ⟨-, -, a4, -⟩ := hb _ r4
  have far : ∀ t : ℝ, 0 ≤ t → ¬ |t| ≤ δ → δ ≤ t := by
    intro t h0 h; rw [abs_of_nonneg h0] at h; linarith
  have n1 := hr _ r1
  have n2 := hr _ r2
  have n3 := hr _ r3
  have n4 := hr _ r4
  simp only [Close, Vec.add_x, Vec.add_y, Vec.sub_x, Vec.sub_y, mul_one, mul_zero, add_zero, mul_neg] at *
  have m1 := far t1 k1 (fun h => n1 ⟨by rw [show p.x - (p.x - v.x + t1 + v.x) = - t1 by ring, abs_neg]; exact h, by simpa using hδ⟩)
  have m2 := far t2 k2 (fun h => n2 ⟨by rw [show p.x - (p.x - v.x + -t2 + v.x) = t2 by ring]; exact h, by simpa using hδ⟩)
  have m3 := far t3 k3 (fun h => n3 ⟨by simpa using hδ, by rw [show p.y - (p.y - v.y + t3 + v.y) = - t3 by ring, abs_neg]; exact h⟩)
  have m4 := far t4 k4 (fun h => n4 ⟨by simpa using hδ, by rw [show p.y - (p.y - v.y + -t4 + v.y) = t4 by ring]; exact h⟩)
  refine ⟨?_, ?_, ?_, ?_⟩ <;> linarith

/-- Points of a shape are in boxes around its outline. -/
theorem area_in {s : Shape} {p v : Vec ℝ} {b : Box ℝ} (hp : p - v ∈ areaOf s) (hb : ∀ w, OnRim s w → InBox (w + v) b) : InBox p b := by
  obtain ⟨t1, k1, r1⟩ := area_reach hp (u := ⟨1, 0⟩) (by intro h; simpa using congrArg Vec.x h)
  obtain ⟨t2, k2, r2⟩ := area_reach hp (u := ⟨-1, 0⟩) (by intro h; simpa using congrArg Vec.x h)
  obtain ⟨t3, k3, r3⟩ := area_reach hp (u := ⟨0, 1⟩) (by intro h; simpa using congrArg Vec.y h)
  obtain ⟨t4, k4, r4⟩ := area_reach hp (u := ⟨0, -1⟩) (by intro h; simpa using congrArg Vec.y h)
  obtain ⟨-, a1, -, -⟩ := hb _ r1
  obtain ⟨a2, -, -, -⟩ := hb _ r2
  obtain ⟨-, -, -, a3⟩ := hb _ r3
  obtain ⟨-, -, a4, -⟩ := hb _ r4
  simp only [Vec.add_x, Vec.add_y, Vec.sub_x, Vec.sub_y, mul_one, mul_neg] at *
  refine ⟨?_, ?_, ?_, ?_⟩ <;> linarith

/-! ### The pixels of a shape -/

theorem shape_pixels {dpmm : ℤ} (hd : 0 < dpmm) {fill : List (ℤ × ℤ) → Set (ℤ × ℤ)} {ρ : ℝ} (hρ : 0 ≤ ρ) (hf : FillsEvenOdd ρ fill)
    {fuel : ℕ} {s : Shape} (hs : Spec.Sound s) {vs : List (Vec ℝ)} (hv : pillowOutline dpmm fuel s = .ok vs) {box : Box ℝ} {q : ℤ × ℤ}
    {X : Vec ℝ} {d : ℝ} (hd0 : 0 ≤ d) (hq : At dpmm box d q X) (haway : ∀ w, OnRim s w → ¬ Close ((2 + (ρ + d)) / dpmm) X w) :
    q ∈ fill (vs.map fun p => pixel dpmm (p - lowerLeft box)) ↔ X ∈ areaOf s := by
  have hd' : (0 : ℝ) < dpmm := by exact_mod_cast hd
  obtain ⟨layers, hL⟩ : ∃ layers : List (Spec.Layer ℕ), layers = [⟨0, [.shape s]⟩] := ⟨_, rfl⟩
  have hmem : (⟨0, [.shape s]⟩ : Spec.Layer ℕ) ∈ layers := by simp [hL]
  have hn : NoTurns layers := by
    intro l hl s' hs'
    rw [hL, List.mem_singleton] at hl
    subst hl
    simp only [List.mem_singleton, Draw.shape.injEq] at hs'
    subst hs'
    exact hs.1
  have hA : AwayFromOutlines layers dpmm (ρ + d) 0 X := by
    intro n s' c h v hv' hcl
    generalize (0 : ℕ) = i at h
    cases h with
    | shape l mem _ drawn =>
      rw [hL, List.mem_singleton] at mem
      subst mem
      simp only [List.mem_singleton, Draw.shape.injEq] at drawn
      subst drawn
      refine haway v hv' ?_
      have e : v + (⟨0, 0⟩ : Vec ℝ) = v := by ext <;> simp
      rw [e] at hcl
      simpa using hcl
    | paste l mem _ _ _ drawn =>
      rw [hL, List.mem_singleton] at mem
      subst mem
      simp at drawn
  have far := away_sides (fuel := fuel) hd hn hA 0 vs (.shape _ hmem s (by simp) vs hv)
  obtain ⟨f, hf'⟩ : ∃ f : Vec ℝ → Vec ℝ, ∀ v, f v = ⟨(v.x - (lowerLeft box).x) * dpmm, (v.y - (lowerLeft box).y) * dpmm⟩ := ⟨_, fun _ => rfl⟩
  have far' : ∀ e ∈ sides vs, ¬ Spec.Near (1 + ρ + d) (f X) (f e.1, f e.2) := by
    rintro e he ⟨t, t0, t1, n1, n2⟩
    refine far e he ⟨t, t0, t1, ?_, ?_⟩
    · rw [le_div_iff₀ hd', ← abs_of_pos hd', ← abs_mul]
      refine le_trans (le_of_eq ?_) (n1.trans (by push_cast; linarith))
      congr 1
      simp only [hf']; ring
    · rw [le_div_iff₀ hd', ← abs_of_pos hd', ← abs_mul]
      refine le_trans (le_of_eq ?_) (n2.trans (by push_cast; linarith))
      congr 1
      simp only [hf']; ring
  have near : ∀ v, |(f v).x - (f X).x - ((place (pixel dpmm (v - lowerLeft box))).x - (place q).x)| ≤ 1 + d ∧
      |(f v).y - (f X).y - ((place (pixel dpmm (v - lowerLeft box))).y - (place q).y)| ≤ 1 + d := by
    intro v
    simp only [hf', place, pixel, Vec.sub_x, Vec.sub_y]
    constructor
    · have a := towardZero_near ((v.x - (lowerLeft box).x) * dpmm)
      have b := hq.1
      rw [abs_le] at *
      constructor <;> linarith
    · have a := towardZero_near ((v.y - (lowerLeft box).y) * dpmm)
      have b := hq.2
      rw [abs_le] at *
      constructor <;> linarith
  have hpoly : WithinLine vs X ↔ X ∈ areaOf s := by
    obtain ⟨trs, h3, h4⟩ := outline_along hd hs.1 hv
    refine (within_samePath h4).trans (area_iff hs.1 hs.2 (by positivity) h3 fun v hv hcl => ?_)
    refine haway v hv (close_mono (δ := 1 / dpmm) hcl ?_)
    apply div_le_div_of_nonneg_right _ hd'.le
    linarith
  rw [← hpoly, hf]
  · rw [← within_scaled hd' (lowerLeft box) vs X f hf', List.map_map]
    symm
    exact within_near (δ := 1 + d) vs f (place ∘ fun p => pixel dpmm (p - lowerLeft box)) (f X) (place q) (fun v _ => near v)
      (fun e he hn => far' e he (near_mono hn (by linarith)))
  · intro e he hn
    rw [List.map_map, sides_map, List.mem_map] at he
    obtain ⟨e, he, rfl⟩ := he
    obtain ⟨t, t0, t1, n1, n2⟩ := hn
    refine far' e he ⟨t, t0, t1, ?_, ?_⟩
    · obtain ⟨a, -⟩ := near e.1
      obtain ⟨b, -⟩ := near e.2
      simp only [Prod.map, Function.comp] at n1 ⊢
      rw [abs_le] at *
      constructor <;> nlinarith
    · obtain ⟨-, a⟩ := near e.1
      obtain ⟨-, b⟩ := near e.2
      simp only [Prod.map, Function.comp] at n2 ⊢
      rw [abs_le] at *
      constructor <;> nlinarith

end
end Verif.Sketch
