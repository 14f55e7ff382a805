import Verif.Lemmas.BoardForm
import Verif.Spec.BoardPicture
import Verif.Props.Picture

/-!
# The commands of the builder describe the picture asked for
-/

namespace Verif.BoardPicture
open Verif.Visitor Verif.Coord Verif.Geom Verif.Compiler Verif.Macro Verif.Math Verif.Spec Verif.Spec.Board Verif.GerberBuilder
  Verif.GerberBuilder.Builder
  Verif.Props.Compiler Verif.Props.State Verif.Props.MacroShape Verif.Props.Picture

/-! ### Figures are determined -/

theorem values_unique {ρ : List Char → Option ℚ} : ∀ {es : List Expr} {vs ws : List ℚ}, Values ρ es vs → Values ρ es ws → vs = ws
  | [], _, _, .nil, .nil => rfl
  | _ :: _, _, _, .cons h hs, .cons h' hs' => by rw [value_unique h h', values_unique hs hs']

theorem prescribed_unique {ρ : List Char → Option ℚ} {p : Prim} {fs gs : List (Bool × Figure)} (h : Prescribed ρ p fs)
    (h' : Prescribed ρ p gs) : fs = gs := by
  cases h with
  | comment => cases h'; rfl
  | circle h => cases h' with | circle h' => cases values_unique h h'; rfl
  | circleTurned h => cases h' with | circleTurned h' => cases values_unique h h'; rfl
  | vector2 h => cases h' with | vector2 h' => cases values_unique h h'; rfl
  | vector20 h => cases h' with | vector20 h' => cases values_unique h h'; rfl
  | centerLine h => cases h' with | centerLine h' => cases values_unique h h'; rfl
  | lowerLeftLine h => cases h' with | lowerLeftLine h' => cases values_unique h h'; rfl
  | outline h hx hy =>
    cases h' with
    | outline h' hx' hy' => cases values_unique h h'; cases values_unique hx hx'; cases values_unique hy hy'; rfl
  | polygon h =>
    cases h' with
    | polygon h' =>
      have := values_unique h h'
      simp only [List.cons.injEq, Nat.cast_inj, and_true] at this
      obtain ⟨rfl, rfl, rfl, rfl, rfl, rfl⟩ := this
      rfl
  | moire h =>
    cases h' with
    | moire h' =>
      have := values_unique h h'
      simp only [List.cons.injEq, Nat.cast_inj, and_true] at this
      obtain ⟨rfl, rfl, rfl, rfl, rfl, rfl, rfl, rfl, rfl⟩ := this
      rfl

theorem paints_unique {ρ : List Char → Option ℚ} {body : List Prim} {fs : List (Bool × Figure)} (h : MacroPaints ρ body fs) :
    ∀ {gs}, MacroPaints ρ body gs → fs = gs := by
  induction h with
  | nil ρ => intro gs h'; cases h'; rfl
  | assign hv _ ih =>
    intro gs h'
    cases h' with
    | assign hv' hr' => cases value_unique hv hv'; exact ih hr'
    | primitive hp' _ => cases hp'
  | primitive hp _ ih =>
    intro gs h'
    cases h' with
    | assign => cases hp
    | primitive hp' hr' => rw [prescribed_unique hp hp', ih hr']
    | thermal => cases hp
  | thermal hv _ _ _ _ ih =>
    intro gs h'
    cases h' with
    | primitive hp' _ => cases hp'
    | thermal hv' _ _ _ hr' => cases values_unique hv hv'; rw [ih hr']

theorem standard_unique {ms ms' : Name → Option (List Prim)} {d : ApDef} {fs gs : List (Bool × Figure)} (hd : ∀ n ps, d ≠ .macro n ps)
    (h : AperturePaints ms d fs) (h' : AperturePaints ms' d gs) : fs = gs := by
  cases h with
  | standard _ h =>
    cases h' with
    | standard _ h' =>
      cases h with
      | circle _ => cases h'; rfl
      | rect _ _ => cases h'; rfl
      | obround _ _ => cases h'; rfl
      | polygon _ _ => cases h'; rfl
      | «macro» _ _ => exact absurd rfl (hd _ _)
    | «macro» _ _ => exact absurd rfl (hd _ _)
  | «macro» _ _ => exact absurd rfl (hd _ _)

theorem shape_unique {shape : Board.Shape} {fs gs : List (Bool × Figure)} (h : ShapeFigures shape fs) (h' : ShapeFigures shape gs) :
    fs = gs := by
  cases shape with
  | standard d =>
    cases d with
    | «macro» n ps =>
      cases h with
      | standard hn _ => exact absurd rfl (hn _ _)
      | «macro» h _ => cases h
    | _ => exact standard_unique (fun n ps => by simp) h h'
  | custom body => exact paints_unique h h'

theorem asked_unique {o : Object} {p q : Painted (Vec ℝ)} (h : Asked o p) (h' : Asked o q) : p = q := by
  cases h with
  | pad h => cases h' with | pad h' => rw [shape_unique h h']
  | line =>
    generalize ho : Object.trace .line _ _ _ none = o at h'
    cases h' with
    | line => cases ho; rfl
    | _ => cases ho
  | arc _ => cases h' with | arc _ => rfl
  | region h => cases h' with | region h' => rw [h] at h'; cases h'; rfl

theorem asked_all_unique {os : List Object} {ps qs : List (Painted (Vec ℝ))} (h : List.Forall₂ Asked os ps) :
    List.Forall₂ Asked os qs → ps = qs := by
  induction h generalizing qs with
  | nil => intro h'; cases h'; rfl
  | cons h _ ih => intro h'; cases h' with | cons h' hs' => rw [asked_unique h h', ih hs']

/-! ### Histories -/

/-- What is known about a command and the commands before it. -/
structure Cond (p : List Atom) (a : Atom) : Prop where
  flash : ∀ x y, a = .leaf (.d03 x y) → latest setsScaling 1 p ≠ 0
  stroke : ∀ x y i j, a = .leaf (.d01 x y i j) → inRegion p = false → latest setsScaling 1 p = 1
  arc : ∀ x y ti tj i j id d, a = .leaf (.d01 x y (some ti) (some tj)) → inRegion p = false → latest setsPlot .linear p ≠ .linear →
    Offset p .x ti i → Offset p .y tj j → selected p = some id → latest (adOf id) none p = some (.circle d none) →
    (d : ℝ) < 2 * vlen ⟨i, j⟩
  contour : ((∃ x y, a = .leaf (.d02 x y)) ∨ a = .leaf .g37) → inRegion p = true →
    ∃ s, Pictured p s ∧ ∀ g gs, s.contour = g :: gs → Sound ⟨g, gs, false⟩

theorem conds_snoc {P : List Atom → Atom → Prop} {h : List Atom} {x : Atom} (hh : ∀ p a q, h = p ++ a :: q → P p a) (hx : P h x) :
    ∀ p a q, h ++ [x] = p ++ a :: q → P p a := by
  intro p a q e
  rcases List.eq_nil_or_concat q with rfl | ⟨q', b, rfl⟩
  · obtain ⟨rfl, e2⟩ := List.append_inj' e rfl
    simp only [List.cons.injEq, and_true] at e2
    subst e2
    exact hx
  · have e' : h ++ [x] = (p ++ a :: q') ++ [b] := by rw [e]; simp
    obtain ⟨rfl, -⟩ := List.append_inj' e' rfl
    exact hh p a q' rfl

/-- The commands describe the picture so far. -/
structure Inv (h : List Atom) (s : Sheet) (objs : List (Painted (Vec ℝ))) : Prop where
  ok : (run {} h).exn = none
  pic : Pictured h s
  drawn : s.drawn = [objs]
  tools : ∀ id d, latest (adOf id) none h = some d → ∃ figures,
    AperturePaints (fun name => latest (givesMacro name) none h) d figures ∧ s.tools id = some (.single d (figures.map asObject))
  conds : ∀ p a q, h = p ++ a :: q → Cond p a

/-- Commands that neither define nor draw anything, and do not belong to regions. -/
def still : Leaf → Bool
  | .d01 .. => false | .d02 .. => false | .d03 .. => false | .g36 => false | .g37 => false
  | .ad .. => false | .am .. => false | _ => true

theorem still_silent {l : Leaf} (hl : still l = true) : isSilent (.leaf l) = true := by cases l <;> simp_all [still, isSilent]

theorem still_cond {l : Leaf} (hl : still l = true) (p : List Atom) : Cond p (.leaf l) := by
  refine ⟨?_, ?_, ?_, ?_⟩
  · rintro x y e; cases e; cases hl
  · rintro x y i j e; cases e; cases hl
  · rintro x y ti tj i j id d e; cases e; cases hl
  · rintro (⟨x, y, e⟩ | e) <;> cases e <;> cases hl

theorem latest_same {α : Type} {f : Atom → Option α} {d : α} {h : List Atom} {a : Atom} (ha : f a = none) :
    latest f d (h ++ [a]) = latest f d h := by rw [latest_snoc, ha]; rfl

theorem tools_next {h : List Atom} {s s' : Sheet} {a : Atom}
    (hi : ∀ id d, latest (adOf id) none h = some d → ∃ figures,
      AperturePaints (fun name => latest (givesMacro name) none h) d figures ∧ s.tools id = some (.single d (figures.map asObject)))
    (h1 : ∀ id, adOf id a = none) (h2 : ∀ n, givesMacro n a = none) (h3 : s'.tools = s.tools) :
    ∀ id d, latest (adOf id) none (h ++ [a]) = some d → ∃ figures,
      AperturePaints (fun name => latest (givesMacro name) none (h ++ [a])) d figures ∧
        s'.tools id = some (.single d (figures.map asObject)) := by
  intro id d hd
  rw [latest_same (h1 id)] at hd
  obtain ⟨fs, f1, f2⟩ := hi id d hd
  refine ⟨fs, ?_, by rw [h3]; exact f2⟩
  have : (fun name => latest (givesMacro name) none (h ++ [a])) = fun name => latest (givesMacro name) none h := by
    funext n; exact latest_same (h2 n)
  rw [this]
  exact f1

theorem Inv.still {h : List Atom} {s : Sheet} {objs : List (Painted (Vec ℝ))} (I : Inv h s objs) {l : Leaf} (hl : still l = true)
    (ok : (run {} (h ++ [.leaf l])).exn = none) : Inv (h ++ [.leaf l]) s objs := by
  refine ⟨ok, .other I.pic (still_silent hl), I.drawn, tools_next I.tools (fun id => ?_) (fun n => ?_) rfl,
    conds_snoc I.conds (still_cond hl h)⟩
  · cases l <;> simp_all [BoardPicture.still, adOf]
  · cases l <;> simp_all [BoardPicture.still, givesMacro]

theorem quiet_still {l : Leaf} (hl : quiet l = true) : still l = true := by cases l <;> simp_all [quiet, still]

theorem quiet_ev {h : List Atom} {l : Leaf} (hl : quiet l = true) (ok : (run {} (h ++ [.leaf l])).exn = none) :
    (run {} (h ++ [.leaf l])).ev = (run {} h).ev := by
  obtain ⟨h1, h2⟩ := run_snoc_none.1 ok
  rw [run_snoc_ev h1]
  have : (Visitor.step (run {} h).st (.leaf l)).ev = [] := by
    cases l <;> simp_all [quiet, Visitor.step, stepLeaf, Out.ok]
    case dnn id =>
      split at h2 <;> simp_all [Out.fail]
  rw [this, List.append_nil]

theorem Inv.quiets {us : List Leaf} : ∀ {h : List Atom} {s : Sheet} {objs : List (Painted (Vec ℝ))}, Inv h s objs →
    (∀ u ∈ us, quiet u = true) → (run {} (h ++ us.map .leaf)).exn = none → Inv (h ++ us.map .leaf) s objs ∧
      (run {} (h ++ us.map .leaf)).ev = (run {} h).ev ∧ inRegion (h ++ us.map .leaf) = inRegion h ∧
      latest setsQuad .single (h ++ us.map .leaf) = latest setsQuad .single h := by
  induction us with
  | nil => intro h s objs I _ _; rw [List.map_nil, List.append_nil]; exact ⟨I, rfl, rfl, rfl⟩
  | cons u us ih =>
    intro h s objs I hu ok
    have e : h ++ (u :: us).map Atom.leaf = (h ++ [.leaf u]) ++ us.map .leaf := by simp
    rw [e] at ok ⊢
    have ok1 := (run_append_none.1 ok).1
    have hq := hu u List.mem_cons_self
    obtain ⟨i1, i2, i3, i4⟩ := ih (I.still (quiet_still hq) ok1) (fun u h => hu u (List.mem_cons_of_mem _ h)) ok
    refine ⟨i1, i2.trans (quiet_ev hq ok1), i3.trans ?_, i4.trans ?_⟩
    · have : setsRegion (.leaf u) = none := by clear * - hq; cases u <;> first | rfl | cases hq
      exact latest_same this
    · have : setsQuad (.leaf u) = none := by clear * - hq; cases u <;> first | rfl | cases hq
      exact latest_same this

/-! ### Drawing -/

theorem add_drawn {s : Sheet} {objs : List (Painted (Vec ℝ))} (h : s.drawn = [objs]) (new : List (Painted (Vec ℝ))) :
    (s.add new).drawn = [objs ++ new] ∧ (s.add new).tools = s.tools := by
  unfold Sheet.add
  rw [h]
  exact ⟨rfl, rfl⟩

theorem paints_shape {h : List Atom} (ok : (run {} h).exn = none) {s' : VState} (hm : s'.macros = (run {} h).st.macros) {id : Name}
    {d : ApDef} {shape : Board.Shape} (hs : shapeOf s' (.ad id d) = some shape) {fs gs : List (Bool × Figure)}
    (hf : AperturePaints (fun name => latest (givesMacro name) none h) d fs) (hg : ShapeFigures shape gs) : fs = gs := by
  cases d with
  | «macro» n ps =>
    cases ps with
    | cons a as => simp [Board.shapeOf] at hs
    | nil =>
      simp only [Board.shapeOf, Option.map_eq_some_iff] at hs
      obtain ⟨body, b1, rfl⟩ := hs
      rw [hm, macros_latest h ok] at b1
      cases hf with
      | standard hn _ => exact absurd rfl (hn _ _)
      | «macro» e hp =>
        rw [b1] at e
        cases e
        exact paints_unique hp hg
  | _ =>
    simp only [Board.shapeOf, Option.some.injEq] at hs
    subst hs
    exact standard_unique (fun n ps => by simp) hf hg

theorem current_ad {h : List Atom} (ok : (run {} h).exn = none) {id : Name} {d : ApDef}
    (hc : (run {} h).st.currentAperture = .ok (.ad id d)) : selected h = some id ∧ latest (adOf id) none h = some d := by
  obtain ⟨h1, h2, -, -, -⟩ := selected_inv h ok
  unfold VState.currentAperture at hc
  cases ha : (run {} h).st.apId with
  | none => rw [ha] at hc; simp at hc
  | some i =>
    rw [ha] at hc
    dsimp only at hc
    cases hg : (run {} h).st.apertures.get? i with
    | none =>
      rw [hg] at hc
      dsimp only at hc
      split at hc <;> simp at hc
    | some d' =>
      rw [hg] at hc
      simp only [Except.ok.injEq, Aperture.ad.injEq] at hc
      obtain ⟨rfl, rfl⟩ := hc
      exact ⟨by unfold selected; rw [← h1, ha], by rw [← h2, hg]⟩

theorem Inv.flash {h : List Atom} {s : Sheet} {objs : List (Painted (Vec ℝ))} (I : Inv h s objs) {x y : Option (List Char)}
    (hreg : inRegion h = false) (ok : (run {} (h ++ [.leaf (.d03 x y)])).exn = none) :
    ∃ D, (∃ k ap s', (run {} (h ++ [.leaf (.d03 x y)])).ev = (run {} h).ev ++ [.flash k ap s'] ∧ D = flashOf k ap s') ∧
      ∀ shape l t P, D = .flash (kindOf shape) shape (onGrid l) t → PlainObject (.pad shape l t) → Asked (.pad shape l t) P →
        ∃ s', Inv (h ++ [.leaf (.d03 x y)]) s' (objs ++ [P]) := by
  obtain ⟨h1, h2⟩ := run_snoc_none.1 ok
  obtain ⟨ap, k, e1, e2, e3⟩ := step_d03 h2
  refine ⟨_, ⟨k, ap, _, by rw [run_snoc_ev h1, e3]; rfl, rfl⟩, ?_⟩
  rintro shape l t P hD hpl hask
  unfold flashOf at hD
  cases hs : shapeOf (withXY (run {} h).st x y) ap with
  | none => rw [hs] at hD; cases hD
  | some shape' =>
    rw [hs] at hD
    simp only [Drawn.flash.injEq] at hD
    obtain ⟨-, rfl, hl, ht⟩ := hD
    cases ap with
    | ab id => simp [Board.shapeOf] at hs
    | ad id d =>
      obtain ⟨g1, g2⟩ := current_ad I.ok e1
      obtain ⟨fs, f1, f2⟩ := I.tools id d g2
      obtain ⟨t1, t2, t3, t4⟩ := transform_inv h I.ok
      have ht : (run {} h).st.transform = t := ht
      rw [ht] at t1 t2 t3 t4
      cases hask with
      | pad hfig =>
        have := paints_shape I.ok (s' := withXY (run {} h).st x y) rfl hs f1 hfig
        subst this
        have hat : At (h ++ [.leaf (.d03 x y)]) (vec (onGrid l)) := by
          have := endPoint_at (i := none) (j := none) (s' := withXY (run {} h).st x y) (.inl rfl) ok (.inr (.inr rfl))
          rw [← hl]
          exact this
        have hp := Pictured.flash I.pic hreg g1 f2 hat
        obtain ⟨d1, d2⟩ := add_drawn I.drawn
          [⟨inDark h, {q | ∃ v, Covered (List.map asObject fs) v ∧ q = placedIn h v + vec (onGrid l)}⟩]
        have e : (⟨inDark h, {q | ∃ v, Covered (List.map asObject fs) v ∧ q = placedIn h v + vec (onGrid l)}⟩ : Painted (Vec ℝ)) =
            ⟨decide (t.polarity = .dark), {q | ∃ v, Covered (fs.map asObject) v ∧
              q = placed t.mirroring (t.rotation : ℚ) (t.scaling : ℚ) v + vec (onGrid l)}⟩ := by
          unfold inDark placedIn
          rw [← t1, ← t2, ← t3, ← t4]
        refine ⟨_, ok, hp, by rw [d1, e], tools_next I.tools (fun _ => rfl) (fun _ => rfl) d2, conds_snoc I.conds ?_⟩
        cases hpl with
        | pad c2 =>
          refine ⟨fun _ _ _ => by rw [← t4]; exact c2, ?_, ?_, ?_⟩
          · rintro x y i j e; cases e
          · rintro x y ti tj i j id d e; cases e
          · rintro (⟨x, y, e⟩ | e) <;> cases e

theorem offsets_exist {h : List Atom} {x y : Option (List Char)} {ti tj : List Char}
    (ok : (run {} (h ++ [.leaf (.d01 x y (some ti) (some tj))])).exn = none) :
    ∃ i j, Offset h .x ti i ∧ Offset h .y tj j ∧ (seen h x y (some ti) (some tj)).coordinateI = i ∧
      (seen h x y (some ti) (some tj)).coordinateJ = j := by
  obtain ⟨f, vi, vj, k, r, s, g1, g2, g3, -, -, -⟩ := c56_offsets_given_partial h x y ti tj ok
  have hi : Offset h .x ti vi := ⟨f, g1, g2⟩
  have hj : Offset h .y tj vj := ⟨f, g1, g3⟩
  obtain ⟨e1, e2⟩ := seen_offsets ok hi hj
  exact ⟨vi, vj, hi, hj, e1, e2⟩

theorem offset_unique {h : List Atom} {a : Axis} {t : List Char} {u v : ℚ} (hu : Offset h a t u) (hv : Offset h a t v) : u = v := by
  obtain ⟨f, f1, f2⟩ := hu
  obtain ⟨g, g1, g2⟩ := hv
  cases formatInForce_unique f1 g1
  rw [f2] at g2
  cases g2
  rfl

theorem plot_kind {p : Plot} {k : DrawKind} (h : drawingOf p .multi = k) : (k = .line ↔ p = .linear) ∧ (k = .cwMq ↔ p = .arc) := by
  subst h
  cases p <;> simp [drawingOf]

theorem vlen_back (a o : Vec ℝ) : vlen (a - (a + o)) = vlen o := by
  unfold vlen
  congr 1
  simp only [Vec.sub_x, Vec.sub_y, Vec.add_x, Vec.add_y]
  ring

theorem Inv.stroke {h : List Atom} {s : Sheet} {objs : List (Painted (Vec ℝ))} (I : Inv h s objs) {x y i j : Option (List Char)}
    (hreg : inRegion h = false) (hquad : latest setsQuad .single h = .multi)
    (ok : (run {} (h ++ [.leaf (.d01 x y i j)])).exn = none) :
    ∃ D, (∃ k s', (run {} (h ++ [.leaf (.d01 x y i j)])).ev = (run {} h).ev ++ [.draw k false s'] ∧ D = strokeOf k s') ∧
      ∀ k w b e c P, D = .stroke (.standard (.circle w none)) (edge k b e c) {} →
        (c ≠ none → ∃ ti tj, i = some ti ∧ j = some tj) → PlainObject (.trace k w b e c) → Asked (.trace k w b e c) P →
        ∃ s', Inv (h ++ [.leaf (.d01 x y i j)]) s' (objs ++ [P]) := by
  obtain ⟨h1, h2⟩ := run_snoc_none.1 ok
  obtain ⟨m1, m2, m3, m4, m5⟩ := modes h I.ok
  have e3 := step_d01 h2
  have hk : (run {} h).st.drawHandler = (drawingOf (latest setsPlot .linear h) .multi, false) := by
    rw [m5, hquad]; exact congrArg _ hreg
  rw [hk] at e3
  refine ⟨_, ⟨_, _, by rw [run_snoc_ev h1, e3]; rfl, rfl⟩, ?_⟩
  rintro k w b e c P hD hij hpl hask
  obtain ⟨k1, k2⟩ := plot_kind (k := drawingOf (latest setsPlot .linear h) .multi) rfl
  unfold strokeOf at hD
  have hca : (withIJ (withXY (run {} h).st x y) i j).currentAperture = (run {} h).st.currentAperture := rfl
  rw [hca] at hD
  cases hc : (run {} h).st.currentAperture with
  | error er => rw [hc] at hD; cases hD
  | ok ap =>
    rw [hc] at hD
    dsimp only at hD
    cases hs : Board.shapeOf (withIJ (withXY (run {} h).st x y) i j) ap with
    | none => rw [hs] at hD; cases hD
    | some shape =>
      rw [hs] at hD
      simp only [Drawn.stroke.injEq] at hD
      obtain ⟨rfl, hE, ht⟩ := hD
      have ht : (run {} h).st.transform = {} := ht
      obtain ⟨t1, t2, t3, t4⟩ := transform_inv h I.ok
      rw [ht] at t1 t2 t3 t4
      have hdark : inDark h = true := by unfold inDark; rw [← t1]; rfl
      have hsc : latest setsScaling 1 h = 1 := t4.symm
      have had : ∃ id, ap = .ad id (.circle w none) := by
        cases ap with
        | ab id => simp [Board.shapeOf] at hs
        | ad id d =>
          cases d with
          | «macro» n ps => cases ps <;> simp [Board.shapeOf] at hs
          | _ =>
            simp only [Board.shapeOf, Option.some.injEq, Board.Shape.standard.injEq] at hs
            rw [hs]
            exact ⟨id, rfl⟩
      obtain ⟨id, rfl⟩ := had
      obtain ⟨g1, g2⟩ := current_ad I.ok hc
      obtain ⟨fs, f1, f2⟩ := I.tools id _ g2
      unfold edgeOf edge at hE
      simp only [Edge.mk.injEq] at hE
      obtain ⟨q1, q2, q3, q4⟩ := hE
      have hat : At h (vec (onGrid b)) := by
        have := startPoint_at I.ok x y i j
        rw [← q2]
        exact this
      have hat' : At (h ++ [.leaf (.d01 x y i j)]) (vec (onGrid e)) := by
        have := endPoint_at (s' := seen h x y i j) (.inr rfl) ok (.inl rfl)
        rw [← q3]
        exact this
      have base : ∀ P, Pictured (h ++ [.leaf (.d01 x y i j)]) (s.add [P]) →
          (∀ ti tj oi oj, i = some ti → j = some tj → latest setsPlot .linear h ≠ .linear →
            Offset h .x ti oi → Offset h .y tj oj → (w : ℝ) < 2 * vlen ⟨oi, oj⟩) →
          ∃ s', Inv (h ++ [.leaf (.d01 x y i j)]) s' (objs ++ [P]) := by
        intro P hp harc
        obtain ⟨d1, d2⟩ := add_drawn I.drawn [P]
        refine ⟨_, ok, hp, d1, tools_next I.tools (fun _ => rfl) (fun _ => rfl) d2, conds_snoc I.conds ?_⟩
        refine ⟨?_, fun _ _ _ _ _ _ => hsc, ?_, ?_⟩
        · rintro x y e; cases e
        · rintro x y ti tj oi oj id' d e - hn ho1 ho2 hs1 hs2
          cases e
          rw [g1] at hs1
          cases hs1
          rw [g2] at hs2
          cases hs2
          exact harc ti tj oi oj rfl rfl hn ho1 ho2
        · rintro (⟨x, y, e⟩ | e) <;> cases e
      cases hask with
      | line =>
        have hlin : latest setsPlot .linear h = .linear := k1.1 q1
        have hw : 0 < w := by
          generalize ho : Object.trace .line w b e none = o at hpl
          cases hpl <;> cases ho
          assumption
        have := Pictured.stroke I.pic hreg g1 f2 hw.le hlin hat hat'
        rw [hdark, hsc, mul_one] at this
        refine base _ this fun ti tj oi oj _ _ hn => absurd hlin hn
      | @arc _ _ _ _ c hkind =>
        have hnl : latest setsPlot .linear h ≠ .linear := by
          intro e
          rcases hkind with r | r <;> rw [r] at q1 <;> rw [e] at q1 <;> simp [drawingOf] at q1
        obtain ⟨ti, tj, rfl, rfl⟩ := hij (by simp)
        obtain ⟨oi, oj, o1, o2, o3, o4⟩ := offsets_exist ok
        have hne : ¬ drawingOf (latest setsPlot .linear h) .multi = .line := fun e => hnl (k1.1 e)
        rw [if_neg hne] at q4
        simp only [Option.map_some, Option.some.injEq] at q4
        have ho : vec (onGrid (c.1 - b.1, c.2 - b.2)) = ⟨(oi : ℝ), (oj : ℝ)⟩ := by
          rw [← q4, ← o3, ← o4]
          rfl
        cases hpl with
        | arc hw hlt hrad =>
          rw [ho] at hlt hrad
          have hpos : 0 < vlen ⟨(oi : ℝ), (oj : ℝ)⟩ := by
            have : (0 : ℝ) < w := by exact_mod_cast hw
            linarith
          have := Pictured.strokeArc I.pic hreg g1 f2 hw.le hnl hquad o1 o2 hat hat' ?_ (by rw [vlen_back]; exact hrad)
          · rw [hdark, hsc, mul_one] at this
            rw [ho]
            have hcw : decide (latest setsPlot .linear h = .arc) = decide (k = .cwMq) := by
              rw [decide_eq_decide, ← k2, q1]
            rw [hcw] at this
            refine base _ this ?_
            intro ti' tj' oi' oj' e1 e2 _ p1 p2
            cases e1
            cases e2
            rw [offset_unique p1 o1, offset_unique p2 o2]
            exact hlt
          · intro hh
            have := vlen_back (vec (onGrid b)) ⟨(oi : ℝ), (oj : ℝ)⟩
            rw [← hh] at this
            rw [← this] at hpos
            unfold vlen at hpos
            simp at hpos

/-! ### Regions -/

theorem move_cond {h : List Atom} {x y : Option (List Char)} (hc : inRegion h = true → ∃ s, Pictured h s ∧ ∀ g gs, s.contour = g :: gs →
    Sound ⟨g, gs, false⟩) : Cond h (.leaf (.d02 x y)) := by
  refine ⟨?_, ?_, ?_, fun _ => hc⟩
  · rintro x y e; cases e
  · rintro x y i j e; cases e
  · rintro x y ti tj i j id d e; cases e

theorem Inv.move {h : List Atom} {s : Sheet} {objs : List (Painted (Vec ℝ))} (I : Inv h s objs) {x y : Option (List Char)}
    (hreg : inRegion h = false) (ok : (run {} (h ++ [.leaf (.d02 x y)])).exn = none) :
    Inv (h ++ [.leaf (.d02 x y)]) s objs ∧ (run {} (h ++ [.leaf (.d02 x y)])).ev = (run {} h).ev := by
  obtain ⟨h1, h2⟩ := run_snoc_none.1 ok
  obtain ⟨m1, m2, m3, m4, m5⟩ := modes h I.ok
  refine ⟨⟨ok, .move I.pic hreg, I.drawn, tools_next I.tools (fun _ => rfl) (fun _ => rfl) rfl, conds_snoc I.conds ?_⟩, ?_⟩
  · exact move_cond fun hr => by rw [hreg] at hr; cases hr
  · rw [run_snoc_ev h1, step_d02 h2]
    have : (withXY (run {} h).st x y).updateCoordinates.isRegion = false := by
      rw [updateCoordinates_eq]
      exact m3.trans hreg
    rw [this]
    simp [Out.ok]

theorem Inv.begin {h : List Atom} {s : Sheet} {objs : List (Painted (Vec ℝ))} (I : Inv h s objs)
    (hreg : inRegion h = false) : Inv (h ++ [.leaf .g36]) { s with contour := [] } objs ∧
      (run {} (h ++ [.leaf .g36])).ev = (run {} h).ev ++ [.startRegion] ∧ inRegion (h ++ [.leaf .g36]) = true := by
  have ok : (run {} (h ++ [.leaf .g36])).exn = none := run_snoc_none.2 ⟨I.ok, rfl⟩
  refine ⟨⟨ok, .regionStart I.pic hreg, I.drawn, tools_next I.tools (fun _ => rfl) (fun _ => rfl) rfl, conds_snoc I.conds ?_⟩,
    by rw [run_snoc_ev I.ok]; rfl, by unfold inRegion; rw [latest_snoc]; rfl⟩
  refine ⟨?_, ?_, ?_, ?_⟩
  · rintro x y e; cases e
  · rintro x y i j e; cases e
  · rintro x y ti tj i j id d e; cases e
  · rintro (⟨x, y, e⟩ | e) <;> cases e

/-- The move to the start of a contour. -/
theorem Inv.start {h : List Atom} {s : Sheet} {objs : List (Painted (Vec ℝ))} (I : Inv h s objs) {x y : Option (List Char)}
    (hreg : inRegion h = true) (hs : s.contour = []) (ok : (run {} (h ++ [.leaf (.d02 x y)])).exn = none) :
    Inv (h ++ [.leaf (.d02 x y)]) s objs ∧ (∃ s', (run {} (h ++ [.leaf (.d02 x y)])).ev = (run {} h).ev ++ [.flushRegion s']) := by
  obtain ⟨h1, h2⟩ := run_snoc_none.1 ok
  obtain ⟨m1, m2, m3, m4, m5⟩ := modes h I.ok
  have hp := Pictured.regionMove (x := x) (y := y) I.pic hreg
  have e : Sheet.add { s with contour := [] } (filledContour (inDark h) s.contour) = s := by
    rw [hs]
    show Sheet.add { s with contour := [] } [] = s
    rw [add_nil, ← hs]
  rw [e] at hp
  refine ⟨⟨ok, hp, I.drawn, tools_next I.tools (fun _ => rfl) (fun _ => rfl) rfl, conds_snoc I.conds ?_⟩, ?_⟩
  · exact move_cond fun _ => ⟨s, I.pic, fun g gs hg => by rw [hs] at hg; cases hg⟩
  · rw [run_snoc_ev h1, step_d02 h2]
    have : (withXY (run {} h).st x y).updateCoordinates.isRegion = true := by
      rw [updateCoordinates_eq]
      exact m3.trans hreg
    rw [this]
    exact ⟨_, rfl⟩

theorem vec_inj {a b : Loc} : vec a = vec b ↔ a = b := by
  constructor
  · intro h
    have h1 := congrArg Vec.x h
    have h2 := congrArg Vec.y h
    simp only [vec, Rat.cast_inj] at h1 h2
    exact Prod.ext h1 h2
  · rintro rfl; rfl

/-- A part of a contour. -/
theorem Inv.part {h : List Atom} {s : Sheet} {objs : List (Painted (Vec ℝ))} (I : Inv h s objs) {x y i j : Option (List Char)}
    (hreg : inRegion h = true) (hquad : latest setsQuad .single h = .multi)
    (hij : latest setsPlot .linear h ≠ .linear → ∃ ti tj, i = some ti ∧ j = some tj)
    (ok : (run {} (h ++ [.leaf (.d01 x y i j)])).exn = none) :
    ∃ k s', (run {} (h ++ [.leaf (.d01 x y i j)])).ev = (run {} h).ev ++ [.draw k true s'] ∧
      Inv (h ++ [.leaf (.d01 x y i j)]) { s with contour := s.contour ++ contourPart (edgeOf k s') } objs := by
  obtain ⟨h1, h2⟩ := run_snoc_none.1 ok
  obtain ⟨m1, m2, m3, m4, m5⟩ := modes h I.ok
  have e3 := step_d01 h2
  have hk : (run {} h).st.drawHandler = (drawingOf (latest setsPlot .linear h) .multi, true) := by
    rw [m5, hquad]; exact congrArg _ hreg
  rw [hk] at e3
  refine ⟨_, _, by rw [run_snoc_ev h1, e3]; rfl, ?_⟩
  obtain ⟨k1, k2⟩ := plot_kind (k := drawingOf (latest setsPlot .linear h) .multi) rfl
  have hat : At h (vec (edgeOf (drawingOf (latest setsPlot .linear h) .multi) (seen h x y i j)).start) := startPoint_at I.ok x y i j
  have hat' : At (h ++ [.leaf (.d01 x y i j)]) (vec (edgeOf (drawingOf (latest setsPlot .linear h) .multi) (seen h x y i j)).stop) :=
    endPoint_at (s' := seen h x y i j) (.inr rfl) ok (.inl rfl)
  have cond : Cond h (.leaf (.d01 x y i j)) := by
    refine ⟨?_, ?_, ?_, ?_⟩
    · rintro x y e; cases e
    · rintro x y i j e hr; rw [hreg] at hr; cases hr
    · rintro x y ti tj i j id d e hr; rw [hreg] at hr; cases hr
    · rintro (⟨x, y, e⟩ | e) <;> cases e
  suffices hp : Pictured (h ++ [.leaf (.d01 x y i j)])
      { s with contour := s.contour ++ contourPart (edgeOf (drawingOf (latest setsPlot .linear h) .multi) (seen h x y i j)) } from
    ⟨ok, hp, I.drawn, tools_next I.tools (fun _ => rfl) (fun _ => rfl) rfl, conds_snoc I.conds cond⟩
  by_cases hlin : latest setsPlot .linear h = .linear
  · have hc : (edgeOf (drawingOf (latest setsPlot .linear h) .multi) (seen h x y i j)).center = none := by
      unfold edgeOf; rw [if_pos (k1.2 hlin)]
    have := Pictured.regionLine I.pic hreg hlin hat hat'
    unfold contourPart
    rw [hc]
    exact this
  · obtain ⟨ti, tj, rfl, rfl⟩ := hij hlin
    obtain ⟨oi, oj, o1, o2, o3, o4⟩ := offsets_exist ok
    have hc : (edgeOf (drawingOf (latest setsPlot .linear h) .multi) (seen h x y (some ti) (some tj))).center = some (oi, oj) := by
      unfold edgeOf
      rw [if_neg (fun e => hlin (k1.1 e))]
      rw [o3, o4]
    have hcw : decide (latest setsPlot .linear h = .arc) =
        decide ((edgeOf (drawingOf (latest setsPlot .linear h) .multi) (seen h x y (some ti) (some tj))).kind = .cwMq) := by
      rw [decide_eq_decide, ← k2]
      rfl
    unfold contourPart
    rw [hc]
    dsimp only
    rw [← hcw]
    generalize edgeOf (drawingOf (latest setsPlot .linear h) .multi) (seen h x y (some ti) (some tj)) = E at hat hat'
    by_cases hse : E.start = E.stop
    · rw [if_pos hse]
      rw [← hse] at hat'
      exact Pictured.regionCircle I.pic hreg hlin hquad o1 o2 hat hat'
    · rw [if_neg hse]
      exact Pictured.regionArc I.pic hreg hlin hquad o1 o2 hat hat' fun e => hse (vec_inj.1 e)

theorem mode_plot (p : Plot) (h : List Atom) : latest setsPlot .linear (h ++ [.leaf (modeCommand p)]) = p := by
  rw [latest_snoc]; cases p <;> rfl

theorem mode_quiet (p : Plot) : quiet (modeCommand p) = true := by cases p <;> rfl

/-- The parts of a contour. -/
theorem Inv.outline {objs : List (Painted (Vec ℝ))} : ∀ (segs : List GerberBuilder.Segment) {h : List Atom} {s : Sheet} (_ : Inv h s objs)
    {mode : Option Plot} {ops : List Leaf} (_ : outlineOps mode segs = .ok ops)
    (_ : ∀ p, mode = some p → latest setsPlot .linear h = p) (_ : inRegion h = true) (_ : latest setsQuad .single h = .multi)
    (_ : (run {} (h ++ ops.map .leaf)).exn = none),
    ∃ ev es, (run {} (h ++ ops.map .leaf)).ev = (run {} h).ev ++ ev ∧ (∀ c, reading c ev = [] ∧ pending c ev = c ++ es) ∧ (segs ≠ [] → es ≠ []) ∧
      Inv (h ++ ops.map .leaf) { s with contour := s.contour ++ es.flatMap contourPart } objs ∧ inRegion (h ++ ops.map .leaf) = true := by
  intro segs
  induction segs with
  | nil =>
    intro h s I mode ops ho _ hreg _ _
    cases ho
    rw [List.map_nil, List.append_nil]
    refine ⟨[], [], by simp, fun c => ⟨rfl, by simp [pending]⟩, fun h => absurd rfl h, ?_, hreg⟩
    rw [List.flatMap_nil, List.append_nil]
    exact I
  | cons g segs ih =>
    intro h s I mode ops ho hm hreg hquad ok
    unfold outlineOps at ho
    cases hd : drawOp g.end_ (Segment.offset g) with
    | error e => rw [hd] at ho; cases ho
    | ok d =>
      rw [hd] at ho
      dsimp only at ho
      cases hds : outlineOps (some (Segment.plot g)) segs with
      | error e => rw [hds] at ho; cases ho
      | ok ds =>
        rw [hds] at ho
        simp only [Except.ok.injEq] at ho
        generalize hms : (if mode ≠ some (Segment.plot g) then [modeCommand (Segment.plot g)] else []) = ms at ho
        have hmq : ∀ u ∈ ms, quiet u = true := by
          intro u hu
          subst hms
          split_ifs at hu
          · rw [List.mem_singleton] at hu; rw [hu]; exact mode_quiet _
          · cases hu
        have hmp : latest setsPlot .linear (h ++ ms.map .leaf) = Segment.plot g := by
          subst hms
          split_ifs with hne
          · exact mode_plot _ _
          · rw [not_not] at hne
            rw [List.map_nil, List.append_nil]
            exact hm _ hne
        subst ho
        have e : h ++ (ms ++ d :: ds).map Atom.leaf = ((h ++ ms.map .leaf) ++ [.leaf d]) ++ ds.map .leaf := by simp
        rw [e] at ok ⊢
        have ok1 := (run_append_none.1 ok).1
        have ok0 := (run_append_none.1 ok1).1
        obtain ⟨I1, v1, r1, q1⟩ := I.quiets hmq ok0
        rw [hreg] at r1
        rw [hquad] at q1
        obtain ⟨x, y, i, j, rfl, d1, d2⟩ := drawOp_form hd
        have hij : latest setsPlot .linear (h ++ ms.map .leaf) ≠ .linear → ∃ ti tj, i = some ti ∧ j = some tj := by
          intro hn
          rw [hmp] at hn
          refine d1 ?_
          cases g <;> simp [Segment.plot, Segment.offset] at hn ⊢
        obtain ⟨k, s', v2, I2⟩ := I1.part r1 q1 hij ok1
        have r2 : inRegion ((h ++ ms.map .leaf) ++ [.leaf (.d01 (some x) (some y) i j)]) = true := by
          rw [← r1]; exact latest_same rfl
        have q2 : latest setsQuad .single ((h ++ ms.map .leaf) ++ [.leaf (.d01 (some x) (some y) i j)]) = .multi := by
          rw [← q1]; exact latest_same rfl
        have p2 : ∀ p, some (Segment.plot g) = some p →
            latest setsPlot .linear ((h ++ ms.map .leaf) ++ [.leaf (.d01 (some x) (some y) i j)]) = p := by
          intro p hp
          cases hp
          rw [← hmp]; exact latest_same rfl
        obtain ⟨ev, es, v3, rd, -, I3, r3⟩ := ih I2 hds p2 r2 q2 ok
        refine ⟨.draw k true s' :: ev, edgeOf k s' :: es, ?_, fun c => ?_, fun _ => List.cons_ne_nil _ _, ?_, r3⟩
        · rw [v3, v2, v1]; simp
        · obtain ⟨a1, a2⟩ := rd (c ++ [edgeOf k s'])
          refine ⟨a1, ?_⟩
          simp only [pending]
          rw [a2]
          simp
        · simp only [List.append_assoc, List.flatMap_cons] at I3 ⊢
          exact I3

/-- The end of a region. -/
theorem Inv.finish {h : List Atom} {s : Sheet} {objs : List (Painted (Vec ℝ))} (I : Inv h s objs) (hreg : inRegion h = true) :
    (run {} (h ++ [.leaf .g37])).ev = (run {} h).ev ++ [.flushRegion (run {} h).st, .endRegion] ∧
      ∀ g gs, s.contour = g :: gs → Sound ⟨g, gs, false⟩ → (run {} h).st.transform.polarity = .dark →
        ∃ s', Inv (h ++ [.leaf .g37]) s' (objs ++ [⟨true, areaOf ⟨g, gs, false⟩⟩]) := by
  have ok : (run {} (h ++ [.leaf .g37])).exn = none := run_snoc_none.2 ⟨I.ok, rfl⟩
  refine ⟨by rw [run_snoc_ev I.ok]; rfl, fun g gs hg hsound hpol => ?_⟩
  have hdark : inDark h = true := by
    unfold inDark
    rw [← (transform_inv h I.ok).1, hpol]
    rfl
  have hp := Pictured.regionEnd I.pic hreg
  rw [hg, hdark] at hp
  obtain ⟨d1, d2⟩ := add_drawn (s := { s with contour := [] }) I.drawn (filledContour true (g :: gs))
  refine ⟨_, ok, hp, d1, tools_next I.tools (fun _ => rfl) (fun _ => rfl) d2, conds_snoc I.conds ?_⟩
  refine ⟨?_, ?_, ?_, fun _ _ => ⟨s, I.pic, fun g' gs' hg' => ?_⟩⟩
  · rintro x y e; cases e
  · rintro x y i j e; cases e
  · rintro x y ti tj i j id d e; cases e
  · rw [hg] at hg'
    cases hg'
    exact hsound

/-! ### Objects -/

theorem Inv.moves {ms : List Leaf} : ∀ {h : List Atom} {s : Sheet} {objs : List (Painted (Vec ℝ))}, Inv h s objs →
    (∀ m ∈ ms, ∃ x y, m = .d02 x y) → inRegion h = false → (run {} (h ++ ms.map .leaf)).exn = none →
    Inv (h ++ ms.map .leaf) s objs ∧ (run {} (h ++ ms.map .leaf)).ev = (run {} h).ev := by
  induction ms with
  | nil => intro h s objs I _ _ _; rw [List.map_nil, List.append_nil]; exact ⟨I, rfl⟩
  | cons m ms ih =>
    intro h s objs I hm hreg ok
    have e : h ++ (m :: ms).map Atom.leaf = (h ++ [.leaf m]) ++ ms.map .leaf := by simp
    rw [e] at ok ⊢
    obtain ⟨x, y, rfl⟩ := hm _ List.mem_cons_self
    obtain ⟨I1, v1⟩ := I.move hreg (run_append_none.1 ok).1
    obtain ⟨I2, v2⟩ := ih I1 (fun m h => hm m (List.mem_cons_of_mem _ h)) (by rw [← hreg]; exact latest_same rfl) ok
    exact ⟨I2, v2.trans v1⟩

/-- Commands that do not begin or end regions. -/
theorem region_kept {h : List Atom} {ls : List Leaf} (hl : ∀ l ∈ ls, setsRegion (.leaf l) = none) :
    inRegion (h ++ ls.map .leaf) = inRegion h := by
  refine latest_append_of_none _ _ _ _ fun a ha => ?_
  obtain ⟨l, hl', rfl⟩ := List.mem_map.1 ha
  exact hl l hl'

theorem drawing_quad {h : List Atom} {ls : List Leaf} (hl : ∀ l ∈ ls, drawing l = true) :
    latest setsQuad .single (h ++ ls.map .leaf) = latest setsQuad .single h := by
  refine latest_append_of_none _ _ _ _ fun a ha => ?_
  obtain ⟨l, hl', rfl⟩ := List.mem_map.1 ha
  have := hl l hl'
  clear * - this
  cases l <;> first | rfl | cases this

theorem quiet_region {l : Leaf} (hq : quiet l = true) : setsRegion (.leaf l) = none := by cases l <;> first | rfl | cases hq

/-- The commands of an object. -/
theorem Inv.object {h : List Atom} {s : Sheet} {objs : List (Painted (Vec ℝ))} (I : Inv h s objs) (hreg : inRegion h = false)
    (hquad : latest setsQuad .single h = .multi) {d : GerberBuilder.Draw} {o : Object} (hf : Form d o)
    (ok : (run {} (h ++ d.nodes.map .leaf)).exn = none) :
    ∃ ev D, (run {} (h ++ d.nodes.map .leaf)).ev = (run {} h).ev ++ ev ∧ inRegion (h ++ d.nodes.map .leaf) = false ∧
      reading [] ev = [D] ∧ pending [] ev = [] ∧ ∀ P, Fulfils o D → PlainObject o → Asked o P → ∃ s', Inv (h ++ d.nodes.map .leaf) s' (objs ++ [P]) := by
  cases hf with
  | @pad us x y shape l t hn hu =>
    rw [hn] at ok ⊢
    have e : h ++ (us ++ [Leaf.d03 (some x) (some y)]).map Atom.leaf = (h ++ us.map .leaf) ++ [.leaf (.d03 (some x) (some y))] := by simp
    rw [e] at ok ⊢
    obtain ⟨I1, v1, r1, q1⟩ := I.quiets hu (run_append_none.1 ok).1
    rw [hreg] at r1
    obtain ⟨D, ⟨k, ap, s', v2, hD⟩, hI⟩ := I1.flash r1 ok
    refine ⟨[.flash k ap s'], D, by rw [v2, v1], by rw [← r1]; exact latest_same rfl, by rw [hD]; rfl, rfl, ?_⟩
    intro P hful hpl hask
    exact hI shape l t P hful hpl hask
  | @trace us ms x y k w b e c i j hn hu hm hk hc =>
    rw [hn] at ok ⊢
    have e : h ++ (us ++ ms ++ [Leaf.d01 (some x) (some y) i j]).map Atom.leaf =
      ((h ++ us.map .leaf) ++ ms.map .leaf) ++ [.leaf (.d01 (some x) (some y) i j)] := by simp
    rw [e] at ok ⊢
    have ok1 := (run_append_none.1 ok).1
    obtain ⟨I1, v1, r1, q1⟩ := I.quiets hu (run_append_none.1 ok1).1
    rw [hreg] at r1
    rw [hquad] at q1
    obtain ⟨I2, v2⟩ := I1.moves hm r1 ok1
    have r2 : inRegion ((h ++ us.map .leaf) ++ ms.map .leaf) = false := by
      rw [← r1]
      exact region_kept fun m h => by obtain ⟨x, y, rfl⟩ := hm m h; rfl
    have q2 : latest setsQuad .single ((h ++ us.map .leaf) ++ ms.map .leaf) = .multi := by
      rw [← q1]
      exact drawing_quad fun m h => by obtain ⟨x, y, rfl⟩ := hm m h; rfl
    obtain ⟨D, ⟨k', s', v3, hD⟩, hI⟩ := I2.stroke r2 q2 ok
    refine ⟨[.draw k' false s'], D, by rw [v3, v2, v1], by rw [← r2]; exact latest_same rfl, by rw [hD]; rfl, rfl, ?_⟩
    intro P hful hpl hask
    exact hI k w b _ c P hful hc hpl hask
  | @region us segs ops x y x' y' o hn hu hops hne =>
    rw [hn] at ok ⊢
    have e : h ++ (us ++ Leaf.g36 :: Leaf.d02 x y :: ops ++ [Leaf.g37, Leaf.d02 x' y']).map Atom.leaf =
      (((((h ++ us.map .leaf) ++ [.leaf .g36]) ++ [.leaf (.d02 x y)]) ++ ops.map .leaf) ++ [.leaf .g37]) ++ [.leaf (.d02 x' y')] := by
      simp
    rw [e] at ok ⊢
    have ok5 := (run_append_none.1 ok).1
    have ok4 := (run_append_none.1 ok5).1
    have ok3 := (run_append_none.1 ok4).1
    have ok2 := (run_append_none.1 ok3).1
    have ok1 := (run_append_none.1 ok2).1
    obtain ⟨I1, v1, r1, q1⟩ := I.quiets hu ok1
    rw [hreg] at r1
    rw [hquad] at q1
    obtain ⟨I2, v2, r2⟩ := I1.begin r1
    obtain ⟨I3, s3, v3⟩ := I2.start r2 rfl ok3
    have r3 : inRegion (((h ++ us.map .leaf) ++ [.leaf .g36]) ++ [.leaf (.d02 x y)]) = true := by rw [← r2]; exact latest_same rfl
    have q3 : latest setsQuad .single (((h ++ us.map .leaf) ++ [.leaf .g36]) ++ [.leaf (.d02 x y)]) = .multi := by
      rw [← q1]
      exact (latest_same rfl).trans (latest_same rfl)
    obtain ⟨ev, es, v4, rd, hes, I4, r4⟩ := Inv.outline segs I3 hops (fun p hp => nomatch hp) r3 q3 ok4
    obtain ⟨v5, hI⟩ := I4.finish r4
    have r5 : inRegion ((((((h ++ us.map .leaf) ++ [.leaf .g36]) ++ [.leaf (.d02 x y)]) ++ ops.map .leaf) ++ [.leaf .g37])) = false := by
      unfold inRegion; rw [latest_snoc]; rfl
    generalize hh4 : ((((h ++ us.map Atom.leaf) ++ [.leaf .g36]) ++ [.leaf (.d02 x y)]) ++ ops.map Atom.leaf) = h4 at *
    have v6 : (run {} ((h4 ++ [.leaf .g37]) ++ [.leaf (.d02 x' y')])).ev = (run {} (h4 ++ [.leaf .g37])).ev := by
      obtain ⟨a1, a2⟩ := run_snoc_none.1 ok
      obtain ⟨m1, m2, m3, m4, m5⟩ := modes _ ok5
      rw [run_snoc_ev a1, step_d02 a2]
      have : (withXY (run {} (h4 ++ [.leaf .g37])).st x' y').updateCoordinates.isRegion = false := by
        rw [updateCoordinates_eq]
        exact m3.trans r5
      rw [this]
      simp [Out.ok]
    have hread : reading [] ([.startRegion] ++ [.flushRegion s3] ++ ev ++ [.flushRegion (run {} h4).st, .endRegion]) =
        [.region es (run {} h4).st.transform.polarity] := by
      rw [reading_append, pending_append]
      obtain ⟨a1, a2⟩ := rd []
      have b1 : reading [] ([Event.startRegion] ++ [Event.flushRegion s3] ++ ev) = [] := a1
      have b2 : pending (pending [] ([Event.startRegion] ++ [Event.flushRegion s3])) ev = es := by
        show pending [] ev = es
        rw [a2]; rfl
      rw [b1, b2]
      simp only [reading, List.nil_append, if_neg (hes hne)]
    refine ⟨[.startRegion] ++ [.flushRegion s3] ++ ev ++ [.flushRegion (run {} h4).st, .endRegion],
      .region es (run {} h4).st.transform.polarity, ?_, ?_, hread, ?_, ?_⟩
    · rw [v6, v5, v4, v3, v2, v1]; simp
    · rw [← r5]; exact latest_same rfl
    · rw [pending_append]
      rfl
    · intro P hful hpl hask
      cases hask with
      | @region o g gs hc =>
        have hful : Drawn.region es (run {} h4).st.transform.polarity = .region (edges o.begin o.closed) .dark := hful
        simp only [Drawn.region.injEq] at hful
        obtain ⟨rfl, hdark⟩ := hful
        cases hpl with
        | region hc' hsound =>
          rw [hc] at hc'
          cases hc'
          obtain ⟨s', I5⟩ := hI g gs (by simpa using hc) hsound hdark
          exact ⟨s', (I5.move r5 ok).1⟩

theorem Inv.objects {ds : List GerberBuilder.Draw} {os : List Object} (hf : List.Forall₂ Form ds os) :
    ∀ {h : List Atom} {s : Sheet} {objs : List (Painted (Vec ℝ))}, Inv h s objs → inRegion h = false →
      latest setsQuad .single h = .multi → (∀ d ∈ ds, ∀ l ∈ d.nodes, drawing l = true) →
      (run {} (h ++ (ds.flatMap Draw.nodes).map .leaf)).exn = none →
      ∀ {ev Ps}, (run {} (h ++ (ds.flatMap Draw.nodes).map .leaf)).ev = (run {} h).ev ++ ev →
        List.Forall₂ Fulfils os (reading [] ev) → (∀ o ∈ os, PlainObject o) → List.Forall₂ Asked os Ps →
        ∃ s', Inv (h ++ (ds.flatMap Draw.nodes).map .leaf) s' (objs ++ Ps) := by
  induction hf with
  | nil =>
    intro h s objs I _ _ _ _ ev Ps _ _ _ ha
    cases ha
    rw [List.flatMap_nil, List.map_nil, List.append_nil, List.append_nil]
    exact ⟨s, I⟩
  | @cons d o ds os hdo _ ih =>
    intro h s objs I hreg hquad hdr ok ev Ps hev hful hpl ha
    have e : h ++ ((d :: ds).flatMap Draw.nodes).map Atom.leaf = (h ++ d.nodes.map .leaf) ++ (ds.flatMap Draw.nodes).map .leaf := by
      simp
    rw [e] at ok hev ⊢
    have ok1 := (run_append_none.1 ok).1
    obtain ⟨ev1, D, v1, r1, rd, pd, hI⟩ := I.object hreg hquad hdo ok1
    have hev2 : (run {} ((h ++ d.nodes.map .leaf) ++ (ds.flatMap Draw.nodes).map .leaf)).ev =
        (run {} (h ++ d.nodes.map .leaf)).ev ++ (run (run {} (h ++ d.nodes.map .leaf)).st ((ds.flatMap Draw.nodes).map .leaf)).ev := by
      rw [run_append, Out.andThen_of_none ok1]
    rw [hev2, v1, List.append_assoc, List.append_cancel_left_eq] at hev
    rw [← hev, reading_append, rd, pd] at hful
    cases hful with
    | cons f1 f2 =>
      cases ha with
      | @cons _ P _ Ps a1 a2 =>
        obtain ⟨s', I'⟩ := hI P f1 (hpl o List.mem_cons_self) a1
        have q1 : latest setsQuad .single (h ++ d.nodes.map .leaf) = .multi := by
          rw [← hquad]; exact drawing_quad (hdr d List.mem_cons_self)
        obtain ⟨s'', I''⟩ := ih I' r1 q1 (fun d h => hdr d (List.mem_cons_of_mem _ h)) ok hev2 f2
          (fun o h => hpl o (List.mem_cons_of_mem _ h)) a2
        refine ⟨s'', ?_⟩
        rw [show objs ++ P :: Ps = (objs ++ [P]) ++ Ps from by simp]
        exact I''

/-! ### The header -/

theorem silent_cond {l : Leaf} (hl : isSilent (.leaf l) = true) (p : List Atom) : Cond p (.leaf l) := by
  refine ⟨?_, ?_, ?_, ?_⟩
  · rintro x y e; cases e; cases hl
  · rintro x y i j e; cases e; cases hl
  · rintro x y ti tj i j id d e; cases e; cases hl
  · rintro (⟨x, y, e⟩ | e) <;> cases e <;> cases hl

theorem silents {ls : List Leaf} (hl : ∀ l ∈ ls, isSilent (.leaf l) = true) (ok : (run {} (ls.map .leaf)).exn = none) :
    Inv (ls.map .leaf) ⟨[[]], fun _ => none, []⟩ [] := by
  refine ⟨ok, ?_, rfl, ?_, ?_⟩
  · clear ok
    induction ls using List.reverseRecOn with
    | nil => exact .start
    | append_singleton ls l ih =>
      rw [List.map_append, List.map_singleton]
      exact .other (ih fun l h => hl l (List.mem_append_left _ h)) (hl l (List.mem_append_right _ (List.mem_singleton.2 rfl)))
  · intro id d hd
    have : latest (adOf id) none (ls.map .leaf) = none := by
      have := latest_append_of_none (adOf id) none [] (ls.map .leaf) (fun a ha => by
        obtain ⟨l, h1, rfl⟩ := List.mem_map.1 ha
        have := hl l h1
        clear * - this
        cases l <;> first | rfl | cases this)
      rw [List.nil_append] at this
      rw [this]
      rfl
    rw [this] at hd
    cases hd
  · intro p a q e
    have ha : a ∈ ls.map Atom.leaf := by rw [e]; simp
    obtain ⟨l, h1, rfl⟩ := List.mem_map.1 ha
    exact silent_cond (hl l h1) p

theorem Inv.define {h : List Atom} {s : Sheet} {objs : List (Painted (Vec ℝ))} (I : Inv h s objs) {id : Name} {d : ApDef}
    (hreg : inRegion h = false) {figures : List (Bool × Figure)}
    (hp : AperturePaints (fun name => latest (givesMacro name) none h) d figures) (ok : (run {} (h ++ [.leaf (.ad id d)])).exn = none) :
    Inv (h ++ [.leaf (.ad id d)]) (s.define id (.single d (figures.map asObject))) objs := by
  refine ⟨ok, .aperture I.pic hreg hp, I.drawn, ?_, conds_snoc I.conds ?_⟩
  · intro id' d' hd
    have e : (fun name => latest (givesMacro name) none (h ++ [.leaf (.ad id d)])) = fun name => latest (givesMacro name) none h := by
      funext n; exact latest_same rfl
    rw [e]
    rw [latest_snoc] at hd
    by_cases hi : id' = id
    · subst hi
      simp only [adOf, if_true, Option.getD_some, Option.some.injEq] at hd
      subst hd
      exact ⟨figures, hp, by simp [Sheet.define]⟩
    · rw [show adOf id' (.leaf (.ad id d)) = none from by simp [adOf, Ne.symm hi]] at hd
      obtain ⟨fs, f1, f2⟩ := I.tools id' d' hd
      exact ⟨fs, f1, by simp [Sheet.define, hi, f2]⟩
  · refine ⟨?_, ?_, ?_, ?_⟩
    · rintro x y e; cases e
    · rintro x y i j e; cases e
    · rintro x y ti tj i j id d e; cases e
    · rintro (⟨x, y, e⟩ | e) <;> cases e

/-- Definitions of apertures, and commands that neither define nor draw anything. -/
theorem Inv.defines {ls : List Leaf} : ∀ {h : List Atom} {s : Sheet} {objs : List (Painted (Vec ℝ))}, Inv h s objs →
    inRegion h = false → (∀ l ∈ ls, BoardPicture.still l = true ∨ ∃ id d fs, l = .ad id d ∧
      AperturePaints (fun name => latest (givesMacro name) none h) d fs) → (run {} (h ++ ls.map .leaf)).exn = none →
    ∃ s', Inv (h ++ ls.map .leaf) s' objs ∧ inRegion (h ++ ls.map .leaf) = false := by
  induction ls with
  | nil => intro h s objs I hreg _ _; rw [List.map_nil, List.append_nil]; exact ⟨s, I, hreg⟩
  | cons l ls ih =>
    intro h s objs I hreg hl ok
    have e : h ++ (l :: ls).map Atom.leaf = (h ++ [.leaf l]) ++ ls.map .leaf := by simp
    rw [e] at ok ⊢
    have ok1 := (run_append_none.1 ok).1
    have hm : (fun name => latest (givesMacro name) none (h ++ [.leaf l])) = fun name => latest (givesMacro name) none h := by
      funext n
      refine latest_same ?_
      rcases hl l List.mem_cons_self with hs | ⟨id, d, fs, rfl, -⟩
      · clear * - hs
        cases l <;> first | rfl | cases hs
      · rfl
    have hr : inRegion (h ++ [.leaf l]) = false := by
      rw [← hreg]
      refine latest_same ?_
      rcases hl l List.mem_cons_self with hs | ⟨id, d, fs, rfl, -⟩
      · clear * - hs
        cases l <;> first | rfl | cases hs
      · rfl
    obtain ⟨s1, I1⟩ : ∃ s1, Inv (h ++ [.leaf l]) s1 objs := by
      rcases hl l List.mem_cons_self with hs | ⟨id, d, fs, rfl, hp⟩
      · exact ⟨s, I.still hs ok1⟩
      · exact ⟨_, I.define hreg hp ok1⟩
    refine ih I1 hr (fun l h => ?_) ok
    rw [hm]
    exact hl l (List.mem_cons_of_mem _ h)

/-- The commands the file starts with, up to the apertures. -/
abbrev preamble (b : Builder) : List Leaf := [Leaf.fs format, Leaf.mo .metric] ++ b.macros.map fun m => Leaf.am m.1 m.2

theorem header_eq (b : Builder) : header b = preamble b ++
    (b.pads.flatMap Pad.nodes ++ [.g75]) := by
  unfold header Builder.padNodes
  simp

theorem preamble_macros {b : Builder} (hi : Ids b) : (fun name => latest (givesMacro name) none ((preamble b).map .leaf)) =
    fun n => (b.macros.find? (·.1 = n)).map Prod.snd := by
  obtain ⟨ev, hrun, -⟩ := header_run b
  have ok : (run {} ((header b).map .leaf)).exn = none := by rw [hrun]
  rw [header_eq, List.map_append] at ok
  have ok1 := (run_append_none.1 ok).1
  funext n
  rw [← macros_latest _ ok1]
  have h1 : Runs {} [.fs format, .mo .metric] { format := some format, unit := .metric } [] := rfl
  have h2 := macros_run b.macros { format := some format, unit := .metric }
  have h3 := h1.append h2
  unfold Runs at h3
  rw [h3]
  show (fill [] b.macros).get? n = _
  cases hf : b.macros.find? (·.1 = n) with
  | none =>
    rw [fill_get?]
    have : b.macros.filter (fun e => e.1 = n) = [] := by
      rw [List.filter_eq_nil_iff]
      intro m hm
      have := List.find?_eq_none.1 hf m hm
      simpa using this
    rw [this]
    rfl
  | some m =>
    have hm := List.mem_of_find?_eq_some hf
    have hn : m.1 = n := by simpa using List.find?_some hf
    rw [← hn]
    exact fill_get?_mem hm (fun m' hm' e => hi.macro_unique hm' hm e) []

theorem header_inv {b : Builder} (hi : Ids b) (hp : ∀ p ∈ b.pads, ∃ fs, AperturePaints (fun n => (b.macros.find? (·.1 = n)).map Prod.snd)
    p.node fs) : ∃ s, Inv ((header b).map .leaf) s [] ∧ inRegion ((header b).map .leaf) = false ∧
      latest setsQuad .single ((header b).map .leaf) = .multi := by
  obtain ⟨ev, hrun, -⟩ := header_run b
  have ok : (run {} ((header b).map .leaf)).exn = none := by rw [hrun]
  rw [header_eq, List.map_append] at ok ⊢
  have ok1 := (run_append_none.1 ok).1
  have I := silents (ls := preamble b) (fun l hl => by
    rcases List.mem_append.1 hl with hl | hl
    · fin_cases hl <;> rfl
    · obtain ⟨m, -, rfl⟩ := List.mem_map.1 hl; rfl) ok1
  have hmac := preamble_macros hi
  have hr : inRegion ((preamble b).map .leaf) = false := by
    have := region_kept (h := []) (ls := preamble b) (fun l hl => by
      rcases List.mem_append.1 hl with hl | hl
      · fin_cases hl <;> rfl
      · obtain ⟨m, -, rfl⟩ := List.mem_map.1 hl; rfl)
    exact this
  obtain ⟨s, I', r'⟩ := I.defines hr (ls := b.pads.flatMap Pad.nodes ++ [.g75]) (fun l hl => by
    rcases List.mem_append.1 hl with hl | hl
    · obtain ⟨p, hpm, hl⟩ := List.mem_flatMap.1 hl
      rw [Pad.nodes_eq] at hl
      rcases List.mem_append.1 hl with hl | hl
      · obtain ⟨a, -, rfl⟩ := List.mem_map.1 hl; exact .inl rfl
      · rcases List.mem_cons.1 hl with rfl | hl
        · obtain ⟨fs, hfs⟩ := hp p hpm
          rw [hmac]
          exact .inr ⟨_, _, fs, rfl, hfs⟩
        · split_ifs at hl
          · cases hl
          · rw [List.mem_singleton] at hl; subst hl; exact .inl rfl
    · rw [List.mem_singleton] at hl; subst hl; exact .inl rfl) ok
  refine ⟨s, I', r', ?_⟩
  rw [List.map_append (l₁ := b.pads.flatMap Pad.nodes), ← List.append_assoc]
  exact latest_snoc _ _ _ _

end Verif.BoardPicture
