import Verif.Lemmas.Compiler
import Verif.Props.State
import Verif.Props.Geom
import Mathlib.Data.List.Dedup
import Mathlib.Tactic.Ring
import Mathlib.Tactic.LinearCombination

/-!
# C17–C22: what the compiler draws
-/

namespace Verif.Props.Compiler
open Verif.Visitor Verif.Coord Verif.Geom Verif.Rvmc Verif.Compiler Verif.Spec Verif.Props.State
noncomputable section

/-! ### Evaluation of samples -/

/-- Surroundings for the samples: a clock that stands still. -/
def env0 : Env := ⟨fun _ => 0, fun l => l, 10⟩

theorem bwt_step (m : Mat ℝ) (n : Nat) (base : LayerId) (c : CState) :
    bufferWithTransform m (n + 1) base c = match c.buffers.get? (.xform base m) with
    | some _ => .ok (.xform base m, c)
    | none =>
      match c.buffers.get? base with
      | none => .error .keyError
      | some cmds => do
        let r ← transformCmds m (bufferWithTransform m n) cmds c
        return (.xform base m, create (.xform base m) r.1 r.2) := rfl

theorem resolve_step {ι : Type} [DecidableEq ι] (deps : ι → Option (List ι)) (n : Nat) (id : ι) (order : List ι) :
    resolve deps (n + 1) id order = match deps id with
    | none => .error .keyError
    | some ds => do
      let order ← resolve.loop (resolve deps n) id ds order
      return order ++ [id] := rfl

theorem transform_origin (t : Transform) : (transformMatrix t).apply ⟨0, 0⟩ = ⟨0, 0⟩ := by
  unfold transformMatrix
  ext <;> simp [Mat.apply, Mat.matmul, Mat.newReflect, Mat.newRotate, Mat.newRotateCS, Mat.newScale, Mat.ofRows]

/-- Evaluation of the compiler on a concrete history. -/
macro "eval_compiler" "[" ls:Lean.Parser.Tactic.simpLemma,* "]" : tactic =>
  `(tactic| simp [compiled, run, Visitor.step, stepLeaf, feed, Compiler.step, Out.ok, Out.andThen, define, create,
    CState.init, Dict.set, Dict.get?, storeAttributes, VState.currentAperture, visitXY, visitIJ, coordinate, flashKind,
    flashCurrent, flash, flashAperture, flashBlock, VState.updateCoordinates, bwt_step, transformCmds, env0,
    append, bind, Except.bind, pure, Except.pure, endPoint, startPoint, pt, VState.coordinateX, VState.coordinateY,
    VState.isNegative, holeOf, transform_origin, $ls,*])

/-! ### The transform in force -/

theorem transform_inv : ∀ h, (run {} h).exn = none →
    (run {} h).st.transform.polarity = latest setsPolarity .dark h ∧
    (run {} h).st.transform.mirroring = latest setsMirroring .none h ∧
    (run {} h).st.transform.rotation = latest setsRotation 0 h ∧
    (run {} h).st.transform.scaling = latest setsScaling 1 h := by
  refine history_induction ?_ ?_
  · exact ⟨rfl, rfl, rfl, rfl⟩
  · intro h a h1 h2 ih
    rw [run_snoc_st h1]
    simp only [latest_snoc]
    generalize (run {} h).st = s at *
    obtain ⟨i1, i2, i3, i4⟩ := ih
    rw [← i1, ← i2, ← i3, ← i4]
    refine step_elim h2 (P := fun a s' => s'.transform.polarity = (setsPolarity a).getD _ ∧
      s'.transform.mirroring = (setsMirroring a).getD _ ∧ s'.transform.rotation = (setsRotation a).getD _ ∧
      s'.transform.scaling = (setsScaling a).getD _) ?_ ?_ ?_ ?_ ?_
    · intros; exact ⟨rfl, rfl, rfl, rfl⟩
    · intros; exact ⟨rfl, rfl, rfl, rfl⟩
    · intros; exact ⟨rfl, rfl, rfl, rfl⟩
    · intros; exact ⟨rfl, rfl, rfl, rfl⟩
    · intro a hp hs
      clear i1 i2 i3 i4 h2
      cases a with
      | leaf l =>
        cases l <;> try (simp [isPlain] at hp; done)
        all_goals try exact ⟨rfl, rfl, rfl, rfl⟩
        case td m => cases m <;> exact ⟨rfl, rfl, rfl, rfl⟩
      | _ => exact ⟨rfl, rfl, rfl, rfl⟩

/-- The polarity in force after a history. -/
theorem isNegative_inv (h : List Atom) (hr : (run {} h).exn = none) :
    (run {} h).st.isNegative = decide (latest setsPolarity .dark h = .clear) := by
  rw [← (transform_inv h hr).1]
  unfold VState.isNegative
  cases (run {} h).st.transform.polarity <;> rfl

/-- The transform in force maps points as the specification says. -/
theorem transform_placed (h : List Atom) (hr : (run {} h).exn = none) (v : Vec ℝ) :
    (transformMatrix (run {} h).st.transform).apply v =
      placed (latest setsMirroring .none h) (latest setsRotation 0 h : ℚ) (latest setsScaling 1 h : ℚ) v := by
  obtain ⟨-, e2, e3, e4⟩ := transform_inv h hr
  rw [← e2, ← e3, ← e4]
  generalize (run {} h).st.transform = t
  unfold transformMatrix placed
  cases t.mirroring <;>
    ext <;> simp [Mat.apply, Mat.matmul, Mat.newReflect, Mat.newRotate, Mat.newRotateCS, Mat.newScale, Mat.ofRows,
      rotCcw, radians] <;> ring

/-! ### One command -/

theorem compiled_pre {env : Env} {h : List Atom} {a : Atom} {c' : CState} (hr : (run {} (h ++ [a])).exn = none)
    (hc : compiled env (h ++ [a]) = .ok c') :
    (run {} h).exn = none ∧ (Visitor.step (run {} h).st a).exn = none ∧
      ∃ c, compiled env h = .ok c ∧ feed env (Visitor.step (run {} h).st a).ev c = .ok c' := by
  obtain ⟨h1, h2⟩ := run_snoc_none.1 hr
  rw [compiled_snoc h1, bind_ok] at hc
  exact ⟨h1, h2, hc⟩

/-- The state seen by the callback of a `D01`. -/
abbrev seen (h : List Atom) (x y i j : Option (List Char)) : VState := withIJ (withXY (run {} h).st x y) i j

theorem d01_outside {env : Env} {h : List Atom} {x y i j : Option (List Char)} {c' : CState}
    (hr : (run {} (h ++ [.leaf (.d01 x y i j)])).exn = none)
    (hc : compiled env (h ++ [.leaf (.d01 x y i j)]) = .ok c') (hreg : latest setsRegion false h = false) :
    ∃ ss, drawShapes (drawingOf (latest setsPlot .linear h) (latest setsQuad .single h)) (seen h x y i j) = .ok ss ∧
      Draws env h (.leaf (.d01 x y i j)) (ss.map .shape) := by
  obtain ⟨h1, h2, c, hc1, hc2⟩ := compiled_pre hr hc
  obtain ⟨-, -, -, -, m⟩ := modes h h1
  rw [step_d01 h2, m, hreg] at hc2
  change feed env [_] c = .ok c' at hc2
  rw [feed_singleton] at hc2
  simp only [Compiler.step, draw, if_false, Bool.false_eq_true] at hc2
  obtain ⟨ss, h3, h4⟩ := bind_ok.1 hc2
  exact ⟨ss, h3, draws_of hc1 hc (Grows.refl (Mat.newScale 1 1) c) h4 rfl rfl⟩

theorem draws_nil {env : Env} {h : List Atom} {a : Atom} {c c' : CState} (hc : compiled env h = .ok c)
    (hc' : compiled env (h ++ [a]) = .ok c') (e1 : c'.stack = c.stack) (e2 : c'.buffers = c.buffers) :
    Draws env h a [] :=
  draws_of hc hc' (Grows.refl (Mat.newScale 1 1) c) (show append [] c = .ok c from rfl) e1 e2

theorem d01_inside {env : Env} {h : List Atom} {x y i j : Option (List Char)} {c' : CState}
    (hr : (run {} (h ++ [.leaf (.d01 x y i j)])).exn = none)
    (hc : compiled env (h ++ [.leaf (.d01 x y i j)]) = .ok c') (hreg : latest setsRegion false h = true) :
    Draws env h (.leaf (.d01 x y i j)) [] ∧ ∃ c, compiled env h = .ok c ∧
      c'.contour = c.contour.map (· ++
        contourSegments (drawingOf (latest setsPlot .linear h) (latest setsQuad .single h)) (seen h x y i j)) := by
  obtain ⟨h1, h2, c, hc1, hc2⟩ := compiled_pre hr hc
  obtain ⟨-, -, -, -, m⟩ := modes h h1
  rw [step_d01 h2, m, hreg] at hc2
  change feed env [_] c = .ok c' at hc2
  rw [feed_singleton] at hc2
  generalize drawingOf (latest setsPlot .linear h) (latest setsQuad .single h) = k at *
  simp only [Compiler.step, draw, if_true] at hc2
  have hsq : ∀ s, contourSegments .cwSq s = [] ∧ contourSegments .ccwSq s = [] := fun s => ⟨rfl, rfl⟩
  have hgen : (match c.contour with
      | none => Except.error CErr.contourNotSet
      | some g => .ok { c with contour := some (g ++ contourSegments k (seen h x y i j)) }) = .ok c' →
      Draws env h (.leaf (.d01 x y i j)) [] ∧ ∃ c, compiled env h = .ok c ∧
      c'.contour = c.contour.map (· ++ contourSegments k (seen h x y i j)) := by
    intro hx
    split at hx
    · cases hx
    · next g hg =>
      cases hx
      exact ⟨draws_nil hc1 hc rfl rfl, c, hc1, by rw [hg]; rfl⟩
  cases k with
  | cwSq =>
    cases hc2
    refine ⟨draws_nil hc1 hc rfl rfl, c', hc1, ?_⟩
    rw [(hsq _).1]; cases hcc : c'.contour <;> simp
  | ccwSq =>
    cases hc2
    refine ⟨draws_nil hc1 hc rfl rfl, c', hc1, ?_⟩
    rw [(hsq _).2]; cases hcc : c'.contour <;> simp
  | line => exact hgen hc2
  | cwMq => exact hgen hc2
  | ccwMq => exact hgen hc2

theorem flush_ok {env : Env} {s : VState} {c c' : CState} (h : Compiler.step env (.flushRegion s) c = .ok c') :
    ∃ g c1, c.contour = some g ∧ c'.contour = some [] ∧ c'.buffers = c1.buffers ∧ c'.stack = c1.stack ∧
      append (match g with
        | [] => []
        | g :: gs => [.shape ⟨g, gs, s.isNegative⟩]) c = .ok c1 := by
  simp only [Compiler.step, flushRegion] at h
  split at h
  · cases h
  · next hg => cases h; exact ⟨[], c, hg, rfl, rfl, rfl, rfl⟩
  · next g gs hg =>
    obtain ⟨c1, h1, h2⟩ := bind_ok.1 h
    rw [pure_ok] at h2; subst h2
    exact ⟨g :: gs, c1, hg, rfl, rfl, rfl, h1⟩

/-- The shape that a contour becomes. -/
def contourShape (negative : Bool) : List Segment → List (Draw LayerId)
  | [] => []
  | g :: gs => [.shape ⟨g, gs, negative⟩]

theorem d02_draws {env : Env} {h : List Atom} {x y : Option (List Char)} {c' : CState}
    (hr : (run {} (h ++ [.leaf (.d02 x y)])).exn = none)
    (hc : compiled env (h ++ [.leaf (.d02 x y)]) = .ok c') :
    ∃ c, compiled env h = .ok c ∧
      if latest setsRegion false h then
        ∃ g, c.contour = some g ∧ c'.contour = some [] ∧
          Draws env h (.leaf (.d02 x y)) (contourShape (decide (latest setsPolarity .dark h = .clear)) g)
      else c'.contour = c.contour ∧ Draws env h (.leaf (.d02 x y)) [] := by
  obtain ⟨h1, h2, c, hc1, hc2⟩ := compiled_pre hr hc
  obtain ⟨-, -, m, -, -⟩ := modes h h1
  refine ⟨c, hc1, ?_⟩
  have hneg := isNegative_inv h h1
  rw [step_d02 h2, updateCoordinates_eq] at hc2
  simp only [withXY, Out.ok, m] at hc2
  split at hc2
  · next hreg =>
    rw [if_pos hreg]
    rw [feed_singleton] at hc2
    obtain ⟨g, c1, e1, e2, e3, e4, e5⟩ := flush_ok hc2
    refine ⟨g, e1, e2, ?_⟩
    refine draws_of hc1 hc (Grows.refl (Mat.newScale 1 1) c) (c2 := c1) ?_ e4 e3
    rw [← e5, ← hneg]
    cases g <;> rfl
  · next hreg =>
    rw [if_neg hreg]
    cases hc2
    exact ⟨rfl, draws_nil hc1 hc rfl rfl⟩

theorem g37_draws {env : Env} {h : List Atom} {c' : CState}
    (hr : (run {} (h ++ [.leaf .g37])).exn = none) (hc : compiled env (h ++ [.leaf .g37]) = .ok c') :
    ∃ c g, compiled env h = .ok c ∧ c.contour = some g ∧ c'.contour = none ∧
      Draws env h (.leaf .g37) (contourShape (decide (latest setsPolarity .dark h = .clear)) g) := by
  obtain ⟨h1, h2, c, hc1, hc2⟩ := compiled_pre hr hc
  have hneg := isNegative_inv h h1
  simp only [Visitor.step, stepLeaf, Out.ok] at hc2
  obtain ⟨c2, h3, h4⟩ := feed_cons_ok.1 hc2
  rw [feed_singleton] at h4
  cases h4
  obtain ⟨g, c1, e1, e2, e3, e4, e5⟩ := flush_ok h3
  refine ⟨c, g, hc1, e1, rfl, ?_⟩
  refine draws_of hc1 hc (Grows.refl (Mat.newScale 1 1) c) (c2 := c1) ?_ e4 e3
  rw [← e5, ← hneg]
  cases g <;> rfl

theorem endPoint_at {h : List Atom} {x y i j : Option (List Char)} {s' : VState}
    (hs : s' = withXY (run {} h).st x y ∨ s' = seen h x y i j) {a : Atom} (hr : (run {} (h ++ [a])).exn = none)
    (ha : a = .leaf (.d01 x y i j) ∨ a = .leaf (.d02 x y) ∨ a = .leaf (.d03 x y)) :
    At (h ++ [a]) (endPoint s') := by
  obtain ⟨h1, h2⟩ := run_snoc_none.1 hr
  obtain ⟨l1, l2⟩ := current_inv _ hr
  refine ⟨_, _, l1, l2, ?_⟩
  rw [run_snoc_st h1]
  rcases ha with rfl | rfl | rfl
  · rw [step_d01 h2, updateCoordinates_eq]
    rcases hs with rfl | rfl <;> rfl
  · rw [step_d02 h2, updateCoordinates_eq]
    rcases hs with rfl | rfl <;> rfl
  · obtain ⟨ap, k, -, -, e⟩ := step_d03 h2
    rw [e, updateCoordinates_eq]
    rcases hs with rfl | rfl <;> rfl

theorem startPoint_at {h : List Atom} (hr : (run {} h).exn = none) (x y i j : Option (List Char)) :
    At h (startPoint (seen h x y i j)) := by
  obtain ⟨l1, l2⟩ := current_inv _ hr
  exact ⟨_, _, l1, l2, rfl⟩

/-- Flashes of defined apertures. -/
theorem d03_draws {env : Env} {h : List Atom} {x y : Option (List Char)} {c' : CState}
    (hr : (run {} (h ++ [.leaf (.d03 x y)])).exn = none)
    (hc : compiled env (h ++ [.leaf (.d03 x y)]) = .ok c') {id : Name} {d : ApDef}
    (hap : (run {} h).st.currentAperture = .ok (.ad id d)) :
    ∃ c c1 b, compiled env h = .ok c ∧ Grows (transformMatrix (run {} h).st.transform) c c1 ∧
      c1.buffers.get? (.xform (.ap id) (transformMatrix (run {} h).st.transform)) = some b ∧
      c'.buffers.get? (.xform (.ap id) (transformMatrix (run {} h).st.transform)) = some b ∧
      Draws env h (.leaf (.d03 x y)) [.paste (.xform (.ap id) (transformMatrix (run {} h).st.transform))
        (endPoint (withXY (run {} h).st x y)) (decide (latest setsPolarity .dark h = .clear))] := by
  obtain ⟨h1, h2, c, hc1, hc2⟩ := compiled_pre hr hc
  have hneg := isNegative_inv h h1
  obtain ⟨ap, k, e1, e2, e3⟩ := step_d03 h2
  rw [hap] at e1; cases e1
  rw [e3] at hc2
  change feed env [_] c = .ok c' at hc2
  rw [feed_singleton] at hc2
  have hfl : flashAperture env id (withXY (run {} h).st x y) c = .ok c' := by
    cases k with
    | block => cases hc2
    | _ => exact hc2
  obtain ⟨c1, b, g, hb, hap⟩ := flashAperture_ok hfl
  have hn2 : (withXY (run {} h).st x y).isNegative = decide (latest setsPolarity .dark h = .clear) := hneg
  rw [hn2] at hap
  refine ⟨c, c1, b, hc1, g, hb, ?_, draws_of hc1 hc g hap rfl rfl⟩
  rw [(append_ok hap).2.2.2, if_neg]
  · exact hb
  · rw [g.stack]
    intro hx
    exact stack_plain hc1 _ (List.mem_of_head? hx) trivial

/-- Flashes of block apertures. -/
theorem d03_block_draws {env : Env} {h : List Atom} {x y : Option (List Char)} {c' : CState}
    (hr : (run {} (h ++ [.leaf (.d03 x y)])).exn = none)
    (hc : compiled env (h ++ [.leaf (.d03 x y)]) = .ok c') {id : Name}
    (hap : (run {} h).st.currentAperture = .ok (.ab id)) :
    ∃ c c1 b, compiled env h = .ok c ∧ Grows (transformMatrix (run {} h).st.transform) c c1 ∧
      c1.buffers.get? (.xform (.ap id) (transformMatrix (run {} h).st.transform)) = some b ∧
      c'.buffers.get? (.xform (.ap id) (transformMatrix (run {} h).st.transform)) = some b ∧
      Draws env h (.leaf (.d03 x y)) (moved (Mat.newTranslate ((withXY (run {} h).st x y).coordinateX : ℝ)
        ((withXY (run {} h).st x y).coordinateY : ℝ)) b) := by
  obtain ⟨h1, h2, c, hc1, hc2⟩ := compiled_pre hr hc
  obtain ⟨ap, k, e1, e2, e3⟩ := step_d03 h2
  rw [hap] at e1; cases e1
  rw [e3] at hc2
  change feed env [_] c = .ok c' at hc2
  rw [feed_singleton] at hc2
  have hfl : flashBlock env id (withXY (run {} h).st x y) c = .ok c' := by
    cases k with
    | block => exact hc2
    | _ => cases hc2
  obtain ⟨c1, b, g, hb, hap⟩ := flashBlock_ok hfl
  refine ⟨c, c1, b, hc1, g, hb, ?_, draws_of hc1 hc g hap rfl rfl⟩
  rw [(append_ok hap).2.2.2, if_neg]
  · exact hb
  · rw [g.stack]
    intro hx
    exact stack_plain hc1 _ (List.mem_of_head? hx) trivial

theorem moved_translate (v : Vec ℝ) (cmds : List (Draw LayerId)) :
    moved (Mat.newTranslate v.x v.y) cmds = cmds.map (shift v) := by
  have hseg : ∀ g : Segment, g.transform (Mat.newTranslate v.x v.y) = shiftSegment v g := by
    intro g
    cases g with
    | line l => simp [Segment.transform, Line.transform, shiftSegment, Mat.apply, Mat.newTranslate, Mat.ofRows]
    | arc a => simp [Segment.transform, Arc.transform, Mat.keepsSense, shiftSegment, Mat.apply, Mat.newTranslate, Mat.ofRows]
  unfold moved
  apply List.map_congr_left
  intro d _
  cases d with
  | shape s =>
    simp only [shift, Shape.transform, hseg]
  | paste src c n => simp [shift, Mat.apply, Mat.newTranslate, Mat.ofRows]

/-! ### C21 -/

/-- Commands that may draw: draws, moves (they end a contour), flashes and the end of a region. -/
def mayDraw : Atom → Bool
  | .leaf (.d01 ..) => true
  | .leaf (.d02 ..) => true
  | .leaf (.d03 ..) => true
  | .leaf .g37 => true
  | _ => false

theorem drawShapes_negative {k : DrawKind} {s : VState} {ss : List Shape} (h : drawShapes k s = .ok ss) :
    ∀ g ∈ ss, g.negative = s.isNegative := by
  have harc : ∀ cw a b c t n, (arcShape cw a b c t n).negative = n := by
    intro cw a b c t n; cases cw <;> rfl
  have hal : ∀ cw, arcShapes cw s = .ok ss → ∀ g ∈ ss, g.negative = s.isNegative := by
    intro cw h
    obtain ⟨t, h1, h2⟩ := bind_ok.1 h
    simp only at h2
    split at h2 <;>
    · rw [pure_ok] at h2; subst h2
      intro g hg
      simp only [List.mem_cons, List.not_mem_nil, or_false] at hg
      rcases hg with rfl | rfl | rfl | rfl <;> first | rfl | exact harc _ _ _ _ _ _
  cases k with
  | line =>
    obtain ⟨t, h1, h2⟩ := bind_ok.1 h
    rw [pure_ok] at h2; subst h2
    intro g hg
    simp only [List.mem_cons, List.not_mem_nil, or_false] at hg
    rcases hg with rfl | rfl | rfl <;> rfl
  | cwMq => exact hal _ h
  | ccwMq => exact hal _ h
  | cwSq => cases h; simp
  | ccwSq => cases h; simp

/-- **C21** (partial: everything but flashes of block apertures, see `c21_false_block`). Whatever a draw, a flash or
the completion of a contour puts on the layer being drawn has the polarity of the latest `LP` command, dark if there
was none. -/
theorem c21_polarity_partial (env : Env) (h : List Atom) (a : Atom) (c' : CState)
    (hr : (run {} (h ++ [a])).exn = none) (hc : compiled env (h ++ [a]) = .ok c') (ha : mayDraw a = true)
    (hblock : ∀ x y, a = .leaf (.d03 x y) → ∀ id, (run {} h).st.currentAperture ≠ .ok (.ab id)) :
    ∃ new, Draws env h a new ∧ ∀ d ∈ new, isClear d = decide (latest setsPolarity .dark h = .clear) := by
  have hshape : ∀ g, ∀ d ∈ contourShape (decide (latest setsPolarity .dark h = .clear)) g,
      isClear d = decide (latest setsPolarity .dark h = .clear) := by
    intro g d hd
    cases g with
    | nil => cases hd
    | cons g gs => simp only [contourShape, List.mem_singleton] at hd; subst hd; rfl
  cases a with
  | leaf l =>
    cases l <;> try (simp [mayDraw] at ha; done)
    case d01 x y i j =>
      cases hreg : latest setsRegion false h with
      | false =>
        obtain ⟨ss, h1, h2⟩ := d01_outside hr hc hreg
        refine ⟨_, h2, ?_⟩
        intro d hd
        obtain ⟨g, hg, rfl⟩ := List.mem_map.1 hd
        have := drawShapes_negative h1 g hg
        simp only [isClear, this]
        exact isNegative_inv h (run_snoc_none.1 hr).1
      | true => exact ⟨[], (d01_inside hr hc hreg).1, by simp⟩
    case d02 x y =>
      obtain ⟨c, -, h2⟩ := d02_draws hr hc
      split at h2
      · obtain ⟨g, -, -, h3⟩ := h2
        exact ⟨_, h3, hshape g⟩
      · exact ⟨_, h2.2, by simp⟩
    case d03 x y =>
      obtain ⟨h1, h2⟩ := run_snoc_none.1 hr
      obtain ⟨ap, k, e1, -, -⟩ := step_d03 h2
      cases ap with
      | ab id => exact absurd e1 (hblock x y rfl id)
      | ad id d =>
        obtain ⟨-, -, -, -, -, -, -, h3⟩ := d03_draws hr hc e1
        refine ⟨_, h3, ?_⟩
        intro d hd
        simp only [List.mem_singleton] at hd
        subst hd; rfl
    case g37 =>
      obtain ⟨c, g, -, -, -, h3⟩ := g37_draws hr hc
      exact ⟨_, h3, hshape g⟩
  | _ => simp [mayDraw] at ha

/-- **C21** (other commands). No other command outside aperture definitions and block boundaries draws anything. -/
theorem c21_other_commands (env : Env) (h : List Atom) (l : Leaf) (c' : CState)
    (hr : (run {} (h ++ [.leaf l])).exn = none) (hc : compiled env (h ++ [.leaf l]) = .ok c')
    (ha : mayDraw (.leaf l) = false) (hd : ∀ id d, l ≠ .ad id d) : Draws env h (.leaf l) [] := by
  obtain ⟨h1, h2, c, hc1, hc2⟩ := compiled_pre hr hc
  have key : (Visitor.step (run {} h).st (.leaf l)).ev = [] ∨ l = .g36 := by
    cases l <;> first
      | (simp [mayDraw] at ha; done)
      | exact absurd rfl (hd _ _)
      | exact .inl rfl
      | exact .inr rfl
      | skip
    case td n => cases n <;> exact .inl rfl
    case dnn id =>
      left
      simp only [Visitor.step, stepLeaf]
      split <;> rfl
  rcases key with e | rfl
  · rw [e] at hc2; cases hc2
    exact draws_nil hc1 hc rfl rfl
  · change feed env [_] c = .ok c' at hc2
    rw [feed_singleton] at hc2; cases hc2
    exact draws_nil hc1 hc rfl rfl

/-- A block aperture that flashes a circle, selected together with clear polarity. -/
def blockSample : List Atom :=
  [.leaf (.ad ['D','1','1'] (.circle 1 none)), .abOpen ['D','1','0'], .leaf (.dnn ['D','1','1']),
    .leaf (.d03 none none), .abClose ['D','1','0'], .leaf (.dnn ['D','1','0']), .leaf (.lp .clear)]

theorem blockSample_ok : ∃ c c', compiled env0 blockSample = .ok c ∧
    compiled env0 (blockSample ++ [.leaf (.d03 none none)]) = .ok c' ∧ c.stack.head? = some .main ∧
    c.buffers.get? .main = some [] ∧ ∃ m v, c'.buffers.get? .main = some [.paste m v false] := by
  eval_compiler [blockSample, moved]

/-- **C21 does not hold** for flashes of block apertures: with clear polarity in force, the objects of the block are
drawn dark. -/
theorem c21_false_block :
    ¬ ∀ (env : Env) (h : List Atom) (c' : CState), (run {} (h ++ [.leaf (.d03 none none)])).exn = none →
      compiled env (h ++ [.leaf (.d03 none none)]) = .ok c' → latest setsPolarity .dark h = .clear →
      ∃ new, Draws env h (.leaf (.d03 none none)) new ∧ ∀ d ∈ new, isClear d = true := by
  intro hall
  obtain ⟨c, c', h1, h2, h3, h4, m, v, h5⟩ := blockSample_ok
  obtain ⟨new, ⟨d, d', g1, g2, -, g3, -⟩, hn⟩ := hall env0 blockSample c' (by decide +kernel) h2 (by decide +kernel)
  rw [h1] at g1; cases g1
  rw [h2] at g2; cases g2
  have := g3 _ _ h3 h4
  rw [h5] at this
  simp only [List.nil_append, Option.some.injEq] at this
  subst this
  have := hn _ (List.mem_singleton.2 rfl)
  cases this

/-- Non-vacuity of C21: a line, a clear flash and a region. -/
def polaritySample : List Atom :=
  [.leaf (.fs {}), .leaf (.ad ['D','1','1'] (.circle 1 none)), .leaf (.dnn ['D','1','1']),
    .leaf (.d01 (some ['5']) none none none), .leaf (.lp .clear), .leaf (.d03 none (some ['7'])), .leaf .g36,
    .leaf (.d01 (some ['9']) none none none), .leaf (.lp .dark), .leaf (.d01 none (some ['3']) none none)]

theorem unpack5 : ({} : CoordinateFormat).unpack .x ['5'] = .ok (5 / 1000000) := by decide +kernel
theorem unpack7 : ({} : CoordinateFormat).unpack .y ['7'] = .ok (7 / 1000000) := by decide +kernel
theorem unpack9 : ({} : CoordinateFormat).unpack .x ['9'] = .ok (9 / 1000000) := by decide +kernel
theorem unpack3 : ({} : CoordinateFormat).unpack .y ['3'] = .ok (3 / 1000000) := by decide +kernel

example : (run {} (polaritySample ++ [.leaf .g37])).exn = none ∧
    ∃ c', compiled env0 (polaritySample ++ [.leaf .g37]) = .ok c' ∧
    (c'.buffers.get? .main).map (·.map isClear) = some [false, false, false, true, false] := by
  constructor
  · decide +kernel
  · eval_compiler [polaritySample, unpack5, unpack7, unpack9, unpack3, draw, drawShapes, lineShapes, lineThickness,
      flushRegion, contourSegments, VState.startRegion, VState.endRegion, VState.dispatch, VState.drawTable, VState.putX,
      VState.putY, isClear, Shape.newCircle, Shape.newLine]

/-! ### C22 -/

theorem at_unique {h : List Atom} {p q : Vec ℝ} (hp : At h p) (hq : At h q) : p = q := by
  obtain ⟨x, y, h1, h2, rfl⟩ := hp
  obtain ⟨x', y', h3, h4, rfl⟩ := hq
  rw [c06_spec_unique _ _ _ _ h1 h3, c06_spec_unique _ _ _ _ h2 h4]

theorem sub_ne_zero' {p c : Vec ℝ} (h : p ≠ c) : ¬ ((p - c).x = 0 ∧ (p - c).y = 0) := by
  rintro ⟨h1, h2⟩
  apply h
  simp only [Vec.sub_x, Vec.sub_y] at h1 h2
  ext
  · linear_combination h1
  · linear_combination h2

theorem newCwArc_eq {s e c : Vec ℝ} (hs : s ≠ c) (he : e ≠ c) (t : ℝ) (neg : Bool) :
    Draw.shape (Shape.newCwArc s e c t neg) = strokeCw s e c t neg := by
  unfold Shape.newCwArc strokeCw outward
  simp only [normalized_x (sub_ne_zero' hs), normalized_y (sub_ne_zero' hs), normalized_x (sub_ne_zero' he),
    normalized_y (sub_ne_zero' he), Vec.scale]
  congr 2
  · congr 2 <;> ext <;> simp <;> ring
  · congr 3 <;> ext <;> simp <;> ring

theorem arcShape_eq {s e c : Vec ℝ} (hs : s ≠ c) (he : e ≠ c) (t : ℝ) (neg cw : Bool) :
    Draw.shape (arcShape cw s e c t neg) = stroke cw s e c t neg := by
  cases cw
  · exact newCwArc_eq he hs t neg
  · exact newCwArc_eq hs he t neg

/-- The offsets seen by the callback are those written. -/
theorem seen_offsets {h : List Atom} {x y : Option (List Char)} {ti tj : List Char} {oi oj : ℚ}
    (hr : (run {} (h ++ [.leaf (.d01 x y (some ti) (some tj))])).exn = none)
    (hi : Offset h .x ti oi) (hj : Offset h .y tj oj) :
    (seen h x y (some ti) (some tj)).coordinateI = oi ∧ (seen h x y (some ti) (some tj)).coordinateJ = oj := by
  obtain ⟨f, vi, vj, k, r, s, g1, g2, g3, g4, g5, g6⟩ := c56_offsets_given_partial h x y ti tj hr
  obtain ⟨h1, h2⟩ := run_snoc_none.1 hr
  rw [run_snoc_ev h1, step_d01 h2] at g4
  have := List.append_cancel_left g4
  simp only [Out.ok, List.cons.injEq, Event.draw.injEq, and_true] at this
  obtain ⟨-, -, e⟩ := this
  subst e
  obtain ⟨f1, a1, a2⟩ := hi
  obtain ⟨f2, b1, b2⟩ := hj
  cases formatInForce_unique g1 a1
  cases formatInForce_unique g1 b1
  rw [a2] at g2; cases g2
  rw [b2] at g3; cases g3
  exact ⟨g5, g6⟩

theorem thickness_circle {h : List Atom} {x y i j : Option (List Char)} {id : Name} {d : ℚ} {hole : Option ℚ}
    (hap : (run {} h).st.currentAperture = .ok (.ad id (.circle d hole))) (v : Vec ℝ) :
    lineThickness (seen h x y i j) v = .ok (d : ℝ) := by
  have : (seen h x y i j).currentAperture = .ok (.ad id (.circle d hole)) := hap
  unfold lineThickness
  rw [this]

theorem arc_kind {p : Plot} (hp : p ≠ .linear) :
    drawingOf p .multi = if decide (p = .arc) then .cwMq else .ccwMq := by
  cases p
  · exact absurd rfl hp
  · rfl
  · rfl

theorem closed_iff {s : VState} : closed s = true ↔ startPoint s = endPoint s := by
  simp [closed, startPoint, endPoint, pt]

theorem arcShapes_ok {s : VState} {t : ℝ} (ht : lineThickness s (endPoint s) = .ok t) (cw : Bool) :
    arcShapes cw s = .ok (if closed s then
      [Shape.newCircle (startPoint s) t s.isNegative,
        arcShape cw ⟨(arcCenter s).x - (pt s.coordinateI s.coordinateJ).length, (arcCenter s).y⟩
          ⟨(arcCenter s).x + (pt s.coordinateI s.coordinateJ).length, (arcCenter s).y⟩ (arcCenter s) t s.isNegative,
        arcShape cw ⟨(arcCenter s).x + (pt s.coordinateI s.coordinateJ).length, (arcCenter s).y⟩
          ⟨(arcCenter s).x - (pt s.coordinateI s.coordinateJ).length, (arcCenter s).y⟩ (arcCenter s) t s.isNegative,
        Shape.newCircle ⟨(arcCenter s).x + (pt s.coordinateI s.coordinateJ).length, (arcCenter s).y⟩ t s.isNegative]
      else [Shape.newCircle (startPoint s) t s.isNegative,
        arcShape cw (startPoint s) (endPoint s) (arcCenter s) t s.isNegative,
        Shape.newCircle (endPoint s) t s.isNegative]) := by
  unfold arcShapes
  rw [ht]
  cases closed s <;> rfl

/-- **C22** (arcs outside regions). In multi-quadrant mode, with a circular aperture of diameter `d`, an arc from `s`
to another point `e` with offset `(i, j)` is drawn as the stroke of width `d` about `s + (i, j)` from `s` to `e`, in
the direction of the mode, with a disc of diameter `d` at both ends. -/
theorem c22_arc (env : Env) (h : List Atom) (x y : Option (List Char)) (ti tj : List Char) (c' : CState)
    (hr : (run {} (h ++ [.leaf (.d01 x y (some ti) (some tj))])).exn = none)
    (hc : compiled env (h ++ [.leaf (.d01 x y (some ti) (some tj))]) = .ok c')
    (hreg : latest setsRegion false h = false) (hq : latest setsQuad .single h = .multi)
    (hp : latest setsPlot .linear h ≠ .linear) (id : Name) (d : ℚ) (hole : Option ℚ)
    (hap : (run {} h).st.currentAperture = .ok (.ad id (.circle d hole)))
    (s e : Vec ℝ) (hs : At h s) (he : At (h ++ [.leaf (.d01 x y (some ti) (some tj))]) e)
    (i j : ℚ) (hi : Offset h .x ti i) (hj : Offset h .y tj j) (hne : s ≠ e)
    (hsc : s ≠ s + ⟨i, j⟩) (hec : e ≠ s + ⟨i, j⟩) :
    Draws env h (.leaf (.d01 x y (some ti) (some tj)))
      [disc s d (decide (latest setsPolarity .dark h = .clear)),
        stroke (decide (latest setsPlot .linear h = .arc)) s e (s + ⟨i, j⟩) d
          (decide (latest setsPolarity .dark h = .clear)),
        disc e d (decide (latest setsPolarity .dark h = .clear))] := by
  obtain ⟨h1, h2⟩ := run_snoc_none.1 hr
  obtain ⟨ss, e1, e2⟩ := d01_outside hr hc hreg
  obtain ⟨o1, o2⟩ := seen_offsets hr hi hj
  have hst := at_unique hs (startPoint_at h1 x y (some ti) (some tj))
  have hen := at_unique he (endPoint_at (Or.inr rfl) hr (Or.inl rfl))
  have hcen : arcCenter (seen h x y (some ti) (some tj)) = s + ⟨i, j⟩ := by
    rw [hst]; unfold arcCenter startPoint pt
    rw [o1, o2]; ext <;> simp
  rw [hq, arc_kind hp] at e1
  have key : ∀ cw, arcShapes cw (seen h x y (some ti) (some tj)) = .ok ss → ss.map Draw.shape =
      [disc s d (decide (latest setsPolarity .dark h = .clear)),
        stroke cw s e (s + ⟨i, j⟩) d (decide (latest setsPolarity .dark h = .clear)),
        disc e d (decide (latest setsPolarity .dark h = .clear))] := by
    intro cw hcw
    rw [arcShapes_ok (thickness_circle hap _), if_neg (by rw [closed_iff, ← hst, ← hen]; exact hne)] at hcw
    rw [hcen, ← hst, ← hen] at hcw
    have hn : (seen h x y (some ti) (some tj)).isNegative = decide (latest setsPolarity .dark h = .clear) :=
      isNegative_inv h h1
    rw [hn] at hcw
    cases hcw
    simp only [List.map_cons, List.map_nil, arcShape_eq hsc hec]
    rfl
  cases hb : decide (latest setsPlot .linear h = .arc) with
  | true => rw [hb] at e1; rw [key true e1] at e2; exact e2
  | false => rw [hb] at e1; rw [key false e1] at e2; exact e2

/-- **C22** (partial: full circles outside regions). When the arc returns to its start, the full circle about
`s + (i, j)` through `s` is drawn as two half turns; but these begin and end at the leftmost and the rightmost point of
the circle instead of at `s` (see `c22_false_full_circle`), and the second disc is at the rightmost point. -/
theorem c22_full_circle_partial (env : Env) (h : List Atom) (x y : Option (List Char)) (ti tj : List Char) (c' : CState)
    (hr : (run {} (h ++ [.leaf (.d01 x y (some ti) (some tj))])).exn = none)
    (hc : compiled env (h ++ [.leaf (.d01 x y (some ti) (some tj))]) = .ok c')
    (hreg : latest setsRegion false h = false) (hq : latest setsQuad .single h = .multi)
    (hp : latest setsPlot .linear h ≠ .linear) (id : Name) (d : ℚ) (hole : Option ℚ)
    (hap : (run {} h).st.currentAperture = .ok (.ad id (.circle d hole)))
    (s : Vec ℝ) (hs : At h s) (he : At (h ++ [.leaf (.d01 x y (some ti) (some tj))]) s)
    (i j : ℚ) (hi : Offset h .x ti i) (hj : Offset h .y tj j) (hsc : s ≠ s + ⟨i, j⟩) :
    ∃ left right : Vec ℝ, vlen (left - (s + ⟨i, j⟩)) = vlen (s - (s + ⟨i, j⟩)) ∧
      vlen (right - (s + ⟨i, j⟩)) = vlen (s - (s + ⟨i, j⟩)) ∧
      left - (s + ⟨i, j⟩) = -(right - (s + ⟨i, j⟩)) ∧ right.y = (s + ⟨i, j⟩ : Vec ℝ).y ∧
      (s + ⟨i, j⟩ : Vec ℝ).x < right.x ∧
      Draws env h (.leaf (.d01 x y (some ti) (some tj)))
        [disc s d (decide (latest setsPolarity .dark h = .clear)),
          stroke (decide (latest setsPlot .linear h = .arc)) left right (s + ⟨i, j⟩) d
            (decide (latest setsPolarity .dark h = .clear)),
          stroke (decide (latest setsPlot .linear h = .arc)) right left (s + ⟨i, j⟩) d
            (decide (latest setsPolarity .dark h = .clear)),
          disc right d (decide (latest setsPolarity .dark h = .clear))] := by
  obtain ⟨h1, h2⟩ := run_snoc_none.1 hr
  obtain ⟨ss, e1, e2⟩ := d01_outside hr hc hreg
  obtain ⟨o1, o2⟩ := seen_offsets hr hi hj
  have hst := at_unique hs (startPoint_at h1 x y (some ti) (some tj))
  have hen := at_unique he (endPoint_at (Or.inr rfl) hr (Or.inl rfl))
  have hcen : arcCenter (seen h x y (some ti) (some tj)) = s + ⟨i, j⟩ := by
    rw [hst]; unfold arcCenter startPoint pt
    rw [o1, o2]; ext <;> simp
  have hpos : 0 < vlen ⟨(i : ℝ), (j : ℝ)⟩ := by
    apply vlen_pos
    rintro ⟨a, b⟩
    apply hsc
    simp only at a b
    ext <;> simp [a, b]
  have hrad : (pt (seen h x y (some ti) (some tj)).coordinateI (seen h x y (some ti) (some tj)).coordinateJ).length =
      vlen ⟨(i : ℝ), (j : ℝ)⟩ := by
    rw [o1, o2, length_eq_norm]; rfl
  have hsr : vlen (s - (s + ⟨i, j⟩)) = vlen ⟨(i : ℝ), (j : ℝ)⟩ := by
    unfold vlen
    congr 1
    simp only [Vec.sub_x, Vec.sub_y, Vec.add_x, Vec.add_y]; ring
  generalize hrr : vlen ⟨(i : ℝ), (j : ℝ)⟩ = r at *
  refine ⟨⟨(s + ⟨i, j⟩ : Vec ℝ).x - r, (s + ⟨i, j⟩ : Vec ℝ).y⟩, ⟨(s + ⟨i, j⟩ : Vec ℝ).x + r, (s + ⟨i, j⟩ : Vec ℝ).y⟩,
    ?_, ?_, ?_, rfl, ?_, ?_⟩
  · rw [hsr]; unfold vlen
    rw [show (⟨(s + ⟨i, j⟩ : Vec ℝ).x - r, (s + ⟨i, j⟩ : Vec ℝ).y⟩ - (s + ⟨i, j⟩) : Vec ℝ) = ⟨-r, 0⟩ by
      ext <;> simp]
    rw [show (-r) ^ 2 + (0 : ℝ) ^ 2 = r ^ 2 by ring, Real.sqrt_sq hpos.le]
  · rw [hsr]; unfold vlen
    rw [show (⟨(s + ⟨i, j⟩ : Vec ℝ).x + r, (s + ⟨i, j⟩ : Vec ℝ).y⟩ - (s + ⟨i, j⟩) : Vec ℝ) = ⟨r, 0⟩ by
      ext <;> simp]
    rw [show r ^ 2 + (0 : ℝ) ^ 2 = r ^ 2 by ring, Real.sqrt_sq hpos.le]
  · ext <;> simp
  · simpa using hpos
  rw [hq, arc_kind hp] at e1
  have key : ∀ cw, arcShapes cw (seen h x y (some ti) (some tj)) = .ok ss → ss.map Draw.shape =
      [disc s d (decide (latest setsPolarity .dark h = .clear)),
        stroke cw ⟨(s + ⟨i, j⟩ : Vec ℝ).x - r, (s + ⟨i, j⟩ : Vec ℝ).y⟩ ⟨(s + ⟨i, j⟩ : Vec ℝ).x + r, (s + ⟨i, j⟩ : Vec ℝ).y⟩
          (s + ⟨i, j⟩) d (decide (latest setsPolarity .dark h = .clear)),
        stroke cw ⟨(s + ⟨i, j⟩ : Vec ℝ).x + r, (s + ⟨i, j⟩ : Vec ℝ).y⟩ ⟨(s + ⟨i, j⟩ : Vec ℝ).x - r, (s + ⟨i, j⟩ : Vec ℝ).y⟩
          (s + ⟨i, j⟩) d (decide (latest setsPolarity .dark h = .clear)),
        disc ⟨(s + ⟨i, j⟩ : Vec ℝ).x + r, (s + ⟨i, j⟩ : Vec ℝ).y⟩ d (decide (latest setsPolarity .dark h = .clear))] := by
    intro cw hcw
    rw [arcShapes_ok (thickness_circle hap _), if_pos (by rw [closed_iff, ← hst, ← hen])] at hcw
    rw [hcen, ← hst, hrad] at hcw
    have hn : (seen h x y (some ti) (some tj)).isNegative = decide (latest setsPolarity .dark h = .clear) :=
      isNegative_inv h h1
    rw [hn] at hcw
    cases hcw
    have n1 : (⟨(s + ⟨i, j⟩ : Vec ℝ).x - r, (s + ⟨i, j⟩ : Vec ℝ).y⟩ : Vec ℝ) ≠ s + ⟨i, j⟩ := by
      intro hx; have := congrArg Vec.x hx; simp at this; linarith
    have n2 : (⟨(s + ⟨i, j⟩ : Vec ℝ).x + r, (s + ⟨i, j⟩ : Vec ℝ).y⟩ : Vec ℝ) ≠ s + ⟨i, j⟩ := by
      intro hx; have := congrArg Vec.x hx; simp at this; linarith
    simp only [List.map_cons, List.map_nil, arcShape_eq n1 n2, arcShape_eq n2 n1]
    rfl
  cases hb : decide (latest setsPlot .linear h = .arc) with
  | true => rw [hb] at e1; rw [key true e1] at e2; exact e2
  | false => rw [hb] at e1; rw [key false e1] at e2; exact e2

/-- **C22** (arcs in regions). In a region nothing is drawn yet; the contour is continued by the arc from `s` to `e`
about `s + (i, j)`, or, when it returns to its start, by two arcs that run from `s` through the opposite point
`s + 2 (i, j)` back to `s`. -/
theorem c22_region (env : Env) (h : List Atom) (x y : Option (List Char)) (ti tj : List Char) (c' : CState)
    (hr : (run {} (h ++ [.leaf (.d01 x y (some ti) (some tj))])).exn = none)
    (hc : compiled env (h ++ [.leaf (.d01 x y (some ti) (some tj))]) = .ok c')
    (hreg : latest setsRegion false h = true) (hq : latest setsQuad .single h = .multi)
    (hp : latest setsPlot .linear h ≠ .linear)
    (s e : Vec ℝ) (hs : At h s) (he : At (h ++ [.leaf (.d01 x y (some ti) (some tj))]) e)
    (i j : ℚ) (hi : Offset h .x ti i) (hj : Offset h .y tj j) :
    Draws env h (.leaf (.d01 x y (some ti) (some tj))) [] ∧ ∃ c, compiled env h = .ok c ∧
      ∀ g, c.contour = some g →
        (s ≠ e → c'.contour = some (g ++ [.arc ⟨s, e, s + ⟨i, j⟩, decide (latest setsPlot .linear h = .arc)⟩])) ∧
        (s = e → c'.contour = some (g ++
          [.arc ⟨s, s + ⟨i, j⟩ + ⟨i, j⟩, s + ⟨i, j⟩, decide (latest setsPlot .linear h = .arc)⟩,
            .arc ⟨s + ⟨i, j⟩ + ⟨i, j⟩, s, s + ⟨i, j⟩, decide (latest setsPlot .linear h = .arc)⟩])) := by
  obtain ⟨h1, h2⟩ := run_snoc_none.1 hr
  obtain ⟨e1, c, e2, e3⟩ := d01_inside hr hc hreg
  obtain ⟨o1, o2⟩ := seen_offsets hr hi hj
  have hst := at_unique hs (startPoint_at h1 x y (some ti) (some tj))
  have hen := at_unique he (endPoint_at (Or.inr rfl) hr (Or.inl rfl))
  have hcen : arcCenter (seen h x y (some ti) (some tj)) = s + ⟨i, j⟩ := by
    rw [hst]; unfold arcCenter startPoint pt
    rw [o1, o2]; ext <;> simp
  refine ⟨e1, c, e2, fun g hg => ?_⟩
  rw [hg, Option.map_some, hq, arc_kind hp] at e3
  have hseg : ∀ b : Bool, contourSegments (if b then .cwMq else .ccwMq) (seen h x y (some ti) (some tj)) =
      if closed (seen h x y (some ti) (some tj)) then
        [.arc ⟨s, s + ⟨i, j⟩ + ⟨i, j⟩, s + ⟨i, j⟩, b⟩, .arc ⟨s + ⟨i, j⟩ + ⟨i, j⟩, s, s + ⟨i, j⟩, b⟩]
      else [.arc ⟨s, e, s + ⟨i, j⟩, b⟩] := by
    intro b
    have hop : pt ((seen h x y (some ti) (some tj)).currentX + (seen h x y (some ti) (some tj)).coordinateI +
          (seen h x y (some ti) (some tj)).coordinateI)
        ((seen h x y (some ti) (some tj)).currentY + (seen h x y (some ti) (some tj)).coordinateJ +
          (seen h x y (some ti) (some tj)).coordinateJ) = s + ⟨i, j⟩ + ⟨i, j⟩ := by
      rw [hst]; unfold startPoint pt
      rw [o1, o2]; ext <;> simp
    cases b <;>
    · simp only [if_true, if_false, Bool.false_eq_true, contourSegments, contourSegments.arcSegments, hcen, hop, ← hst, ← hen]
  rw [hseg] at e3
  constructor
  · intro hne
    rw [if_neg (by rw [closed_iff, ← hst, ← hen]; exact hne)] at e3
    exact e3
  · intro heq
    rw [if_pos (by rw [closed_iff, ← hst, ← hen]; exact heq)] at e3
    exact e3

/-- What a command draws is determined. -/
theorem draws_unique {env : Env} {h : List Atom} {a : Atom} {new new' : List (Draw LayerId)} {c : CState} {id b}
    (hc : compiled env h = .ok c) (h1 : c.stack.head? = some id) (h2 : c.buffers.get? id = some b)
    (hn : Draws env h a new) (hn' : Draws env h a new') : new = new' := by
  obtain ⟨d, d', g1, g2, -, g3, -⟩ := hn
  obtain ⟨k, k', l1, l2, -, l3, -⟩ := hn'
  rw [hc] at g1 l1; cases g1; cases l1
  rw [g2] at l2; cases l2
  have := g3 _ _ h1 h2
  rw [l3 _ _ h1 h2] at this
  exact (List.append_cancel_left (Option.some.inj this)).symm

/-- A full circle about (0, 1) that begins and ends at the origin. -/
def circleSample : List Atom :=
  [.leaf (.fs {}), .leaf (.ad ['D','1','1'] (.circle 1 none)), .leaf (.dnn ['D','1','1']), .leaf .g75, .leaf .g02]

/-- Its last command. -/
def circleDraw : Atom := .leaf (.d01 none none (some ['0']) (some ['1','0','0','0','0','0','0']))

theorem unpack0 : ({} : CoordinateFormat).unpack .x ['0'] = .ok 0 := by decide +kernel
theorem unpack1 : ({} : CoordinateFormat).unpack .y ['1','0','0','0','0','0','0'] = .ok 1 := by decide +kernel

theorem circleSample_ok : (run {} (circleSample ++ [circleDraw])).exn = none ∧
    (∃ c, compiled env0 circleSample = .ok c ∧ c.stack.head? = some .main ∧ c.buffers.get? .main = some []) ∧
    (∃ c', compiled env0 (circleSample ++ [circleDraw]) = .ok c') ∧
    At circleSample ⟨0, 0⟩ ∧ At (circleSample ++ [circleDraw]) ⟨0, 0⟩ ∧ Offset circleSample .x ['0'] 0 ∧
    Offset circleSample .y ['1','0','0','0','0','0','0'] 1 ∧
    (run {} circleSample).st.currentAperture = .ok (.ad ['D','1','1'] (.circle 1 none)) := by
  have hf : FormatInForce circleSample {} := Or.inl rfl
  refine ⟨by decide +kernel, ?_, ?_, ?_, ?_, ⟨_, hf, unpack0⟩, ⟨_, hf, unpack1⟩, by decide +kernel⟩
  · eval_compiler [circleSample, VState.dispatch]
  · eval_compiler [circleSample, circleDraw, VState.dispatch, VState.drawTable, draw, drawShapes, arcShapes,
      lineThickness, closed, VState.coordinateI, VState.coordinateJ, unpack0, unpack1, VState.putI, VState.putJ]
  · refine ⟨0, 0, Or.inr ⟨?_, rfl⟩, Or.inr ⟨?_, rfl⟩, by ext <;> simp⟩ <;> decide
  · refine ⟨0, 0, Or.inr ⟨?_, rfl⟩, Or.inr ⟨?_, rfl⟩, by ext <;> simp⟩ <;> decide

/-- **C22 does not hold** for full circles outside regions: the two arcs do not begin and end at the start point
(here the origin, with the centre at (0, 1)), nor is the second disc there. -/
theorem c22_false_full_circle :
    ¬ ∀ (env : Env) (h : List Atom) (ti tj : List Char) (c' : CState) (id : Name) (d i j : ℚ) (s : Vec ℝ),
      (run {} (h ++ [.leaf (.d01 none none (some ti) (some tj))])).exn = none →
      compiled env (h ++ [.leaf (.d01 none none (some ti) (some tj))]) = .ok c' →
      latest setsRegion false h = false → latest setsQuad .single h = .multi → latest setsPlot .linear h = .arc →
      (run {} h).st.currentAperture = .ok (.ad id (.circle d none)) → At h s →
      Offset h .x ti i → Offset h .y tj j →
      ∃ s1 s2, Draws env h (.leaf (.d01 none none (some ti) (some tj)))
        [disc s d false, s1, s2, disc s d false] := by
  intro hall
  obtain ⟨h1, ⟨c, h2, h3, h4⟩, ⟨c', h5⟩, h6, h7, h8, h9, h10⟩ := circleSample_ok
  obtain ⟨s1, s2, hd⟩ := hall env0 circleSample _ _ c' _ _ _ _ ⟨0, 0⟩ h1 h5 (by decide +kernel) (by decide +kernel)
    (by decide +kernel) h10 h6 h8 h9
  obtain ⟨left, right, -, -, -, -, h11, h12⟩ := c22_full_circle_partial env0 circleSample none none _ _ c' h1 h5
    (by decide +kernel) (by decide +kernel) (by decide +kernel) _ _ _ h10 ⟨0, 0⟩ h6 h7 0 1 h8 h9
    (by intro hx; have := congrArg Vec.y hx; simp at this)
  have e := draws_unique h2 h3 h4 hd h12
  simp only [List.cons.injEq, and_true] at e
  obtain ⟨-, -, -, e⟩ := e
  simp only [disc, Draw.shape.injEq, Shape.mk.injEq, Segment.arc.injEq, Arc.mk.injEq] at e
  obtain ⟨⟨-, -, e, -⟩, -⟩ := e
  rw [← e] at h11
  simp at h11

/-- Non-vacuity of C22: an arc with different ends. -/
def arcSample : List Atom :=
  [.leaf (.fs {}), .leaf (.ad ['D','1','1'] (.circle 1 none)), .leaf (.dnn ['D','1','1']), .leaf .g75, .leaf .g03]

example : (run {} (arcSample ++ [.leaf (.d01 (some ['5']) none (some ['0']) (some ['1','0','0','0','0','0','0']))])).exn = none ∧
    ∃ c', compiled env0 (arcSample ++ [.leaf (.d01 (some ['5']) none (some ['0']) (some ['1','0','0','0','0','0','0']))]) =
      .ok c' := by
  constructor
  · decide +kernel
  · eval_compiler [arcSample, VState.dispatch, VState.drawTable, draw, drawShapes, arcShapes,
      lineThickness, closed, VState.coordinateI, VState.coordinateJ, unpack0, unpack1, unpack5, VState.putI, VState.putJ,
      VState.putX, show ¬ ((0 : ℚ) = 5 / 1000000) by decide +kernel]

/-! ### C20 -/

theorem drawsAll_trans {env : Env} {h as bs : List Atom} {l l' : List (Draw LayerId)} (h1 : DrawsAll env h as l)
    (h2 : DrawsAll env (h ++ as) bs l') : DrawsAll env h (as ++ bs) (l ++ l') := by
  obtain ⟨c, c1, a1, a2, a3, a4, a5⟩ := h1
  obtain ⟨c1', c2, b1, b2, b3, b4, b5⟩ := h2
  rw [a2] at b1; cases b1
  refine ⟨c, c2, a1, by rw [← List.append_assoc]; exact b2, b3.trans a3, ?_, ?_⟩
  · intro id b hid hb
    rw [b4 id _ (by rw [a3]; exact hid) (a4 id b hid hb), List.append_assoc]
  · intro id b hid hb
    exact b5 id b (by rw [a3]; exact hid) (a5 id b hid hb)

theorem piece_of {env : Env} {h : List Atom} {x y i j : Option (List Char)} {c' : CState}
    (hr : (run {} (h ++ [.leaf (.d01 x y i j)])).exn = none)
    (hc : compiled env (h ++ [.leaf (.d01 x y i j)]) = .ok c') (hreg : latest setsRegion false h = true)
    (hm : latest setsPlot .linear h = .linear ∨ latest setsQuad .single h = .multi) :
    ∃ gs, Piece h (.leaf (.d01 x y i j)) gs ∧ Draws env h (.leaf (.d01 x y i j)) [] ∧
      ∃ c, compiled env h = .ok c ∧ c'.contour = c.contour.map (· ++ gs) := by
  obtain ⟨h1, h2⟩ := run_snoc_none.1 hr
  obtain ⟨e1, c, e2, e3⟩ := d01_inside hr hc hreg
  refine ⟨_, ?_, e1, c, e2, e3⟩
  refine ⟨_, _, startPoint_at h1 x y i j, endPoint_at (Or.inr rfl) hr (Or.inl rfl), ?_, ?_, ?_⟩
  · by_cases hl : latest setsPlot .linear h = .linear
    · rw [hl]; exact ⟨rfl, rfl⟩
    · rcases hm with hm | hm
      · exact absurd hm hl
      · rw [hm, arc_kind hl]
        cases hb : decide (latest setsPlot .linear h = .arc) <;>
        · simp only [if_true, if_false, Bool.false_eq_true, contourSegments, contourSegments.arcSegments]
          split
          · next hcl => exact ⟨rfl, rfl, (closed_iff.1 hcl)⟩
          · exact ⟨rfl, rfl⟩
  · intro hl; rw [hl]; rfl
  · intro hl
    rcases hm with hm | hm
    · exact absurd hm hl
    · rw [hm, arc_kind hl]
      refine ⟨arcCenter (seen h x y i j), ?_⟩
      cases hb : decide (latest setsPlot .linear h = .arc) <;>
      · simp only [if_true, if_false, Bool.false_eq_true, contourSegments, contourSegments.arcSegments]
        split
        · intro g hg
          simp only [List.mem_cons, List.not_mem_nil, or_false] at hg
          rcases hg with rfl | rfl <;> exact ⟨_, _, rfl⟩
        · intro g hg
          simp only [List.mem_cons, List.not_mem_nil, or_false] at hg
          subst hg; exact ⟨_, _, rfl⟩

theorem silent_step {env : Env} {h : List Atom} {a : Atom} {c c' : CState} (ha : isSilent a = true)
    (hr : (run {} (h ++ [a])).exn = none) (hc : compiled env h = .ok c) (hc' : compiled env (h ++ [a]) = .ok c') :
    c' = c ∧ latest setsRegion false (h ++ [a]) = latest setsRegion false h := by
  obtain ⟨h1, h2, c0, hc1, hc2⟩ := compiled_pre hr hc'
  rw [hc] at hc1; cases hc1
  have key : (Visitor.step (run {} h).st a).ev = [] ∧ setsRegion a = none := by
    cases a with
    | leaf l =>
      cases l <;> first
        | (simp [isSilent] at ha; done)
        | exact ⟨rfl, rfl⟩
        | skip
      case td n => cases n <;> exact ⟨rfl, rfl⟩
      case dnn id =>
        refine ⟨?_, rfl⟩
        simp only [Visitor.step, stepLeaf]
        split <;> rfl
    | _ => simp [isSilent] at ha
  rw [key.1] at hc2; cases hc2
  refine ⟨rfl, ?_⟩
  rw [latest_snoc, key.2]; rfl

theorem contourShape_ne {g : List Segment} (hg : g ≠ []) (neg : Bool) :
    ∃ s : Shape, contourShape neg g = [.shape s] ∧ s.head :: s.tail = g ∧ s.negative = neg := by
  cases g with
  | nil => exact absurd rfl hg
  | cons g gs => exact ⟨_, rfl, rfl, rfl⟩

theorem region_loop {env : Env} {c' : CState} : ∀ (body h : List Atom) (g : List Segment) (c : CState),
    (run {} (h ++ (body ++ [.leaf .g37]))).exn = none → compiled env h = .ok c → c.contour = some g →
    latest setsRegion false h = true → compiled env (h ++ (body ++ [.leaf .g37])) = .ok c' →
    (∀ a ∈ body, isSilent a = true ∨ (∃ x y i j, a = .leaf (.d01 x y i j)) ∨ ∃ x y, a = .leaf (.d02 x y)) →
    (∀ pre x y i j post, body = pre ++ .leaf (.d01 x y i j) :: post →
      latest setsPlot .linear (h ++ pre) = .linear ∨ latest setsQuad .single (h ++ pre) = .multi) →
    ∃ out ds, Contours h g body out ∧ List.Forall₂ IsContour ds out ∧ DrawsAll env h (body ++ [.leaf .g37]) ds ∧
      c'.contour = none := by
  intro body
  induction body with
  | nil =>
    intro h g c hr hc hg hreg hc' _ _
    obtain ⟨c0, g0, a1, a2, a3, a4⟩ := g37_draws hr hc'
    rw [hc] at a1; cases a1
    rw [hg] at a2; cases a2
    by_cases hn : g = []
    · subst hn; exact ⟨[], [], .finishNone h, .nil, a4, a3⟩
    · obtain ⟨s, e1, e2, e3⟩ := contourShape_ne hn (decide (latest setsPolarity .dark h = .clear))
      rw [e1] at a4
      exact ⟨_, _, .finish h g hn, .cons ⟨s, rfl, e2, e3⟩ .nil, a4, a3⟩
  | cons a body ih =>
    intro h g c hr hc hg hreg hc' hb hq
    have hassoc : h ++ (a :: body ++ [.leaf .g37]) = (h ++ [a]) ++ (body ++ [.leaf .g37]) := by simp
    rw [hassoc] at hr hc'
    have hr1 := (run_append_none.1 hr).1
    obtain ⟨c1, hc1, -⟩ : ∃ c1, compiled env (h ++ [a]) = .ok c1 ∧ True := by
      rw [compiled_append hr1] at hc'
      obtain ⟨c1, h1, -⟩ := bind_ok.1 hc'
      exact ⟨c1, h1, trivial⟩
    have hq' : ∀ pre x y i j post, body = pre ++ .leaf (.d01 x y i j) :: post →
        latest setsPlot .linear ((h ++ [a]) ++ pre) = .linear ∨ latest setsQuad .single ((h ++ [a]) ++ pre) = .multi := by
      intro pre x y i j post he
      have := hq (a :: pre) x y i j post (by rw [he]; rfl)
      simpa using this
    have hb' := fun b hbm => hb b (List.mem_cons_of_mem _ hbm)
    rcases hb a (by simp) with hs | ⟨x, y, i, j, rfl⟩ | ⟨x, y, rfl⟩
    · obtain ⟨rfl, e2⟩ := silent_step hs hr1 hc hc1
      obtain ⟨out, ds, b1, b2, b3, b4⟩ := ih (h ++ [a]) g c1 hr hc1 hg (by rw [e2]; exact hreg) hc' hb' hq'
      refine ⟨out, ds, .other h g a body out hs b1, b2, ?_, b4⟩
      exact drawsAll_trans (as := [a]) (l := []) (draws_nil hc hc1 rfl rfl) b3
    · obtain ⟨gs, p1, p2, c0, p3, p4⟩ := piece_of hr1 hc1 hreg (by simpa using hq [] x y i j body rfl)
      rw [hc] at p3; cases p3
      rw [hg, Option.map_some] at p4
      obtain ⟨out, ds, b1, b2, b3, b4⟩ := ih _ _ c1 hr hc1 p4 (by rw [latest_snoc]; exact hreg) hc' hb' hq'
      exact ⟨out, ds, .draw _ _ _ _ _ _ gs _ _ p1 b1, b2, drawsAll_trans (as := [.leaf (.d01 x y i j)]) (l := []) p2 b3, b4⟩
    · obtain ⟨c0, p1, p2⟩ := d02_draws hr1 hc1
      rw [hc] at p1; cases p1
      rw [if_pos hreg] at p2
      obtain ⟨g0, q1, q2, q3⟩ := p2
      rw [hg] at q1; cases q1
      obtain ⟨out, ds, b1, b2, b3, b4⟩ := ih _ _ c1 hr hc1 q2 (by rw [latest_snoc]; exact hreg) hc' hb' hq'
      by_cases hn : g = []
      · subst hn
        exact ⟨out, ds, .moveNone _ _ _ _ _ b1, b2, drawsAll_trans (as := [.leaf (.d02 x y)]) (l := []) q3 b3, b4⟩
      · obtain ⟨s, e1, e2, e3⟩ := contourShape_ne hn (decide (latest setsPolarity .dark h = .clear))
        rw [e1] at q3
        exact ⟨_, _, .move _ _ _ _ _ _ hn b1, .cons ⟨s, rfl, e2, e3⟩ b2,
          drawsAll_trans (as := [.leaf (.d02 x y)]) q3 b3, b4⟩

/-- **C20** (partial: no single-quadrant arcs, see `c20_false_single_quadrant`; flashes and definitions inside the
region are left out). Whatever came before, a region draws exactly one shape per maximal non-empty run of draws between
moves, in order, each with the segments of its draws, and leaves no contour behind. -/
theorem c20_regions_partial (env : Env) (h body : List Atom) (c' : CState)
    (hr : (run {} ((h ++ [.leaf .g36]) ++ (body ++ [.leaf .g37]))).exn = none)
    (hc : compiled env ((h ++ [.leaf .g36]) ++ (body ++ [.leaf .g37])) = .ok c')
    (hb : ∀ a ∈ body, isSilent a = true ∨ (∃ x y i j, a = .leaf (.d01 x y i j)) ∨ ∃ x y, a = .leaf (.d02 x y))
    (hq : ∀ pre x y i j post, body = pre ++ .leaf (.d01 x y i j) :: post →
      latest setsPlot .linear ((h ++ [.leaf .g36]) ++ pre) = .linear ∨
        latest setsQuad .single ((h ++ [.leaf .g36]) ++ pre) = .multi) :
    ∃ out ds, Contours (h ++ [.leaf .g36]) [] body out ∧ List.Forall₂ IsContour ds out ∧
      DrawsAll env h (.leaf .g36 :: (body ++ [.leaf .g37])) ds ∧ c'.contour = none := by
  obtain ⟨hr1, -⟩ := run_append_none.1 hr
  have hc0 := hc
  rw [compiled_append hr1] at hc0
  obtain ⟨c1, hc1, -⟩ := bind_ok.1 hc0
  obtain ⟨h1, h2, c, e1, e2⟩ := compiled_pre hr1 hc1
  change feed env [.startRegion] c = .ok c1 at e2
  rw [feed_singleton] at e2
  cases e2
  obtain ⟨out, ds, b1, b2, b3, b4⟩ := region_loop body (h ++ [.leaf .g36]) [] _ hr hc1 rfl
    (by rw [latest_snoc]; rfl) hc hb hq
  exact ⟨out, ds, b1, b2, drawsAll_trans (as := [.leaf .g36]) (l := []) (draws_nil e1 hc1 rfl rfl) b3, b4⟩

theorem joins_last : ∀ {gs : List Segment} {s e : Vec ℝ}, Joins s e gs → ∃ g rest, gs = g :: rest ∧ g.start = s ∧
    Chained gs ∧ ∃ l, gs.getLast? = some l ∧ l.stop = e := by
  intro gs
  induction gs with
  | nil => intro s e h; exact h.elim
  | cons g gs ih =>
    intro s e h
    cases gs with
    | nil => exact ⟨g, [], rfl, h.1, trivial, g, rfl, h.2⟩
    | cons g' gs =>
      obtain ⟨h1, h2⟩ := h
      obtain ⟨g2, rest, e1, e2, e3, l, e4, e5⟩ := ih h2
      cases e1
      exact ⟨g, _, rfl, h1, ⟨e2.symm, e3⟩, l, by rw [List.getLast?_cons_cons]; exact e4, e5⟩

theorem chained_append : ∀ {a b : List Segment}, Chained a → Chained b →
    (∀ l g, a.getLast? = some l → b.head? = some g → l.stop = g.start) → Chained (a ++ b) := by
  intro a
  induction a with
  | nil => intro b _ hb _; exact hb
  | cons x a ih =>
    intro b ha hb h
    cases a with
    | nil =>
      cases b with
      | nil => trivial
      | cons g b => exact ⟨h x g rfl rfl, hb⟩
    | cons x' a =>
      refine ⟨ha.1, ih ha.2 hb ?_⟩
      intro l g hl hg
      exact h l g (by rw [List.getLast?_cons_cons]; exact hl) hg

/-- **C20** (specification check). The contours of the specification are non-empty, and each of their segments starts
where the previous one ended. -/
theorem c20_spec_chained (h body : List Atom) (g : List Segment) (out : List (Bool × List Segment))
    (hc : Contours h g body out) (hg : Chained g) (hlast : ∀ l, g.getLast? = some l → At h l.stop) :
    ∀ p ∈ out, p.2 ≠ [] ∧ Chained p.2 := by
  induction hc with
  | finishNone => simp
  | finish h g hn => intro p hp; simp only [List.mem_singleton] at hp; subst hp; exact ⟨hn, hg⟩
  | draw h g x y i j gs rest out piece more ih =>
    obtain ⟨s, e, p1, p2, p3, -, -⟩ := piece
    obtain ⟨g1, r, rfl, q2, q3, l, q4, q5⟩ := joins_last p3
    apply ih
    · refine chained_append hg q3 ?_
      intro l g hl hgh
      simp only [List.head?_cons, Option.some.injEq] at hgh
      subst hgh
      rw [q2]; exact at_unique (hlast l hl) p1
    · intro l' hl'
      rw [List.getLast?_append, q4] at hl'
      simp only [Option.some_or, Option.some.injEq] at hl'
      subst hl'; rw [q5]; exact p2
  | moveNone h x y rest out more ih => exact ih trivial (by simp)
  | move h g x y rest out hn more ih =>
    intro p hp
    rcases List.mem_cons.1 hp with rfl | hp
    · exact ⟨hn, hg⟩
    · exact ih trivial (by simp) p hp
  | other h g a rest out ha more ih =>
    apply ih hg
    intro l hl
    obtain ⟨x, y, a1, a2, a3⟩ := hlast l hl
    have hgv : ∀ ax, gives ax a = none := by
      intro ax
      cases a with
      | leaf l => cases l <;> first | (simp [isSilent] at ha; done) | (cases ax <;> rfl)
      | _ => simp [isSilent] at ha
    exact ⟨x, y, lastGiven_snoc a1 (hgv _), lastGiven_snoc a2 (hgv _), a3⟩

/-- A region with a line, a single-quadrant arc and another line. -/
def dropSample : List Atom :=
  [.leaf (.fs {}), .leaf (.d01 (some ['5']) none none none), .leaf .g74, .leaf .g02,
    .leaf (.d01 (some ['7']) none (some ['0']) (some ['1','0','0','0','0','0','0'])), .leaf .g01,
    .leaf (.d01 (some ['9']) none none none)]

theorem unpack7x : ({} : CoordinateFormat).unpack .x ['7'] = .ok (7 / 1000000) := by decide +kernel

theorem dropSample_ok :
    ∃ c', compiled env0 (.leaf .g36 :: (dropSample ++ [.leaf .g37])) = .ok c' ∧ c'.stack = [.main] ∧
      c'.buffers.get? .main = some [.shape ⟨.line ⟨⟨0, 0⟩, ⟨((5 / 1000000 : ℚ) : ℝ), 0⟩⟩,
        [.line ⟨⟨((7 / 1000000 : ℚ) : ℝ), 0⟩, ⟨((9 / 1000000 : ℚ) : ℝ), 0⟩⟩], false⟩] := by
  eval_compiler [dropSample, unpack5, unpack7x, unpack9, unpack0, unpack1, draw, drawShapes, VState.startRegion,
    VState.endRegion, VState.dispatch, VState.drawTable, VState.putX, VState.putI, VState.putJ, flushRegion, contourSegments]

/-- **C20 does not hold** when a region contains single-quadrant arcs: they are left out, and the contour is broken. -/
theorem c20_false_single_quadrant :
    ¬ ∀ (env : Env) (h body : List Atom) (c' : CState) (ds : List (Draw LayerId)),
      (run {} (h ++ .leaf .g36 :: (body ++ [.leaf .g37]))).exn = none →
      compiled env (h ++ .leaf .g36 :: (body ++ [.leaf .g37])) = .ok c' →
      (∀ a ∈ body, isSilent a = true ∨ (∃ x y i j, a = .leaf (.d01 x y i j)) ∨ ∃ x y, a = .leaf (.d02 x y)) →
      DrawsAll env h (.leaf .g36 :: (body ++ [.leaf .g37])) ds →
      ∀ s, .shape s ∈ ds → Chained (s.head :: s.tail) := by
  intro hall
  obtain ⟨c', h4, h5, h6⟩ := dropSample_ok
  have hd : DrawsAll env0 [] (.leaf .g36 :: (dropSample ++ [.leaf .g37])) [.shape ⟨.line ⟨⟨0, 0⟩, ⟨((5 / 1000000 : ℚ) : ℝ), 0⟩⟩,
        [.line ⟨⟨((7 / 1000000 : ℚ) : ℝ), 0⟩, ⟨((9 / 1000000 : ℚ) : ℝ), 0⟩⟩], false⟩] := by
    refine ⟨CState.init, c', rfl, h4, h5, ?_, ?_⟩
    · intro id b hid hb
      cases hid
      simp [CState.init, Dict.get?] at hb
      subst hb
      exact h6
    · intro id b hid hb
      have : ¬ LayerId.main = id := fun e => hid (e ▸ rfl)
      simp [CState.init, Dict.get?, this] at hb
  have := hall env0 [] dropSample c' _ (by decide +kernel) h4 (by
    intro a ha
    fin_cases ha <;> simp [isSilent]) hd _ (List.mem_singleton_self _)
  have e : ((5 / 1000000 : ℚ) : ℝ) = ((7 / 1000000 : ℚ) : ℝ) := congrArg Vec.x this.1
  norm_num at e

/-- Non-vacuity of C20: a region of two contours. -/
def regionSample : List Atom :=
  [.leaf (.fs {}), .leaf (.d01 (some ['5']) none none none), .leaf .g04, .leaf (.d02 none (some ['7'])),
    .leaf (.d01 (some ['9']) none none none), .leaf (.d01 none (some ['3']) none none)]

example : (run {} (([] ++ [.leaf .g36]) ++ (regionSample ++ [.leaf .g37]))).exn = none ∧
    (∃ c', compiled env0 (([] ++ [.leaf .g36]) ++ (regionSample ++ [.leaf .g37])) = .ok c') ∧
    (∀ a ∈ regionSample, isSilent a = true ∨ (∃ x y i j, a = .leaf (.d01 x y i j)) ∨ ∃ x y, a = .leaf (.d02 x y)) ∧
    ∀ pre x y i j post, regionSample = pre ++ .leaf (.d01 x y i j) :: post →
      latest setsPlot .linear (([] ++ [.leaf .g36]) ++ pre) = .linear := by
  refine ⟨by decide +kernel, ?_, ?_, ?_⟩
  · eval_compiler [regionSample, unpack5, unpack7, unpack9, unpack3, draw, drawShapes, flushRegion, contourSegments,
      VState.startRegion, VState.endRegion, VState.dispatch, VState.drawTable, VState.putX, VState.putY]
  · intro a ha
    fin_cases ha <;> simp [isSilent]
  · intro pre x y i j post h
    have : ∀ a ∈ pre, setsPlot a = none := by
      intro a ha
      have : a ∈ regionSample := h ▸ List.mem_append_left _ ha
      fin_cases this <;> rfl
    rw [latest_append_of_none _ _ _ _ this]
    rfl

/-- Non-vacuity of C14: a file with two flashes and a line compiles. -/
example : (∀ l, (env0.iter l).Perm l) ∧ ∃ prog, compile env0 false [.leaf (.fs {}),
    .leaf (.ad ['D','1','1'] (.circle 1 none)), .leaf (.dnn ['D','1','1']), .leaf (.d01 (some ['5']) none none none),
    .leaf (.lp .clear), .leaf (.d03 none (some ['7'])), .leaf (.d03 none none)] = .ok prog := by
  refine ⟨fun l => .refl l, ?_⟩
  eval_compiler [compile, finish, file_is_run, executed, isStop, atomsOf, atomsOfAll, unpack5, unpack7, draw, drawShapes, lineShapes,
    lineThickness, VState.dispatch, VState.drawTable, VState.putX, VState.putY, convert, resolve_step, resolve.loop, dependsOn,
    Draw.sources, List.dedup_cons_of_mem, List.dedup_cons_of_notMem]

end
end Verif.Props.Compiler
