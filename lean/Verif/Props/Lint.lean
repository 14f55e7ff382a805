import Verif.Model.Lint
import Verif.Spec.Lint
import Verif.Lemmas.State

/-!
# C45: redundant interpolation commands
-/

namespace Verif.Props.Lint
open Verif.Visitor Verif.Lint Verif.Spec

/-- The draw handler is the one of the current modes. -/
def Coherent (s : VState) : Prop := s.drawHandler = (VState.drawTable s.plot s.quad, s.dispatchInRegion)

/-- What the linter remembers is true of the state. -/
def Agree (last : Option Trigger) (s : VState) : Prop :=
  match last with
  | some .g01 => s.plot = .linear
  | some .g02 => s.plot = .arc
  | some .g03 => s.plot = .ccwArc
  | _ => True

/-- Plot mode and coherence are not affected. -/
def SameModes (s t : VState) : Prop :=
  t.plot = s.plot ∧ t.quad = s.quad ∧ t.drawHandler = s.drawHandler ∧ t.dispatchInRegion = s.dispatchInRegion

theorem SameModes.refl (s : VState) : SameModes s s := ⟨rfl, rfl, rfl, rfl⟩
theorem SameModes.trans {a b c : VState} (h : SameModes a b) (g : SameModes b c) : SameModes a c :=
  ⟨g.1.trans h.1, g.2.1.trans h.2.1, g.2.2.1.trans h.2.2.1, g.2.2.2.trans h.2.2.2⟩

theorem SameModes.coherent {s t : VState} (h : SameModes s t) (hc : Coherent s) : Coherent t := by
  unfold Coherent at *
  rw [h.1, h.2.1, h.2.2.1, h.2.2.2]; exact hc

theorem SameModes.agree {s t : VState} (h : SameModes s t) {last} (hc : Agree last s) : Agree last t := by
  unfold Agree at *
  rw [h.1]; exact hc

theorem sameModes_andThen {s : VState} {o : Out} {f : VState → Out} (h : SameModes s o.st)
    (hf : ∀ t, SameModes t (f t).st) : SameModes s (o.andThen f).st := by
  unfold Out.andThen
  cases o.exn with
  | some e => exact h
  | none => exact h.trans (hf _)

theorem sameModes_coordinate (a put t s) (hp : ∀ v s, SameModes s (put v s)) :
    SameModes s (coordinate a put t s).st := by
  unfold coordinate
  repeat' split
  all_goals first | exact .refl _ | exact hp _ _

theorem sameModes_xy (x y s) : SameModes s (visitXY x y s).st :=
  sameModes_andThen (sameModes_coordinate _ _ _ _ fun _ _ => ⟨rfl, rfl, rfl, rfl⟩)
    fun _ => sameModes_coordinate _ _ _ _ fun _ _ => ⟨rfl, rfl, rfl, rfl⟩

theorem sameModes_ij (x y s) : SameModes s (visitIJ x y s).st :=
  sameModes_andThen (sameModes_coordinate _ _ _ _ fun _ _ => ⟨rfl, rfl, rfl, rfl⟩)
    fun _ => sameModes_coordinate _ _ _ _ fun _ _ => ⟨rfl, rfl, rfl, rfl⟩

theorem sameModes_update (s : VState) : SameModes s s.updateCoordinates := by
  rw [updateCoordinates_eq]
  exact ⟨rfl, rfl, rfl, rfl⟩

theorem stepLeaf_modes (s : VState) (l : Leaf) (hc : Coherent s) :
    Coherent (stepLeaf s l).st ∧ (trigger l = none → (stepLeaf s l).st.plot = s.plot) := by
  have of : SameModes s (stepLeaf s l).st →
      Coherent (stepLeaf s l).st ∧ (trigger l = none → (stepLeaf s l).st.plot = s.plot) :=
    fun h => ⟨h.coherent hc, fun _ => h.1⟩
  cases l
  case d01 x y i j =>
    apply of
    refine sameModes_andThen (sameModes_andThen (sameModes_xy _ _ _) fun t => sameModes_ij _ _ _) fun t => ?_
    exact sameModes_update t
  case d02 x y =>
    apply of
    exact sameModes_andThen (sameModes_xy _ _ _) fun t => sameModes_update t
  case d03 x y =>
    apply of
    refine sameModes_andThen (sameModes_xy _ _ _) fun t => ?_
    unfold flashCurrent
    repeat' split
    all_goals first | exact .refl _ | exact sameModes_update t
  case dnn id =>
    apply of
    simp only [stepLeaf]
    split <;> exact ⟨rfl, rfl, rfl, rfl⟩
  case td n =>
    cases n <;> exact of ⟨rfl, rfl, rfl, rfl⟩
  case g01 => exact ⟨rfl, by simp [trigger]⟩
  case g02 => exact ⟨rfl, by simp [trigger]⟩
  case g03 => exact ⟨rfl, by simp [trigger]⟩
  case g36 => exact ⟨rfl, fun _ => rfl⟩
  case g37 => exact ⟨rfl, fun _ => rfl⟩
  case g74 => exact ⟨rfl, fun _ => rfl⟩
  case g75 => exact ⟨rfl, fun _ => rfl⟩
  all_goals exact of ⟨rfl, rfl, rfl, rfl⟩

theorem stepLeaf_agree (s : VState) (l : Leaf) (last) (hc : Coherent s) (ha : Agree last s) :
    Agree (lintLeaf last l).1 (stepLeaf s l).st := by
  have key := (stepLeaf_modes s l hc).2
  cases ht : trigger l with
  | none =>
    have : (lintLeaf last l).1 = last := by simp [lintLeaf, ht]
    rw [this]
    have hp := key ht
    unfold Agree at *
    rw [hp]; exact ha
  | some t =>
    cases l <;> simp [trigger] at ht <;> subst ht <;> rfl

/-- A reported command changes nothing at all. -/
theorem reported_noop (s : VState) (l : Leaf) (last) (hc : Coherent s) (ha : Agree last s)
    (hr : (lintLeaf last l).2 = true) : stepLeaf s l = .ok s := by
  unfold Coherent at hc
  cases l <;> simp only [lintLeaf, trigger, callback] at hr <;> try exact absurd hr Bool.false_ne_true
  all_goals
    simp only [Bool.and_eq_true, beq_iff_eq] at hr
    rw [hr.2] at ha
    simp only [Agree] at ha
    simp only [stepLeaf, VState.dispatch]
    congr 1
    cases s
    simp_all

theorem coherent_andThen {o : Out} {f : VState → Out} (h : Coherent o.st) (hf : ∀ t, Coherent t → Coherent (f t).st) :
    Coherent (o.andThen f).st := by
  unfold Out.andThen
  cases o.exn with
  | some e => exact h
  | none => exact hf _ h

theorem coherent_run (s : VState) (as : List Atom) (hc : Coherent s) : Coherent (run s as).st := by
  induction as generalizing s with
  | nil => exact hc
  | cons a as ih =>
    refine coherent_andThen ?_ fun t ht => ih t ht
    cases a with
    | leaf l => exact (stepLeaf_modes s l hc).1
    | _ => exact SameModes.coherent ⟨rfl, rfl, rfl, rfl⟩ hc

theorem andThen_congr' {a b : Out} {f g : VState → Out} (h : a = b) (hfg : b.exn = none → f b.st = g b.st) :
    a.andThen f = b.andThen g := by
  subst h
  unfold Out.andThen
  cases hx : a.exn with
  | some e => rfl
  | none => simp only [hfg hx]

theorem visitAll_append (s : VState) (xs ys : List Cmd) :
    visitAll s (xs ++ ys) = (visitAll s xs).andThen fun s => visitAll s ys := by
  induction xs generalizing s with
  | nil => simp [visitAll]
  | cons c cs ih =>
    simp only [List.cons_append, visitAll]
    rw [Out.andThen_assoc]
    congr 1; funext t; exact ih t

theorem visitAll_single (s : VState) (c : Cmd) : visitAll s [c] = visit s c := by
  simp only [visitAll]
  exact Out.andThen_ok' _

mutual
theorem delete_rest (last : Option Trigger) (rest : List Bool) :
    (c : Cmd) → (deleteIn ((lintCmd last c).2 ++ rest) c).2 = rest
  | .leaf l => by
    simp only [lintCmd, List.cons_append, List.nil_append, deleteIn]
    cases (lintLeaf last l).2 <;> rfl
  | .ab id body => delete_restAll last rest body
  | .sr p body => delete_restAll last rest body
theorem delete_restAll (last : Option Trigger) (rest : List Bool) :
    (cs : List Cmd) → (deleteAll ((lintAll last cs).2 ++ rest) cs).2 = rest
  | [] => rfl
  | c :: cs => by
    simp only [lintAll, List.append_assoc, deleteAll]
    rw [delete_rest]
    exact delete_restAll _ rest cs
end

mutual
theorem delete_visit (s : VState) (last : Option Trigger) (rest : List Bool) (hc : Coherent s) (ha : Agree last s) :
    (c : Cmd) → visitAll s (deleteIn ((lintCmd last c).2 ++ rest) c).1 = visit s c ∧
      ((visit s c).exn = none → Agree (lintCmd last c).1 (visit s c).st)
  | .leaf l => by
    refine ⟨?_, fun _ => stepLeaf_agree s l last hc ha⟩
    simp only [lintCmd, List.cons_append, List.nil_append, deleteIn]
    cases h : (lintLeaf last l).2 with
    | true =>
      simp only [visitAll, visit]
      exact (reported_noop s l last hc ha h).symm
    | false =>
      show visitAll s [.leaf l] = _
      exact visitAll_single _ _
  | .ab id body => by
    obtain ⟨h2, h3⟩ := delete_visitAll s last rest hc ha body
    simp only [lintCmd, deleteIn]
    refine ⟨?_, fun _ => trivial⟩
    rw [visitAll_single]
    simp only [visit]
    congr 1
    simp only [step, Out.andThen_ok]
    rw [h2]
  | .sr p body => by
    obtain ⟨h2, h3⟩ := delete_visitAll s last rest hc ha body
    simp only [lintCmd, deleteIn]
    refine ⟨?_, ?_⟩
    · rw [visitAll_single]
      simp only [visit]
      congr 1
      simp only [step, Out.andThen_ok]
      rw [h2]
    · intro hx
      simp only [visit] at hx ⊢
      rw [Out.andThen_exn_none] at hx
      rw [Out.andThen_of_none hx.1]
      simp only [step, Out.ok, Out.andThen_of_none] at hx ⊢
      exact h3 hx.1
theorem delete_visitAll (s : VState) (last : Option Trigger) (rest : List Bool) (hc : Coherent s) (ha : Agree last s) :
    (cs : List Cmd) → visitAll s (deleteAll ((lintAll last cs).2 ++ rest) cs).1 = visitAll s cs ∧
      ((visitAll s cs).exn = none → Agree (lintAll last cs).1 (visitAll s cs).st)
  | [] => ⟨rfl, fun _ => ha⟩
  | c :: cs => by
    obtain ⟨h2, h3⟩ := delete_visit s last ((lintAll (lintCmd last c).1 cs).2 ++ rest) hc ha c
    simp only [lintAll, List.append_assoc, deleteAll]
    rw [delete_rest]
    have hcoh : Coherent (visit s c).st := by rw [visit_eq_run]; exact coherent_run _ _ hc
    refine ⟨?_, ?_⟩
    · rw [visitAll_append, h2]
      exact andThen_congr' rfl fun hx => (delete_visitAll _ (lintCmd last c).1 rest hcoh (h3 hx) cs).1
    · intro hn
      simp only [visitAll] at hn ⊢
      rw [Out.andThen_exn_none] at hn
      rw [Out.andThen_of_none hn.1]
      exact (delete_visitAll _ (lintCmd last c).1 rest hcoh (h3 hn.1) cs).2 hn.2
end

/-- One top-level node. -/
theorem onFile_cons (ignore : Bool) (s : VState) (c : Cmd) (cs : List Cmd) :
    onFile ignore s (c :: cs) =
      if (visit s c).exn = none ∨ (visit s c).exn = some .programStop ∧ ignore = false then
        ⟨(onFile ignore (visit s c).st cs).st, (visit s c).ev ++ (onFile ignore (visit s c).st cs).ev,
          (onFile ignore (visit s c).st cs).exn⟩
      else ⟨(visit s c).st, (visit s c).ev, if (visit s c).exn = some .programStop then none else (visit s c).exn⟩ := by
  conv_lhs => unfold onFile
  cases h : (visit s c).exn with
  | none => simp [h]
  | some e => cases e <;> simp [h] <;> cases ignore <;> simp

/-- The deletion of a top-level node leaves nothing or one node. -/
theorem deleteIn_cases (flags : List Bool) (c : Cmd) :
    (deleteIn flags c).1 = [] ∨ ∃ d, (deleteIn flags c).1 = [d] := by
  cases c with
  | leaf l =>
    simp only [deleteIn]
    split <;> simp
  | ab id body => exact .inr ⟨_, rfl⟩
  | sr p body => exact .inr ⟨_, rfl⟩

theorem delete_onFile (ignore : Bool) : ∀ (cs : List Cmd) (s : VState) (last : Option Trigger), Coherent s → Agree last s →
    (ignore = false → ∀ p body, Cmd.sr p body ∈ cs → ∀ a ∈ atomsOfAll body, isStop a = false) →
    onFile ignore s (deleteAll (lintAll last cs).2 cs).1 = onFile ignore s cs
  | [], s, last, hc, ha, hs => rfl
  | c :: cs, s, last, hc, ha, hs => by
    obtain ⟨h2, h3⟩ := delete_visit s last (lintAll (lintCmd last c).1 cs).2 hc ha c
    have hcoh : Coherent (visit s c).st := by rw [visit_eq_run]; exact coherent_run _ _ hc
    simp only [lintAll, deleteAll]
    rw [delete_rest]
    have ih := delete_onFile ignore cs (visit s c).st (lintCmd last c).1 hcoh
    have hs' : ignore = false → ∀ p body, Cmd.sr p body ∈ cs → ∀ a ∈ atomsOfAll body, isStop a = false :=
      fun h p body hm => hs h p body (by simp [hm])
    have hagree : ((visit s c).exn = none ∨ (visit s c).exn = some .programStop ∧ ignore = false) →
        Agree (lintCmd last c).1 (visit s c).st := by
      rintro (h | ⟨h, hi⟩)
      · exact h3 h
      · cases c with
        | leaf l => exact stepLeaf_agree s l last hc ha
        | ab id body => trivial
        | sr p body =>
          exfalso
          have hb := hs hi p body (by simp)
          rw [visit_eq_run] at h
          refine run_exn_stop ?_ h
          intro a ha'
          simp only [atomsOf, List.mem_cons, List.mem_append, List.not_mem_nil, or_false] at ha'
          rcases ha' with rfl | ha' | rfl
          · rfl
          · exact hb a ha'
          · rfl
    rcases deleteIn_cases ((lintCmd last c).2 ++ (lintAll (lintCmd last c).1 cs).2) c with hd | ⟨d, hd⟩
    · rw [hd] at h2 ⊢
      simp only [visitAll] at h2
      have e1 : (visit s c).st = s := by rw [← h2]; rfl
      have e2 : (visit s c).ev = [] := by rw [← h2]; rfl
      have e3 : (visit s c).exn = none := by rw [← h2]; rfl
      rw [onFile_cons, if_pos (.inl e3), e2, List.nil_append, List.nil_append]
      have := ih (hagree (.inl e3)) hs'
      rw [e1] at this ⊢
      exact this
    · rw [hd] at h2 ⊢
      rw [visitAll_single] at h2
      rw [List.singleton_append, onFile_cons, onFile_cons, h2]
      split_ifs with hx hy
      · rw [ih (hagree hx) hs']
      · rfl
      · rfl

/-- **C45** (partial). Deleting every command reported as redundant changes nothing in how the file is read: the same
callbacks (draws, flashes, regions, definitions, each with the same state), the same final state, the same exception.
Holds for every file when processing ends at the first stop command (`ignore_program_stop=True`, see C09), and
otherwise for every file without a stop command inside a step and repeat block.
Missing: stop commands inside step and repeat blocks (`c45_false_stop_in_sr`). -/
theorem c45_delete_redundant_partial (ignore : Bool) (file : List Cmd)
    (hs : ignore = false → ∀ p body, Cmd.sr p body ∈ file → ∀ a ∈ atomsOfAll body, isStop a = false) :
    processFile ignore (deleteFlagged (lint file) file) = processFile ignore file :=
  delete_onFile ignore file {} none rfl trivial hs

/-- **C45** is false without that condition: in `SR { G02; M00; G01 } G01` the last `G01` is reported (the linter
looks past the stop command), but without it the file ends in circular instead of linear interpolation. -/
theorem c45_false_stop_in_sr : ∃ file : List Cmd,
    (processFile false (deleteFlagged (lint file) file)).st.plot ≠ (processFile false file).st.plot :=
  ⟨[.sr ⟨0, 1, 1, 0, 0⟩ [.leaf .g02, .leaf .m00, .leaf .g01], .leaf .g01], by decide +kernel⟩

/-- The interpolation mode the linter remembers. -/
def remembered : Option Trigger → Option Plot
  | some .g01 => some .linear
  | some .g02 => some .arc
  | some .g03 => some .ccwArc
  | _ => none

theorem remembered_leaf (last : Option Trigger) (before : List Atom) (l : Leaf)
    (h : remembered last = latest interpolationOrBlockEnd none before) :
    remembered (lintLeaf last l).1 = latest interpolationOrBlockEnd none (before ++ [.leaf l]) := by
  rw [latest_snoc]
  cases l <;> first | exact h | rfl

theorem flag_leaf (last : Option Trigger) (before : List Atom) (l : Leaf)
    (h : remembered last = latest interpolationOrBlockEnd none before) :
    (lintLeaf last l).2 = redundant before l := by
  unfold redundant
  rw [← h]
  cases l <;> try rfl
  all_goals
    simp only [lintLeaf, trigger, callback, setsPlot]
    rcases last with _ | t
    · rfl
    · cases t <;> rfl

mutual
theorem lint_deserved (last : Option Trigger) (before rest : List Atom)
    (h : remembered last = latest interpolationOrBlockEnd none before) : (c : Cmd) →
    remembered (lintCmd last c).1 = latest interpolationOrBlockEnd none (before ++ atomsOf c) ∧
    deserved before (atomsOf c ++ rest) = (lintCmd last c).2 ++ deserved (before ++ atomsOf c) rest
  | .leaf l => by
    refine ⟨remembered_leaf last before l h, ?_⟩
    simp only [lintCmd, atomsOf, List.cons_append, List.nil_append, deserved]
    rw [flag_leaf last before l h]
  | .ab id body => by
    have h' : remembered last = latest interpolationOrBlockEnd none (before ++ [.abOpen id]) := by
      rw [latest_snoc]; exact h
    obtain ⟨h1, h2⟩ := lint_deservedAll last (before ++ [.abOpen id]) (.abClose id :: rest) h' body
    constructor
    · simp only [atomsOf, lintCmd, callback]
      rw [show before ++ Atom.abOpen id :: (atomsOfAll body ++ [Atom.abClose id])
        = (before ++ [.abOpen id] ++ atomsOfAll body) ++ [.abClose id] by simp, latest_snoc]
      rfl
    · simp only [atomsOf, lintCmd, List.cons_append, deserved, List.append_assoc] at h2 ⊢
      rw [List.nil_append, h2]
      simp [deserved]
  | .sr p body => by
    have h' : remembered last = latest interpolationOrBlockEnd none (before ++ [.srOpen p]) := by
      rw [latest_snoc]; exact h
    obtain ⟨h1, h2⟩ := lint_deservedAll last (before ++ [.srOpen p]) (.srClose p :: rest) h' body
    constructor
    · simp only [atomsOf, lintCmd]
      rw [show before ++ Atom.srOpen p :: (atomsOfAll body ++ [Atom.srClose p])
        = (before ++ [.srOpen p] ++ atomsOfAll body) ++ [.srClose p] by simp, latest_snoc, h1]
      rfl
    · simp only [atomsOf, lintCmd, List.cons_append, deserved, List.append_assoc] at h2 ⊢
      rw [List.nil_append, h2]
      simp [deserved]
theorem lint_deservedAll (last : Option Trigger) (before rest : List Atom)
    (h : remembered last = latest interpolationOrBlockEnd none before) : (cs : List Cmd) →
    remembered (lintAll last cs).1 = latest interpolationOrBlockEnd none (before ++ atomsOfAll cs) ∧
    deserved before (atomsOfAll cs ++ rest) = (lintAll last cs).2 ++ deserved (before ++ atomsOfAll cs) rest
  | [] => by simp [lintAll, atomsOfAll, h]
  | c :: cs => by
    obtain ⟨h1, h2⟩ := lint_deserved last before (atomsOfAll cs ++ rest) h c
    obtain ⟨g1, g2⟩ := lint_deservedAll (lintCmd last c).1 (before ++ atomsOf c) rest h1 cs
    constructor
    · simp only [lintAll, atomsOfAll]
      rw [← List.append_assoc]; exact g1
    · simp only [lintAll, atomsOfAll, List.append_assoc] at g2 ⊢
      rw [h2, g2]
end

/-- **C45** (what is reported). For every file, exactly the interpolation commands are reported that repeat the latest
interpolation command, in the order of the text, with no end of a block aperture in between. -/
theorem c45_reports_exactly (file : List Cmd) : lint file = deserved [] (atomsOfAll file) := by
  have := (lint_deservedAll none [] [] rfl file).2
  simp only [List.append_nil, List.nil_append, deserved] at this
  exact this.symm

theorem deserved_at (before pre : List Atom) (l : Leaf) (post : List Atom) :
    (deserved before (pre ++ .leaf l :: post))[(pre.filterMap leafOf).length]? = some (redundant (before ++ pre) l) := by
  induction pre generalizing before with
  | nil => simp [deserved]
  | cons a pre ih =>
    have := ih (before ++ [a])
    cases a <;> simpa [deserved, leafOf, List.filterMap_cons] using this

/-- **C45** (first command). The first interpolation command of a file is never reported. -/
theorem c45_first_not_reported (file : List Cmd) (pre : List Atom) (l : Leaf) (post : List Atom)
    (hfile : atomsOfAll file = pre ++ .leaf l :: post) (hfirst : ∀ a ∈ pre, setsPlot a = none) :
    (lint file)[(pre.filterMap leafOf).length]? = some false := by
  rw [c45_reports_exactly, hfile, deserved_at]
  have hmem : ∀ pre : List Atom, (∀ a ∈ pre, setsPlot a = none) → latest interpolationOrBlockEnd none pre = none := by
    intro pre h
    induction pre using List.reverseRecOn with
    | nil => rfl
    | append_singleton pre a ih =>
      rw [latest_snoc, ih fun b hb => h b (by simp [hb])]
      have := h a (by simp)
      cases a with
      | leaf l => cases l <;> simp [setsPlot] at this <;> rfl
      | _ => rfl
  simp only [redundant, List.nil_append, hmem pre hfirst]
  cases setsPlot (.leaf l) <;> simp

/-- The hypotheses are met by a file with blocks, and something is reported. -/
example : (∀ p body, Cmd.sr p body ∈ [Cmd.leaf .g01, .sr ⟨0, 2, 2, 1, 1⟩ [.leaf .g01, .leaf .g02], .leaf .m02] →
    ∀ a ∈ atomsOfAll body, isStop a = false) ∧
    lint [.leaf .g01, .sr ⟨0, 2, 2, 1, 1⟩ [.leaf .g01, .leaf .g02], .leaf .m02] = [false, true, false, false] := by
  refine ⟨?_, by decide +kernel⟩
  intro p body h a ha
  simp at h
  obtain ⟨-, rfl⟩ := h
  simp [atomsOfAll, atomsOf] at ha
  rcases ha with rfl | rfl <;> rfl

end Verif.Props.Lint
