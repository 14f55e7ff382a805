import Verif.Lemmas.View
import Verif.Spec.Attributes
import Verif.Props.Format
import Verif.Lemmas.RewriteText

/-!
# C62, C63: files from their text to what is drawn
-/

namespace Verif.Props.View

open Verif.Peg Verif.Syntax Verif.Visitor Verif.Spec Verif.View Verif.Grammar Verif.Formatter Verif.Compiler
open Verif.Math (WF Consts)

theorem removed_idle (u : Options) : Idle (Removed u) := by
  intro c h
  simp only [Removed, Bool.or_eq_true, Bool.and_eq_true, decide_eq_true_eq] at h
  rcases h with h | h
  · exact .inl h.1
  · exact .inr h.1

/-- Files that differ in their layout only are the same to the visitors. -/
theorem same_visit {u : Options} {f f' : List Node} (h : bareAll (fun _ => false) f' = bareAll (Removed u) f) (ignore : Bool) :
    processFile ignore (commands f') = processFile ignore (commands f) := by
  unfold processFile commands
  rw [← bare_file (drop := fun _ => false) (fun _ h => by cases h) ignore f' 0 {}, h, bare_file (removed_idle u) ignore f 0 {}]

/-- The values of expressions are kept by the parentheses of the formatter. -/
theorem keeps_reparsed : Rewrite.Keeps Props.Expr.reparsed := fun ρ e => Props.Expr.eval_reparsed ρ e

/-- C59 with explicit parentheses: the file that is read back is the one with its parentheses rewritten. -/
theorem explicit_back (rd : Text → Option Text) (hrd : StableDates rd) (u : Options) (hl : BlankLayout { u with explicit := false })
    (s : Text) (f : List Node) (h : parseCode rd s = .file f) (hn : ∀ n ∈ insideAll f, Printable u n)
    (hm : ∀ n ∈ insideAll f, ∀ e ∈ exprs n, Props.Expr.NoMinusPlus e) (hx : u.explicit = true)
    (hne : bareAll (Removed u) f ≠ []) :
    ∃ f', parseCode rd (formats (build u) f) = .file f' ∧
      bareAll (fun _ => false) f' = bareAll (Removed u) (Rewrite.nodes Props.Expr.reparsed f) := by
  have hd := dateLaw_of hrd
  have hpl : u.places ≠ some 0 := hl.places
  have hL : WFs (fun n => NodeOk rd (build u) n ∧ ∀ e ∈ exprs n, WF 6 e ∧ Props.Expr.NoMinusPlus e) true f := by
    refine (((parseFile_built hd (expandTabs_noTab s) h).and hn).and hm).mono ?_
    rintro n ⟨⟨hb, hp⟩, hq⟩
    refine ⟨node_ok hpl hb hp, fun e he => ⟨?_, hq e he⟩⟩
    cases n <;> simp only [exprs, List.not_mem_nil] at he
    simp only [List.mem_flatten, List.mem_map] at he
    obtain ⟨_, ⟨p, hp', rfl⟩, hpe⟩ := he
    exact hb.1.2.2 p hp' e hpe
  have hW : WFs (NodeOk rd (Rewrite.setting (build u) false)) true (Rewrite.nodes Props.Expr.reparsed f) := by
    refine Rewrite.wfs_nodes ?_ hL
    rintro n ⟨h1, h2⟩
    refine Rewrite.nodeOk_node h1 fun e he => ?_
    obtain ⟨w, m⟩ := h2 e he
    exact ⟨(Props.Expr.wf_reparsed w m).1.le (by omega) (by omega), Props.Expr.consts_reparsed e (h1.2.2.2.2 e he)⟩
  have hlay : Layout (Rewrite.setting (build u) false) := layout_build hl
  have e1 := bare_norm (Rewrite.setting (build u) false) (Rewrite.nodes Props.Expr.reparsed f) false
  have e2 : removed (Rewrite.setting (build u) false) = Removed u := rfl
  rw [e2] at e1
  have ht : formats (Rewrite.setting (build u) false) (Rewrite.nodes Props.Expr.reparsed f) = formats (build u) f := by
    refine Rewrite.formats_print (fun e => ?_) f
    have hx' : (build u).explicit = true := hx
    rw [hx']
    exact Props.Expr.print_reparsed _ e
  have := parse_tabbed hlay (tabs_build hl false) hW ?_
  · rw [ht] at this
    exact ⟨_, this, e1⟩
  · intro h0
    rw [h0] at e1
    simp only [bareAll, Rewrite.bareAll_nodes] at e1
    exact Rewrite.nodes_ne_nil hne e1.symm

/-- **C62** (partial: as C59; with explicit parentheses as C13).  Formatting does not change the drawing: the text that the
formatter makes of a parsed file is parsed, and the compiler makes the same program, or raises the same exception, for both
files.  This includes the option that writes explicit parentheses. -/
theorem c62_same_drawing_partial (rd : Text → Option Text) (hrd : StableDates rd) (u : Options)
    (hl : BlankLayout { u with explicit := false })
    (s : Text) (f : List Node) (h : parseCode rd s = .file f) (hn : ∀ n ∈ insideAll f, Printable u n)
    (hm : u.explicit = true → ∀ n ∈ insideAll f, ∀ e ∈ exprs n, Props.Expr.NoMinusPlus e)
    (hne : bareAll (Removed u) f ≠ []) :
    ∃ f', parseCode rd (formats (build u) f) = .file f' ∧ ∀ env ignore,
      compile env ignore (commands f') = compile env ignore (commands f) := by
  cases hx : u.explicit with
  | false =>
    have hu : ({ u with explicit := false } : Options) = u := by rw [← hx]
    rw [hu] at hl
    obtain ⟨f', h1, h2⟩ := Props.Format.c59_same_commands_partial rd hrd u hl s f h hn hne
    refine ⟨f', h1, fun env ignore => ?_⟩
    unfold compile
    rw [same_visit h2]
  | true =>
    obtain ⟨f', h1, h2⟩ := explicit_back rd hrd u hl s f h hn (hm hx) hx hne
    refine ⟨f', h1, fun env ignore => ?_⟩
    rw [← Rewrite.compile_nodes keeps_reparsed env ignore f]
    unfold compile
    rw [same_visit h2]

/-- **C62**, for the state after the file: also the attributes, formats and modes at the end are the same. -/
theorem c62_same_state_partial (rd : Text → Option Text) (hrd : StableDates rd) (u : Options) (hl : BlankLayout u)
    (s : Text) (f : List Node) (h : parseCode rd s = .file f) (hn : ∀ n ∈ insideAll f, Printable u n)
    (hne : bareAll (Removed u) f ≠ []) :
    ∃ f', parseCode rd (formats (build u) f) = .file f' ∧ ∀ ignore,
      processFile ignore (commands f') = processFile ignore (commands f) := by
  obtain ⟨f', h1, h2⟩ := Props.Format.c59_same_commands_partial rd hrd u hl s f h hn hne
  exact ⟨f', h1, same_visit h2⟩

/-- Non-vacuity of C62: the sample of C59 (its conditions are shown there) with G54 removed; the texts differ, the commands are
those of a block aperture, a circle, an attribute, a selection and the end of the file. -/
example : ∃ f, parseCode Props.Format.years Props.Format.sample = .file f ∧
    bareAll (Removed { removeG54 := true }) f ≠ [] ∧ (commands f).length = 6 ∧
    formats (build { removeG54 := true }) f ≠ Props.Format.sample := by
  refine ⟨[.ab t!"D11" [.g .g01 false, .d01 (some t!"1") (some t!"-2") none none false],
    .adc t!"D10" (Verif.Text.floatOf false ['2'] ['5', '0']) none, .tfDate t!"2020", .g .g54 false, .dnn t!"D10" false, .m02], rfl, ?_, rfl, ?_⟩
  · simp [bareAll, bare]
  · decide +kernel

/-- Non-vacuity of C62 with explicit parentheses: a macro with a sum; the parentheses are written and read back. -/
example : ∃ f f', parseCode Props.Format.years t!"%AMa*$1=$2+$3*%M02*" = .file f ∧
    formats (build { explicit := true }) f = t!"%AMa*\n$1=($2+$3)*%\nM02*\n" ∧
    parseCode Props.Format.years (formats (build { explicit := true }) f) = .file f' ∧
    (∀ n ∈ insideAll f, Printable { explicit := true } n) ∧ (∀ n ∈ insideAll f, ∀ e ∈ exprs n, Props.Expr.NoMinusPlus e) ∧
    bareAll (Removed { explicit := true }) f ≠ [] ∧ f' ≠ f := by
  refine ⟨[.am t!"a" [.assign t!"$1" (.bin .add (.var t!"$2") [.var t!"$3"])], .m02],
    [.am t!"a" [.assign t!"$1" (.paren (.bin .add (.var t!"$2") [.var t!"$3"]))], .m02], rfl, rfl, rfl, ?_, ?_, ?_, ?_⟩
  · simp [insideAll, inside, Printable, Regular, numbers, exprs, primExprs, constants, constants.constantsAll]
  · simp only [insideAll, inside, List.append_nil, List.cons_append, List.nil_append, List.mem_cons, List.not_mem_nil, or_false,
      forall_eq_or_imp, forall_eq, exprs, primExprs, List.map_cons, List.map_nil, List.flatten_cons, List.flatten_nil]
    refine ⟨.bin .var ?_, by simp⟩
    intro e he
    simp only [List.mem_singleton] at he
    subst he
    exact .var
  · simp [bareAll, bare, withFlag]
  · intro h; simp at h

/-- **C62 does not hold** with explicit parentheses for a minus sign before a parenthesised plus sign: the formatted file is
not accepted. -/
theorem c62_false_minus_plus :
    ∃ f, parseCode Props.Format.years t!"%AMa*$1=-(+$2)*%" = .file f ∧
      parseCode Props.Format.years (formats (build { explicit := true }) f) = .parseException :=
  ⟨[.am t!"a" [.assign t!"$1" (.neg (.paren (.pos (.var t!"$2"))))]], rfl, rfl⟩

/-- **C62 does not hold** for a step and repeat without its second number: the formatted file is not accepted. -/
theorem c62_false_step_repeat :
    ∃ f, parseCode Props.Format.years t!"%SRX2*%%SR*%" = .file f ∧
      parseCode Props.Format.years (formats (build {}) f) = .parseException :=
  ⟨[.sr (some t!"2") none none none []], rfl, rfl⟩

/-- **C62 does not hold** for a step and repeat with a vertical number only: the block with two copies, 5 apart, becomes
a block with one. -/
theorem c62_false_copies_lost :
    ∃ f f', parseCode Props.Format.years t!"%SRY2J5*%X0Y0D03*%SR*%" = .file f ∧
      parseCode Props.Format.years (formats (build {}) f) = .file f' ∧
      commands f = [.sr ⟨0, 1, 2, 0, 5⟩ [.leaf (.d03 (some ['0']) (some ['0']))]] ∧
      commands f' = [.sr ⟨0, 1, 1, 0, 0⟩ [.leaf (.d03 (some ['0']) (some ['0']))]] := by
  refine ⟨[.sr none (some ['2']) none (some ['5']) [.d03 (some ['0']) (some ['0']) true]],
    [.sr none none none none [.d03 (some ['0']) (some ['0']) true]], rfl, rfl, ?_, rfl⟩
  have h : delta (some ['5']) = 5 := by decide +kernel
  simp only [commands, cmds, View.cmd, h]
  rfl

/-! ### C63 -/

/-- **C63** (partial: all attributes but `.CMPN`).  In every state, an attribute command attaches the attribute, and
deleting it by its name leaves none of that name, and nothing else that was not attached before. -/
theorem c63_deleted_partial (s : VState) (m : Node) (name : Text) (hm : attributeName m = some name) (k : Nat)
    (hx : ∀ v, m ≠ .toText .cMpn v) :
    (visit s (cmd k m).1).exn = none ∧
    ((visit s (cmd k m).1).st.apertureAttrs.get? name ≠ none ∨ (visit s (cmd k m).1).st.objectAttrs.get? name ≠ none) ∧
    ∀ s', s' = (visit (visit s (cmd k m).1).st (cmd k (.td (some name))).1).st →
      s'.apertureAttrs.get? name = none ∧ s'.objectAttrs.get? name = none ∧
      ∀ n v, (s'.apertureAttrs.get? n = some v → s.apertureAttrs.get? n = some v) ∧
        (s'.objectAttrs.get? n = some v → s.objectAttrs.get? n = some v) := by
  have key : (∃ v, (cmd k m).1 = .leaf (.ta name v)) ∨ ∃ v, (cmd k m).1 = .leaf (.to name v) := by
    cases m with
    | toText kind v =>
      cases kind with
      | cMpn => exact absurd rfl (hx v)
      | _ => cases hm; exact .inr ⟨_, rfl⟩
    | taUser _ _ => cases hm; exact .inl ⟨_, rfl⟩
    | taFunction _ _ => cases hm; exact .inl ⟨_, rfl⟩
    | taDrill _ _ => cases hm; exact .inl ⟨_, rfl⟩
    | taFlash _ _ _ _ _ _ => cases hm; exact .inl ⟨_, rfl⟩
    | toUser _ _ => cases hm; exact .inr ⟨_, rfl⟩
    | toN _ => cases hm; exact .inr ⟨_, rfl⟩
    | toP _ _ _ => cases hm; exact .inr ⟨_, rfl⟩
    | toRot _ => cases hm; exact .inr ⟨_, rfl⟩
    | toHeight _ => cases hm; exact .inr ⟨_, rfl⟩
    | toMount _ => cases hm; exact .inr ⟨_, rfl⟩
    | toSup _ _ _ => cases hm; exact .inr ⟨_, rfl⟩
    | _ => cases hm
  rcases key with ⟨v, e⟩ | ⟨v, e⟩
  · rw [e]
    refine ⟨rfl, .inl (by simp [visit, stepLeaf, Out.ok]), ?_⟩
    rintro s' rfl
    simp only [visit, stepLeaf, Out.ok, View.cmd, View.leaf, Dict.get?_pop, Dict.get?_set]
    refine ⟨by simp, by simp, fun n w => ⟨?_, ?_⟩⟩
    · by_cases h : n = name <;> simp [h]
      simp [Ne.symm h]
    · by_cases h : n = name <;> simp [h]
  · rw [e]
    refine ⟨rfl, .inr (by simp [visit, stepLeaf, Out.ok]), ?_⟩
    rintro s' rfl
    simp only [visit, stepLeaf, Out.ok, View.cmd, View.leaf, Dict.get?_pop, Dict.get?_set]
    refine ⟨by simp, by simp, fun n w => ⟨?_, ?_⟩⟩
    · by_cases h : n = name <;> simp [h]
    · by_cases h : n = name <;> simp [h]
      simp [Ne.symm h]

/-- Non-vacuity of C63. -/
example : attributeName (.toText .cVal t!"10k") = some t!".CVal" ∧
    parseCode Props.Format.years t!"%TO.CVal,10k*%%TD.CVal*%" = .file [.toText .cVal t!"10k", .td (some t!".CVal")] :=
  ⟨rfl, rfl⟩

/-- **C63 does not hold** for `.CMPN` (manufacturer part number): it stays attached after it was deleted by its name. -/
theorem c63_false_cmpn :
    ∃ f, parseCode Props.Format.years t!"%TO.CMPN,x*%%TD.CMPN*%" = .file f ∧
      (processFile false (commands f)).st.objectAttrs = [(t!".CMNP", t!",x")] :=
  ⟨[.toText .cMpn t!"x", .td (some t!".CMPN")], rfl, rfl⟩

end Verif.Props.View
