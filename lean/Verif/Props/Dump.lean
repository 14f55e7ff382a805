import Verif.Lemmas.Dump
import Verif.Props.Board
import Verif.Props.Format

/-!
# The text of a built board

C66.  A board is built by calls (`execAll`), printed (`dumps`) and the text is parsed (`parseCode`); what is compared is the
program that the compiler makes of the parsed file and of the syntax tree of the builder.
-/

namespace Verif.Props.Dump

open Verif.Peg Verif.Syntax Verif.Visitor Verif.Spec Verif.View Verif.Grammar Verif.GerberBuilder Verif.Dump
open Verif.Compiler (compile)
open Verif.Props.Board (processed)
open Verif.Spec.Board (setsAttribute reserved succeeded)

/-- **C66** (partial: the numbers of the calls are written without an exponent, and attributes have no delimiters and tabs in
them).
The text of a board can be read, and the compiler makes the same program of it as of the syntax tree of the builder, or
raises the same exception.  Calls may have failed. -/
theorem c66_same_drawing_partial (rd : Text → Option Text) (cs : List Call) (hw : ∀ c ∈ cs, Writable c) :
    ∃ f, parseCode rd (dumps (execAll {} cs).1) = .file f ∧
      ∀ env ignore, compile env ignore (commands f) = compile env ignore (commands (file (execAll {} cs).1)) :=
  ⟨_, parse_dumps rd (execAll_ids cs Ids.init) (execAll_holds (T := fun _ => True) cs hw (fun _ _ _ _ _ => trivial) Holds.init),
    fun env ignore => Rewrite.compile_nodes keeps_signed env ignore _⟩

theorem holds_plain {cs : List Call} (hw : ∀ c ∈ cs, Writable c) (ht : ∀ c ∈ cs, ¬ IsThermal c) :
    Holds notThermal (execAll {} cs).1 := by
  refine execAll_holds cs hw ?_ Holds.init
  intro k s p hk hp
  cases s with
  | thermal => exact absurd trivial (ht _ hk)
  | outline cut ps r =>
    simp only [CustomShape.prim] at hp
    split_ifs at hp
    split at hp
    · simp at hp
    · injection hp with hp; subst hp; trivial
  | _ => injection hp with hp; subst hp; trivial

/-- **C66**, for boards without thermals: the program is that of the commands that C33 to C38 speak about. -/
theorem c66_commands_partial (rd : Text → Option Text) (cs : List Call) (hw : ∀ c ∈ cs, Writable c)
    (ht : ∀ c ∈ cs, ¬ IsThermal c) :
    ∃ f, parseCode rd (dumps (execAll {} cs).1) = .file f ∧
      ∀ env ignore, compile env ignore (commands f) = compile env ignore ((execAll {} cs).1.getCode.map Cmd.leaf) := by
  obtain ⟨f, h1, h2⟩ := c66_same_drawing_partial rd cs hw
  refine ⟨f, h1, fun env ignore => ?_⟩
  rw [h2, commands_file (execAll_ids cs Ids.init) (holds_plain hw ht)]

/-- **C66**, attributes: a pad has in the text the attributes that were set on it (compare C38). -/
theorem c66_attributes_partial (rd : Text → Option Text) (cs : List Call) (hw : ∀ c ∈ cs, Writable c)
    (ht : ∀ c ∈ cs, ¬ IsThermal c) (ignore : Bool) (k : Nat) (p : Pad)
    (hp : (execAll {} cs).1.given[k]?.bind ((execAll {} cs).1.pads[·]?) = some p) (n : Name) :
    ∃ f attributes, parseCode rd (dumps (execAll {} cs).1) = .file f ∧
      (processFile ignore (commands f)).exn = (processed ignore cs).exn ∧
      (processFile ignore (commands f)).st.perAperture.get? p.id = some attributes ∧
      attributes.get? n = ((succeeded cs (execAll {} cs).2).filterMap (setsAttribute k n)).getLast? := by
  have hn : ∀ c ∈ cs, reserved c = false := by
    intro c hc
    cases c <;> try rfl
    obtain ⟨⟨c, t, rfl, h1, -⟩, -⟩ := hw _ hc
    have hd : c ≠ '.' := by rintro rfl; simp [UserNameStart] at h1
    simp [reserved, hd]
  obtain ⟨attributes, h1, h2⟩ := Props.Board.c38_attributes_partial cs ignore k p hp n (.inr hn)
  have hi := execAll_ids cs Ids.init
  refine ⟨_, attributes, parse_dumps rd hi (holds_plain hw ht), ?_, ?_, h2⟩
  · rw [Rewrite.commands_nodes, Rewrite.processFile_map, commands_file hi (holds_plain hw ht)]; rfl
  · rw [Rewrite.commands_nodes, Rewrite.processFile_map, commands_file hi (holds_plain hw ht)]; exact h1

/-- The calls of the example: a pad with an attribute, a custom pad with a shape left of its centre, both flashed. -/
def sample : List Call :=
  [.circle (1 / 2) none, .setFunction 0 t!",ViaPad", .addPad 0 (.loc (1, -2)) 90 false false 1, .custom,
   .customShape 0 (.circle true (1 / 4) (-1, 0) 0), .customCreate 0, .addPad 1 (.loc (0, 0)) 0 true false 1]

/-- Non-vacuity of C66: the calls are writable, there is no thermal, and the text is the expected one. -/
example : (∀ c ∈ sample, Writable c) ∧ (∀ c ∈ sample, ¬ IsThermal c) ∧
    dumps (execAll {} sample).1 = t!"%FSLAX46Y46*%\n%MOMM*%\n%AMM0*\n1,0.0,0.25,-1.0,0.0,0.0*%\n%TA.AperFunction,ViaPad*%\n%ADD10C,0.5*%\n%TD*%\n%ADD11M0*%\nG75*\nD10*\n%LR90.0*%\nX1000000Y-2000000D03*\nD11*\n%LR0.0*%\n%LMX*%\nX0Y0D03*\nM02*\n" := by
  have w : ∀ q : ℚ, (∃ n k : ℕ, |q| = n / 10 ^ k) → (q = 0 ∨ (1 / 10000 ≤ |q| ∧ |q| < 10 ^ 16)) → Written q := fun q a b => ⟨a, b⟩
  refine ⟨?_, ?_, by decide +kernel⟩
  · simp only [sample, List.mem_cons, List.not_mem_nil, or_false, forall_eq_or_imp, forall_eq, Writable, WritableShape, WrittenAt]
    refine ⟨⟨w _ ⟨5, 1, by norm_num⟩ (by norm_num), by intro q h; simp at h⟩, ⟨t!"ViaPad", by decide +kernel, rfl⟩,
      ⟨w _ ⟨90, 0, by norm_num⟩ (by norm_num), Verif.Dump.written_one⟩, trivial,
      ⟨w _ ⟨25, 2, by norm_num⟩ (by norm_num), ⟨w _ ⟨1, 0, by norm_num⟩ (by norm_num), written_zero⟩, written_zero⟩, trivial,
      written_zero, written_one⟩
  · simp [sample, IsThermal]

/-- **C66 does not hold** for small numbers: a pad of diameter 0.00001 is written with an exponent, and the text is not
accepted. -/
theorem c66_false_small :
    dumps (execAll {} [.circle (1 / 100000) none]).1 = t!"%FSLAX46Y46*%\n%MOMM*%\n%ADD10C,1e-05*%\nG75*\nM02*\n" ∧
    parseCode Props.Format.years (dumps (execAll {} [.circle (1 / 100000) none]).1) = .parseException := by
  have h : dumps (execAll {} [.circle (1 / 100000) none]).1 = t!"%FSLAX46Y46*%\n%MOMM*%\n%ADD10C,1e-05*%\nG75*\nM02*\n" := by
    decide +kernel
  exact ⟨h, by rw [h]; rfl⟩

/-- The calls of the second counterexample: the value of an attribute holds a command. -/
def injected : List Call :=
  [.circle 1 none, .setCustom 0 t!"A" t!",b*%%LPC*%%TAA", .addPad 0 (.loc (0, 0)) 0 false false 1]

/-- **C66 does not hold** for attributes with delimiters in their values: the text is accepted, but what was a value is read
as a command, here one that makes the pad erase what is below it instead of drawing it. -/
theorem c66_false_delimiters :
    ∃ f, parseCode Props.Format.years (dumps (execAll {} injected).1) = .file f ∧
      (processFile false (commands f)).st.transform.polarity = .clear ∧
      (processed false injected).st.transform.polarity = .dark := by
  have h : dumps (execAll {} injected).1 =
      t!"%FSLAX46Y46*%\n%MOMM*%\n%TAA,b*%%LPC*%%TAA*%\n%ADD10C,1.0*%\n%TD*%\nG75*\nD10*\nX0Y0D03*\nM02*\n" := by
    decide +kernel
  rw [h]
  exact ⟨_, rfl, by decide +kernel, by decide +kernel⟩

/-- The calls of the third counterexample: the value of an attribute holds a tab. -/
def tabbed : List Call := [.circle 1 none, .setCustom 0 t!"A" t!",b\tc", .addPad 0 (.loc (0, 0)) 0 false false 1]

/-- **C66 does not hold** for attributes with tabs in their values: the value that is read has blanks instead, as many as the
place of the tab in its line asks for. -/
theorem c66_false_tabs :
    dumps (execAll {} tabbed).1 = t!"%FSLAX46Y46*%\n%MOMM*%\n%TAA,b\tc*%\n%ADD10C,1.0*%\n%TD*%\nG75*\nD10*\nX0Y0D03*\nM02*\n" ∧
    ∃ f, parseCode Props.Format.years (dumps (execAll {} tabbed).1) = .file f ∧
      ((processFile false (commands f)).st.perAperture.get? t!"D10").bind (·.get? t!"A") = some t!",b  c" ∧
      ((processed false tabbed).st.perAperture.get? t!"D10").bind (·.get? t!"A") = some t!",b\tc" := by
  have h : dumps (execAll {} tabbed).1 =
      t!"%FSLAX46Y46*%\n%MOMM*%\n%TAA,b\tc*%\n%ADD10C,1.0*%\n%TD*%\nG75*\nD10*\nX0Y0D03*\nM02*\n" := by
    decide +kernel
  rw [h]
  refine ⟨rfl, _, rfl, by decide +kernel, by decide +kernel⟩

end Verif.Props.Dump
