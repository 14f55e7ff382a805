import Verif.Model.FormatCommand
import Verif.Props.View

/-!
# C71: formatting files from the command line
-/

namespace Verif.Props.FormatCommand

open Verif.Peg (Text)
open Verif.Syntax Verif.Spec Verif.FormatCommand
open Verif.Grammar (parseCode Outcome)
open Verif.Formatter (Options formats build)
open Verif.Compiler (compile)
open Verif.View (commands)
open Verif.Props.Format (years)

variable {File : Type} [DecidableEq File]

/-- The command ends in one of the disks that a killed process can leave. -/
theorem leaves_end (rd : Text → Option Text) (u : Options) (source output : File) (disk : Disk File) :
    Leaves rd u source output disk (formatCommand rd u source output disk).1 := by
  unfold formatCommand
  cases hs : disk source with
  | none => exact .nothing
  | some text =>
    simp only
    cases hp : parseCode rd text with
    | file nodes => exact .writing hs hp (List.prefix_refl _)
    | parseException => exact .opened hs
    | validationError => exact .opened hs

/-- **C71**: whatever happens, at whatever moment, no file but the output is touched. -/
theorem c71_other_files (rd : Text → Option Text) (u : Options) (source output : File) (disk disk' : Disk File)
    (h : Leaves rd u source output disk disk') (f : File) (hf : f ≠ output) : disk' f = disk f := by
  cases h with
  | nothing => rfl
  | opened => simp [Disk.put, hf]
  | writing => simp [Disk.put, hf]

/-- **C71** (partial: source and output are different files). If the source file and the output file are different, the
source is unchanged at every moment, so a failed run can be repeated, and the repetition does what the first run should
have done to the output.  Missing: formatting a file in place (`c71_false_in_place`). -/
theorem c71_repeat_partial (rd : Text → Option Text) (u : Options) (source output : File) (h : source ≠ output)
    (disk disk' : Disk File) (hd : Leaves rd u source output disk disk') :
    disk' source = disk source ∧
    ((formatCommand rd u source output disk).2 ≠ .fileNotFound →
      formatCommand rd u source output disk' = formatCommand rd u source output disk) := by
  have hs := c71_other_files rd u source output disk disk' hd source h
  refine ⟨hs, fun hn => ?_⟩
  have put (t : Text) : disk'.put output t = disk.put output t := by
    funext f
    by_cases hf : f = output
    · simp [Disk.put, hf]
    · simp only [Disk.put, if_neg hf]; exact c71_other_files rd u source output disk disk' hd f hf
  unfold formatCommand at hn ⊢
  rw [hs]
  cases he : disk source with
  | none => rw [he] at hn; exact absurd rfl hn
  | some text =>
    simp only
    cases parseCode rd text <;> simp only [put]

/-- **C71**: while the command runs, the output holds its old content or a beginning of the new one. -/
theorem c71_output (rd : Text → Option Text) (u : Options) (source output : File) (disk disk' : Disk File)
    (h : Leaves rd u source output disk disk') :
    disk' output = disk output ∨ disk' output = some [] ∨
      ∃ text nodes part, disk source = some text ∧ parseCode rd text = .file nodes ∧ part <+: formats (build u) nodes ∧
        disk' output = some part := by
  cases h with
  | nothing => exact .inl rfl
  | opened => exact .inr (.inl (by simp [Disk.put]))
  | writing read parsed written => exact .inr (.inr ⟨_, _, _, read, parsed, written, by simp [Disk.put]⟩)

/-- **C71** with **C62** (partial: as C62). A run that succeeds leaves an output that can be read again and draws the same
as the source did, also when a file is formatted in place. -/
theorem c71_success_partial (rd : Text → Option Text) (hrd : StableDates rd) (u : Options) (hl : BlankLayout { u with explicit := false })
    (source output : File) (disk : Disk File) (text : Text) (nodes : List Node) (hs : disk source = some text)
    (h : parseCode rd text = .file nodes) (hn : ∀ n ∈ insideAll nodes, Printable u n)
    (hm : u.explicit = true → ∀ n ∈ insideAll nodes, ∀ e ∈ exprs n, Props.Expr.NoMinusPlus e)
    (hne : bareAll (Removed u) nodes ≠ []) :
    (formatCommand rd u source output disk).2 = .done ∧ ∃ text' nodes', (formatCommand rd u source output disk).1 output = some text' ∧
      parseCode rd text' = .file nodes' ∧ ∀ env ignore, compile env ignore (commands nodes') = compile env ignore (commands nodes) := by
  obtain ⟨nodes', h1, h2⟩ := Props.View.c62_same_drawing_partial rd hrd u hl text nodes h hn hm hne
  have e : formatCommand rd u source output disk = (disk.put output (formats (build u) nodes), .done) := by
    simp only [formatCommand, hs, h]
  rw [e]
  exact ⟨rfl, _, nodes', by simp [Disk.put], h1, h2⟩

/-- A disk with one file. -/
def disk1 (text : Text) : Disk Nat := fun f => if f = 0 then some text else none

/-- A disk with a source, file 0, and an older output, file 1. -/
def disk2 (text old : Text) : Disk Nat := fun f => if f = 0 then some text else if f = 1 then some old else none

/-- **C71 does not hold** for formatting in place: a file with a mistake is emptied. -/
theorem c71_false_in_place :
    (formatCommand years {} 0 0 (disk1 t!"G01*\nX1Y1D01*\nG0\nM02*\n")).1 0 = some [] ∧
    (formatCommand years {} 0 0 (disk1 t!"G01*\nX1Y1D01*\nG0\nM02*\n")).2 = .parseException := ⟨rfl, rfl⟩

/-- **C71 does not hold** for an existing output: if the source has a mistake, the output of the last run is lost. -/
theorem c71_false_old_output :
    (formatCommand years {} 0 1 (disk2 t!"G0\nM02*\n" t!"M02*\n")).1 1 = some [] := rfl

/-- **C71 does not hold** for a process that is killed: it can leave a file that can be read but lacks commands. -/
theorem c71_false_killed : ∃ disk', Leaves years {} 0 1 (disk2 t!"D10*X1D03*X2D03*M02*" []) disk' ∧
    disk' 1 = some t!"D10*\nX1D03*\n" ∧
    parseCode years t!"D10*\nX1D03*\n" = .file [.dnn t!"D10" true, .d03 (some ['1']) none true] :=
  ⟨_, .writing (text := t!"D10*X1D03*X2D03*M02*") (part := t!"D10*\nX1D03*\n") rfl rfl ⟨t!"X2D03*\nM02*\n", rfl⟩, rfl, rfl⟩

/-- A successful run in place. -/
example : formatCommand years {} 0 0 (disk1 t!"D10*X1D03*M02*") =
    ((disk1 t!"D10*X1D03*M02*").put 0 t!"D10*\nX1D03*\nM02*\n", .done) := rfl

/-- A repeated run after a crash. -/
example : Leaves years {} 0 1 (disk1 t!"D10*M02*") ((disk1 t!"D10*M02*").put 1 t!"D10*\n") ∧
    (formatCommand years {} 0 1 ((disk1 t!"D10*M02*").put 1 t!"D10*\n")).1 1 = some t!"D10*\nM02*\n" :=
  ⟨.writing (text := t!"D10*M02*") rfl rfl ⟨t!"M02*\n", rfl⟩, rfl⟩

end Verif.Props.FormatCommand
