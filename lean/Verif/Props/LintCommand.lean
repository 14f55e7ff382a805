import Verif.Model.LintCommand
import Verif.Spec.LintCommand
import Verif.Lemmas.Text
import Verif.Props.Linter

/-!
# C97: the commands `lint` and `list-lint-rules`
-/

namespace Verif.Props.LintCommand

open Verif.Text Verif.Syntax Verif.Spec Verif.Linter Verif.LintCommand Verif.Spec.LintCommand Verif.Props.Linter
open Verif.Peg (Text)
open Verif.Spans (Source parseText)
open Verif.Grammar (expandTabs)

/-! ## Lines -/

theorem named_id (r : Rule) : named r = r.id := by cases r <;> rfl

theorem isNumeral_natStr (n : ℕ) : IsNumeral (natStr n) n := by
  refine ⟨?_, ?_, by rw [← natVal_eq_numeral, natVal_natStr]⟩
  · rw [natStr]
    split <;> simp
  · intro c hc
    have := List.all_eq_true.1 (all_natStr n) c hc
    have h2 : 48 ≤ c.toNat ∧ c.toNat ≤ 57 := by simpa [isDigit] using this
    exact ⟨UInt32.le_iff_toNat_le.2 h2.1, UInt32.le_iff_toNat_le.2 h2.2⟩

theorem first_sep {x : Char} : ∀ {a c b d : Text}, x ∉ a → x ∉ c → a ++ x :: b = c ++ x :: d → a = c ∧ b = d
  | [], [], _, _, _, _, h => by simpa using h
  | [], y :: c, _, _, _, hc, h => by simp only [List.nil_append, List.cons_append, List.cons.injEq] at h; simp [h.1] at hc
  | y :: a, [], _, _, ha, _, h => by simp only [List.nil_append, List.cons_append, List.cons.injEq] at h; simp [h.1] at ha
  | y :: a, z :: c, b, d, ha, hc, h => by
    simp only [List.cons_append, List.cons.injEq] at h
    obtain ⟨e1, e2⟩ := first_sep (fun h => ha (by simp [h])) (fun h => hc (by simp [h])) h.2
    exact ⟨by rw [h.1, e1], e2⟩

theorem last_sep {x : Char} {a b c d : Text} (hb : x ∉ b) (hd : x ∉ d) (h : a ++ [x] ++ b = c ++ [x] ++ d) : a = c ∧ b = d := by
  have h' : b.reverse ++ x :: a.reverse = d.reverse ++ x :: c.reverse := by
    simpa using congrArg List.reverse h
  obtain ⟨e1, e2⟩ := first_sep (by simpa using hb) (by simpa using hd) h'
  exact ⟨by simpa using e2, by simpa using e1⟩

theorem colon_digits {t : Text} (h : Digits t) : ':' ∉ t := fun hc => absurd (h _ hc).2 (by decide)

theorem space_named (r : Rule) : ' ' ∉ named r := by cases r <;> decide

theorem named_inj {r s : Rule} (h : named r = named s) : r = s := by cases r <;> cases s <;> first | rfl | (exact absurd h (by decide))

/-- **C97**: a line that the command prints says of which file, line, column and rule it speaks, and with which message,
whatever the path is, with colons and blanks or without. -/
theorem c97_clear {text path path' message message' : Text} {line column line' column' : ℕ} {rule rule' : Rule}
    (h : Says text path line column rule message) (h' : Says text path' line' column' rule' message') :
    path = path' ∧ line = line' ∧ column = column' ∧ rule = rule' ∧ message = message' := by
  obtain ⟨l, c, ⟨-, hl, nl⟩, ⟨-, hc, nc⟩, hm, e⟩ := h
  obtain ⟨l', c', ⟨-, hl', nl'⟩, ⟨-, hc', nc'⟩, hm', e'⟩ := h'
  rw [e] at e'
  have e1 := last_sep (x := ':') (a := path ++ [':'] ++ l ++ [':'] ++ c ++ [' '] ++ named rule) (b := ' ' :: message)
    (c := path' ++ [':'] ++ l' ++ [':'] ++ c' ++ [' '] ++ named rule') (d := ' ' :: message') (by simpa using hm)
    (by simpa using hm') (by simpa using e')
  have e2 := last_sep (space_named _) (space_named _) e1.1
  have e3 := last_sep (colon_digits hc) (colon_digits hc') e2.1
  have e4 := last_sep (colon_digits hl) (colon_digits hl') e3.1
  refine ⟨e4.1, ?_, ?_, named_inj e2.2, by simpa using e1.2⟩
  · rw [← nl, ← nl', e4.2]
  · rw [← nc, ← nc', e3.2]

/-- A path with colons and a blank. -/
example : Says t!"/a:1 b.gbr:12:3 GRB001: Redundant G01 command." t!"/a:1 b.gbr" 12 3 .grb001 t!"Redundant G01 command." :=
  ⟨t!"12", t!"3", by unfold IsNumeral; decide, by unfold IsNumeral; decide, by decide, by decide⟩

theorem colon_message (v : Visit) (r : Rule) : ':' ∉ message v r := by
  cases r
  · show ':' ∉ t!"Use of deprecated G54 code."; decide
  · show ':' ∉ t!"Use of deprecated G55 code."; decide
  · cases hk : v.kind <;> simp [message, called, hk]

theorem tells_lineOf (path : Text) (v : Violation) (h : ':' ∉ v.title) : Tells (path, v) (lineOf path v) := by
  refine ⟨natStr v.line, natStr v.column, isNumeral_natStr _, isNumeral_natStr _, h, ?_⟩
  simp [lineOf, named_id]

/-! ## Runs -/

/-- The reports about files that were read: file by file in the order given, and for each file as in C70. -/
def expected (resolve : Text → Text) (rules : List Rule) (read : List (Text × Text × Source Node)) : List (Text × Violation) :=
  read.flatMap fun x => (reports (expandTabs x.2.1) rules [] (commandsOf x.2.2)).map fun v => (resolve x.1, v)

/-- The files are there, with these texts, which can be read as Gerber files. -/
def CanRead (resolve : Text → Text) (read rd : Text → Option Text) (xs : List (Text × Text × Source Node)) : Prop :=
  ∀ x ∈ xs, read (resolve x.1) = some x.2.1 ∧ parseText rd true x.2.1 = some x.2.2

theorem forall₂_lines (path source : Text) (vs : List Visit) (rules : List Rule) (before : List Visit) :
    List.Forall₂ Tells ((reports source rules before vs).map fun v => (path, v)) ((reports source rules before vs).map (lineOf path)) := by
  rw [List.forall₂_map_left_iff, List.forall₂_map_right_iff, List.forall₂_same]
  intro v hv
  obtain ⟨_, w, _, i, -, -, -, -, e⟩ := mem_reports hv
  exact tells_lineOf _ _ (by rw [e]; exact colon_message _ _)

theorem run_files (resolve : Text → Text) (read rd : Text → Option Text) (ids : List Text) (rules : List Rule)
    (hl : ∀ source src, lint (some ids) source src = some (lintWith rules source src.nodes src.infos)) (rest : List Text) :
    ∀ xs, CanRead resolve read rd xs →
      ∃ lines, List.Forall₂ Tells (expected resolve rules xs) lines ∧
        (lintFiles resolve read rd ids (xs.map Prod.fst ++ rest)).1 = lines ++ (lintFiles resolve read rd ids rest).1 ∧
        (lintFiles resolve read rd ids (xs.map Prod.fst ++ rest)).2 = (lintFiles resolve read rd ids rest).2
  | [], _ => ⟨[], by simp [expected], by simp, by simp⟩
  | (f, code, src) :: xs, h => by
    obtain ⟨lines, h1, h2, h3⟩ := run_files resolve read rd ids rules hl rest xs fun x hx => h x (by simp [hx])
    obtain ⟨r1, r2⟩ := h (f, code, src) (by simp)
    simp only at r1 r2
    refine ⟨(reports (expandTabs code) rules [] (commandsOf src)).map (lineOf (resolve f)) ++ lines, ?_, ?_, ?_⟩
    · unfold expected
      rw [List.flatMap_cons]
      exact List.rel_append (forall₂_lines _ _ _ _ _) h1
    · simp only [List.map_cons, List.cons_append, lintFiles, r1, r2, hl, h2, List.append_assoc]
      rw [c70_reports rd true (expandTabs code) src r2]
    · simp only [List.map_cons, List.cons_append, lintFiles, r1, r2, hl, h3]

theorem lint_options (options : List (List Rule)) (h : ∀ o ∈ options, o ≠ []) (source : Text) (src : Source Node) :
    lint (some ((options.map fun rs => commaList (rs.map named)).flatMap splitCommas)) source src =
      some (lintWith (if options = [] then [.dep001, .dep002, .grb001] else options.flatten) source src.nodes src.infos) := by
  have e : (fun rs : List Rule => commaList (rs.map named)) = fun rs => commaList (rs.map Rule.id) := by
    funext rs
    rw [show named = Rule.id from funext named_id]
  rw [e]
  exact c70_command_line source src options h

/-- The rules that `-r` options select: all without an option. -/
abbrev selected (options : List (List Rule)) : List Rule :=
  if options = [] then [.dep001, .dep002, .grb001] else options.flatten

/-- **C97**: if all files can be read, the command ends without an exception and prints a line for every report about them
and no other line, in the order of the files, and for a file in the order of its reports. -/
theorem c97_printed (resolve : Text → Text) (read rd : Text → Option Text) (options : List (List Rule)) (ho : ∀ o ∈ options, o ≠ [])
    (xs : List (Text × Text × Source Node)) (hx : xs ≠ []) (h : CanRead resolve read rd xs) :
    ∃ lines, lintMain resolve read rd (options.map fun rs => commaList (rs.map named)) (xs.map Prod.fst) = (lines, .done) ∧
      List.Forall₂ Tells (expected resolve (selected options) xs) lines := by
  obtain ⟨lines, h1, h2, h3⟩ := run_files resolve read rd _ _ (lint_options options ho) [] xs h
  refine ⟨lines, ?_, h1⟩
  rw [List.append_nil] at h2 h3
  have : (xs.map Prod.fst).length ≠ 0 := by simpa using hx
  unfold lintMain
  rw [if_neg this]
  exact Prod.ext (by simpa [lintFiles] using h2) (by simpa [lintFiles] using h3)

/-- **C97**: the first file that is missing or no Gerber file ends the command with an exception; the reports about the
files before it are printed, nothing about it and the files after it. -/
theorem c97_stops (resolve : Text → Text) (read rd : Text → Option Text) (options : List (List Rule)) (ho : ∀ o ∈ options, o ≠ [])
    (xs : List (Text × Text × Source Node)) (h : CanRead resolve read rd xs) (f : Text) (rest : List Text)
    (hf : ∀ code, read (resolve f) = some code → parseText rd true code = none) :
    ∃ lines, lintMain resolve read rd (options.map fun rs => commaList (rs.map named)) (xs.map Prod.fst ++ f :: rest) =
        (lines, if read (resolve f) = none then .unreadable else .syntaxError) ∧
      List.Forall₂ Tells (expected resolve (selected options) xs) lines := by
  obtain ⟨lines, h1, h2, h3⟩ := run_files resolve read rd _ _ (lint_options options ho) (f :: rest) xs h
  refine ⟨lines, ?_, h1⟩
  have : (xs.map Prod.fst ++ f :: rest).length ≠ 0 := by simp
  unfold lintMain
  rw [if_neg this]
  cases hr : read (resolve f) with
  | none => exact Prod.ext (by simpa [lintFiles, hr] using h2) (by simpa [lintFiles, hr] using h3)
  | some code =>
    have hp := hf code hr
    exact Prod.ext (by simpa [lintFiles, hr, hp] using h2) (by simpa [lintFiles, hr, hp] using h3)

/-- **C97**: without files, or with a name that is not the name of a rule, the command fails and prints nothing. -/
theorem c97_refused (resolve : Text → Text) (read rd : Text → Option Text) (options : List Text) (files : List Text)
    (h : files = [] ∨ ∃ o ∈ options, ∃ id ∈ splitCommas o, ∀ r, id ≠ named r) :
    ∃ why, why ≠ .done ∧ lintMain resolve read rd options files = ([], why) := by
  unfold lintMain
  cases files with
  | nil => exact ⟨.usage, by simp, rfl⟩
  | cons f fs =>
    obtain ⟨o, ho, id, hid, hr⟩ := h.resolve_left (by simp)
    have hl (source src) : lint (some (options.flatMap splitCommas)) source src = none :=
      (c70_names source src).2.2.2 _ ⟨id, List.mem_flatMap.2 ⟨o, ho, hid⟩, fun r => by rw [← named_id]; exact hr r⟩
    rw [if_neg (by simp)]
    unfold lintFiles
    cases hf : read (resolve f) with
    | none => exact ⟨.unreadable, by simp, by simp [hf]⟩
    | some code =>
      cases hp : parseText rd true code with
      | none => exact ⟨.syntaxError, by simp, by simp [hf, hp]⟩
      | some src => exact ⟨.unknownRule, by simp, by simp [hf, hp, hl]⟩

/-! ## The list of rules -/

/-- **C97**: `list-lint-rules -q` prints, each once, exactly the names that `lint -r` takes, and without `-q` the same names in
the same order with what the rule is about. -/
theorem c97_listed (source : Text) (src : Source Node) :
    (listRules true).Nodup ∧ (∀ id, id ∈ listRules true ↔ lint (some [id]) source src ≠ none) ∧
      ∃ rules : List Rule, listRules true = rules.map named ∧ listRules false = rules.map fun r => named r ++ [':', ' '] ++ topic r := by
  refine ⟨by decide, fun id => ?_, ?_⟩
  · constructor
    · intro h
      obtain ⟨r, -, rfl⟩ := List.mem_map.1 h
      rw [if_pos rfl, show [r.id] = [r].map Rule.id from rfl, (c70_names source src).2.2.1 [r] (by simp)]
      simp
    · intro h
      by_contra hn
      refine h ((c70_names source src).2.2.2 [id] ⟨id, by simp, fun r e => hn ?_⟩)
      subst e
      cases r <;> decide
  · exact ⟨[.dep001, .dep002, .grb001], by decide, by decide⟩

/-- Two files and a missing one. -/
example : lintMain (t!"/w/" ++ ·)
    (fun p => if p = t!"/w/a" then some t!"G01*G01*" else if p = t!"/w/b" then some t!"M02*\nG54D10*" else none) (fun _ => none)
    [t!"DEP001,GRB001"] [t!"a", t!"b", t!"c", t!"a"] =
      ([t!"/w/a:1:5 GRB001: Redundant G01 command.", t!"/w/b:2:1 DEP001: Use of deprecated G54 code."], .unreadable) := by
  decide +kernel

/-- All files there and all rules. -/
example : lintMain id (fun _ => some t!"G54D10*\nG55*") (fun _ => none) [] [t!"a", t!"b"] =
    ([t!"a:1:1 DEP001: Use of deprecated G54 code.", t!"a:2:1 DEP002: Use of deprecated G55 code.",
      t!"b:1:1 DEP001: Use of deprecated G54 code.", t!"b:2:1 DEP002: Use of deprecated G55 code."], .done) := by
  decide +kernel

example : listRules false = [t!"DEP001: Use of deprecated G54 code.", t!"DEP002: Use of deprecated G55 code.",
    t!"GRB001: Redundant G01/G02/G03 command."] := by
  decide +kernel

end Verif.Props.LintCommand
