import Verif.Lemmas.WrittenFile
import Verif.Lemmas.TabStops
import Verif.Lemmas.ReadFile

/-!
# C85: what is read is what is written

# C86: what is written is read
-/

namespace Verif.Props.Written

open Verif.Text Verif.Peg Verif.Syntax Verif.Grammar Verif.Spec Verif.Written Verif.Spans Verif.Reading

/-- The nodes of a file that is parsed are spelled by the text of the file: after the expansion of tabs, the text is one
spelling of the first command, then one of the second command and so on, with nothing but blanks between them and behind
them.  No command is left out, added, reordered or read from a text that does not spell it, and the same holds for the
contents of blocks. -/
theorem c85_read_is_written (date : Text → Option Text) (code : Text) (f : List Node) (h : parseCode date code = .file f) :
    ∃ text written blanks, Expanded code text ∧ text = written ++ blanks ∧ Blank blanks ∧ Spelled date true f written := by
  obtain ⟨w, b, e, hb, hs⟩ := parseFile_spelled h
  exact ⟨_, w, b, expanded_tabs code, e.symm, hb, hs⟩

/-- A file with attributes, a macro, an aperture block, a G code and a D code in one word and a missing `D01` is parsed. -/
example : ∃ a b c : ℚ, parseCode (fun _ => none)
    t!"%TF.part,Single*%\n%FSLAX26Y26*% %AMR1*$2=$1x2*1,1,-$2,0,0*%\n%ABD10*%G1X1Y-2D01*Y+3*%AB*%D010*M2*\n" =
    .file [.tfPart t!"Single" [], .fs .skipLeading .absolute 2 6 2 6,
      .am t!"R1" [.assign t!"$2" (.bin .mul (.var t!"$1") [.const a]),
        .code1 (.const b) (.neg (.var t!"$2")) (.const c) (.const c) none],
      .ab t!"D10" [.g .g01 false, .d01 (some t!"1") (some t!"-2") none none false, .d01 none (some t!"+3") none none true],
      .dnn t!"D010" true, .m02] ∧ a = 2 ∧ b = 1 ∧ c = 0 :=
  ⟨_, _, _, rfl, by decide +kernel, by decide +kernel, by decide +kernel⟩

/-- A text that spells commands is parsed, and as exactly these commands: whatever the blanks between tokens, the leading
zeros of numbers and codes, the case of words and the form of numbers are.  Left out are apertures made with a macro that
has the name of a standard shape, `c86_standard_name`. -/
theorem c86_written_is_read (date : Text → Option Text) (code written blanks : Text) (f : List Node) (hf : f ≠ [])
    (hn : ∀ n, Occurs n f → ¬LooksStandard n) (hs : Spelled date true f written) (hb : Blank blanks)
    (he : Expanded code (written ++ blanks)) : parseCode date code = .file f := by
  have := expanded_unique (expanded_tabs code) he
  rw [parseCode, this]
  exact parseFile_read hs hf hb hn

/-- The files that are parsed as given commands are exactly the spellings of these commands. -/
theorem c86_exactly (date : Text → Option Text) (code : Text) (f : List Node) (hf : f ≠ []) (hn : ∀ n, Occurs n f → ¬LooksStandard n) :
    parseCode date code = .file f ↔
      ∃ written blanks, Expanded code (written ++ blanks) ∧ Blank blanks ∧ Spelled date true f written := by
  constructor
  · intro h
    obtain ⟨_, w, b, h1, rfl, h2, h3⟩ := c85_read_is_written date code f h
    exact ⟨w, b, h1, h2, h3⟩
  · rintro ⟨w, b, h1, h2, h3⟩
    exact c86_written_is_read date code w b f hf hn h3 h2 h1

/-- No text spells two different lists of commands. -/
theorem c86_unambiguous (date : Text → Option Text) (written : Text) (f g : List Node) (hf : Spelled date true f written)
    (hg : Spelled date true g written) (hf' : ∀ n, Occurs n f → ¬LooksStandard n) (hg' : ∀ n, Occurs n g → ¬LooksStandard n) : f = g := by
  by_cases h1 : f = []
  · by_cases h2 : g = []
    · rw [h1, h2]
    · have := parseFile_read (b := []) hg h2 (by simp [Blank]) hg'
      subst h1
      cases hf
      cases this
  · by_cases h2 : g = []
    · have := parseFile_read (b := []) hf h1 (by simp [Blank]) hf'
      subst h2
      cases hg
      cases this
    · have h3 := parseFile_read (b := []) hf h1 (by simp [Blank]) hf'
      have h4 := parseFile_read (b := []) hg h2 (by simp [Blank]) hg'
      rw [h3] at h4
      injection h4

/-- Blocks, leading zeros, a missing `D01` and blanks inside of commands. -/
example : ∃ (f : List Node) (w : Text), f.length = 3 ∧ Spelled (fun _ => none) true f w ∧ (∀ n, Occurs n f → ¬LooksStandard n) ∧
    parseCode (fun _ => none) (w ++ t!"\n ") = .file f := by
  have h : parseCode (fun _ => none) t!"% AB D010 * % D3* X1Y 2* %AB*% \nD10 *\n M0002 *" =
    .file [.ab t!"D010" [.d03 none none true, .d01 (some t!"1") (some t!"2") none none true], .dnn t!"D10" true, .m02] := rfl
  obtain ⟨_, w, b, h1, rfl, h2, h3⟩ := c85_read_is_written _ _ _ h
  have hn : ∀ n, Occurs n [.ab t!"D010" [.d03 none none true, .d01 (some t!"1") (some t!"2") none none true], .dnn t!"D10" true, .m02] →
      ¬LooksStandard n := by
    intro n hn
    cases hn with
    | here h =>
      simp only [List.mem_cons, List.not_mem_nil, or_false] at h
      rcases h with rfl | rfl | rfl <;> exact fun h => h
    | block h h' =>
      simp only [List.mem_cons, List.not_mem_nil, or_false, Node.ab.injEq, reduceCtorEq] at h
      obtain ⟨rfl, rfl⟩ := h
      cases h' with
      | here h =>
        simp only [List.mem_cons, List.not_mem_nil, or_false] at h
        rcases h with rfl | rfl <;> exact fun h => h
      | block h _ => simp at h
      | repeated h _ => simp at h
    | repeated h _ => simp at h
  have e : w ++ b = t!"% AB D010 * % D3* X1Y 2* %AB*% \nD10 *\n M0002 *" := expanded_unique h1 (expanded_tabs _)
  have hb : b = [] := by
    rcases List.eq_nil_or_concat b with rfl | ⟨b', c, rfl⟩
    · rfl
    · have hc := congrArg List.getLast? e
      simp only [List.concat_eq_append, ← List.append_assoc, List.getLast?_append] at hc
      have : c = '*' := by simpa using hc
      subst this
      exact absurd (h2 '*' (by simp)) (by decide)
  subst hb
  rw [List.append_nil] at e
  exact ⟨_, w, rfl, h3, hn, by rw [e]; rfl⟩

/-- Why these apertures are left out: the same text spells an aperture made with a macro `C` and a circle. -/
theorem c86_standard_name : ∃ q : ℚ, q = 1 ∧ Spelled (fun _ => none) true [.adMacro t!"D10" t!"C" (some [q])] t!"%ADD10C,1*%" ∧
    Spelled (fun _ => none) true [.adc t!"D10" q none] t!"%ADD10C,1*%" ∧
    ∃ r : ℚ, r = 1 ∧ parseCode (fun _ => none) t!"%ADD10C,1*%" = .file [.adc t!"D10" r none] := by
  have w (v : Text) : v ∈ word v := ⟨[], v, by simp [Blank], rfl, rfl⟩
  have a : t!"D10" ∈ apertureCode t!"D10" := ⟨[], _, by simp [Blank], ⟨rfl, t!"10", by decide, by decide, rfl⟩, rfl⟩
  have n : t!"1" ∈ numeric 1 := ⟨[], _, by simp [Blank], ⟨.none, t!"1", 1, by simpa [numeral] using UnsignedText.whole (i := t!"1") (by decide) (by decide), rfl, by decide +kernel⟩, rfl⟩
  have m : t!"C" ∈ macroName t!"C" := ⟨[], _, by simp [Blank], ⟨rfl, 'C', [], rfl, .inr (.inr (.inr (.inl (by decide)))), by simp⟩, rfl⟩
  have mul {l k : Language Char} {u v : Text} (hu : u ∈ l) (hv : v ∈ k) : u ++ v ∈ l * k := Language.mem_mul.2 ⟨u, hu, v, hv, rfl⟩
  refine ⟨1, rfl, ?_, ?_, _, ?_, rfl⟩
  · exact .command (t := t!"%ADD10C,1*%") trivial
      (mul (mul (mul (w t!"%") (mul (mul (mul (mul (w t!"AD") a) m) (mul (w t!",") n)) (by rfl : ([] : Text) ∈ (1 : Language Char)))) (w t!"*")) (w t!"%")) .none
  · exact .command (t := t!"%ADD10C,1*%") trivial
      (mul (mul (mul (w t!"%") (mul (mul (mul (mul (w t!"AD") a) (w t!"C,")) n) (by rfl : ([] : Text) ∈ (1 : Language Char)))) (w t!"*")) (w t!"%")) .none
  · decide +kernel

end Verif.Props.Written
