import Verif.Lemmas.Reformat

/-!
# C40-C42, C58, C59: formatting
-/

namespace Verif.Props.Format

open Verif.Text Verif.Fmt Verif.Peg Verif.Syntax Verif.Spec Verif.Formatter Verif.Grammar
open Verif.Math hiding P

/-- Dates of four digits, for the examples. -/
def years (t : Text) : Option Text := if t.length = 4 ∧ t.all isDigit = true then some t else none

theorem years_stable : StableDates years := by
  intro t d h
  unfold years at h ⊢
  split at h
  · rename_i hc
    simp only [Option.some.injEq] at h
    subst h
    have hd : ∀ c ∈ t, isDigit c = true := List.all_eq_true.1 hc.2
    refine ⟨if_pos hc, ?_, ?_⟩
    · intro c hcm
      have := hd c hcm
      refine ⟨?_, ?_, ?_, ?_⟩ <;> rintro rfl <;> simp [isDigit] at this
    · intro c r e hb
      have h1 := hd c (by simp [e])
      have h2 := (isDigit_facts h1).1
      have h3 := hb c (by simp)
      rcases h3 with rfl | rfl | rfl | rfl <;> simp [isBlank] at h2
  · cases h

/-! ## C40 -/

theorem wfs {rd : Text → Option Text} {u : Options} (hrd : StableDates rd) (hp : u.places ≠ some 0) {s : Text} {f : List Node}
    (h : parseCode rd s = .file f) (hn : ∀ n ∈ insideAll f, Printable u n) : WFs (NodeOk rd (build u)) true f :=
  ((parseFile_built (dateLaw_of hrd) (expandTabs_noTab s) h).and hn).mono (fun _ hn => node_ok hp hn.1 hn.2)

/-- What is printed is read back, after the tabs in it are expanded. -/
theorem parse_printed {rd : Text → Option Text} {u : Options} (hl : BlankLayout u) {f : List Node}
    (hw : WFs (NodeOk rd (build u)) true f) (hne : normAll (build u) false f ≠ []) :
    parseCode rd (formats (build u) f) = .file (normAll (build u) false f) :=
  parse_tabbed (layout_build hl) (tabs_build hl u.explicit) hw hne

/-- C40 (partial: commands that print all they contain, numbers that Python writes without an exponent).  Formatting what
the parser made of any text and parsing the result gives the same commands, for all options that only change blanks. -/
theorem c40_format_parse_partial (rd : Text → Option Text) (hrd : StableDates rd) (u : Options) (hl : BlankLayout u)
    (hf : Faithful u) (s : Text) (f : List Node) (h : parseCode rd s = .file f) (hn : ∀ n ∈ insideAll f, Printable u n) :
    parseCode rd (formats (build u) f) = .file f := by
  have hw := wfs hrd hl.places h hn
  have e : normAll (build u) false f = f :=
    norm_keep (by simp [build, hf.separate]) hf.removeG54 hf.removeG55 hw
  have := parse_printed hl hw (by rw [e]; exact parseFile_nonempty h)
  rwa [e] at this

theorem default_layout : BlankLayout {} where
  macroBody := .inl rfl
  macroParam := .inl rfl
  abIndent := .inl rfl
  srIndent := .inl rfl
  d01 := .inl rfl
  d02 := .inl rfl
  d03 := .inl rfl
  lf := .inl rfl
  explicit := rfl
  places := by decide

/-- C40 with the default options (partial: as before). -/
theorem c40_default_partial (rd : Text → Option Text) (hrd : StableDates rd) (s : Text) (f : List Node)
    (h : parseCode rd s = .file f) (hn : ∀ n ∈ insideAll f, Printable {} n) :
    parseCode rd (formats (build {}) f) = .file f :=
  c40_format_parse_partial rd hrd {} default_layout ⟨rfl, rfl, rfl⟩ s f h hn

/-- A file with a block, an aperture, a date and a G code on the line of its D code. -/
def sample : Text := t!"%ABD11*%G01X1Y-2D01*%AB*%%ADD10C,2.50*%%TF.CreationDate,2020*%G54D10*M02*"

example : ∃ f, parseCode years sample = .file f ∧ (∀ n ∈ insideAll f, Printable {} n) ∧ f.length = 6 ∧
    formats (build {}) f = t!"%ABD11*%\nG01X1Y-2D01*\n%AB*%\n%ADD10C,2.5*%\n%TF.CreationDate,2020*%\nG54D10*\nM02*\n" := by
  refine ⟨[.ab t!"D11" [.g .g01 false, .d01 (some t!"1") (some t!"-2") none none false],
    .adc t!"D10" (floatOf false ['2'] ['5', '0']) none, .tfDate t!"2020", .g .g54 false, .dnn t!"D10" false, .m02], rfl, ?_, rfl, ?_⟩
  · have hq : floatOf false ['2'] ['5', '0'] = 5 / 2 := by
      norm_num [floatOf, show natVal ['2'] = 2 from rfl, show natVal ['5', '0'] = 50 from rfl]
    simp only [insideAll, inside, List.append_nil, List.cons_append, List.nil_append, List.mem_cons, List.not_mem_nil, or_false,
      forall_eq_or_imp, forall_eq]
    simp only [Printable, Regular, numbers, exprs, hq, Option.toList, List.append_nil, List.mem_singleton, forall_eq,
      List.not_mem_nil, false_imp_iff, implies_true, and_true, true_and]
    refine ⟨.inr ?_, ?_⟩
    · rw [abs_of_nonneg (by norm_num)]; norm_num
    · intro d hd; cases hd
  · decide +kernel

/-- C40 fails on the unchanged code for step and repeat with only some parameters: `X` alone makes the formatter write
`None`, and without `X` the others are dropped. -/
theorem c40_false_step_repeat :
    (∃ f, parseCode years t!"%SRX2*%%SR*%" = .file f ∧ formats (build {}) f = t!"%SRX2YNoneINoneJNone*%\n%SR*%\n" ∧
      parseCode years (formats (build {}) f) = .parseException) ∧
    ∃ f f', parseCode years t!"%SRY2*%%SR*%" = .file f ∧ parseCode years (formats (build {}) f) = .file f' ∧
      f = [.sr none (some t!"2") none none []] ∧ f' = [.sr none none none none []] :=
  ⟨⟨[.sr (some t!"2") none none none []], rfl, rfl, rfl⟩, _, _, rfl, rfl, rfl, rfl⟩

/-- … for attributes with missing fields: a missing field becomes an empty one. -/
theorem c40_false_missing_fields :
    ∃ f f', parseCode years t!"%TF.ProjectId,a*%" = .file f ∧ parseCode years (formats (build {}) f) = .file f' ∧
      f = [.tfProject (some t!"a") none none] ∧ f' = [.tfProject (some t!"a") (some []) (some [])] :=
  ⟨_, _, rfl, rfl, rfl, rfl⟩

/-- … for a macro aperture written with a blank after the name of a standard aperture: it becomes the standard one. -/
theorem c40_false_macro_named_like_standard :
    ∃ f f', parseCode years t!"%ADD10C ,1*%" = .file f ∧ parseCode years (formats (build {}) f) = .file f' ∧
      f = [.adMacro t!"D10" t!"C" (some [floatOf false ['1'] []])] ∧ f' = [.adc t!"D10" (floatOf false ['1'] ['0']) none] := by
  refine ⟨[.adMacro t!"D10" t!"C" (some [floatOf false ['1'] []])], [.adc t!"D10" (floatOf false ['1'] ['0']) none], rfl, ?_, rfl, rfl⟩
  have : formats (build {}) [.adMacro t!"D10" t!"C" (some [floatOf false ['1'] []])] = t!"%ADD10C,1.0*%\n" := by decide +kernel
  rw [this]; rfl

/-- … for numbers Python writes with an exponent. -/
theorem c40_false_small_numbers :
    ∃ f, parseCode years t!"%LS0.00001*%" = .file f ∧ formats (build {}) f = t!"%LS1e-05*%\n" ∧
      parseCode years (formats (build {}) f) = .parseException := by
  have : formats (build {}) [.ls (floatOf false ['0'] t!"00001")] = t!"%LS1e-05*%\n" := by decide +kernel
  refine ⟨[.ls (floatOf false ['0'] t!"00001")], rfl, this, ?_⟩
  rw [this]; rfl

/-! ## C59 -/

theorem removed_eq (u : Options) : removed (build u) = Removed u := rfl

/-- C59 (partial: as C40, and something must be left).  For all options that only change blanks, separate G codes from
D codes or remove G54 and G55, parsing the formatted file gives the same commands up to that. -/
theorem c59_same_commands_partial (rd : Text → Option Text) (hrd : StableDates rd) (u : Options) (hl : BlankLayout u)
    (s : Text) (f : List Node) (h : parseCode rd s = .file f) (hn : ∀ n ∈ insideAll f, Printable u n)
    (hne : bareAll (Removed u) f ≠ []) :
    ∃ f', parseCode rd (formats (build u) f) = .file f' ∧ bareAll (fun _ => false) f' = bareAll (Removed u) f := by
  have hw := wfs hrd hl.places h hn
  have e := bare_norm (build u) f false
  rw [removed_eq] at e
  refine ⟨normAll (build u) false f, parse_printed hl hw ?_, e⟩
  intro h0
  rw [h0] at e
  exact hne (by rw [← e]; simp [bareAll])

/-- Separated, with G54 removed and indented. -/
example : ∃ f, parseCode years sample = .file f ∧
    formats (build { separate := true, removeG54 := true, abIndent := .count 2, lf := t!"\r\n" }) f =
      t!"%ABD11*%\r\n  G01*\r\n  X1Y-2D01*\r\n%AB*%\r\n%ADD10C,2.5*%\r\n%TF.CreationDate,2020*%\r\nD10*\r\nM02*\r\n" := by
  refine ⟨[.ab t!"D11" [.g .g01 false, .d01 (some t!"1") (some t!"-2") none none false],
    .adc t!"D10" (floatOf false ['2'] ['5', '0']) none, .tfDate t!"2020", .g .g54 false, .dnn t!"D10" false, .m02], rfl, ?_⟩
  decide +kernel

/-- Indented with tabs. -/
def tabbed : Options where
  indentChar := '\t'
  macroBody := .count 1
  macroParam := .text t!" \t"
  split := .onParameters
  abIndent := .count 1
  d01Indent := .count 2
  lf := t!"\r\n"

/-- A macro in an indented block: the tabs behind `*` take different widths. -/
example : BlankLayout tabbed ∧ Faithful tabbed ∧ ∃ f, parseCode years t!"%ABD11*%%AMa*0b*1,$1,$2,$3,$4*%X1D01*%AB*%" = .file f ∧
    (∀ n ∈ insideAll f, Printable tabbed n) ∧
    formats (build tabbed) f = t!"%ABD11*%\r\n\t%AMa*\t\r\n\t0b*\t\r\n\t1,\r\n \t\t$1,\r\n \t\t$2,\r\n \t\t$3,\r\n \t\t$4*\t%\r\n" ++
      t!"\t\t\tX1D01*\r\n%AB*%\r\n" := by
  have blank : Blank ['\t'] := by simp [Blank]
  refine ⟨⟨.inr blank, by simp [tabbed, BlankIndent, Blank], .inr blank, .inl rfl, .inr blank, .inl rfl, .inl rfl, .inr rfl, rfl, by decide⟩,
    ⟨rfl, rfl, rfl⟩, [.ab t!"D11" [.am t!"a" [.code0 t!"b", .code1 (.var t!"$1") (.var t!"$2") (.var t!"$3") (.var t!"$4") none],
      .d01 (some t!"1") none none none true]], (parseCode_id _ (by decide)).trans rfl, ?_, ?_⟩
  · simp [insideAll, inside, Printable, Regular, numbers, exprs, primExprs, constants]
  · decide +kernel

/-- C59 fails on the unchanged code when nothing is left: the formatted file cannot be parsed. -/
theorem c59_false_empty :
    ∃ f, parseCode years t!"G54*" = .file f ∧ formats (build { removeG54 := true }) f = [] ∧
      parseCode years (formats (build { removeG54 := true }) f) = .parseException :=
  ⟨[.g .g54 true], rfl, rfl, rfl⟩

/-- C59 fails on the unchanged code with explicit parentheses: parentheses are added, and the parser keeps them. -/
theorem c59_false_explicit_parenthesis :
    ∃ f f', parseCode years t!"%AMa*0b*$1=$2+$3*%" = .file f ∧
      formats (build { explicit := true }) f = t!"%AMa*\n0b*\n$1=($2+$3)*%\n" ∧
      parseCode years (formats (build { explicit := true }) f) = .file f' ∧
      f = [.am t!"a" [.code0 t!"b", .assign t!"$1" (.bin .add (.var t!"$2") [.var t!"$3"])]] ∧
      f' = [.am t!"a" [.code0 t!"b", .assign t!"$1" (.paren (.bin .add (.var t!"$2") [.var t!"$3"]))]] :=
  ⟨_, _, (parseCode_id _ (by decide)).trans rfl, rfl, (parseCode_id _ (by decide)).trans rfl, rfl, rfl⟩

/-! ## C41 -/

theorem build_flat {u : Options} (h : Flat u) : (build u).abIndent = [] ∧ (build u).srIndent = [] ∧ (build u).d01Indent = [] ∧
    (build u).d02Indent = [] ∧ (build u).d03Indent = [] := by
  simp only [build]
  rcases h with h | h
  · simp [h]
  · have e (i : Indent) (hi : i = .count 0 ∨ i = .text []) : i.toText u.indentChar = [] := by
      rcases hi with rfl | rfl <;> rfl
    simp only [List.mem_cons, List.not_mem_nil, or_false, forall_eq_or_imp, forall_eq] at h
    obtain ⟨h1, h2, h3, h4, h5⟩ := h
    simp [e _ h1, e _ h2, e _ h3, e _ h4, e _ h5]

/-- C41 (partial: as C59, and removing commands is not combined with indentation).  Formatting a formatted file changes
nothing. -/
theorem c41_idempotent_partial (rd : Text → Option Text) (hrd : StableDates rd) (u : Options) (hl : BlankLayout u)
    (hi : (u.removeG54 = false ∧ u.removeG55 = false) ∨ Flat u)
    (s : Text) (f : List Node) (h : parseCode rd s = .file f) (hn : ∀ n ∈ insideAll f, Printable u n)
    (hne : bareAll (Removed u) f ≠ []) :
    ∃ f', parseCode rd (formats (build u) f) = .file f' ∧ formats (build u) f' = formats (build u) f := by
  have hw := wfs hrd hl.places h hn
  have e := bare_norm (build u) f false
  rw [removed_eq] at e
  refine ⟨normAll (build u) false f, parse_printed hl hw ?_, ?_⟩
  · intro h0
    rw [h0] at e
    exact hne (by rw [← e]; simp [bareAll])
  · rcases hi with hi | hi
    · cases hs : u.separate with
      | false => rw [norm_keep (by simp [build, hs]) hi.1 hi.2 hw]
      | true =>
        unfold formats
        rw [reformat_split (by simp [build, hs]) (by intro c; simp [removed, build, hi.1, hi.2])]
    · obtain ⟨h1, h2, h3, h4, h5⟩ := build_flat hi
      unfold formats
      rw [(reformat_flat h1 h2 h3 h4 h5 f false).1]

/-- C41 with the default options. -/
theorem c41_default_partial (rd : Text → Option Text) (hrd : StableDates rd) (s : Text) (f : List Node)
    (h : parseCode rd s = .file f) (hn : ∀ n ∈ insideAll f, Printable {} n) :
    ∃ f', parseCode rd (formats (build {}) f) = .file f' ∧ formats (build {}) f' = formats (build {}) f :=
  ⟨f, c40_default_partial rd hrd s f h hn, rfl⟩

/-- C41 fails on the unchanged code when removed commands meet indentation: the indentation of a removed G54 is written,
and the D code after it is indented only the second time. -/
theorem c41_false_removed_indent :
    (∃ f f', parseCode years t!"%ABD11*%G54*D10*%AB*%" = .file f ∧
      formats (build { removeG54 := true, abIndent := .count 2 }) f = t!"%ABD11*%\n    D10*\n%AB*%\n" ∧
      parseCode years (formats (build { removeG54 := true, abIndent := .count 2 }) f) = .file f' ∧
      formats (build { removeG54 := true, abIndent := .count 2 }) f' = t!"%ABD11*%\n  D10*\n%AB*%\n") ∧
    ∃ f f', parseCode years t!"G54X1D01*" = .file f ∧
      formats (build { removeG54 := true, d01Indent := .count 2 }) f = t!"X1D01*\n" ∧
      parseCode years (formats (build { removeG54 := true, d01Indent := .count 2 }) f) = .file f' ∧
      formats (build { removeG54 := true, d01Indent := .count 2 }) f' = t!"  X1D01*\n" :=
  ⟨⟨[.ab t!"D11" [.g .g54 true, .dnn t!"D10" true]], [.ab t!"D11" [.dnn t!"D10" true]], rfl, rfl, rfl, rfl⟩,
    [.g .g54 false, .d01 (some t!"1") none none none false], [.d01 (some t!"1") none none none true], rfl, rfl, rfl, rfl⟩

/-! ## C42 -/

/-- C42 (partial: all four parameters or none).  The file begins with exactly the header that has the present
parameters. -/
theorem c42_header_partial (u : Options) (x y i j : Option Text) (ns ms : List Node)
    (h : (x = none ∧ y = none ∧ i = none ∧ j = none) ∨
      (x.isSome = true ∧ y.isSome = true ∧ i.isSome = true ∧ j.isSome = true)) :
    ∃ rest, formats (build u) (.sr x y i j ns :: ms) = header x y i j ++ rest := by
  have key : ∃ rest, srOpenText (build u) x y i j = header x y i j ++ rest := by
    refine ⟨(build u).lf, ?_⟩
    rcases h with ⟨rfl, rfl, rfl, rfl⟩ | ⟨h1, h2, h3, h4⟩
    · simp [srOpenText, header, ext]
    · obtain ⟨x, rfl⟩ := Option.isSome_iff_exists.1 h1
      obtain ⟨y, rfl⟩ := Option.isSome_iff_exists.1 h2
      obtain ⟨i, rfl⟩ := Option.isSome_iff_exists.1 h3
      obtain ⟨j, rfl⟩ := Option.isSome_iff_exists.1 h4
      simp [srOpenText, header, ext]
  obtain ⟨r, hr⟩ := key
  simp only [formats, nodes, node, List.nil_append, hr, List.append_assoc]
  exact ⟨_, rfl⟩

/-- The header alone is right only if all four parameters or none are present: every other combination is printed
wrongly. -/
theorem c42_false_iff (u : Options) (x y i j : Option Text) :
    srOpenText (build u) x y i j = header x y i j ++ (build u).lf ↔
      (x = none ∧ y = none ∧ i = none ∧ j = none) ∨
      (x.isSome = true ∧ y.isSome = true ∧ i.isSome = true ∧ j.isSome = true) := by
  constructor
  · intro h
    have hl := congrArg List.length h
    cases x <;> cases y <;> cases i <;> cases j <;> simp [srOpenText, header, ext] at hl ⊢ <;> omega
  · rintro (⟨rfl, rfl, rfl, rfl⟩ | ⟨h1, h2, h3, h4⟩)
    · simp [srOpenText, header, ext]
    · obtain ⟨x, rfl⟩ := Option.isSome_iff_exists.1 h1
      obtain ⟨y, rfl⟩ := Option.isSome_iff_exists.1 h2
      obtain ⟨i, rfl⟩ := Option.isSome_iff_exists.1 h3
      obtain ⟨j, rfl⟩ := Option.isSome_iff_exists.1 h4
      simp [srOpenText, header, ext]

/-- C42 fails on the unchanged code: the other parameters of a header without `X` are dropped, those missing beside `X`
are printed as `None`. -/
theorem c42_false_partial_headers :
    formats (build {}) [.sr none (some t!"2") none none []] = t!"%SR*%\n%SR*%\n" ∧
    formats (build {}) [.sr (some t!"2") none none none []] = t!"%SRX2YNoneINoneJNone*%\n%SR*%\n" :=
  ⟨rfl, rfl⟩

/-! ## C58 -/

/-- C58 (partial: the last decimal is not zero).  With `d` places and trimming off, a number is printed with exactly `d`
decimals. -/
theorem c58_decimals_partial (u : Options) (d : Nat) (hd : d ≠ 0) (hu : u.places = some d) (_ : u.keepZeros = true) (q : ℚ)
    (m : ℤ) (hm : RoundsTo (q * 10 ^ d) m) (h10 : ¬ (10 : ℤ) ∣ m) :
    ∃ i f : Text, formats (build u) [.lr q] = t!"%LR" ++ i ++ '.' :: f ++ t!"*%" ++ (build u).lf ∧ f.length = d ∧
      f.all isDigit = true := by
  have hs := scaled_spec d q
  have hm' : (scaled d q : ℤ) = m ∨ (scaled d q : ℤ) = -m := by
    by_cases hq : q < 0
    · right
      refine roundsTo_unique hs ?_
      rw [abs_of_neg hq]
      unfold RoundsTo at hm ⊢
      have e : -q * 10 ^ d - ((-m : ℤ) : ℚ) = -(q * 10 ^ d - m) := by push_cast; ring
      rw [e, abs_neg]
      simpa using hm
    · left
      refine roundsTo_unique hs ?_
      rwa [abs_of_nonneg (not_lt.1 hq)]
  have hn10 : ¬ 10 ∣ scaled d q := by
    intro h
    have : (10 : ℤ) ∣ (scaled d q : ℤ) := by exact_mod_cast h
    rcases hm' with h | h <;> rw [h] at this
    · exact h10 this
    · exact h10 (by simpa using this)
  have hlen : (rjust0 d (natStr (scaled d q % 10 ^ d))).length = d := by
    rw [length_rjust0]
    have := (length_natStr_le (scaled d q % 10 ^ d) d (by omega)).2 (Nat.mod_lt _ (by positivity))
    omega
  have hdig : (rjust0 d (natStr (scaled d q % 10 ^ d))).all isDigit = true := by rw [all_rjust0]; exact all_natStr _
  have hval : natVal (rjust0 d (natStr (scaled d q % 10 ^ d))) = scaled d q % 10 ^ d := by rw [natVal_rjust0, natVal_natStr]
  set f := rjust0 d (natStr (scaled d q % 10 ^ d)) with hf
  have htrim : rstrip0 f = f := by
    obtain ⟨k, hk⟩ := rstrip0_split f
    cases k with
    | zero => simpa using hk.symm
    | succ k =>
      exfalso
      rw [hk, natVal_append, natVal_replicate, List.length_replicate, pow_succ] at hval
      have h1 : 10 ∣ scaled d q % 10 ^ d := ⟨natVal (rstrip0 f) * 10 ^ k, by rw [← hval]; ring⟩
      have h2 : 10 ∣ 10 ^ d := dvd_pow_self 10 hd
      exact hn10 ((Nat.dvd_mod_iff h2).1 h1)
  have hne : rstrip0 f ≠ [] := by rw [htrim]; intro h; rw [h] at hlen; simp at hlen; omega
  refine ⟨(if q < 0 then ['-'] else []) ++ natStr (scaled d q / 10 ^ d), f, ?_, hlen, hdig⟩
  have e : (build u).fd q = (if q < 0 then ['-'] else []) ++ natStr (scaled d q / 10 ^ d) ++ '.' :: f := by
    have h0 : (build u).fd q = rstripDot (rstrip0 (fixed d q)) := by simp [Opts.fd, build, hu, fmtDouble]
    rw [h0]
    simp only [fixed, hd, if_false, fixedParts, ← hf]
    have hdot : rstrip0 ('.' :: f) = '.' :: f := by
      have := rstrip0_append (s := ['.']) (t := f)
      rw [if_neg hne, htrim] at this
      simpa using this
    rw [rstrip0_append, hdot, if_neg (by simp)]
    have := rstripDot_append_digits (s := (if q < 0 then ['-'] else []) ++ natStr (scaled d q / 10 ^ d) ++ ['.']) hdig
      (by rw [htrim] at hne; exact hne)
    simpa [List.append_assoc] using this
  simp [formats, nodes, node, indent, leaf, ext, e]

example : RoundsTo ((5 / 4 : ℚ) * 10 ^ 2) 125 ∧ ¬ (10 : ℤ) ∣ 125 :=
  ⟨.inl (by norm_num), by decide⟩

/-- C58 fails on the unchanged code: switching trimming off changes nothing. -/
theorem c58_false_no_effect (u : Options) (b : Bool) (f : List Node) :
    formats (build { u with keepZeros := b }) f = formats (build u) f := rfl

/-- … so that `1.5` with three places and trimming off is printed with one decimal. -/
theorem c58_false_trimmed : formats (build { places := some 3, keepZeros := true }) [.lr (3 / 2)] = t!"%LR1.5*%\n" := by
  decide +kernel

end Verif.Props.Format
