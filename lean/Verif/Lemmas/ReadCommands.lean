import Verif.Lemmas.ReadRules

/-!
# Spellings of commands are read as these commands
-/

namespace Verif.Reading

open Verif.Text Verif.Fmt Verif.Peg Verif.Syntax Verif.Grammar Verif.Spec
open Verif.Math hiding P

theorem all_expr {e : Expr} {Q : Text → Prop} (h : ∀ w, (∀ r, After 6 r → expr (w ++ r) = .ok e r) → Q w) : All (exprText e) Q :=
  fun w hw => h w fun _ hr => expr_read hw hr

theorem after_comma {b s : Text} (hb : Blank b) : After 6 (b ++ ',' :: s) := after_blank hb (by simp [Stops, isBlank, isDigit])
theorem after_star {b s : Text} (hb : Blank b) : After 6 (b ++ '*' :: s) := after_blank hb (by simp [Stops, isBlank, isDigit])

theorem all_letterNumber {l : Char} {q : ℚ} {Q : Text → Prop} (h : All (word [l] * numeric q) Q) : All (letterNumber l q) Q := h

/-- Take the text apart, token by token. -/
macro "spell" : tactic => `(tactic| repeat' (with_reducible first
  | refine all_textEnd fun _ => ?_
  | refine all_word.2 fun _ _ => ?_
  | refine all_single.2 ?_
  | refine all_one.2 ?_
  | refine all_numeric fun _ _ _ _ => ?_
  | refine all_numberAs fun _ _ _ => ?_
  | refine all_wholeAs fun _ _ _ => ?_
  | refine all_apertureCode fun _ _ _ => ?_
  | refine all_oneDigit fun _ _ _ _ _ => ?_
  | refine all_macroName fun _ _ _ _ _ _ => ?_
  | refine all_userAttribute fun _ _ _ => ?_
  | refine all_expr fun _ _ => ?_
  | refine all_closing fun _ _ => ?_
  | refine all_fieldsNil ?_
  | refine all_fieldsCons fun _ _ _ => ?_
  | refine all_fieldText fun _ _ _ => ?_
  | refine all_letter (by decide) fun _ _ _ _ _ _ _ _ _ => ?_
  | refine all_code0 fun _ _ _ => ?_
  | refine all_missing.2 ⟨?_, fun _ => ?_⟩
  | refine all_letterNumber ?_
  | refine all_mul.2 ?_))

/-- Parts of commands. -/
macro "parts" : tactic => `(tactic| simp only [commandText, primText, percented, starred, attribute_, after, xNumber, letterNumber,
  bitText, perhaps, axis, params, listed, List.cons_append, List.nil_append, Option.toList])

/-- Run the parser elements. -/
macro "run" "[" xs:Lean.Parser.Tactic.simpLemma,* "]" : tactic =>
  `(tactic| simp (decide := true) (maxDischargeDepth := 8) [Peg.before, Peg.andThen, Peg.mapP, Peg.ret, Peg.raise, Peg.firstOf, Peg.orElse,
      Peg.opt, extended, command, asterisk, comma, cs, lit_cons, clit_cons, strip, stripCaseless, ofStrip, kinds,
      lit_blank, clit_blank, codeRe_blank, mZeros_blank, apertureId_blank, expr_blank, double_blank, doubleText_blank, integer_blank,
      oneOf_blank, digit_blank, name_blank, userName_blank, field_blank, variable_blank, strip_blank, lstrip_blank,
      oneOf_cons, userName_cons, variable_cons, codeRe_zeros, codeRe_zeros', mZeros_zeros, apertureId_small, codeRe_fail,
      apertureId_fail, oneOfIn, numEnd_blank, Peg.numEnd_cons, digitsEnd_blank, digitsEnd_cons, nameEnd_blank, nameEnd_cons,
      after_comma, after_star, noComma_blank, fields_star, fields_star', string_star, convert, member, List.find?, $xs,*, *])

/-! ## Loading and properties -/

theorem read_ln (date : Text → Option Text) (t : Text) : All (commandText date (.ln t)) fun w => ∀ r, load (w ++ r) = .ok (.ln t) r := by
  parts
  spell
  intro r
  run [load, ln]

theorem read_lp (date : Text → Option Text) (p : Visitor.Polarity) : All (commandText date (.lp p)) fun w => ∀ r, load (w ++ r) = .ok (.lp p) r := by
  parts
  cases p
  all_goals
    spell
    intro r
    run [load, ln, lp, polarityValue]

theorem read_lr (date : Text → Option Text) (q : ℚ) : All (commandText date (.lr q)) fun w => ∀ r, load (w ++ r) = .ok (.lr q) r := by
  parts
  spell
  intro r
  run [load, ln, lp, lr]

theorem read_ls (date : Text → Option Text) (q : ℚ) : All (commandText date (.ls q)) fun w => ∀ r, load (w ++ r) = .ok (.ls q) r := by
  parts
  spell
  intro r
  run [load, ln, lp, lr, ls]

theorem read_lm (date : Text → Option Text) (m : Visitor.Mirroring) : All (commandText date (.lm m)) fun w => ∀ r, load (w ++ r) = .ok (.lm m) r := by
  parts
  cases m
  all_goals
    spell
    intro r
    run [load, ln, lp, lr, ls, lm, mirroringValue]

theorem read_fs (date : Text → Option Text) (z : Coord.Zeros) (m : Coord.Notation) (a b c d : ℕ) :
    All (commandText date (.fs z m a b c d)) fun w => ∀ r, properties (w ++ r) = .ok (.fs z m a b c d) r := by
  parts
  cases z <;> cases m
  all_goals
    spell
    intro r
    run [properties, Grammar.fs, zerosValue, notationValue]

theorem read_mo (date : Text → Option Text) (m : Visitor.UnitMode) :
    All (commandText date (.mo m)) fun w => ∀ r, properties (w ++ r) = .ok (.mo m) r := by
  parts
  cases m
  all_goals
    spell
    intro r
    run [properties, Grammar.fs, mo, unitValue]

theorem read_ip (date : Text → Option Text) (p : Visitor.ImagePolarity) :
    All (commandText date (.ip p)) fun w => ∀ r, properties (w ++ r) = .ok (.ip p) r := by
  parts
  cases p
  all_goals
    spell
    intro r
    run [properties, Grammar.fs, mo, ip, imageValue]

theorem read_ir (date : Text → Option Text) (n : ℤ) :
    All (commandText date (.ir n)) fun w => ∀ r, properties (w ++ r) = .ok (.ir n) r := by
  parts
  spell
  intro r
  run [properties, Grammar.fs, mo, ip, ir]

theorem read_of (date : Text → Option Text) (a b : Option ℚ) :
    All (commandText date (.of_ a b)) fun w => ∀ r, properties (w ++ r) = .ok (.of_ a b) r := by
  cases a <;> cases b
  all_goals
    parts
    spell
    intro r
    run [properties, Grammar.fs, mo, ip, ir, of_]

theorem read_as (date : Text → Option Text) (c : Visitor.AxisCorrespondence) :
    All (commandText date (.as_ c)) fun w => ∀ r, properties (w ++ r) = .ok (.as_ c) r := by
  parts
  cases c
  all_goals
    spell
    intro r
    run [properties, Grammar.fs, mo, ip, ir, of_, as_, axisValue]

theorem read_mi (date : Text → Option Text) (a b : Bool) :
    All (commandText date (.mi a b)) fun w => ∀ r, properties (w ++ r) = .ok (.mi a b) r := by
  parts
  cases a <;> cases b <;> spell <;> intro r <;> first
    | contradiction
    | run [properties, Grammar.fs, mo, ip, ir, of_, as_, mi, boolean]

theorem read_in (date : Text → Option Text) (t : Text) :
    All (commandText date (.in_ t)) fun w => ∀ r, properties (w ++ r) = .ok (.in_ t) r := by
  parts
  spell
  intro r
  run [properties, Grammar.fs, mo, ip, ir, of_, as_, mi, in_]

theorem read_sf (date : Text → Option Text) (a b : ℚ) :
    All (commandText date (.sf a b)) fun w => ∀ r, properties (w ++ r) = .ok (.sf a b) r := by
  parts
  spell
  all_goals
    intro r
    run [properties, Grammar.fs, mo, ip, ir, of_, as_, mi, in_, sf]

/-! ## Apertures -/

theorem read_adc (date : Text → Option Text) (i : Text) (d : ℚ) (h : Option ℚ) :
    All (commandText date (.adc i d h)) fun w => ∀ r, addAperture (w ++ r) = .ok (.adc i d h) r := by
  cases h
  all_goals
    parts
    spell
    intro r
    run [addAperture, adc, xDouble]

theorem read_adr (date : Text → Option Text) (i : Text) (x y : ℚ) (h : Option ℚ) :
    All (commandText date (.adr i x y h)) fun w => ∀ r, addAperture (w ++ r) = .ok (.adr i x y h) r := by
  cases h
  all_goals
    parts
    spell
    intro r
    run [addAperture, adc, adr, xDouble]

theorem read_ado (date : Text → Option Text) (i : Text) (x y : ℚ) (h : Option ℚ) :
    All (commandText date (.ado i x y h)) fun w => ∀ r, addAperture (w ++ r) = .ok (.ado i x y h) r := by
  cases h
  all_goals
    parts
    spell
    intro r
    run [addAperture, adc, adr, ado, xDouble]

theorem read_adp (date : Text → Option Text) (i : Text) (d : ℚ) (n : ℤ) (x h : Option ℚ) :
    All (commandText date (.adp i d n x h)) fun w => ∀ r, addAperture (w ++ r) = .ok (.adp i d n x h) r := by
  cases x <;> cases h <;> parts <;> refine all_provided.2 fun hc => ?_
  all_goals
    spell
    intro r
    first
      | (simp at hc; done)
      | run [addAperture, adc, adr, ado, adp, xDouble]

theorem read_adMacro (date : Text → Option Text) (i n : Text) :
    All (commandText date (.adMacro i n none)) fun w => ∀ r, addAperture (w ++ r) = .ok (.adMacro i n none) r := by
  parts
  spell
  intro r
  run [addAperture, adc, adr, ado, adp, adMacro, xDouble]

theorem all_xNumbers {ps : List ℚ} {Q : Text → Prop}
    (h : ∀ x, (∀ b r, Blank b → many xDouble (x ++ (b ++ '*' :: r)) = .ok ps (b ++ '*' :: r)) →
      (∀ b r, Blank b → NumEnd (x ++ (b ++ '*' :: r))) → Q x) : All (listed xNumber ps) Q := by
  intro x hx
  have key (b r : Text) (hb : Blank b) : Run xDouble (x ++ (b ++ '*' :: r)) ps (b ++ '*' :: r) ∧ NumEnd (x ++ (b ++ '*' :: r)) := by
    refine run_listed (F := NumEnd) ?_ ?_ ?_ (numEnd_blank hb (Peg.numEnd_cons (by decide) (by decide))) ?_ ps x hx
    · intro q
      show All _ _
      unfold xNumber
      spell
      intro r hr
      run [xDouble]
    · intro q
      show All _ _
      unfold xNumber
      spell
      intro r
      run [xDouble]
    · intro q hq
      obtain ⟨a, ⟨_, _, _, rfl, rfl⟩, c, _, e⟩ := Language.mem_mul.1 hq
      simp at e
    · run [xDouble]
  exact h x (fun b r hb => (key b r hb).1.many) fun b r hb => (key b r hb).2

theorem read_adMacros (date : Text → Option Text) (i n : Text) (p : ℚ) (ps : List ℚ) (hn : n ∉ [t!"C", t!"R", t!"O", t!"P"]) :
    All (commandText date (.adMacro i n (some (p :: ps)))) fun w => ∀ r, addAperture (w ++ r) = .ok (.adMacro i n (some (p :: ps))) r := by
  simp only [List.mem_cons, List.not_mem_nil, or_false, not_or] at hn
  obtain ⟨h1, h2, h3, h4⟩ := hn
  simp only [commandText, percented, after]
  spell
  refine all_xNumbers fun x hx hx' => ?_
  spell
  intro r
  run [addAperture, adc, adr, ado, adp, adMacro]

end Verif.Reading
