import Verif.Lemmas.HighlightWords
import Mathlib.Data.List.Forall2

/-!
# C91, C92: highlighting
-/

namespace Verif.Props.Highlight
open Verif.Lexer Verif.Spec.Highlight

/-- C91: highlighting ends on every text, and the tokens are non-empty pieces that lie one after another and together
make up the text. -/
theorem c91_partition (text : List Char) (fuel : ℕ) (h : text.length < fuel) :
    ∃ tokens, lex fuel text = some tokens ∧ (∀ t ∈ tokens, t.value ≠ []) ∧
      (tokens.map Token.value).flatten = text ∧
      ∀ before t after, tokens = before ++ t :: after → t.index = (before.map Token.value).flatten.length := by
  obtain ⟨ts, h1, h2, h3, h4⟩ := lexLoop_parts fuel [] text h
  exact ⟨ts, h1, h2, h3, fun pre t post e => by simpa using h4 pre t post e⟩

/-- A text of some words. -/
example : (lex 30 "G01*D10*X-5Y04D01*".toList).map (·.map fun t => (t.index, t.kind, String.ofList t.value)) =
    some [(0, .keyword, "G01"), (3, .error, "*"), (4, .variable, "D10"), (7, .error, "*"), (8, .error, "X"),
      (9, .number, "-5"), (11, .keyword, "Y"), (12, .number, "04"), (14, .keyword, "D01"), (17, .error, "*")] := by
  decide +kernel

/-- C91: in a text of correct words the codes, the coordinates, the numbers, the apertures, the parameters and the names
are marked as what they are.  Missing: the marks between them, and the letters of coordinates with a sign, are marked as
errors (`c91_false_marks`, `c91_false_signed`). -/
theorem c91_words_partial (words : List Word) (h : ∀ w ∈ words, w.Ok) (fuel : ℕ)
    (hf : (textOf words).length < fuel) :
    (lex fuel (textOf words)).map (·.map fun t => (t.kind, t.value)) = some (marked words) := by
  obtain ⟨ts, h1, h2, h3, h4⟩ := lexLoop_parts fuel [] (textOf words) hf
  have hw := words_lex words h [] quiet_nil 1
  rw [List.append_nil] at hw
  have hn : lexLoop 1 ((textOf words).reverse ++ []) [] = some [] := by
    unfold lexLoop
    have : firstMatch rules ((textOf words).reverse ++ []) [] = none := by
      cases hm : firstMatch rules ((textOf words).reverse ++ []) [] with
      | none => rfl
      | some x =>
        obtain ⟨k, b, t⟩ := x
        obtain ⟨w, hw, e, _⟩ := firstMatch_consumes rules rules_least hm
        have := congrArg List.length e
        have := List.length_pos_of_ne_nil hw
        simp at *
        omega
    rw [this]
  rw [hn] at hw
  simp only [Option.map_some, strip, List.map_nil, List.append_nil, Option.map_eq_some_iff] at hw
  obtain ⟨ts', h', e⟩ := hw
  have mono : ∀ (n m : ℕ) (b t : List Char) (x y : List Token), lexLoop n b t = some x → lexLoop m b t = some y →
      x = y := by
    intro n
    induction n with
    | zero => intro m b t x y hx; cases hx
    | succ n ih =>
      intro m b t x y hx hy
      cases m with
      | zero => cases hy
      | succ m =>
        unfold lexLoop at hx hy
        split at hx
        · rename_i k b' t' he
          rw [he] at hy
          simp only [Option.map_eq_some_iff] at hx hy
          obtain ⟨x', hx', rfl⟩ := hx
          obtain ⟨y', hy', rfl⟩ := hy
          rw [ih m _ _ _ _ hx' hy']
        · rename_i he
          rw [he] at hy
          cases t with
          | nil => cases hx; cases hy; rfl
          | cons c cs =>
            simp only [Option.map_eq_some_iff] at hx hy
            obtain ⟨x', hx', rfl⟩ := hx
            obtain ⟨y', hy', rfl⟩ := hy
            rw [ih m _ _ _ _ hx' hy']
  have := mono _ _ _ _ _ _ h1 h'
  subst this
  rw [lex, h1]
  exact congrArg some e

/-- The words of `%FSLAX26Y26*%`, `%MOMM*%`, `%ADD10C,0.5*%`, `%AMFoo*`, `D10*`, `X10Y-5D01*`, `D02*` and `M02*`. -/
def sampleWords : List Word :=
  [.format 'L' 'A', .axis 'X' ⟨[], ['2', '6'], none⟩, .axis 'Y' ⟨[], ['2', '6'], none⟩, .star, .percent, .newline,
   .unit false, .star, .percent, .newline, .define ['1', '0'] ['C'] (some ⟨[], ['0'], some ['5']⟩), .star, .percent,
   .newline, .template ['F', 'o', 'o'], .newline, .d ['1', '0'], .star, .axis 'X' ⟨[], ['1', '0'], none⟩,
   .axis 'Y' ⟨['-'], ['5'], none⟩, .d ['0', '1'], .star, .newline, .d ['0', '2'], .star, .m ['0', '2'], .star]

example : textOf sampleWords =
    "%FSLAX26Y26*%\n%MOMM*%\n%ADD10C,0.5*%\n%AMFoo*\nD10*X10Y-5D01*\nD02*M02*".toList := by decide +kernel

example : ∀ w ∈ sampleWords, w.Ok := by
  simp [sampleWords, Word.Ok, Numeral.Ok, Digits, Name, Letter]

/-- The operation and the aperture are told apart. -/
example : (marked sampleWords).filter (fun t => t.2.head? = some 'D') =
    [(.variable, ['D', '1', '0']), (.variable, ['D', '1', '0']), (.keyword, ['D', '0', '1']),
     (.keyword, ['D', '0', '2'])] := by decide +kernel

/-- Not C91 in full: in every text with a `*` or a `%`, as in every correct file, something is marked as an error. -/
theorem c91_false_marks (text : List Char) (c : Char) (hc : c = '*' ∨ c = '%') (h : c ∈ text) (fuel : ℕ)
    (tokens : List Token) (hl : lex fuel text = some tokens) : ∃ t ∈ tokens, t.kind = .error ∧ t.value = [c] := by
  rcases hc with rfl | rfl
  · exact lexLoop_error (by decide) (by decide) fuel [] text tokens hl h
  · exact lexLoop_error (by decide) (by decide) fuel [] text tokens hl h

example : '*' ∈ "M02*".toList := by decide

/-- Not C91 in full: the letter of a negative coordinate is marked as an error, and so is the template of an aperture
with a number of four digits. -/
theorem c91_false_signed :
    (lex 10 "X-5".toList).map (·.map fun t => (t.kind, t.value)) = some [(.error, ['X']), (.number, ['-', '5'])] ∧
    (lex 20 "%ADD1000C".toList).map (·.map fun t => (t.kind, t.value)) =
      some [(.error, ['%']), (.keyword, ['A', 'D']), (.variable, ['D', '1', '0', '0', '0']), (.error, ['C'])] := by
  constructor <;> decide +kernel

/-- Not C91 in full: the codes of the commands that set polarity, mirroring, rotation and scaling of objects are marked as errors. -/
theorem c91_false_load (code : Char) (hc : code ∈ ['P', 'M', 'R', 'S', 'N']) :
    (lex 10 ['%', 'L', code]).map (·.map Token.kind) = some [.error, .error, .error] := by
  revert code
  decide +kernel

/-- Not C91 in full: comments are marked like commands. -/
theorem c91_false_comment :
    (lex 20 "G04 D01*".toList).map (·.map fun t => (t.kind, t.value)) =
      some [(.keyword, ['G', '0', '4']), (.error, [' ']), (.keyword, ['D', '0', '1']), (.error, ['*'])] := by
  decide +kernel

/-- C92: highlighting of the documentation changes neither the texts nor the positions of the tokens, and the kinds only
of plain names, to those of classes, functions and properties: the classes, the functions and the property `raw` of the
API in their kinds, other names not at all.  Unless `MKDOCS_MODE` is `1` nothing is changed. -/
theorem c92_docs_partial (mode : String) (tokens : List DocToken) :
    ∃ result, docTokens (some mode) tokens = some result ∧
      List.Forall₂ (fun t r => r.index = t.index ∧ r.value = t.value ∧
        (r.kind ≠ t.kind → mode = "1" ∧ t.kind = .name ∧
          (t.value ∈ apiClasses ∧ r.kind = .className ∨ t.value ∈ apiFunctions ∧ r.kind = .function ∨
            t.value = "raw" ∧ r.kind = .property)) ∧
        (mode = "1" → t.kind = .name → t.value ∈ apiClasses → r.kind = .className) ∧
        (mode = "1" → t.kind = .name → t.value ∈ apiFunctions → r.kind = .function) ∧
        (mode = "1" → t.kind = .name → t.value = "raw" → r.kind = .property)) tokens result ∧
      (mode ≠ "1" → result = tokens) := by
  have classes : ∀ s, s ∈ apiClasses ↔ s ∈ extraClasses := fun s => by
    have h1 : ∀ s ∈ apiClasses, s ∈ extraClasses := by decide +kernel
    have h2 : ∀ s ∈ extraClasses, s ∈ apiClasses := by decide +kernel
    exact ⟨h1 s, h2 s⟩
  have functions : ∀ s, s ∈ apiFunctions ↔ s ∈ extraFunctions := fun s => by
    have h1 : ∀ s ∈ apiFunctions, s ∈ extraFunctions := by decide +kernel
    have h2 : ∀ s ∈ extraFunctions, s ∈ apiFunctions := by decide +kernel
    exact ⟨h1 s, h2 s⟩
  simp only [classes, functions]
  have disjoint : ∀ s ∈ extraFunctions, s ∉ extraClasses := by decide +kernel
  have raw1 : "raw" ∉ extraClasses := by decide +kernel
  have raw2 : "raw" ∉ extraFunctions := by decide +kernel
  by_cases hm : mode = "1"
  · subst hm
    refine ⟨_, (if_pos rfl : (if "1" = "1" then _ else some tokens) = _), ?_, fun h => absurd rfl h⟩
    rw [List.forall₂_map_right_iff, List.forall₂_same]
    intro t _
    by_cases hk : t.kind = .name
    · rw [if_pos hk]
      unfold extraSymbol
      by_cases h1 : t.value ∈ extraClasses
      · rw [if_pos h1]
        exact ⟨rfl, rfl, fun _ => ⟨rfl, hk, .inl ⟨h1, rfl⟩⟩, fun _ _ _ => rfl, fun _ _ h2 => absurd h1 (disjoint _ h2),
          fun _ _ h3 => absurd (h3 ▸ h1) raw1⟩
      · by_cases h2 : t.value ∈ extraFunctions
        · rw [if_neg h1, if_pos h2]
          exact ⟨rfl, rfl, fun _ => ⟨rfl, hk, .inr (.inl ⟨h2, rfl⟩)⟩, fun _ _ h => absurd h h1, fun _ _ _ => rfl,
            fun _ _ h3 => absurd (h3 ▸ h2) raw2⟩
        · by_cases h3 : t.value = "raw"
          · rw [if_neg h1, if_neg h2, if_pos h3]
            exact ⟨rfl, rfl, fun _ => ⟨rfl, hk, .inr (.inr ⟨h3, rfl⟩)⟩, fun _ _ h => absurd h h1,
              fun _ _ h => absurd h h2, fun _ _ _ => rfl⟩
          · rw [if_neg h1, if_neg h2, if_neg h3]
            exact ⟨rfl, rfl, fun h => absurd rfl h, fun _ _ h => absurd h h1, fun _ _ h => absurd h h2,
              fun _ _ h => absurd h h3⟩
    · rw [if_neg hk]
      exact ⟨rfl, rfl, fun h => absurd rfl h, fun _ h => absurd h hk, fun _ h => absurd h hk,
        fun _ h => absurd h hk⟩
  · refine ⟨tokens, if_neg hm, ?_, fun _ => rfl⟩
    rw [List.forall₂_same]
    exact fun t _ => ⟨rfl, rfl, fun h => absurd rfl h, fun h => absurd h hm, fun h => absurd h hm,
      fun h => absurd h hm⟩

example : docTokens (some "1") [⟨0, .name, "GerberFile"⟩, ⟨10, .other 0, "."⟩, ⟨11, .name, "from_str"⟩, ⟨19, .name, "x"⟩] =
    some [⟨0, .className, "GerberFile"⟩, ⟨10, .other 0, "."⟩, ⟨11, .function, "from_str"⟩, ⟨19, .name, "x"⟩] := by
  decide +kernel

/-- Not C92 in full: without the environment variable no text is highlighted at all. -/
theorem c92_false_unset (tokens : List DocToken) : docTokens none tokens = none := rfl

end Verif.Props.Highlight
