import Verif.Lemmas.Recover
import Verif.Props.Format

/-!
# C67: reading texts with errors
-/

namespace Verif.Props.Resilient

open Verif.Peg Verif.Syntax Verif.Spec Verif.Formatter Verif.Grammar
open Verif.Math hiding P
open Verif.Props.Format (years years_stable)

theorem strict_same (rd : Text → Option Text) (strict : Bool) (s : Text) (f : List Node) (h : parseFile rd s = .file f) :
    parseResilient rd strict s = .file (f.map .node) := by
  unfold parseFile at h
  by_cases hf : rootItem rd s.length s = .fail
  · rw [many1_fail hf] at h; cases h
  · rw [many1_eq (eats_rootItem rd _) (root_nil rd _) hf] at h
    cases hm : many (rootItem rd s.length) s with
    | fail => rw [hm] at h; cases h
    | raised => rw [hm] at h; cases h
    | ok nss r =>
      rw [hm] at h
      simp only at h
      split_ifs at h with hr
      simp only [Outcome.file.injEq] at h
      subst h
      have hs : skip s ≠ [] := by
        intro hs
        rw [skips_rootItem, hs] at hf
        exact hf (root_nil rd _)
      have hr' : many (resilientItem rd s.length) r = .ok [] r := many_fail (by rw [skips_resilient, hr, resilient_nil])
      rw [parseResilient_eq, if_neg hs, resilient_many rd _ _ _ _ hm, mapP_many_ok hr']
      simp [List.map_flatten]

/-- **C67**, correct files: what the strict parser accepts is read in the same way by the resilient parser. -/
theorem c67_strict_same (rd : Text → Option Text) (strict : Bool) (code : Text) (f : List Node) (h : parseCode rd code = .file f) :
    parseCodeResilient rd strict code = .file (f.map .node) := strict_same rd strict _ f h

example : ∃ f, parseCode years Format.sample = .file f := ⟨_, rfl⟩

/-- **C67** (partial: of the two ways to fail, this one is excluded): a text that is not blank is never refused. -/
theorem c67_never_refused_partial (rd : Text → Option Text) (strict : Bool) (code : Text) (h : ¬ Blank code) :
    parseCodeResilient rd strict code ≠ .parseException := by
  rw [← expandTabs_blank] at h
  have hs : skip (expandTabs code) ≠ [] := by
    intro hs
    obtain ⟨w, hw, e⟩ := skip_split (expandTabs code)
    rw [hs, List.append_nil] at e
    exact h (e ▸ hw)
  rw [parseCodeResilient, parseResilient_eq, if_neg hs]
  split <;> simp

example : ¬ Blank t!"no Gerber file" := fun h => absurd (h 'n' (by simp)) (by decide)

/-- **C67 does not hold** for blank texts: they are refused (the language server raises for an empty document). -/
theorem c67_false_blank (rd : Text → Option Text) (strict : Bool) (code : Text) (h : Blank code) :
    parseCodeResilient rd strict code = .parseException := by
  rw [← expandTabs_blank] at h
  have hs : skip (expandTabs code) = [] := by have := Peg.skip_blank h []; simpa [skip] using this
  rw [parseCodeResilient, parseResilient_eq, if_pos hs]

/-- **C67 does not hold** if a command is well-formed but a value in it is not allowed: nothing is read at all. -/
theorem c67_false_raises :
    parseCodeResilient years true t!"G01*\n%TF.Part,Box*%\nM02*\n" = .validationError ∧
    parseCodeResilient years true t!"G01*\nM02*\n" = .file [.node (.g .g01 true), .node .m02] := ⟨rfl, rfl⟩

/-- **C67**, unreadable places: if no command can be read at the beginning of a text, the rest of the first line that is
not blank becomes an error, and reading goes on behind it. -/
theorem c67_unreadable (rd : Text → Option Text) (strict : Bool) (w line rest : Text) (hw : Blank w) (hb : ¬ Blank (line.take 1))
    (hl : '\n' ∉ line) (hr : rest = [] ∨ ∃ t, rest = '\n' :: t)
    (h : parsePlain rd false (w ++ line ++ rest) = .parseException) :
    parseResilient rd strict (w ++ line ++ rest) = thenRead [.invalid line] (parseResilient rd strict rest) := by
  obtain ⟨c, t, rfl⟩ : ∃ c t, line = c :: t := by
    cases line with
    | nil => exact absurd (fun c hc => by simp at hc) hb
    | cons c t => exact ⟨c, t, rfl⟩
  have hc : isBlank c = false := notBlank hb
  have hs : skip (w ++ c :: t ++ rest) = c :: t ++ rest := by
    rw [List.append_assoc, Peg.skip_blank hw]; exact skip_of_head hc
  have hln : ∀ d ∈ c :: t, (d != '\n') = true := by
    intro d hd; simp only [bne_iff_ne, ne_eq]; rintro rfl; exact hl hd
  have ht : (c :: t ++ rest).takeWhile (fun c => c != '\n') = c :: t := by
    rw [List.takeWhile_append_of_pos hln]; rcases hr with rfl | ⟨t, rfl⟩ <;> simp
  have hd : (c :: t ++ rest).dropWhile (fun c => c != '\n') = rest := by
    rw [List.dropWhile_append_of_pos hln]; rcases hr with rfl | ⟨t, rfl⟩ <;> simp
  have hf : rootItem rd (w ++ c :: t ++ rest).length (w ++ c :: t ++ rest) = .fail := by
    rcases parsePlain_eq rd (w ++ c :: t ++ rest) with h1 | h1 | ⟨nss, r, h1, -⟩
    · exact h1.2
    · rw [h1.1] at h; cases h
    · rw [h1] at h; cases h
  have := resilient_invalid rd strict (s := w ++ c :: t ++ rest) (by rw [hs]; simp)
    (fun k hk => by rw [agree_root rd hk (le_refl _) _ (le_refl _)]; exact hf)
  rwa [hs, ht, hd] at this

example : parsePlain years false (t!"\n " ++ t!"%ADD1C,1*% G01*" ++ t!"\nM02*") = .parseException ∧
    parseResilient years true (t!"\n " ++ t!"%ADD1C,1*% G01*" ++ t!"\nM02*") =
      .file [.invalid t!"%ADD1C,1*% G01*", .node .m02] := ⟨rfl, rfl⟩

/-- **C67**, readable places: the commands that the strict parser reads before it stops are read, and reading goes on
where it stops; and it stops where no command can be read. -/
theorem c67_readable (rd : Text → Option Text) (strict : Bool) (s : Text) (f : List Node) (h : parsePlain rd false s = .file f) :
    ∃ u r, s = u ++ r ∧ u ≠ [] ∧ parsePlain rd false r = .parseException ∧
      parseResilient rd strict s = thenRead (f.map .node) (parseResilient rd strict r) := by
  rcases parsePlain_eq rd s with h1 | h1 | ⟨nss, r, h1, hm, ⟨u, hu⟩, hr, hl⟩
  · rw [h1.1] at h; cases h
  · rw [h1.1] at h; cases h
  · rw [h1] at h
    simp only [Parsed.file.injEq] at h
    subst h
    have hs : skip s ≠ [] := by
      intro hs
      have hf : rootItem rd s.length s = .fail := by rw [skips_rootItem, hs, root_nil]
      rw [many_fail hf] at hm
      simp only [Res.ok.injEq] at hm
      rw [hm.2] at hl; omega
    refine ⟨u, r, hu.symm, ?_, ?_, ?_⟩
    · rintro rfl; simp at hu; rw [hu] at hl; omega
    · rw [agree_root rd (le_of_lt hl) (le_refl _) r (le_refl _)] at hr
      simp [parsePlain, parseAll, many1_fail hr]
    · rw [parseResilient_eq, if_neg hs, resilient_many rd _ _ _ _ hm,
        then_read rd strict (le_of_lt hl) (nss.map (List.map Entry.node)), List.map_flatten]

example : parsePlain years false t!"G01*D10*\nG0\nM02*" = .file [.g .g01 true, .dnn t!"D10" true] ∧
    parseResilient years true t!"G01*D10*\nG0\nM02*" =
      .file [.node (.g .g01 true), .node (.dnn t!"D10" true), .invalid t!"G0", .node .m02] := ⟨rfl, rfl⟩

/-- **C67**, the remaining case: values that are not allowed. -/
theorem c67_raises (rd : Text → Option Text) (strict : Bool) (s : Text) (h : parsePlain rd false s = .validationError) :
    parseResilient rd strict s = .validationError := by
  rcases parsePlain_eq rd s with h1 | h1 | ⟨nss, r, h1, -⟩
  · rw [h1.1] at h; cases h
  · have hs : skip s ≠ [] := by
      intro hs
      have hf : rootItem rd s.length s = .fail := by rw [skips_rootItem, hs, root_nil]
      rw [many_fail hf] at h1
      cases h1.2
    rw [parseResilient_eq, if_neg hs, resilient_many_raised rd _ _ h1.2]
  · rw [h1] at h; cases h

/-! ## Recovery -/

/-- Formatted files with an unreadable line after each of them but the last. -/
def textOf (u : Options) : List (List Node × Text) → List Node → Text
  | [], f => formats (build u) f
  | (g, line) :: gs, f => formats (build u) g ++ (line ++ '\n' :: textOf u gs f)

/-- What is to be read. -/
def entriesOf : List (List Node × Text) → List Node → List Entry
  | [], f => f.map .node
  | (g, line) :: gs, f => g.map .node ++ .invalid line :: entriesOf gs f

/-- A list of commands that the parser made of some text, or no command. -/
def Known (rd : Text → Option Text) (u : Options) (f : List Node) : Prop :=
  f = [] ∨ (∃ s, parseCode rd s = .file f) ∧ ∀ n ∈ insideAll f, Printable u n

theorem known_wfs {rd : Text → Option Text} (hrd : StableDates rd) {u : Options} (hl : BlankLayout u) {f : List Node}
    (h : Known rd u f) : WFs (NodeOk rd (build u)) true f := by
  rcases h with rfl | ⟨⟨s, hs⟩, hn⟩
  · exact .nil
  · exact Format.wfs hrd hl.places hs hn

/-- The tabs of the formatted files are expanded one file after the other. -/
theorem expand_textOf (u : Options) (f : List Node) (g : List Node) {line : Text} (hl : '\t' ∉ line) (gs : List (List Node × Text)) :
    expandTabs (textOf u ((g, line) :: gs) f) = expandTabs (formats (build u) g) ++ (line ++ '\n' :: expandTabs (textOf u gs f)) := by
  unfold expandTabs
  rw [textOf, Spans.expandFrom_append, Grammar.expand_text hl]
  simp [expandFrom]

theorem many_known {rd : Text → Option Text} (hrd : StableDates rd) {u : Options} (hl : BlankLayout u) (hf : Faithful u)
    {f : List Node} (h : Known rd u f) {k : Nat} (hk : (expandTabs (formats (build u) f)).length ≤ k) {w : Text} (hw : Blank w) {rest : Text}
    (hr : rootItem rd k rest = .fail) :
    ∃ nss w', Blank w' ∧ nss.flatten = f ∧ many (rootItem rd k) (w ++ (expandTabs (formats (build u) f) ++ rest)) = .ok nss (w' ++ rest) := by
  have hw' := known_wfs hrd hl h
  have e : normAll (build u) false f = f := norm_keep (by simp [build, hf.separate]) hf.removeG54 hf.removeG55 hw'
  obtain ⟨nss, v, hv, h1, h2, -⟩ :=
    back_tabbed (layout_build hl) (tabs_build hl u.explicit) hw' (item_root rd k true) hk hw hr
  rw [e] at h1 h2
  refine ⟨nss, v, hv, h2, h1 _ ?_⟩
  have hlen := length_tabbed (layout_build hl) (tabs_build hl u.explicit) hw'
  rw [e] at hlen
  change f.length ≤ (expandTabs (formats (build u) f)).length at hlen
  simp only [List.length_append] at hlen ⊢
  omega

theorem many_segments {rd : Text → Option Text} (hrd : StableDates rd) {u : Options} (hl : BlankLayout u) (hf : Faithful u)
    (f : List Node) (h : Known rd u f) : ∀ (gs : List (List Node × Text)) (_ : ∀ g ∈ gs, Known rd u g.1 ∧ NoCommand g.2 ∧ '\t' ∉ g.2)
    {k : Nat} (_ : (expandTabs (textOf u gs f)).length ≤ k) {w : Text} (_ : Blank w),
    ∃ ess r, many (resilientItem rd k) (w ++ expandTabs (textOf u gs f)) = .ok ess r ∧ ess.flatten = entriesOf gs f := by
  intro gs
  induction gs with
  | nil =>
    intro _ k hk w hw
    obtain ⟨nss, w', hw', h1, h2⟩ := many_known hrd hl hf h hk hw (rest := []) (root_nil rd k)
    rw [List.append_nil] at h2
    have h3 : many (resilientItem rd k) (w' ++ []) = .ok [] (w' ++ []) :=
      many_fail (by rw [(skips_resilient rd k).blank hw', resilient_nil])
    refine ⟨nss.map (List.map .node), w' ++ [], ?_, ?_⟩
    · rw [textOf, resilient_many rd k _ _ _ h2, mapP_many_ok h3, List.append_nil]
    · rw [entriesOf, ← h1, List.map_flatten]
  | cons g gs ih =>
    obtain ⟨g, line⟩ := g
    intro hg k hk w hw
    obtain ⟨h1, h2, hno⟩ := hg _ List.mem_cons_self
    rw [expand_textOf u f g hno] at hk ⊢
    simp only [List.length_append, List.length_cons] at hk
    obtain ⟨nss, w', hw', h3, h4⟩ := many_known (f := g) hrd hl hf h1 (by omega) hw
      (rest := line ++ '\n' :: expandTabs (textOf u gs f)) (noCommand_fail rd k h2 _)
    obtain ⟨ess, r, h5, h6⟩ := ih (fun x hx => hg x (List.mem_cons_of_mem _ hx)) (k := k) (by omega) (w := ['\n'])
      (by intro c hc; simp at hc; simp [hc])
    obtain ⟨l1, l2, l3, l4⟩ := noCommand_line h2 hw' (expandTabs (textOf u gs f))
    have h7 : resilientItem rd k (w' ++ (line ++ '\n' :: expandTabs (textOf u gs f))) =
        .ok [.invalid line] ('\n' :: expandTabs (textOf u gs f)) := by
      rw [resilient_eq, (skips_rootItem rd k).blank hw', noCommand_fail rd k h2]
      simp only [invalidToken, l1, l3, l4]
      simp
    refine ⟨nss.map (List.map .node) ++ ([.invalid line] :: ess), r, ?_, ?_⟩
    · rw [resilient_many rd k _ _ _ h4]
      apply mapP_many_ok
      rw [many_ok (eats_resilient rd k) (resilient_nil rd k) h7]
      exact mapP_many_ok h5
    · simp only [List.flatten_append, List.flatten_cons, h6, entriesOf, ← List.map_flatten, h3]
      simp

/-- **C67**, recovery (partial: formatted files, and lines without tabs that cannot be taken for a command).  In a text of formatted files
with unreadable lines between them all commands of the files are read, and every unreadable line is one error. -/
theorem c67_recovers_partial (rd : Text → Option Text) (hrd : StableDates rd) (strict : Bool) (u : Options) (hl : BlankLayout u)
    (hf : Faithful u) (gs : List (List Node × Text)) (f : List Node) (h : Known rd u f)
    (hg : ∀ g ∈ gs, Known rd u g.1 ∧ NoCommand g.2 ∧ '\t' ∉ g.2) (hne : entriesOf gs f ≠ []) :
    parseCodeResilient rd strict (textOf u gs f) = .file (entriesOf gs f) := by
  rw [parseCodeResilient]
  obtain ⟨ess, r, h1, h2⟩ := many_segments hrd hl hf f h gs hg (le_refl _) (w := []) Grammar.blank_nil
  rw [List.nil_append] at h1
  have hs : skip (expandTabs (textOf u gs f)) ≠ [] := by
    intro hs
    have : many (resilientItem rd (expandTabs (textOf u gs f)).length) (expandTabs (textOf u gs f)) = .ok [] _ :=
      many_fail (by rw [skips_resilient, hs, resilient_nil])
    rw [h1] at this
    simp only [Res.ok.injEq] at this
    rw [this.1] at h2
    exact hne h2.symm
  rw [parseResilient_eq, if_neg hs, h1]
  simp [h2]

/-- Non-vacuity: two commands, an unknown command, a line of text and another command. -/
example : ∃ gs f, Known years {} f ∧ (∀ g ∈ gs, Known years {} g.1 ∧ NoCommand g.2 ∧ '\t' ∉ g.2) ∧ entriesOf gs f ≠ [] ∧
    textOf {} gs f = t!"G01*\nD10*\n%ZZ1*%\nuser text\nM02*\n" := by
  refine ⟨[([.g .g01 true, .dnn t!"D10" true], t!"%ZZ1*%"), ([], t!"user text")], [.m02], .inr ⟨⟨t!"M02*", rfl⟩, ?_⟩, ?_, ?_, rfl⟩
  · intro n hn
    simp only [insideAll, inside, List.append_nil, List.mem_singleton] at hn
    subst hn
    simp [Printable, Regular, numbers, exprs]
  · simp only [List.mem_cons, List.not_mem_nil, or_false, forall_eq_or_imp, forall_eq]
    refine ⟨⟨.inr ⟨⟨t!"G01*D10*", rfl⟩, ?_⟩, ⟨by decide, .inr ⟨'Z', 'Z', t!"1*%", rfl, ?_, by decide⟩⟩, by decide⟩,
      .inl rfl, ⟨by decide, .inl ⟨'u', t!"ser text", rfl, ?_, by decide⟩⟩, by decide⟩
    · intro n hn
      simp only [insideAll, inside, List.append_nil, List.cons_append, List.nil_append, List.mem_cons, List.not_mem_nil, or_false] at hn
      rcases hn with rfl | rfl <;> simp [Printable, Regular, numbers, exprs]
    · exact fun h => absurd (h 'Z' (by simp)) (by decide)
    · exact fun h => absurd (h 'u' (by simp)) (by decide)
  · simp [entriesOf]

end Verif.Props.Resilient
