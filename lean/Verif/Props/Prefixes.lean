import Verif.Props.Written
import Verif.Props.Resilient
import Verif.Spec.Broken

/-!
# C87: reading goes on as long as there are commands

The parser with `strict=False`, and the resilient parser.
-/

namespace Verif.Props.Prefixes

open Verif.Text Verif.Peg Verif.Syntax Verif.Grammar Verif.Spec Verif.Written Verif.Reading

theorem steps_many {α : Type} {p : P α} (h : Eats p) (h0 : p [] = .fail) {s r : Text} {as : List α} (hs : Steps p s as r) :
    many p s = mapP (fun bs => as ++ bs) (many p) r := by
  induction hs with
  | none => simp only [List.nil_append, mapP, andThen]; cases many p _ <;> rfl
  | step h1 h2 _ ih =>
    rw [many_ok h h0 h1]
    simp only [mapP, andThen] at ih ⊢
    rw [ih]
    cases many p _ <;> rfl

theorem steps_resilient {date : Text → Option Text} {k : Nat} {s r : Text} {nss : List (List Node)}
    (h : Steps (rootItem date k) s nss r) : Steps (resilientItem date k) s (nss.map (List.map Entry.node)) r := by
  induction h with
  | none => exact .none
  | step h1 h2 _ ih => exact .step (by rw [resilient_eq, h1]) h2 ih

/-- What is read if something is read. -/
theorem parsePlain_many (date : Text → Option Text) {s : Text} (h : rootItem date s.length s ≠ .fail) :
    parsePlain date false s = match many (rootItem date s.length) s with
      | .ok ns _ => .file ns.flatten
      | .fail => .parseException
      | .raised => .validationError := by
  unfold parsePlain parseAll
  rw [many1_eq (eats_rootItem date _) (root_nil date _) h]
  cases many (rootItem date s.length) s <;> simp

theorem steps_first {α : Type} {p : P α} {s r : Text} {as : List α} (h : Steps p s as r) (ha : as ≠ []) : p s ≠ .fail := by
  cases h with
  | none => exact absurd rfl ha
  | step h1 _ _ => rw [h1]; simp

/-- Texts that end with a command. -/
theorem spelled_of_parse {date : Text → Option Text} {s : Text} {f : List Node} (h : parseFile date s = .file f)
    (hl : ∃ c, s.getLast? = some c ∧ ¬Blank [c]) : Spelled date true f s := by
  obtain ⟨w, b, rfl, hb, hs⟩ := parseFile_spelled h
  obtain ⟨c, hc, hn⟩ := hl
  rcases List.eq_nil_or_concat b with rfl | ⟨b', d, rfl⟩
  · rwa [List.append_nil]
  · rw [List.concat_eq_append, ← List.append_assoc, List.getLast?_concat] at hc
    cases hc
    exact absurd (fun x hx => hb x (by simp at hx; simp [hx])) hn

/-- **C87**: what spells commands is read as these commands, whatever stands behind it. -/
theorem c87_prefix (date : Text → Option Text) (f : List Node) (w r : Text) (hf : f ≠ []) (hn : ∀ n, Occurs n f → ¬LooksStandard n)
    (hs : Spelled date true f w) : parsePlain date false (w ++ r) = thenRead f (parsePlain date false r) := by
  obtain ⟨nss, h1, rfl⟩ := read_spelled hs (w ++ r).length r hn (by simp)
  change Steps (rootItem date (w ++ r).length) (w ++ r) nss r at h1
  have hne : nss ≠ [] := by rintro rfl; exact hf rfl
  rw [parsePlain_many date (steps_first h1 hne), steps_many (eats_rootItem date _) (root_nil date _) h1]
  have ha := (agree_root date (n := r.length) (k := (w ++ r).length) (k' := r.length) (by simp) le_rfl).many
    (eats_rootItem date _).suf r le_rfl
  simp only [mapP, andThen, ha]
  rcases parsePlain_eq date r with ⟨h2, h3⟩ | ⟨h2, h3⟩ | ⟨mss, t, h2, h3, -⟩
  · rw [h2, many_fail h3]; simp [ret, thenRead]
  · rw [h2, h3]; rfl
  · rw [h2, h3]; simp [ret, thenRead]

/-- **C87**: the resilient parser, too. -/
theorem c87_resilient (date : Text → Option Text) (strict : Bool) (f : List Node) (w r : Text) (hf : f ≠ [])
    (hn : ∀ n, Occurs n f → ¬LooksStandard n) (hs : Spelled date true f w) :
    parseResilient date strict (w ++ r) = thenRead (f.map .node) (parseResilient date strict r) := by
  obtain ⟨nss, h1, rfl⟩ := read_spelled hs (w ++ r).length r hn (by simp)
  have h1' : Steps (rootItem date (w ++ r).length) (w ++ r) nss r := h1
  have hne : nss ≠ [] := by rintro rfl; exact hf rfl
  have h2 := steps_resilient h1'
  have hb : Math.skip (w ++ r) ≠ [] := by
    intro hb
    have := steps_first h1' hne
    rw [skips_rootItem, hb, root_nil] at this
    exact this rfl
  rw [parseResilient_eq, if_neg hb, steps_many (eats_resilient date _) (resilient_nil date _) h2,
    then_read date strict (by simp) (nss.map (List.map Entry.node)), List.map_flatten]

/-- **C87**: the commands that are returned are spelled by the beginning of the text, and no command is spelled behind it (apart
from those that are left out in C86). -/
theorem c87_stops (date : Text → Option Text) (s : Text) (f : List Node) (h : parsePlain date false s = .file f) :
    ∃ w r, s = w ++ r ∧ Spelled date true f w ∧
      ∀ ns u v, r = u ++ v → Spelled date true ns u → ns ≠ [] → ∃ n, Occurs n ns ∧ LooksStandard n := by
  rcases parsePlain_eq date s with ⟨h2, -⟩ | ⟨h2, -⟩ | ⟨nss, r, h2, h3, -, h5, h6⟩
  · rw [h2] at h; cases h
  · rw [h2] at h; cases h
  · rw [h2] at h
    simp only [Parsed.file.injEq] at h
    subst h
    obtain ⟨w, rfl, hw⟩ := many_spelled (rootItem_spells _) h3
    refine ⟨w, r, rfl, hw, fun ns u v e hu hne => ?_⟩
    by_contra hc
    push Not at hc
    subst e
    obtain ⟨mss, h7, rfl⟩ := read_spelled hu (w ++ (u ++ v)).length v hc (by simp; omega)
    exact steps_first h7 (by rintro rfl; exact hne rfl) h5

/-- Two commands and something that is no command. -/
example : Spelled (fun _ => none) true [.g .g01 true, .dnn t!"D10" true] t!"G01* D10*" ∧
    parsePlain (fun _ => none) false (t!"G01* D10*" ++ t!"\nG0\nM02*") = .file [.g .g01 true, .dnn t!"D10" true] ∧
    parseResilient (fun _ => none) true (t!"G01* D10*" ++ t!"\nG0\nM02*") =
      .file [.node (.g .g01 true), .node (.dnn t!"D10" true), .invalid t!"G0", .node .m02] :=
  ⟨spelled_of_parse rfl ⟨'*', rfl, fun h => absurd (h '*' (by simp)) (by decide)⟩, rfl, rfl⟩

/-- **C67**, recovery: in a text that spells commands, with unreadable lines between them, all commands are read and every
unreadable line is one error.  Tabs are expanded first. -/
theorem c67_recovers (date : Text → Option Text) (strict : Bool) (code text : Text) (es : List Entry) (hb : Broken date es text)
    (he : Expanded code text) (hne : es ≠ []) : parseCodeResilient date strict code = .file es := by
  have := Spans.expanded_unique (Spans.expanded_tabs code) he
  rw [parseCodeResilient, this]
  clear he this
  have blank {b : Text} (hb : Blank b) : parseResilient date strict b = .parseException := by
    rw [parseResilient_eq, if_pos]
    have := skip_blank hb []
    rw [List.append_nil] at this
    rw [this]; rfl
  have key : parseResilient date strict text = if es = [] then .parseException else .file es := by
    clear hne
    induction hb with
    | @last f w b written clear blanks =>
      by_cases hf : f = []
      · subst hf
        cases written
        simpa using blank blanks
      · rw [c87_resilient date strict f w b hf clear written, blank blanks, if_neg (by simpa using hf)]
        rfl
    | @line f es w b line rest written clear blanks no newline more ih =>
      have h1 : parseResilient date strict (b ++ line ++ rest) = .file (.invalid line :: es) := by
        rw [Props.Resilient.c67_unreadable date strict b line rest blanks ?_ no.1 newline ?_, ih]
        · split_ifs with h
          · subst h; rfl
          · rfl
        · obtain ⟨-, ⟨c, l, rfl, hb, hc⟩ | ⟨x, y, l, rfl, hb, hc⟩⟩ := no
          · exact hb
          · exact fun h => absurd (h '%' (by simp)) (by decide)
        · unfold parsePlain parseAll
          rw [List.append_assoc, many1_fail]
          rw [(skips_rootItem date _).blank blanks, noCommand_fail date _ no]
      rw [if_neg (by simp)]
      by_cases hf : f = []
      · subst hf
        cases written
        exact h1
      · rw [c87_resilient date strict f w _ hf clear written, h1]
        rfl
  rw [key, if_neg hne]

/-- Codes without blocks. -/
theorem clear_codes {f : List Node} (h : ∀ n ∈ f, ∃ c s, n = .g c s) : ∀ n, Occurs n f → ¬LooksStandard n := by
  intro n hn
  cases hn with
  | here hm => obtain ⟨c, s, rfl⟩ := h n hm; exact fun h => h
  | block hm _ => obtain ⟨c, s, e⟩ := h _ hm; cases e
  | repeated hm _ => obtain ⟨c, s, e⟩ := h _ hm; cases e

/-- An unknown command and a line of text between commands. -/
example : Broken (fun _ => none) [.node (.g .g01 true), .invalid t!"%ZZ1*%", .invalid t!"user text", .node (.g .g75 true)]
    t!"G1*\n%ZZ1*%\n user text\nG075 *" := by
  have a : ¬Blank ['Z'] := fun h => absurd (h 'Z' (by simp)) (by decide)
  have b : ¬Blank ['u'] := fun h => absurd (h 'u' (by simp)) (by decide)
  refine .line (w := t!"G1*") (b := ['\n']) (line := t!"%ZZ1*%") (f := [.g .g01 true]) (rest := t!"\n user text\nG075 *")
    (spelled_of_parse rfl ⟨'*', rfl, ?_⟩) (clear_codes (by simp)) (by simp [Blank])
    ⟨by decide, .inr ⟨'Z', 'Z', t!"1*%", rfl, a, by decide⟩⟩ (.inr ⟨_, rfl⟩) ?_
  · exact fun h => absurd (h '*' (by simp)) (by decide)
  refine .line (w := []) (b := t!"\n ") (line := t!"user text") (f := []) (rest := t!"\nG075 *") .none (clear_codes (by simp)) (by simp [Blank])
    ⟨by decide, .inl ⟨'u', t!"ser text", rfl, b, by decide⟩⟩ (.inr ⟨_, rfl⟩) ?_
  refine .last (w := t!"\nG075 *") (b := []) (f := [.g .g75 true]) (spelled_of_parse rfl ⟨'*', rfl, ?_⟩) (clear_codes (by simp)) (by simp [Blank])
  exact fun h => absurd (h '*' (by simp)) (by decide)

end Verif.Props.Prefixes
