import Verif.Spec.Highlight
import Mathlib.Tactic.IntervalCases
import Mathlib.Data.List.Induction

/-!
# Lemmas on highlighting
-/

namespace Verif.Lexer
open Verif.Spec.Highlight

/-! ### What a match consumes -/

/-- The least number of characters a match consumes. -/
def Re.least : Re → ℕ
  | .cls _ => 1
  | .star _ => 0
  | .seq a b => a.least + b.least
  | .alt a b => min a.least b.least
  | .ahead _ => 0
  | .behind _ => 0

theorem runStar_consumes {α : Type} (p : Char → Bool) (k : List Char → List Char → Option α) (x : α) :
    ∀ (rest bef : List Char), runStar p k bef rest = some x →
      ∃ w t, rest = w ++ t ∧ (∀ c ∈ w, p c = true) ∧ k (w.reverse ++ bef) t = some x := by
  intro rest
  induction rest with
  | nil => intro bef h; exact ⟨[], [], rfl, by simp, h⟩
  | cons c cs ih =>
    intro bef h
    rw [runStar] at h
    split at h
    · rename_i hp
      split at h
      · rename_i y hy
        cases h
        obtain ⟨w, t, rfl, hw, hk⟩ := ih _ hy
        exact ⟨c :: w, t, rfl, by simpa [hp] using hw, by simpa using hk⟩
      · exact ⟨[], _, rfl, by simp, h⟩
    · exact ⟨[], _, rfl, by simp, h⟩

theorem run_consumes {α : Type} (r : Re) : ∀ (k : List Char → List Char → Option α) (x : α) (bef rest : List Char),
    r.run k bef rest = some x → ∃ w t, rest = w ++ t ∧ r.least ≤ w.length ∧ k (w.reverse ++ bef) t = some x := by
  induction r with
  | cls p =>
    intro k x bef rest h
    cases rest with
    | nil => simp [Re.run] at h
    | cons c cs =>
      simp only [Re.run] at h
      split at h
      · exact ⟨[c], cs, rfl, by simp [Re.least], by simpa using h⟩
      · cases h
  | star p =>
    intro k x bef rest h
    obtain ⟨w, t, e, _, hk⟩ := runStar_consumes p k x rest bef h
    exact ⟨w, t, e, by simp [Re.least], hk⟩
  | seq a b iha ihb =>
    intro k x bef rest h
    obtain ⟨w, t, rfl, hl, hk⟩ := iha _ _ _ _ h
    obtain ⟨v, u, rfl, hl', hk'⟩ := ihb _ _ _ _ hk
    exact ⟨w ++ v, u, by simp, by simp [Re.least]; omega, by simpa using hk'⟩
  | alt a b iha ihb =>
    intro k x bef rest h
    simp only [Re.run] at h
    split at h
    · rename_i y hy
      cases h
      obtain ⟨w, t, e, hl, hk⟩ := iha _ _ _ _ hy
      exact ⟨w, t, e, by simp [Re.least]; omega, hk⟩
    · obtain ⟨w, t, e, hl, hk⟩ := ihb _ _ _ _ h
      exact ⟨w, t, e, by simp [Re.least]; omega, hk⟩
  | ahead a _ =>
    intro k x bef rest h
    simp only [Re.run] at h
    split at h
    · exact ⟨[], rest, rfl, by simp [Re.least], h⟩
    · cases h
  | behind ps =>
    intro k x bef rest h
    simp only [Re.run] at h
    split at h
    · exact ⟨[], rest, rfl, by simp [Re.least], h⟩
    · cases h

theorem rules_least : ∀ r ∈ rules, 1 ≤ r.1.least := by decide

theorem firstMatch_consumes : ∀ (rs : List (Re × Kind)), (∀ r ∈ rs, 1 ≤ r.1.least) → ∀ {bef rest kind b t},
    firstMatch rs bef rest = some (kind, b, t) → ∃ w, w ≠ [] ∧ rest = w ++ t ∧ b = w.reverse ++ bef := by
  intro rs
  induction rs with
  | nil => intro _ bef rest kind b t h; cases h
  | cons r rs ih =>
    intro hr bef rest kind b t h
    obtain ⟨r, k⟩ := r
    rw [firstMatch] at h
    split at h
    · rename_i b' t' he
      cases h
      obtain ⟨w, t', e, hl, hk⟩ := run_consumes r _ _ _ _ he
      cases hk
      refine ⟨w, ?_, e, rfl⟩
      have : 1 ≤ r.least := hr (r, kind) (List.mem_cons_self ..)
      rintro rfl
      simp at hl
      omega
    · exact ih (fun r h' => hr r (List.mem_cons_of_mem _ h')) h

/-- Tokens that lie one after another from position `n` on and make up a text. -/
theorem lexLoop_parts : ∀ (fuel : ℕ) (bef rest : List Char), rest.length < fuel →
    ∃ ts, lexLoop fuel bef rest = some ts ∧ (∀ t ∈ ts, t.value ≠ []) ∧ (ts.map Token.value).flatten = rest ∧
      ∀ pre t post, ts = pre ++ t :: post → t.index = bef.length + (pre.map Token.value).flatten.length := by
  intro fuel
  induction fuel with
  | zero => intro _ _ h; omega
  | succ fuel ih =>
    intro bef rest h
    have step : ∀ (w t : List Char) (kind : Kind), w ≠ [] → rest = w ++ t →
        ∃ ts, (lexLoop fuel (w.reverse ++ bef) t).map (⟨bef.length, kind, w⟩ :: ·) = some ts ∧
          (∀ t ∈ ts, t.value ≠ []) ∧ (ts.map Token.value).flatten = rest ∧
          ∀ pre t post, ts = pre ++ t :: post → t.index = bef.length + (pre.map Token.value).flatten.length := by
      intro w t kind hw e
      have hl : 0 < w.length := List.length_pos_of_ne_nil hw
      have : rest.length = w.length + t.length := by rw [e, List.length_append]
      obtain ⟨ts, h1, h2, h3, h4⟩ := ih (w.reverse ++ bef) t (by omega)
      refine ⟨⟨bef.length, kind, w⟩ :: ts, by rw [h1]; rfl, ?_, ?_, ?_⟩
      · intro x hx
        rcases List.mem_cons.mp hx with rfl | hx
        · exact hw
        · exact h2 x hx
      · simp [h3, e]
      · intro pre x post he
        cases pre with
        | nil => simp at he; simp [← he.1]
        | cons p pre =>
          simp only [List.cons_append, List.cons.injEq] at he
          obtain ⟨rfl, he⟩ := he
          rw [h4 pre x post he]
          simp
          omega
    unfold lexLoop
    split
    · rename_i kind b t he
      obtain ⟨w, hw, e, rfl⟩ := firstMatch_consumes rules rules_least he
      have : ((w.reverse ++ bef).take ((w.reverse ++ bef).length - bef.length)).reverse = w := by simp
      rw [this]
      exact step w t kind hw e
    · cases rest with
      | nil => exact ⟨[], rfl, by simp, rfl, by simp⟩
      | cons c cs => exact step [c] cs _ (by simp) rfl

/-! ### Rules that cannot match -/

/-- A match may consume nothing. -/
def Re.nullable : Re → Bool
  | .cls _ => false
  | .star _ => true
  | .seq a b => a.nullable && b.nullable
  | .alt a b => a.nullable || b.nullable
  | .ahead _ => true
  | .behind _ => true

/-- The characters a match may begin with. -/
def Re.starts (x : Char) : Re → Bool
  | .cls p => p x
  | .star p => p x
  | .seq a b => a.starts x || (a.nullable && b.starts x)
  | .alt a b => a.starts x || b.starts x
  | .ahead _ => false
  | .behind _ => false

theorem run_starts {α : Type} (r : Re) : ∀ (k : List Char → List Char → Option α) (x : α) (bef rest : List Char),
    r.run k bef rest = some x →
      (∃ c cs, rest = c :: cs ∧ r.starts c = true) ∨ (r.nullable = true ∧ k bef rest = some x) := by
  induction r with
  | cls p =>
    intro k x bef rest h
    cases rest with
    | nil => simp [Re.run] at h
    | cons c cs =>
      simp only [Re.run] at h
      split at h
      · rename_i hp
        exact .inl ⟨c, cs, rfl, hp⟩
      · cases h
  | star p =>
    intro k x bef rest h
    cases rest with
    | nil => exact .inr ⟨rfl, h⟩
    | cons c cs =>
      simp only [Re.run, runStar] at h
      split at h
      · rename_i hp
        exact .inl ⟨c, cs, rfl, hp⟩
      · exact .inr ⟨rfl, h⟩
  | seq a b iha ihb =>
    intro k x bef rest h
    rcases iha _ _ _ _ h with ⟨c, cs, e, hs⟩ | ⟨hn, hk⟩
    · exact .inl ⟨c, cs, e, by simp [Re.starts, hs]⟩
    · rcases ihb _ _ _ _ hk with ⟨c, cs, e, hs⟩ | ⟨hn', hk'⟩
      · exact .inl ⟨c, cs, e, by simp [Re.starts, hs, hn]⟩
      · exact .inr ⟨by simp [Re.nullable, hn, hn'], hk'⟩
  | alt a b iha ihb =>
    intro k x bef rest h
    simp only [Re.run] at h
    split at h
    · rename_i y hy
      cases h
      rcases iha _ _ _ _ hy with ⟨c, cs, e, hs⟩ | ⟨hn, hk⟩
      · exact .inl ⟨c, cs, e, by simp [Re.starts, hs]⟩
      · exact .inr ⟨by simp [Re.nullable, hn], hk⟩
    · rcases ihb _ _ _ _ h with ⟨c, cs, e, hs⟩ | ⟨hn, hk⟩
      · exact .inl ⟨c, cs, e, by simp [Re.starts, hs]⟩
      · exact .inr ⟨by simp [Re.nullable, hn], hk⟩
  | ahead a _ =>
    intro k x bef rest h
    simp only [Re.run] at h
    split at h
    · exact .inr ⟨rfl, h⟩
    · cases h
  | behind ps =>
    intro k x bef rest h
    simp only [Re.run] at h
    split at h
    · exact .inr ⟨rfl, h⟩
    · cases h

theorem rules_nullable : ∀ r ∈ rules, r.1.nullable = false := by decide

theorem firstMatch_filter (bef : List Char) (c : Char) (cs : List Char) : ∀ (rs : List (Re × Kind)),
    (∀ r ∈ rs, r.1.nullable = false) →
    firstMatch rs bef (c :: cs) = firstMatch (rs.filter fun r => r.1.starts c) bef (c :: cs) := by
  intro rs
  induction rs with
  | nil => intro _; rfl
  | cons r rs ih =>
    intro hr
    obtain ⟨r, k⟩ := r
    have ih := ih fun r h' => hr r (List.mem_cons_of_mem _ h')
    have hn := hr _ (List.mem_cons_self ..)
    by_cases hs : r.starts c = true
    · rw [List.filter_cons_of_pos (by simpa using hs), firstMatch, firstMatch, ih]
    · rw [List.filter_cons_of_neg (by simpa using hs), firstMatch, ih]
      have : r.run (fun b t => some (b, t)) bef (c :: cs) = none := by
        cases h : r.run (fun b t => some (b, t)) bef (c :: cs) with
        | none => rfl
        | some x =>
          rcases run_starts r _ _ _ _ h with ⟨c', cs', e, hs'⟩ | ⟨hn', _⟩
          · cases e; exact absurd hs' hs
          · rw [hn] at hn'; cases hn'
      rw [this]

theorem rules_at (bef : List Char) (c : Char) (cs : List Char) (rs : List (Re × Kind))
    (h : rules.filter (fun r => r.1.starts c) = rs) : firstMatch rules bef (c :: cs) = firstMatch rs bef (c :: cs) := by
  rw [firstMatch_filter bef c cs rules rules_nullable, h]

/-! ### Repetitions -/

/-- A text that does not begin with a character of a set. -/
def Ends (p : Char → Bool) (rest : List Char) : Prop := ∀ c cs, rest = c :: cs → p c = false

theorem runStar_all {α : Type} (p : Char → Bool) (k : List Char → List Char → Option α) {x : α} :
    ∀ (w bef : List Char) {rest : List Char}, (∀ c ∈ w, p c = true) → Ends p rest →
      k (w.reverse ++ bef) rest = some x → runStar p k bef (w ++ rest) = some x := by
  intro w
  induction w with
  | nil =>
    intro bef rest _ he hk
    cases rest with
    | nil => exact hk
    | cons c cs => simpa [runStar, he c cs rfl] using hk
  | cons c w ih =>
    intro bef rest hw he hk
    have := ih (c :: bef) (fun d h => hw d (List.mem_cons_of_mem _ h)) he (by simpa using hk)
    simp [runStar, hw c (List.mem_cons_self ..), this]

theorem runStar_none {α : Type} (p : Char → Bool) (k : List Char → List Char → Option α) :
    ∀ (w bef : List Char) {rest : List Char}, (∀ c ∈ w, p c = true) → Ends p rest →
      (∀ u v, w = u ++ v → k (u.reverse ++ bef) (v ++ rest) = none) → runStar p k bef (w ++ rest) = none := by
  intro w
  induction w with
  | nil =>
    intro bef rest _ he hk
    have := hk [] [] rfl
    cases rest with
    | nil => exact this
    | cons c cs => simpa [runStar, he c cs rfl] using this
  | cons c w ih =>
    intro bef rest hw he hk
    have h1 := ih (c :: bef) (fun d h => hw d (List.mem_cons_of_mem _ h)) he fun u v e => by
      simpa using hk (c :: u) v (by rw [e]; rfl)
    have h2 := hk [] (c :: w) rfl
    simp only [List.cons_append, runStar, hw c (List.mem_cons_self ..), if_true, h1]
    exact h2

theorem isDigit_iff (c : Char) : isDigit c = true ↔ '0' ≤ c ∧ c ≤ '9' := by simp [isDigit]

theorem digit_mem {c : Char} (h : isDigit c = true) : c ∈ ['0', '1', '2', '3', '4', '5', '6', '7', '8', '9'] := by
  rw [isDigit_iff] at h
  obtain ⟨h1, h2⟩ := h
  have h1 : 48 ≤ c.toNat := h1
  have h2 : c.toNat ≤ 57 := h2
  have hc : c = Char.ofNat c.toNat := (Char.ofNat_toNat c).symm
  rw [hc]
  interval_cases c.toNat <;> decide

theorem digits_mem {ds : List Char} (h : Digits ds) : ∀ c ∈ ds, isDigit c = true := fun c hc =>
  (isDigit_iff c).mpr (h.2 c hc)

theorem digits_run {α : Type} (k : List Char → List Char → Option α) {x : α} {ds rest bef : List Char}
    (h : Digits ds) (he : Ends isDigit rest) (hk : k (ds.reverse ++ bef) rest = some x) :
    digitsRe.run k bef (ds ++ rest) = some x := by
  obtain ⟨c, cs, rfl⟩ := List.exists_cons_of_ne_nil h.1
  have hm := digits_mem h
  simp only [digitsRe, Re.run, List.cons_append, hm c (List.mem_cons_self ..), if_true]
  exact runStar_all _ _ cs _ (fun d hd => hm d (List.mem_cons_of_mem _ hd)) he (by simpa using hk)

theorem digits_none {α : Type} (k : List Char → List Char → Option α) {ds rest bef : List Char}
    (h : Digits ds) (he : Ends isDigit rest)
    (hk : ∀ u v, ds = u ++ v → u ≠ [] → k (u.reverse ++ bef) (v ++ rest) = none) :
    digitsRe.run k bef (ds ++ rest) = none := by
  obtain ⟨c, cs, rfl⟩ := List.exists_cons_of_ne_nil h.1
  have hm := digits_mem h
  simp only [digitsRe, Re.run, List.cons_append, hm c (List.mem_cons_self ..), if_true]
  refine runStar_none _ _ cs _ (fun d hd => hm d (List.mem_cons_of_mem _ hd)) he fun u v e => ?_
  have := hk (c :: u) v (by rw [e]; rfl) (by simp)
  simpa using this

theorem digitsRe_other {α : Type} (k : List Char → List Char → Option α) {rest bef : List Char}
    (he : Ends isDigit rest) : digitsRe.run k bef rest = none := by
  cases rest with
  | nil => rfl
  | cons c cs => simp [digitsRe, Re.run, he c cs rfl]

/-! ### One token -/

/-- The kinds and the texts of the tokens. -/
def strip (ts : List Token) : List (Kind × List Char) := ts.map fun t => (t.kind, t.value)

/-- The text `w` before `rest` is marked by `toks`. -/
def Lexes (bef w : List Char) (toks : List (Kind × List Char)) (rest : List Char) : Prop :=
  ∀ n, (lexLoop (n + toks.length) bef (w ++ rest)).map strip =
    (lexLoop n (w.reverse ++ bef) rest).map fun ts => toks ++ strip ts

theorem Lexes.append {bef w v rest : List Char} {a b : List (Kind × List Char)} (h1 : Lexes bef w a (v ++ rest))
    (h2 : Lexes (w.reverse ++ bef) v b rest) : Lexes bef (w ++ v) (a ++ b) rest := by
  intro n
  have h1 := h1 (n + b.length)
  have h2 := h2 n
  rw [List.length_append, show n + (a.length + b.length) = n + b.length + a.length by omega, List.append_assoc, h1]
  have : ((lexLoop (n + b.length) (w.reverse ++ bef) (v ++ rest)).map fun ts => a ++ strip ts) =
      ((lexLoop (n + b.length) (w.reverse ++ bef) (v ++ rest)).map strip).map (a ++ ·) := by
    rw [Option.map_map]; rfl
  rw [this, h2, Option.map_map]
  simp [Function.comp_def]

theorem Lexes.nil (bef rest : List Char) : Lexes bef [] [] rest := by
  intro n
  simp

theorem Lexes.token {bef w rest : List Char} {kind : Kind}
    (h : firstMatch rules bef (w ++ rest) = some (kind, w.reverse ++ bef, rest)) : Lexes bef w [(kind, w)] rest := by
  intro n
  have : ((w.reverse ++ bef).take ((w.reverse ++ bef).length - bef.length)).reverse = w := by simp
  simp only [List.length_singleton, lexLoop, h, Option.map_map]
  rw [this]
  congr 1

theorem Lexes.single {bef rest : List Char} {c : Char} (h : firstMatch rules bef (c :: rest) = none) :
    Lexes bef [c] [(if c = '\n' then .whitespace else .error, [c])] rest := by
  intro n
  simp only [List.length_singleton, lexLoop, List.cons_append, List.nil_append, h, Option.map_map,
    List.reverse_singleton]
  congr 1

/-! ### Numbers -/

/-- Text after a word: not a digit and not a point. -/
def After (rest : List Char) : Prop := Ends (fun c => isDigit c || c == '.') rest

theorem After.digit {rest : List Char} (h : After rest) : Ends isDigit rest := fun c cs e => by
  have := h c cs e
  simp at this
  exact this.1

theorem After.point {rest : List Char} (h : After rest) : Ends (· == '.') rest := fun c cs e => by
  have := h c cs e
  simp at this
  simpa using this.2

theorem number_start {c : Char} (h : isDigit c = true ∨ c = '+' ∨ c = '-') :
    rules.filter (fun r => r.1.starts c) = codeRules.drop 7 := by
  rcases h with h | rfl | rfl
  · have := digit_mem h
    simp only [List.mem_cons, List.not_mem_nil, or_false] at this
    rcases this with rfl | rfl | rfl | rfl | rfl | rfl | rfl | rfl | rfl | rfl <;> rfl
  · rfl
  · rfl

theorem sign_ends {ds rest : List Char} (h : Digits ds) : Ends (fun c => c == '+' || c == '-') (ds ++ rest) := by
  obtain ⟨c, cs, rfl⟩ := List.exists_cons_of_ne_nil h.1
  intro d ds e
  cases e
  have := digit_mem (digits_mem h c (List.mem_cons_self ..))
  simp only [List.mem_cons, List.not_mem_nil, or_false] at this
  rcases this with rfl | rfl | rfl | rfl | rfl | rfl | rfl | rfl | rfl | rfl <;> rfl

theorem numeral_token {n : Numeral} (h : n.Ok) {bef rest : List Char} (hr : After rest) :
    Lexes bef n.text [(.number, n.text)] rest := by
  apply Lexes.token
  obtain ⟨hs, hw, hf⟩ := h
  have hs' : ∀ c ∈ n.sign, (fun c : Char => c == '+' || c == '-') c = true := fun c hc => by simpa using hs c hc
  obtain ⟨c, cs, e⟩ : ∃ c cs, n.text ++ rest = c :: cs := List.exists_cons_of_ne_nil (by
    obtain ⟨d, ds, e⟩ := List.exists_cons_of_ne_nil hw.1
    simp [Numeral.text, e])
  have hc : isDigit c = true ∨ c = '+' ∨ c = '-' := by
    cases hsg : n.sign with
    | nil =>
      obtain ⟨d, ds, ew⟩ := List.exists_cons_of_ne_nil hw.1
      simp [Numeral.text, hsg, ew] at e
      left
      rw [← e.1]
      exact digits_mem hw d (by rw [ew]; exact List.mem_cons_self ..)
    | cons d ds =>
      simp [Numeral.text, hsg] at e
      right
      rw [← e.1]
      exact hs d (by rw [hsg]; exact List.mem_cons_self ..)
  rw [e, rules_at bef c cs _ (number_start hc), ← e]
  cases hfr : n.fraction with
  | some f =>
    have hf := hf f hfr
    have et : n.text = n.sign ++ n.whole ++ '.' :: f := by simp [Numeral.text, hfr]
    rw [et]
    have : (Re.seq (.star fun c => c == '+' || c == '-') (.seq digitsRe (.seq (ch '.') digitsRe))).run
        (fun b t => some (b, t)) bef (n.sign ++ (n.whole ++ ('.' :: (f ++ rest)))) =
        some (f.reverse ++ '.' :: (n.whole.reverse ++ (n.sign.reverse ++ bef)), rest) := by
      simp only [Re.run]
      refine runStar_all _ _ _ _ hs' (sign_ends hw) ?_
      refine digits_run _ hw (fun d ds e => by cases e; rfl) ?_
      simp only [ch, Re.run, beq_self_eq_true, if_true]
      exact digits_run _ hf hr.digit rfl
    simp only [codeRules, List.drop, firstMatch]
    simp only [List.append_assoc, List.cons_append]
    rw [this]
    simp
  | none =>
    have et : n.text = n.sign ++ n.whole := by simp [Numeral.text, hfr]
    rw [et]
    have h1 : (Re.seq (.star fun c => c == '+' || c == '-') (.seq digitsRe (.seq (ch '.') digitsRe))).run
        (fun b t => some (b, t)) bef (n.sign ++ (n.whole ++ rest)) = none := by
      simp only [Re.run]
      refine runStar_none _ _ _ _ hs' (sign_ends hw) fun u v ev => ?_
      cases v with
      | cons d v =>
        have hd := hs d (by rw [ev]; simp)
        refine digitsRe_other _ fun c' cs' e' => ?_
        cases e'
        rcases hd with rfl | rfl <;> rfl
      | nil =>
        rw [List.nil_append]
        refine digits_none _ hw hr.digit fun u' v' e' _ => ?_
        simp only [ch, Re.run]
        cases v' with
        | nil =>
          cases rest with
          | nil => rfl
          | cons r rs =>
            have := hr.point r rs rfl
            simp at this
            simp [this]
        | cons d v' =>
          have hd := digit_mem (digits_mem hw d (by rw [e']; simp))
          have : d ≠ '.' := by rintro rfl; revert hd; decide
          simp [this]
    have h2 : (Re.seq (.star fun c => c == '+' || c == '-') digitsRe).run
        (fun b t => some (b, t)) bef (n.sign ++ (n.whole ++ rest)) =
        some (n.whole.reverse ++ (n.sign.reverse ++ bef), rest) := by
      simp only [Re.run]
      refine runStar_all _ _ _ _ hs' (sign_ends hw) ?_
      exact digits_run _ hw hr.digit rfl
    simp only [codeRules, List.drop, firstMatch]
    simp only [List.append_assoc]
    rw [h1, h2]
    simp

/-! ### Codes -/

theorem takeWhile_digits {ds rest : List Char} (h : ∀ c ∈ ds, isDigit c = true) (he : Ends isDigit rest) :
    (ds ++ rest).takeWhile isDigit = ds := by
  induction ds with
  | nil =>
    cases rest with
    | nil => rfl
    | cons c cs => simp [he c cs rfl]
  | cons d ds ih =>
    rw [List.cons_append, List.takeWhile_cons_of_pos (h d (List.mem_cons_self ..)),
      ih fun c hc => h c (List.mem_cons_of_mem _ hc)]

/-- Digits that are zeros and one other digit. -/
def Operation (c : Char) (ds : List Char) : Prop := ∃ k, ds = List.replicate k '0' ++ [c]

theorem operation_run {c : Char} (hc : c ≠ '0') {ds bef rest : List Char} (h : Operation c ds) :
    (operationRe c).run (fun b t => some (b, t)) bef ('D' :: (ds ++ '*' :: rest)) =
      some (ds.reverse ++ 'D' :: bef, '*' :: rest) := by
  obtain ⟨k, rfl⟩ := h
  simp only [operationRe, Re.run, ch, beq_self_eq_true, if_true, List.append_assoc]
  refine runStar_all _ _ _ _ (fun d hd => by simpa using (List.mem_replicate.mp hd).2) ?_ ?_
  · intro d ds e
    cases e
    simpa using hc
  · simp

theorem operation_none {c : Char} (hc : isDigit c = true) {ds bef rest : List Char} (hd : Digits ds)
    (he : Ends isDigit rest) (h : ¬(Operation c ds ∧ ∃ t, rest = '*' :: t)) :
    (operationRe c).run (fun b t => some (b, t)) bef ('D' :: (ds ++ rest)) = none := by
  cases hx : (operationRe c).run (fun b t => some (b, t)) bef ('D' :: (ds ++ rest)) with
  | none => rfl
  | some x =>
    exfalso
    simp only [operationRe, Re.run, ch, beq_self_eq_true, if_true] at hx
    obtain ⟨w, t, e, hw, hk⟩ := runStar_consumes _ _ _ _ _ hx
    cases t with
    | nil => cases hk
    | cons c' t =>
      simp only [beq_iff_eq] at hk
      split at hk
      · rename_i hc'
        subst hc'
        cases t with
        | nil => cases hk
        | cons s t =>
          simp only at hk
          split at hk
          · rename_i u hu
            by_cases hs : s = '*'
            · subst hs
              have hz : ∀ d ∈ w ++ [c'], isDigit d = true := by
                intro d hd
                rcases List.mem_append.mp hd with hd | hd
                · have := hw d hd
                  simp at this
                  subst this
                  rfl
                · simp at hd
                  subst hd
                  exact hc
              have h1 := takeWhile_digits (digits_mem hd) he
              have h2 := takeWhile_digits hz (rest := '*' :: t) (fun d ds e => by cases e; rfl)
              rw [e, show w ++ c' :: '*' :: t = w ++ [c'] ++ '*' :: t by simp, h2] at h1
              refine h ⟨⟨w.length, ?_⟩, t, ?_⟩
              · rw [← h1]
                congr 1
                exact List.eq_replicate_iff.mpr ⟨rfl, fun d hd => by simpa using hw d hd⟩
              · rw [← h1] at e
                simpa using e
            · simp [hs] at hu
          · cases hk
      · cases hk

theorem valueOf_snoc (ds : List Char) (c : Char) : valueOf (ds ++ [c]) = 10 * valueOf ds + (c.toNat - '0'.toNat) := by
  simp [valueOf]

theorem valueOf_zero {ds : List Char} (h : ∀ c ∈ ds, isDigit c = true) (hv : valueOf ds = 0) :
    ds = List.replicate ds.length '0' := by
  induction ds using List.reverseRecOn with
  | nil => rfl
  | append_singleton ds c ih =>
    rw [valueOf_snoc] at hv
    have h1 := ih (fun d hd => h d (by simp [hd])) (by omega)
    have hc := digit_mem (h c (by simp))
    have : c = '0' := by
      simp only [List.mem_cons, List.not_mem_nil, or_false] at hc
      rcases hc with rfl | rfl | rfl | rfl | rfl | rfl | rfl | rfl | rfl | rfl <;>
        first | rfl | (exfalso; revert hv; simp)
    rw [this, List.length_append, List.replicate_add, ← h1]
    rfl

theorem valueOf_zeros (k : ℕ) : valueOf (List.replicate k '0') = 0 := by
  induction k with
  | zero => rfl
  | succ k ih =>
    rw [List.replicate_succ', valueOf_snoc, ih]
    rfl

theorem operation_iff {ds : List Char} (h : Digits ds) {c : Char} (hc : c ∈ ['1', '2', '3']) :
    Operation c ds ↔ valueOf ds = c.toNat - '0'.toNat := by
  constructor
  · rintro ⟨k, rfl⟩
    rw [valueOf_snoc, valueOf_zeros]
    omega
  · intro hv
    obtain ⟨i, l, rfl⟩ : ∃ i l, ds = i ++ [l] := ⟨_, _, (List.dropLast_append_getLast h.1).symm⟩
    rw [valueOf_snoc] at hv
    have hm := digits_mem h
    have hl := digit_mem (hm l (by simp))
    have hlt : c.toNat - '0'.toNat < 10 := by
      simp only [List.mem_cons, List.not_mem_nil, or_false] at hc
      rcases hc with rfl | rfl | rfl <;> decide
    have hi := valueOf_zero (fun d hd => hm d (by simp [hd])) (ds := i) (by omega)
    refine ⟨i.length, ?_⟩
    rw [← hi]
    congr 2
    rw [hi, valueOf_zeros] at hv
    simp only [List.mem_cons, List.not_mem_nil, or_false] at hl hc
    rcases hc with rfl | rfl | rfl <;>
    rcases hl with rfl | rfl | rfl | rfl | rfl | rfl | rfl | rfl | rfl | rfl <;>
      first | rfl | (exfalso; revert hv; simp)

/-- Names are not looked for at this position. -/
def Nameless (bef : List Char) : Prop :=
  lookBehind [isDigit, (· == 'D'), (· == 'D'), (· == 'A'), (· == '%')] bef = false ∧
  lookBehind [isDigit, isDigit, (· == 'D'), (· == 'D'), (· == 'A'), (· == '%')] bef = false ∧
  lookBehind [isDigit, isDigit, isDigit, (· == 'D'), (· == 'D'), (· == 'A'), (· == '%')] bef = false ∧
  lookBehind [(· == 'M'), (· == 'A'), (· == '%')] bef = false

theorem ends_single {p : Char → Bool} {c : Char} (h : p c = false) (t : List Char) : Ends p (c :: t) := fun d ds e => by
  cases e; exact h

theorem d_token {ds : List Char} (h : Digits ds) {bef rest : List Char} (hb : Nameless bef) (hr : Ends isDigit rest)
    {star : Prop} [Decidable star] (hs : star ↔ ∃ t, rest = '*' :: t) :
    Lexes bef ('D' :: ds)
      [(if (valueOf ds = 1 ∨ valueOf ds = 2 ∨ valueOf ds = 3) ∧ star then .keyword else .variable, 'D' :: ds)] rest := by
  apply Lexes.token
  obtain ⟨b1, b2, b3, b4⟩ := hb
  rw [List.cons_append, rules_at bef 'D' (ds ++ rest) _ rfl]
  have i1 := operation_iff h (c := '1') (by simp)
  have i2 := operation_iff h (c := '2') (by simp)
  have i3 := operation_iff h (c := '3') (by simp)
  have n : ∀ (ps : List (Char → Bool)) (r : Re) (kind : Kind) (rs : List (Re × Kind)) (t : List Char),
      lookBehind ps bef = false → firstMatch ((Re.seq (.behind ps) r, kind) :: rs) bef t = firstMatch rs bef t := by
    intro ps r kind rs t hp
    simp [firstMatch, Re.run, hp]
  have e : rules.filter (fun r => r.1.starts 'D') =
      [(.seq (.behind [isDigit, (· == 'D'), (· == 'D'), (· == 'A'), (· == '%')]) nameRe, .className),
       (.seq (.behind [isDigit, isDigit, (· == 'D'), (· == 'D'), (· == 'A'), (· == '%')]) nameRe, .className),
       (.seq (.behind [isDigit, isDigit, isDigit, (· == 'D'), (· == 'D'), (· == 'A'), (· == '%')]) nameRe, .className),
       (.seq (.behind [(· == 'M'), (· == 'A'), (· == '%')]) nameRe, .className),
       (operationRe '1', .keyword), (operationRe '2', .keyword), (operationRe '3', .keyword),
       (.seq (ch 'D') digitsRe, .variable)] := by rfl
  rw [e, n _ _ _ _ _ b1, n _ _ _ _ _ b2, n _ _ _ _ _ b3, n _ _ _ _ _ b4]
  have hv : (Re.seq (ch 'D') digitsRe).run (fun b t => some (b, t)) bef ('D' :: (ds ++ rest)) =
      some (ds.reverse ++ 'D' :: bef, rest) := by
    simp only [Re.run, ch, beq_self_eq_true, if_true]
    exact digits_run _ h hr rfl
  have op : ∀ c ∈ ['1', '2', '3'], (operationRe c).run (fun b t => some (b, t)) bef ('D' :: (ds ++ rest)) =
      if valueOf ds = c.toNat - '0'.toNat ∧ star then some (ds.reverse ++ 'D' :: bef, rest) else none := by
    intro c hc
    have hi := operation_iff h hc
    split
    · rename_i hq
      obtain ⟨t, rfl⟩ := hs.mp hq.2
      exact operation_run (by rintro rfl; revert hc; decide) (hi.mpr hq.1)
    · rename_i hv
      refine operation_none ?_ h hr ?_
      · simp only [List.mem_cons, List.not_mem_nil, or_false] at hc
        rcases hc with rfl | rfl | rfl <;> rfl
      · rw [hi, ← hs]
        exact hv
  simp only [firstMatch, op '1' (by simp), op '2' (by simp), op '3' (by simp), hv]
  have e1 : '1'.toNat - '0'.toNat = 1 := rfl
  have e2 : '2'.toNat - '0'.toNat = 2 := rfl
  have e3 : '3'.toNat - '0'.toNat = 3 := rfl
  rw [e1, e2, e3]
  by_cases hst : star
  · by_cases v1 : valueOf ds = 1
    · simp [v1, hst]
    · by_cases v2 : valueOf ds = 2
      · simp [v2, hst]
      · by_cases v3 : valueOf ds = 3
        · simp [v3, hst]
        · simp [v1, v2, v3]
  · simp [hst]

end Verif.Lexer
