import Verif.Lemmas.ReadExpr
import Verif.Lemmas.Dispatch
import Verif.Lemmas.Leaves
import Mathlib.Tactic.IntervalCases

/-!
# Spellings of tokens are read as these tokens
-/

namespace Verif.Reading

open Verif.Text Verif.Fmt Verif.Peg Verif.Syntax Verif.Grammar Verif.Spec
open Verif.Math hiding P

/-! ## Languages -/

/-- Every text of the language has the property. -/
def All (l : Language Char) (Q : Text → Prop) : Prop := ∀ w ∈ l, Q w

theorem all_mul {l m : Language Char} {Q : Text → Prop} : All (l * m) Q ↔ All l fun x => All m fun y => Q (x ++ y) := by
  constructor
  · intro h x hx y hy
    exact h _ (Language.mem_mul.2 ⟨x, hx, y, hy, rfl⟩)
  · rintro h w hw
    obtain ⟨x, hx, y, hy, rfl⟩ := Language.mem_mul.1 hw
    exact h x hx y hy

theorem all_one {Q : Text → Prop} : All 1 Q ↔ Q [] := by
  constructor
  · exact fun h => h [] ((Language.mem_one _).2 rfl)
  · rintro h w hw
    rw [(Language.mem_one _).1 hw]; exact h

theorem all_add {l m : Language Char} {Q : Text → Prop} : All (l + m) Q ↔ All l Q ∧ All m Q := by
  constructor
  · exact fun h => ⟨fun w hw => h w ((Language.mem_add _ _ _).2 (.inl hw)), fun w hw => h w ((Language.mem_add _ _ _).2 (.inr hw))⟩
  · rintro ⟨h, h'⟩ w hw
    exact ((Language.mem_add _ _ _).1 hw).elim (h w) (h' w)

theorem all_zero {Q : Text → Prop} : All 0 Q ↔ True := ⟨fun _ => trivial, fun _ w hw => hw.elim⟩

theorem all_tok {S Q : Text → Prop} : All (tok S) Q ↔ ∀ b, Blank b → ∀ w, S w → Q (b ++ w) := by
  constructor
  · exact fun h b hb w hw => h _ ⟨b, w, hb, hw, rfl⟩
  · rintro h _ ⟨b, w, hb, hw, rfl⟩
    exact h b hb w hw

theorem all_word {v : Text} {Q : Text → Prop} : All (word v) Q ↔ ∀ b, Blank b → Q (b ++ v) := by
  simp only [word, all_tok, forall_eq]

theorem all_single {v : Text} {Q : Text → Prop} : All {v} Q ↔ Q v :=
  ⟨fun h => h v (Set.mem_singleton v), fun h w hw => by rw [Set.mem_singleton_iff.1 hw]; exact h⟩

theorem all_provided {c : Prop} {l : Language Char} {Q : Text → Prop} : All (provided c l) Q ↔ (c → All l Q) :=
  ⟨fun h hc w hw => h w ⟨hc, hw⟩, fun h w hw => h hw.1 w hw.2⟩

theorem all_missing {α : Type} {d a : α} {f : α → Language Char} {Q : Text → Prop} :
    All (orMissing d f a) Q ↔ All (f a) Q ∧ (a = d → Q []) := by
  constructor
  · exact fun h => ⟨fun w hw => h w (.inl hw), fun e => h [] (.inr ⟨e, rfl⟩)⟩
  · rintro ⟨h, h'⟩ w (hw | ⟨e, rfl⟩)
    · exact h w hw
    · exact h' e

theorem all_ex {α : Type} {R : α → Prop} {l : α → Language Char} {Q : Text → Prop} :
    All {t | ∃ w, R w ∧ t ∈ l w} Q ↔ ∀ w, R w → All (l w) Q :=
  ⟨fun h w hw t ht => h t ⟨w, hw, ht⟩, fun h t ⟨w, hw, ht⟩ => h w hw t ht⟩

theorem all_choice {ws : List Text} {v : Text} {Q : Text → Prop} :
    All (choice ws v) Q ↔ (v ∈ ws → ∀ b, Blank b → Q (b ++ v)) := by
  simp only [choice, all_provided, all_word]

theorem all_free {t : Text} {Q : Text → Prop} : All (freeText t) Q ↔ (t ≠ [] ∧ '%' ∉ t ∧ '*' ∉ t → Q t) := by
  constructor
  · exact fun h h' => h t ⟨rfl, h'⟩
  · rintro h w ⟨rfl, h'⟩
    exact h h'

/-! ## Repetition -/

/-- The element is read again and again until it fails. -/
inductive Run {α : Type} (p : P α) : Text → List α → Text → Prop
  | stop {s : Text} : p s = .fail → Run p s [] s
  | step {s t r : Text} {a : α} {as : List α} : p s = .ok a t → t.length < s.length → Run p t as r → Run p s (a :: as) r

theorem Run.fuel {α : Type} {p : P α} {s r : Text} {as : List α} (h : Run p s as r) : ∀ n, s.length ≤ n → manyFuel p n s = .ok as r := by
  induction h with
  | stop h => intro n _; exact manyFuel_stop h n
  | step h1 h2 _ ih =>
    intro n hn
    obtain ⟨n, rfl⟩ := Nat.exists_eq_succ_of_ne_zero (show n ≠ 0 by omega)
    exact manyFuel_step h1 (ih n (by omega))

theorem Run.many {α : Type} {p : P α} {s r : Text} {as : List α} (h : Run p s as r) : many p s = .ok as r := h.fuel _ le_rfl

theorem Run.many1 {α : Type} {p : P α} {s r : Text} {a : α} {as : List α} (h : Run p s (a :: as) r) :
    many1 p s = .ok (a :: as) r := by
  cases h with
  | step h1 h2 h3 => simp [Peg.many1, andThen, h1, h3.many, ret]

theorem run_listed {α : Type} {p : P α} {f : α → Language Char} {F : Text → Prop}
    (hp : ∀ a, ∀ w ∈ f a, ∀ r, F r → p (w ++ r) = .ok a r) (hF : ∀ a, ∀ w ∈ f a, ∀ r, F (w ++ r)) (hn : ∀ a, [] ∉ f a)
    {r : Text} (hr : F r) (hs : p r = .fail) : ∀ (as : List α) (x : Text), x ∈ listed f as → Run p (x ++ r) as r ∧ F (x ++ r)
  | [], x, hx => by
    obtain rfl := (Language.mem_one x).1 hx
    exact ⟨.stop hs, hr⟩
  | a :: as, x, hx => by
    obtain ⟨w, hw, y, hy, rfl⟩ := Language.mem_mul.1 hx
    obtain ⟨h1, h2⟩ := run_listed hp hF hn hr hs as y hy
    have hne : w ≠ [] := fun e => hn a (e ▸ hw)
    rw [List.append_assoc]
    refine ⟨.step (hp a w hw _ h2) ?_ h1, hF a w hw _⟩
    have := List.length_pos_iff.2 hne
    simp only [List.length_append]; omega

/-! ## Tokens -/

/-- Texts that can follow numbers, whole numbers and names. -/
def NameEnd (r : Text) : Prop := ∀ c t, r = c :: t → isNameChar c = false

theorem blank_head {b : Text} {c : Char} {t : Text} (hb : Blank b) (e : b = c :: t) : isBlank c = true :=
  blank_isBlank hb c (by rw [e]; simp)

theorem blank_char {c : Char} (h : isBlank c = true) : isNameChar c = false ∧ isDigit c = false ∧ c ≠ '.' := by
  simp only [isBlank, Bool.or_eq_true, beq_iff_eq] at h
  obtain ((rfl | rfl) | rfl) | rfl := h <;> decide

theorem nameEnd_blank {b s : Text} (hb : Blank b) (h : NameEnd s) : NameEnd (b ++ s) := by
  cases b with
  | nil => exact h
  | cons c t =>
    intro d u e
    obtain ⟨rfl, -⟩ := List.cons.inj e
    exact (blank_char (blank_head hb rfl)).1

theorem nameEnd_cons {c : Char} {s : Text} (h : isNameChar c = false) : NameEnd (c :: s) := by
  intro d u e
  obtain ⟨rfl, -⟩ := List.cons.inj e
  exact h

theorem numEnd_blank {b s : Text} (hb : Blank b) (h : NumEnd s) : NumEnd (b ++ s) := by
  cases b with
  | nil => exact h
  | cons c t =>
    intro d u e
    obtain ⟨rfl, -⟩ := List.cons.inj e
    exact (blank_char (blank_head hb rfl)).2

/-- Texts that can follow digits. -/
def DigitsEnd (r : Text) : Prop := ∀ c t, r = c :: t → isDigit c = false

theorem digitsEnd_blank {b s : Text} (hb : Blank b) (h : DigitsEnd s) : DigitsEnd (b ++ s) := by
  cases b with
  | nil => exact h
  | cons c t =>
    intro d u e
    obtain ⟨rfl, -⟩ := List.cons.inj e
    exact (blank_char (blank_head hb rfl)).2.1

theorem digitsEnd_cons {c : Char} {s : Text} (h : isDigit c = false) : DigitsEnd (c :: s) := by
  intro d u e
  obtain ⟨rfl, -⟩ := List.cons.inj e
  exact h

/-- Upper case letters do not become blanks, digits or other signs. -/
theorem upper_cases (c : Char) : c.toUpper = c ∨ ('a' ≤ c ∧ c ≤ 'z') := by
  unfold Char.toUpper
  split_ifs with h
  · right
    have := h
    simp only [Char.le_def] at *
    exact h
  · exact .inl rfl

theorem lower_facts {c : Char} (h : 'a' ≤ c ∧ c ≤ 'z') : isBlank c = false ∧ isDigit c = false ∧ c ≠ ',' ∧ c ≠ '*' ∧ c ≠ '.' ∧ c ≠ 'D' := by
  refine ⟨?_, ?_, ?_, ?_, ?_, ?_⟩
  · rw [Bool.eq_false_iff]
    intro hb
    simp only [isBlank, Bool.or_eq_true, beq_iff_eq] at hb
    obtain ((rfl | rfl) | rfl) | rfl := hb <;> revert h <;> decide
  · rw [Bool.eq_false_iff]
    intro hb
    simp only [isDigit, Bool.and_eq_true, decide_eq_true_eq] at hb
    have := le_trans h.1 hb.2
    exact absurd this (by decide)
  all_goals (rintro rfl; revert h; decide)

theorem upper_blank {c : Char} (h : isBlank c.toUpper = false) : isBlank c = false := by
  obtain e | e := upper_cases c
  · rwa [e] at h
  · exact (lower_facts e).1

theorem upper_digit {c : Char} (h : isDigit c.toUpper = false) : isDigit c = false := by
  obtain e | e := upper_cases c
  · rwa [e] at h
  · exact (lower_facts e).2.1

theorem lower_upper {c : Char} (h : 'a' ≤ c ∧ c ≤ 'z') : 'A' ≤ c.toUpper ∧ c.toUpper ≤ 'Z' := by
  have h1 : 97 ≤ c.toNat := h.1
  have h2 : c.toNat ≤ 122 := h.2
  have e : c = Char.ofNat c.toNat := (Char.ofNat_toNat c).symm
  generalize c.toNat = n at *
  subst e
  interval_cases n <;> decide

theorem upper_dot {c : Char} (h : c.toUpper = '.') : c = '.' := by
  obtain e | e := upper_cases c
  · rwa [e] at h
  · have := (lower_upper e).1
    rw [h] at this
    exact absurd this (by decide)

theorem upper_ne {c d : Char} (h : c.toUpper ≠ d.toUpper) : c ≠ d := fun e => h (by rw [e])

/-! ### Digits -/

theorem digit_value {c : Char} (h : '0' ≤ c ∧ c ≤ '9') : c.toNat - '0'.toNat < 10 ∧ '0'.toNat ≤ c.toNat := by
  have h1 : 48 ≤ c.toNat := h.1
  have h2 : c.toNat ≤ 57 := h.2
  exact ⟨show c.toNat - 48 < 10 by omega, h1⟩

theorem numeral_lt : ∀ {ds : Text}, Digits ds → numeral ds < 10 ^ ds.length
  | [], _ => by simp [numeral]
  | c :: ds, h => by
    have h1 := (digit_value (h c (by simp))).1
    have h2 := numeral_lt (ds := ds) fun x hx => h x (by simp [hx])
    simp only [numeral, List.length_cons, pow_succ]
    generalize c.toNat - '0'.toNat = k at *
    have : k * 10 ^ ds.length + 10 ^ ds.length ≤ 10 * 10 ^ ds.length := by
      rw [← Nat.succ_mul]; exact Nat.mul_le_mul_right _ (by omega)
    omega

theorem numeral_inj : ∀ {a b : Text}, Digits a → Digits b → a.length = b.length → numeral a = numeral b → a = b
  | [], [], _, _, _, _ => rfl
  | c :: a, d :: b, ha, hb, hl, h => by
    have ha' : Digits a := fun x hx => ha x (by simp [hx])
    have hb' : Digits b := fun x hx => hb x (by simp [hx])
    simp only [List.length_cons, Nat.add_right_cancel_iff] at hl
    simp only [numeral, hl] at h
    have h1 := numeral_lt ha'
    have h2 := numeral_lt hb'
    rw [hl] at h1
    have hd : (c.toNat - '0'.toNat) = (d.toNat - '0'.toNat) := by
      have e1 : ((c.toNat - '0'.toNat) * 10 ^ b.length + numeral a) / 10 ^ b.length = c.toNat - '0'.toNat := by
        rw [Nat.mul_comm, Nat.mul_add_div (by positivity), Nat.div_eq_of_lt h1, Nat.add_zero]
      have e2 : ((d.toNat - '0'.toNat) * 10 ^ b.length + numeral b) / 10 ^ b.length = d.toNat - '0'.toNat := by
        rw [Nat.mul_comm, Nat.mul_add_div (by positivity), Nat.div_eq_of_lt h2, Nat.add_zero]
      rw [← e1, h, e2]
    have hn : numeral a = numeral b := by rw [hd] at h; exact Nat.add_left_cancel h
    have hc := (digit_value (ha c (by simp))).2
    have hc' := (digit_value (hb d (by simp))).2
    have : c.toNat = d.toNat := by omega
    rw [numeral_inj ha' hb' hl hn, Char.toNat_inj.1 this]

theorem numeral_ge {c : Char} {ds : Text} (h : Digits (c :: ds)) (hc : c ≠ '0') : 10 ^ ds.length ≤ numeral (c :: ds) := by
  have h1 : '0' ≤ c := (h c (by simp)).1
  have h2 : 48 < c.toNat := lt_of_le_of_ne h1 fun e => hc (Char.toNat_inj.1 (show c.toNat = '0'.toNat from e.symm))
  simp only [numeral]
  have : 1 ≤ c.toNat - '0'.toNat := show 1 ≤ c.toNat - 48 by omega
  calc 10 ^ ds.length = 1 * 10 ^ ds.length := by simp
    _ ≤ (c.toNat - '0'.toNat) * 10 ^ ds.length := Nat.mul_le_mul_right _ this
    _ ≤ _ := Nat.le_add_right _ _

theorem lstrip_head {ds : Text} {c : Char} {t : Text} (h : lstrip0 ds = c :: t) : c ≠ '0' := by
  rintro rfl
  have := List.dropWhile_get_zero_not (p := (· == '0')) ds (by rw [show List.dropWhile _ ds = lstrip0 ds from rfl, h]; simp)
  simp [show List.dropWhile (· == '0') ds = lstrip0 ds from rfl, h] at this

/-- Apart from leading zeros a number is written in one way. -/
theorem code_digits {ds N : Text} {c : Char} (h : Digits ds) (hN : Digits (c :: N)) (hc : c ≠ '0')
    (e : numeral ds = numeral (c :: N)) : ∃ z, ds = List.replicate z '0' ++ c :: N := by
  obtain ⟨z, hz⟩ := Written.strip_zeros ds
  refine ⟨z, ?_⟩
  have hd : Digits (lstrip0 ds) := fun x hx => h x (by rw [hz]; simp [hx])
  rw [hz, Written.numeral_zeros] at e
  have hlt := numeral_lt hd
  have hlt' := numeral_lt hN
  have hge' := numeral_ge hN hc
  cases hl : lstrip0 ds with
  | nil =>
    rw [hl] at e
    have : 0 < 10 ^ N.length := by positivity
    simp only [numeral] at e hge'
    omega
  | cons d M =>
    rw [hl] at e hd hlt
    have hge := numeral_ge hd (lstrip_head hl)
    have hlen : (d :: M).length = (c :: N).length := by
      simp only [List.length_cons] at *
      by_contra hne
      rcases Nat.lt_or_gt_of_ne hne with hlt1 | hlt1
      · have : 10 ^ (M.length + 1) ≤ 10 ^ N.length := Nat.pow_le_pow_right (by norm_num) (by omega)
        omega
      · have : 10 ^ (N.length + 1) ≤ 10 ^ M.length := Nat.pow_le_pow_right (by norm_num) (by omega)
        omega
    rw [hz, hl, numeral_inj hd hN hlen e]

theorem lstrip_zeros (z : Nat) {r : Text} (h : ∀ c t, r = c :: t → c ≠ '0') : lstrip0 (List.replicate z '0' ++ r) = r := by
  induction z with
  | zero =>
    cases r with
    | nil => rfl
    | cons c t => simp [lstrip0, h c t rfl]
  | succ z ih => rw [List.replicate_succ, List.cons_append, lstrip0_zero, ih]

end Verif.Reading
