import Verif.Lemmas.ReadToken
import Verif.Lemmas.WrittenFile

/-!
# What the texts of tokens are read as

For each kind of token a rule: a property of all texts of the token follows from the property of the texts that are read
in the right way.
-/

namespace Verif.Reading

open Verif.Text Verif.Fmt Verif.Peg Verif.Syntax Verif.Grammar Verif.Spec
open Verif.Math hiding P

/-- Kinds of the characters that occur in words. -/
theorem kinds :
    isBlank '%' = false ∧ isBlank '*' = false ∧ isBlank ',' = false ∧ isBlank '.' = false ∧ isBlank '=' = false ∧
    isBlank '$' = false ∧ isBlank 'A' = false ∧ isBlank 'B' = false ∧ isBlank 'C' = false ∧ isBlank 'D' = false ∧
    isBlank 'E' = false ∧ isBlank 'F' = false ∧ isBlank 'G' = false ∧ isBlank 'H' = false ∧ isBlank 'I' = false ∧
    isBlank 'J' = false ∧ isBlank 'K' = false ∧ isBlank 'L' = false ∧ isBlank 'M' = false ∧ isBlank 'N' = false ∧
    isBlank 'O' = false ∧ isBlank 'P' = false ∧ isBlank 'Q' = false ∧ isBlank 'R' = false ∧ isBlank 'S' = false ∧
    isBlank 'T' = false ∧ isBlank 'U' = false ∧ isBlank 'V' = false ∧ isBlank 'W' = false ∧ isBlank 'X' = false ∧
    isBlank 'Y' = false ∧ isBlank 'Z' = false ∧ isBlank '0' = false ∧ isBlank '1' = false ∧ isBlank '2' = false ∧
    isBlank '3' = false ∧ isBlank '4' = false ∧ isBlank '5' = false ∧ isBlank '6' = false ∧ isBlank '7' = false ∧
    isBlank '8' = false ∧ isBlank '9' = false ∧ isDigit '%' = false ∧ isDigit '*' = false ∧ isDigit ',' = false ∧
    isDigit '.' = false ∧ isDigit '=' = false ∧ isDigit '$' = false ∧ isDigit 'A' = false ∧ isDigit 'B' = false ∧
    isDigit 'C' = false ∧ isDigit 'D' = false ∧ isDigit 'E' = false ∧ isDigit 'F' = false ∧ isDigit 'G' = false ∧
    isDigit 'H' = false ∧ isDigit 'I' = false ∧ isDigit 'J' = false ∧ isDigit 'K' = false ∧ isDigit 'L' = false ∧
    isDigit 'M' = false ∧ isDigit 'N' = false ∧ isDigit 'O' = false ∧ isDigit 'P' = false ∧ isDigit 'Q' = false ∧
    isDigit 'R' = false ∧ isDigit 'S' = false ∧ isDigit 'T' = false ∧ isDigit 'U' = false ∧ isDigit 'V' = false ∧
    isDigit 'W' = false ∧ isDigit 'X' = false ∧ isDigit 'Y' = false ∧ isDigit 'Z' = false ∧ isDigit '0' = true ∧
    isDigit '1' = true ∧ isDigit '2' = true ∧ isDigit '3' = true ∧ isDigit '4' = true ∧ isDigit '5' = true ∧
    isDigit '6' = true ∧ isDigit '7' = true ∧ isDigit '8' = true ∧ isDigit '9' = true ∧ isNameChar '%' = false ∧
    isNameChar '*' = false ∧ isNameChar ',' = false ∧ isNameChar '=' = false ∧ isFieldChar '%' = false ∧
    isFieldChar '*' = false ∧ isFieldChar ',' = false ∧ isUserStart '.' = false := by
  repeat' constructor

/-! ## Blanks -/

variable {b s : Text}

theorem lit_blank (w : Text) (hb : Blank b) : lit w (b ++ s) = lit w s := (skips_lit w).blank hb s
theorem clit_blank (w : Text) (hb : Blank b) : clit w (b ++ s) = clit w s := (skips_clit w).blank hb s
theorem codeRe_blank (l : Char) (w : Text) (hb : Blank b) : codeRe l w (b ++ s) = codeRe l w s := (skips_codeRe l w).blank hb s
theorem mZeros_blank (hb : Blank b) : mZeros (b ++ s) = mZeros s := skips_mZeros.blank hb s
theorem apertureId_blank (hb : Blank b) : apertureId (b ++ s) = apertureId s := skips_apertureId.blank hb s
theorem expr_blank (hb : Blank b) : expr (b ++ s) = expr s := skips_expr.blank hb s
theorem double_blank (hb : Blank b) : double (b ++ s) = double s := by simp only [double, skip_blank hb]
theorem doubleText_blank (hb : Blank b) : doubleText (b ++ s) = doubleText s := by simp only [doubleText, skip_blank hb]
theorem integer_blank (hb : Blank b) : integer (b ++ s) = integer s := by simp only [integer, skip_blank hb]
theorem oneOf_blank (ws : List Text) (hb : Blank b) : oneOf ws (b ++ s) = oneOf ws s := by simp only [oneOf, skip_blank hb]
theorem digit_blank (hb : Blank b) : digit (b ++ s) = digit s := by simp only [digit, skip_blank hb]
theorem name_blank (hb : Blank b) : Peg.name (b ++ s) = Peg.name s := by simp only [Peg.name, nameRe, skip_blank hb]
theorem userName_blank (hb : Blank b) : userName (b ++ s) = userName s := by simp only [userName, nameRe, skip_blank hb]
theorem field_blank (hb : Blank b) : field (b ++ s) = field s := by simp only [field, skip_blank hb]
theorem variable_blank (hb : Blank b) : variable_ (b ++ s) = variable_ s := by simp only [variable_, skip_blank hb]

theorem strip_blank {a c : Char} {w : Text} (hb : Blank b) (ha : isBlank a = false) (hc : a ≠ c) :
    strip (a :: w) (b ++ c :: s) = none := by
  cases b with
  | nil => simp [strip, hc]
  | cons d t =>
    have : a ≠ d := by
      rintro rfl
      rw [blank_head hb rfl] at ha
      cases ha
    simp [strip, this]

theorem lstrip_blank {c : Char} (hb : Blank b) (hc : c ≠ '0') : lstrip0 (b ++ c :: s) = b ++ c :: s := by
  cases b with
  | nil => simp [lstrip0, hc]
  | cons d t =>
    have : d ≠ '0' := by
      rintro rfl
      have := blank_head hb rfl
      revert this; decide
    simp [lstrip0, this]

theorem oneOf_cons {ws : List Text} {c : Char} (hc : isBlank c = false) :
    oneOf ws (c :: s) = match oneOfIn ws (c :: s) with | some (w, r) => .ok w r | none => .fail := by
  simp only [oneOf, skip_of_head hc]
  rfl

theorem userName_cons {c : Char} (hc : isBlank c = false) (h : isUserStart c = false) : userName (c :: s) = .fail := by
  simp [userName, nameRe, skip_of_head hc, h]

theorem variable_cons {c : Char} (hc : isBlank c = false) (h : c ≠ '$') : variable_ (c :: s) = .fail := by
  have := pVar_none (b := []) (t := s) (by simp [Blank]) hc h
  simp only [List.nil_append] at this
  simp [variable_, skip_of_head hc, this]

/-! ## Words in upper or lower case -/

/-- For all spellings of the word. -/
def AnyUp : Text → (Text → Prop) → Prop
  | [], Q => Q []
  | a :: w, Q => ∀ c, c.toUpper = a.toUpper → isBlank c = false → ',' ≠ c → AnyUp w fun v => Q (c :: v)

/-- No blanks and no commas. -/
def plain (w : Text) : Bool := w.all fun a => !isBlank a.toUpper && a.toUpper != ','.toUpper

theorem anyUp_all : ∀ {w : Text} {Q : Text → Prop}, plain w = true → AnyUp w Q →
    ∀ v : Text, v.map Char.toUpper = w.map Char.toUpper → Q v
  | [], Q, _, h, v, e => by
    obtain rfl : v = [] := by simpa using e
    exact h
  | a :: w, Q, hp, h, v, e => by
    cases v with
    | nil => simp at e
    | cons c v =>
      simp only [List.map_cons, List.cons.injEq] at e
      simp only [plain, List.all_cons, Bool.and_eq_true, Bool.not_eq_true', bne_iff_ne, ne_eq] at hp
      rw [← e.1] at hp
      exact anyUp_all hp.2 (h c e.1 (upper_blank hp.1.1) (upper_ne hp.1.2).symm) v e.2

theorem all_dotCase {w : Text} {Q : Text → Prop} (hp : plain w = true) (h : ∀ b, Blank b → AnyUp w fun v => Q (b ++ '.' :: v)) :
    All (anyCase ('.' :: w)) Q := by
  rintro _ ⟨b, v, hb, e, rfl⟩
  cases v with
  | nil => simp at e
  | cons c v =>
    simp only [List.map_cons, List.cons.injEq] at e
    obtain rfl := upper_dot e.1
    exact anyUp_all hp (h b hb) v e.2

/-- Facts about a letter of a coordinate. -/
theorem all_letter {l : Char} {Q : Text → Prop} (hl : l ∈ t!"XYIJ")
    (h : ∀ b c, Blank b → c.toUpper = l.toUpper → isBlank c = false → isDigit c = false → c ≠ 'D' → c ≠ '*' → c ≠ '.' →
      Q (b ++ [c])) : All (anyCase [l]) Q := by
  rintro _ ⟨b, v, hb, e, rfl⟩
  obtain ⟨c, rfl⟩ : ∃ c, v = [c] := by
    cases v with
    | nil => simp at e
    | cons c v => exact ⟨c, by simp only [List.map_cons, List.cons.injEq, List.map_nil, List.map_eq_nil_iff] at e; rw [e.2]⟩
  simp only [List.map_cons, List.cons.injEq, List.map_nil, and_true] at e
  have hx : isBlank l.toUpper = false ∧ isDigit l.toUpper = false ∧ l.toUpper ≠ 'D'.toUpper ∧ l.toUpper ≠ '*'.toUpper ∧
      l.toUpper ≠ '.'.toUpper := by
    clear h e
    revert l; decide
  rw [← e] at hx
  exact h b c hb e (upper_blank hx.1) (upper_digit hx.2.1) (upper_ne hx.2.2.1) (upper_ne hx.2.2.2.1) (upper_ne hx.2.2.2.2)

/-! ## Numbers -/

theorem double_text {u r : Text} {q : ℚ} (h : NumberText u q) (hr : NumEnd r) : double (u ++ r) = .ok q r := by
  obtain ⟨c, t, e, hc⟩ := number_head h
  have := read_number h hr
  have hs : skip (u ++ r) = u ++ r := by rw [e]; exact skip_of_head hc
  simp only [double, hs, this]

theorem all_numeric {q : ℚ} {Q : Text → Prop}
    (h : ∀ b u, Blank b → (∀ r, NumEnd r → double (u ++ r) = .ok q r) → Q (b ++ u)) : All (numeric q) Q := by
  rintro _ ⟨b, u, hb, hu, rfl⟩
  exact h b u hb fun r hr => double_text hu hr

theorem all_numberAs {t : Text} {Q : Text → Prop}
    (h : ∀ b, Blank b → (∀ r, NumEnd r → doubleText (t ++ r) = .ok t r) → Q (b ++ t)) : All (numberAs t) Q := by
  rintro _ ⟨b, u, hb, ⟨rfl, q, hu⟩, rfl⟩
  refine h b hb fun r hr => ?_
  obtain ⟨c, t, e, hc⟩ := number_head hu
  have := read_number hu hr
  have hs : skip (u ++ r) = u ++ r := by rw [e]; exact skip_of_head hc
  simp only [doubleText, hs, this]
  simp

theorem digits_end {ds r : Text} (hd : Digits ds) (hr : DigitsEnd r) : digits (ds ++ r) = (ds, r) :=
  digits_append ((all_isDigit_iff _).2 hd) hr

theorem digits_head {c : Char} {ds : Text} (hd : Digits (c :: ds)) : isDigit c = true ∧ isBlank c = false := by
  have h1 : isDigit c = true := by
    have := (all_isDigit_iff _).2 hd
    simp only [List.all_cons, Bool.and_eq_true] at this
    exact this.1
  refine ⟨h1, ?_⟩
  cases hb : isBlank c with
  | false => rfl
  | true => rw [(blank_char hb).2.1] at h1; cases h1

theorem all_wholeAs {t : Text} {Q : Text → Prop}
    (h : ∀ b, Blank b → (∀ r, DigitsEnd r → integer (t ++ r) = .ok t r) → Q (b ++ t)) : All (wholeAs t) Q := by
  rintro _ ⟨b, u, hb, ⟨rfl, s, ds, hd, hne, rfl⟩, rfl⟩
  refine h b hb fun r hr => ?_
  have hdig := digits_end hd hr
  have he : ds.isEmpty = false := by cases ds <;> simp at hne ⊢
  cases s with
  | minus => simp [integer, Sign.text, skip_of_head (show isBlank '-' = false by decide), isSign, hdig, he]
  | plus => simp [integer, Sign.text, skip_of_head (show isBlank '+' = false by decide), isSign, hdig, he]
  | none =>
    cases ds with
    | nil => exact absurd rfl hne
    | cons c ds =>
      obtain ⟨h1, h2⟩ := digits_head hd
      have h3 : isSign c = false := by
        cases hs : isSign c with
        | false => rfl
        | true => rw [(sign_facts hs).2] at h1; cases h1
      simp only [List.cons_append] at hdig
      simp [integer, Sign.text, skip_of_head h2, h3, hdig]

theorem all_apertureCode {i : Text} {Q : Text → Prop}
    (h : ∀ b, Blank b → (∀ r, DigitsEnd r → apertureId (i ++ r) = .ok i r) → Q (b ++ i)) : All (apertureCode i) Q := by
  rintro _ ⟨b, u, hb, ⟨rfl, ds, hd, hge, rfl⟩, rfl⟩
  refine h b hb fun r hr => ?_
  have hdig := digits_end hd hr
  have hl : 2 ≤ (lstrip0 ds).length := by
    obtain ⟨z, hz⟩ := Written.strip_zeros ds
    have hd' : Digits (lstrip0 ds) := fun x hx => hd x (by rw [hz]; simp [hx])
    have h1 := numeral_lt hd'
    have h2 : numeral ds = numeral (lstrip0 ds) := by conv_lhs => rw [hz, Written.numeral_zeros]
    by_contra hlt
    have : 10 ^ (lstrip0 ds).length ≤ 10 ^ 1 := Nat.pow_le_pow_right (by norm_num) (by omega)
    omega
  simp [apertureId, skip_of_head (show isBlank 'D' = false by decide), hdig, hl]

theorem all_code {l : Char} {n : ℕ} {Q : Text → Prop} (c : Char) (N : Text) (hN : Digits (c :: N)) (hc : c ≠ '0')
    (e : numeral (c :: N) = n) (h : ∀ b z, Blank b → Q (b ++ l :: (List.replicate z '0' ++ c :: N))) : All (code l n) Q := by
  rintro _ ⟨b, u, hb, ⟨ds, hd, -, hn, rfl⟩, rfl⟩
  obtain ⟨z, rfl⟩ := code_digits hd hN hc (hn.trans e.symm)
  exact h b z hb

theorem digits_zero : ∀ {ds : Text}, Digits ds → numeral ds = 0 → ds = List.replicate ds.length '0'
  | [], _, _ => rfl
  | c :: ds, h, e => by
    have h1 := digit_value (h c (by simp))
    simp only [numeral, Nat.add_eq_zero_iff, Nat.mul_eq_zero, Nat.pow_eq_zero, OfNat.ofNat_ne_zero, false_and, or_false] at e
    have : c.toNat = '0'.toNat := by omega
    rw [List.length_cons, List.replicate_succ, Char.toNat_inj.1 this, ← digits_zero (fun x hx => h x (by simp [hx])) e.2]

theorem all_code0 {l : Char} {Q : Text → Prop} (h : ∀ b z, Blank b → Q (b ++ l :: '0' :: List.replicate z '0')) :
    All (code l 0) Q := by
  rintro _ ⟨b, u, hb, ⟨ds, hd, hne, hn, rfl⟩, rfl⟩
  have := digits_zero hd hn
  obtain ⟨k, hk⟩ := Nat.exists_eq_succ_of_ne_zero (fun e => hne (List.length_eq_zero_iff.1 e))
  rw [this, hk, List.replicate_succ]
  exact h b k hb

theorem codeRe_zeros {l l' c : Char} {w : Text} {z : Nat} (hl : isBlank l = false) (hc : c ≠ '0') :
    codeRe l' w (l :: (List.replicate z '0' ++ c :: s)) = if l = l' then ofStrip (strip w (c :: s)) else .fail := by
  simp only [codeRe, skip_of_head hl]
  rw [lstrip_zeros z (by intro d t e; obtain ⟨rfl, -⟩ := List.cons.inj e; exact hc)]
  split_ifs
  · cases strip w (c :: s) <;> rfl
  · rfl

theorem codeRe_zeros' {l' d : Char} {w : Text} {z : Nat} {b : Text} (hb : Blank b) (hc : d ≠ '0') :
    codeRe l' w ('M' :: '0' :: (List.replicate z '0' ++ (b ++ d :: s))) = if 'M' = l' then ofStrip (strip w (b ++ d :: s)) else .fail := by
  have := codeRe_zeros (l := 'M') (l' := l') (w := w) (z := z + 1) (s := s) (c := d) (by decide) hc
  have hs : lstrip0 (List.replicate (z + 1) '0' ++ (b ++ d :: s)) = b ++ d :: s := by
    refine lstrip_zeros _ ?_
    intro x t e
    have h := lstrip_blank (b := b) (s := s) hb hc
    rw [e] at h
    exact lstrip_head h
  rw [List.replicate_succ, List.cons_append] at hs
  simp only [codeRe, skip_of_head (show isBlank 'M' = false by decide)]
  rw [hs]
  split_ifs
  · cases strip w (b ++ d :: s) <;> rfl
  · rfl

theorem mZeros_zeros {d : Char} {z : Nat} {b : Text} (hb : Blank b) (hc : d ≠ '0') :
    mZeros ('M' :: '0' :: (List.replicate z '0' ++ (b ++ d :: s))) = .ok () (b ++ d :: s) := by
  have hs : lstrip0 (List.replicate z '0' ++ (b ++ d :: s)) = b ++ d :: s := by
    refine lstrip_zeros _ ?_
    intro x t e
    have h := lstrip_blank (b := b) (s := s) hb hc
    rw [e] at h
    exact lstrip_head h
  simp only [mZeros, skip_of_head (show isBlank 'M' = false by decide), hs]

theorem apertureId_small {c : Char} {z : Nat} (hc : isDigit c = true) (h0 : c ≠ '0') (hr : DigitsEnd s) :
    apertureId ('D' :: (List.replicate z '0' ++ c :: s)) = .fail := by
  have hd : Digits (List.replicate z '0' ++ [c]) := by
    refine (all_isDigit_iff _).1 ?_
    simp only [List.all_append, List.all_cons, hc, List.all_nil, Bool.and_true, List.all_eq_true]
    intro x hx
    rw [(List.mem_replicate.1 hx).2]; decide
  have hdig := digits_end hd hr
  rw [List.append_assoc, List.singleton_append] at hdig
  have hl : lstrip0 (List.replicate z '0' ++ [c]) = [c] :=
    lstrip_zeros z (by intro d t e; obtain ⟨rfl, -⟩ := List.cons.inj e; exact h0)
  simp [apertureId, skip_of_head (show isBlank 'D' = false by decide), hdig, hl]

theorem all_oneDigit {n : ℕ} {Q : Text → Prop}
    (h : ∀ b c, Blank b → isDigit c = true → (∀ r, digit (c :: r) = .ok n r) → Q (b ++ [c])) : All (oneDigit n) Q := by
  rintro _ ⟨b, u, hb, ⟨c, rfl, hd, hn⟩, rfl⟩
  obtain ⟨h1, h2⟩ := digits_head hd
  refine h b c hb h1 fun r => ?_
  simp only [digit, skip_of_head h2, h1, if_true]
  simp only [numeral, List.length_nil, pow_zero, mul_one, add_zero] at hn
  rw [← hn]; rfl

/-! ## Names and texts -/

theorem userStart_of {c : Char} (h : UserNameStart c) : isUserStart c = true := by
  simp only [isUserStart, Bool.or_eq_true, beq_iff_eq, Bool.and_eq_true, decide_eq_true_eq]
  unfold UserNameStart at h
  tauto

theorem nameChar_of {c : Char} (h : NameChar c) : isNameChar c = true := by
  simp only [isNameChar, isDigit, Bool.or_eq_true, beq_iff_eq, Bool.and_eq_true, decide_eq_true_eq]
  unfold NameChar at h
  tauto

theorem start_nonblank {c : Char} (h : isNameStart c = true) : isBlank c = false := by
  cases hb : isBlank c with
  | false => rfl
  | true =>
    simp only [isBlank, Bool.or_eq_true, beq_iff_eq] at hb
    obtain ((rfl | rfl) | rfl) | rfl := hb <;> exact absurd h (by decide)

theorem start_nondigit {c : Char} (h : isNameStart c = true) : isDigit c = false := by
  cases hd : isDigit c with
  | false => rfl
  | true =>
    simp only [isDigit, decide_eq_true_eq] at hd
    have h1 : 48 ≤ c.toNat := hd.1
    have h2 : c.toNat ≤ 57 := hd.2
    have e : c = Char.ofNat c.toNat := (Char.ofNat_toNat c).symm
    generalize c.toNat = n at *
    subst e
    interval_cases n <;> exact absurd h (by decide)

theorem takeWhile_end {p : Char → Bool} {t r : Text} (h : ∀ x ∈ t, p x = true) (hr : ∀ c u, r = c :: u → p c = false) :
    (t ++ r).takeWhile p = t ∧ (t ++ r).dropWhile p = r := by
  rw [List.takeWhile_append_of_pos h, List.dropWhile_append_of_pos h]
  cases r with
  | nil => simp
  | cons c u => simp [hr c u rfl]

theorem nameRe_text {first : Char → Bool} {c : Char} {t r : Text} (hf : first c = true) (hb : isBlank c = false)
    (ht : ∀ x ∈ t, NameChar x) (hr : NameEnd r) : nameRe first (c :: (t ++ r)) = .ok (c :: t) r := by
  obtain ⟨h1, h2⟩ := takeWhile_end (p := isNameChar) (r := r) (fun x hx => nameChar_of (ht x hx)) hr
  simp [nameRe, skip_of_head hb, hf, h1, h2]

theorem lit_two {x c : Char} {t : Text} (hb : isBlank c = false) (ht : ∀ y ∈ t, NameChar y) (hn : t ≠ [] ∨ c ≠ x ∨ ∀ u, s ≠ ',' :: u) :
    lit [x, ','] (c :: (t ++ s)) = .fail := by
  rw [lit_cons hb]
  by_cases hx : x = c
  · subst hx
    cases t with
    | nil =>
      cases s with
      | nil => simp [strip, ofStrip]
      | cons d u =>
        have : ',' ≠ d := by
          rintro rfl
          obtain h | h | h := hn
          · exact h rfl
          · exact h rfl
          · exact h u rfl
        simp [strip, ofStrip, this]
    | cons d t =>
      have : ',' ≠ d := by
        rintro rfl
        have := nameChar_of (ht ',' (by simp))
        revert this; decide
      simp [strip, ofStrip, this]
  · simp [strip, ofStrip, hx]

/-- The text does not begin with a comma. -/
def NoComma (r : Text) : Prop := ∀ u, r ≠ ',' :: u

theorem noComma_blank {c : Char} (hb : Blank b) (hc : c ≠ ',') : NoComma (b ++ c :: s) := by
  intro u e
  cases b with
  | nil => exact hc (List.cons.inj e).1
  | cons d t =>
    have := blank_head hb rfl
    rw [(List.cons.inj e).1] at this
    revert this; decide

theorem all_macroName {n : Text} {Q : Text → Prop}
    (h : ∀ b, Blank b → (∀ r, NameEnd r → Peg.name (n ++ r) = .ok n r) → (∀ x r, n ≠ [x] → lit [x, ','] (n ++ r) = .fail) →
      (∀ x r, NoComma r → lit [x, ','] (n ++ r) = .fail) → (∀ r, DigitsEnd (n ++ r)) → Q (b ++ n)) : All (macroName n) Q := by
  rintro _ ⟨b, u, hb, ⟨rfl, c, t, rfl, hc, ht⟩, rfl⟩
  have h1 : isNameStart c = true := by
    simp only [isNameStart, Bool.or_eq_true, beq_iff_eq]
    exact hc.imp (_root_.id) userStart_of
  have h2 := start_nonblank h1
  refine h b hb (fun r hr => nameRe_text h1 h2 ht hr) (fun x r hx => lit_two h2 ht ?_) (fun x r hr => lit_two h2 ht (.inr (.inr hr)))
    fun r => digitsEnd_cons (start_nondigit h1)
  by_cases ht' : t = []
  · subst ht'
    exact .inr (.inl fun e => hx (by rw [e]))
  · exact .inl ht'

theorem all_userAttribute {n : Text} {Q : Text → Prop}
    (h : ∀ b, Blank b → (∀ r, NameEnd r → userName (n ++ r) = .ok n r) → Q (b ++ n)) : All (userAttribute n) Q := by
  rintro _ ⟨b, u, hb, ⟨rfl, c, t, rfl, hc, ht⟩, rfl⟩
  have h1 := userStart_of hc
  exact h b hb fun r hr => nameRe_text h1 (start_nonblank (by simp [isNameStart, h1])) ht hr

theorem all_textEnd {t : Text} {Q : Text → Prop} (h : (∀ r, Peg.string (t ++ '*' :: r) = .ok t ('*' :: r)) → Q (t ++ t!"*")) :
    All (textEnd t) Q := by
  refine all_mul.2 (all_free.2 fun h' => all_single.2 (h fun r => ?_))
  have := takeWhile_stop (p := fun c => c != '%' && c != '*') (t := t) (c := '*') (r := r)
    (by
      intro x hx
      simp only [bne_iff_ne, ne_eq, Bool.and_eq_true]
      exact ⟨fun e => h'.2.1 (e ▸ hx), fun e => h'.2.2 (e ▸ hx)⟩) (by decide)
  simp only [Peg.string, this]
  have : t.isEmpty = false := by cases t <;> simp at h' ⊢
  simp [this]

/-! ## Fields -/

theorem all_fieldText {f : Text} {Q : Text → Prop}
    (h : ∀ b, Blank b → (∀ c r, isFieldChar c = false → isBlank c = false → field (f ++ c :: r) = .ok f (c :: r)) → Q (b ++ f)) :
    All (fieldText f) Q := by
  rintro _ ⟨b, u, hb, ⟨rfl, h1, h2, h3, h4⟩, rfl⟩
  refine h b hb fun c r hc hbc => ?_
  have hs : skip (u ++ c :: r) = u ++ c :: r := by
    cases u with
    | nil => exact skip_of_head hbc
    | cons d u =>
      refine skip_of_head ?_
      have := h4 d u rfl
      rw [Written.blank_iff] at this
      simpa using this
  have := takeWhile_stop (p := isFieldChar) (t := u) (c := c) (r := r)
    (by
      intro x hx
      simp only [isFieldChar, bne_iff_ne, ne_eq, Bool.and_eq_true]
      exact ⟨⟨fun e => h1 (e ▸ hx), fun e => h2 (e ▸ hx)⟩, fun e => h3 (e ▸ hx)⟩) hc
  simp only [field, hs, this]

theorem comma_field {b f : Text} {c : Char} {r : Text} (hb : Blank b)
    (h : ∀ c r, isFieldChar c = false → isBlank c = false → field (f ++ c :: r) = .ok f (c :: r)) (hc : isFieldChar c = false)
    (hbc : isBlank c = false) : cs field (',' :: (b ++ (f ++ c :: r))) = .ok f (c :: r) := by
  pg [field_blank hb, h c r hc hbc]

theorem fields_run : ∀ (fs : List Text) (w : Text), w ∈ fieldsEnd fs → ∃ c t, w = c :: t ∧ isFieldChar c = false ∧ isBlank c = false ∧
    (fs ≠ [] → c = ',') ∧ ∀ r, Run (cs field) (w ++ r) fs ('*' :: r)
  | [], w, hw => by
    have : w = ['*'] := by
      revert w
      show All _ _
      refine all_mul.2 ?_
      exact all_one.2 (all_single.2 rfl)
    subst this
    refine ⟨'*', [], rfl, by decide, by decide, by simp, fun r => .stop ?_⟩
    pg []
  | f :: fs, w, hw => by
    revert w
    show All _ _
    unfold fieldsEnd listed
    rw [mul_assoc]
    refine all_mul.2 (all_mul.2 (all_single.2 (all_fieldText fun b hb hf => ?_)))
    intro x hx
    obtain ⟨c, t, rfl, h1, h2, -, h4⟩ := fields_run fs x hx
    refine ⟨',', b ++ (f ++ c :: t), by simp, by decide, by decide, fun _ => rfl, fun r => ?_⟩
    refine .step (t := c :: t ++ r) ?_ ?_ (h4 r)
    · have := comma_field (r := t ++ r) hb hf h1 h2
      simpa using this
    · simp only [List.length_append, List.length_cons, List.length_nil, List.length_append]; omega

theorem all_fieldsNil {Q : Text → Prop} (h : Q t!"*") : All (fieldsEnd []) Q := all_mul.2 (all_one.2 (all_single.2 h))

theorem all_fieldsCons {f : Text} {fs : List Text} {Q : Text → Prop}
    (h : ∀ b, Blank b → (∀ c r, isFieldChar c = false → isBlank c = false → field (f ++ c :: r) = .ok f (c :: r)) →
      All (fieldsEnd fs) fun w => Q (',' :: (b ++ (f ++ w)))) : All (fieldsEnd (f :: fs)) Q := by
  unfold fieldsEnd listed
  rw [mul_assoc]
  refine all_mul.2 (all_mul.2 (all_single.2 (all_fieldText fun b hb hf => ?_)))
  intro x hx
  have := h b hb hf x hx
  simpa using this

theorem fields_blank {fs : List Text} {r : Text} (hb : Blank b) (hne : fs ≠ []) (h : Run (cs field) s fs r) : fields (b ++ s) = .ok fs r := by
  cases h with
  | stop h => exact absurd rfl hne
  | step h1 h2 h3 =>
    refine Run.many (.step (t := _) ?_ ?_ h3)
    · rw [← h1]
      exact ((skips_lit _).before _).blank hb _
    · simp only [List.length_append]; omega

/-- Any positive number of fields. -/
theorem all_fieldsMore {fs : List Text} {Q : Text → Prop} (hne : fs ≠ [])
    (h : ∀ t, (∀ r, fields (',' :: (t ++ r)) = .ok fs ('*' :: r)) → (∀ b r, Blank b → fields (b ++ ',' :: (t ++ r)) = .ok fs ('*' :: r)) →
      Q (',' :: t)) : All (fieldsEnd fs) Q := by
  intro w hw
  obtain ⟨c, t, rfl, -, -, h3, h4⟩ := fields_run fs w hw
  obtain rfl := h3 hne
  exact h t (fun r => (h4 r).many) fun b r hb => fields_blank hb hne (h4 r)

theorem all_closing {fs : List Text} {Q : Text → Prop} (h : ∀ b, Blank b → All (fieldsEnd fs) fun w => Q (b ++ w)) : All (closing fs) Q :=
  all_tok.2 fun b hb w hw => h b hb w hw

theorem fields_star {r : Text} (hb : Blank b) : fields (b ++ '*' :: r) = .ok [] (b ++ '*' :: r) := by
  refine Run.many (.stop ?_)
  pg [lit_blank _ hb]

theorem fields_star' {r : Text} : fields ('*' :: r) = .ok [] ('*' :: r) := by
  refine Run.many (.stop ?_)
  pg []

/-! ## Choices -/

theorem strip_append {a : Char} {r : Text} : ∀ {v w : Text}, a ∉ v → strip v (w ++ a :: r) = (strip v w).map (· ++ a :: r)
  | [], w, _ => by simp [strip]
  | x :: v, [], h => by
    have : x ≠ a := fun e => h (by simp [e])
    simp [strip, this]
  | x :: v, y :: w, h => by
    simp only [List.cons_append, strip]
    split_ifs
    · exact strip_append fun hm => h (by simp [hm])
    · rfl

theorem oneOfIn_append {a : Char} {r w : Text} : ∀ {ws : List Text}, (∀ v ∈ ws, a ∉ v) →
    oneOfIn ws (w ++ a :: r) = (oneOfIn ws w).map fun x => (x.1, x.2 ++ a :: r)
  | [], _ => rfl
  | v :: ws, h => by
    simp only [oneOfIn]
    rw [strip_append (h v (by simp))]
    cases strip v w with
    | some x => rfl
    | none => exact oneOfIn_append fun u hu => h u (by simp [hu])

theorem functions_chars : ∀ v ∈ aperFunctions, v.all (fun c => !(isBlank c || c == ',' || c == '*')) = true := by decide

theorem functions_no {a : Char} (ha : isBlank a = true ∨ a = ',' ∨ a = '*') : ∀ v ∈ aperFunctions, a ∉ v := by
  intro v hv hm
  have := List.all_eq_true.1 (functions_chars v hv) a hm
  simp only [Bool.not_eq_true', Bool.or_eq_false_iff, beq_eq_false_iff_ne] at this
  obtain h | h | h := ha
  · rw [h] at this; exact absurd this.1.1 (by simp)
  · exact this.1.2 h
  · exact this.2 h

theorem functions_self : ∀ w ∈ aperFunctions, oneOfIn aperFunctions w = some (w, []) ∧ skip w = w := by decide

theorem skip_append {w r : Text} (hw : w ≠ []) (h : skip w = w) : skip (w ++ r) = w ++ r := by
  cases w with
  | nil => exact absurd rfl hw
  | cons c t => exact skip_of_head (skip_head h)

theorem functions_nonempty : ∀ w ∈ aperFunctions, w ≠ [] := by decide

theorem oneOf_function {w : Text} {c : Char} (hw : w ∈ aperFunctions) (hb : Blank b) (hc : c = ',' ∨ c = '*') :
    oneOf aperFunctions (w ++ (b ++ c :: s)) = .ok w (b ++ c :: s) := by
  obtain ⟨h1, h2⟩ := functions_self w hw
  simp only [oneOf, skip_append (functions_nonempty w hw) h2]
  cases b with
  | nil =>
    rw [List.nil_append, oneOfIn_append (functions_no (.inr hc)), h1]
    rfl
  | cons d t =>
    rw [List.cons_append, oneOfIn_append (functions_no (.inl (blank_head hb rfl))), h1]
    rfl

theorem strip_prefix {v w : Text} (h : ¬v <+: w) : strip v w = none := by
  cases e : strip v w with
  | none => rfl
  | some r => exact absurd ⟨r, Written.strip_some e⟩ h

theorem oneOfIn_none {w : Text} : ∀ {ws : List Text}, (∀ v ∈ ws, ¬v <+: w) → oneOfIn ws w = none
  | [], _ => rfl
  | v :: ws, h => by
    simp only [oneOfIn, strip_prefix (h v (by simp))]
    exact oneOfIn_none fun u hu => h u (by simp [hu])

/-- The fields of a function that is not one of the known ones. -/
theorem all_fieldsNone {f : Text} {fs : List Text} {Q : Text → Prop} (hf : ∀ w ∈ aperFunctions, ¬w <+: f)
    (h : ∀ b t, Blank b → (∀ r, oneOf aperFunctions (t ++ r) = .fail) →
      (∀ b' r, Blank b' → fields (b' ++ ',' :: (b ++ (t ++ r))) = .ok (f :: fs) ('*' :: r)) → Q (',' :: (b ++ t))) :
    All (fieldsEnd (f :: fs)) Q := by
  unfold fieldsEnd listed
  rw [mul_assoc]
  refine all_mul.2 (all_mul.2 (all_single.2 ?_))
  rintro _ ⟨b, u, hb, ⟨rfl, h1, h2, h3, h4⟩, rfl⟩ x hx
  have hm : ',' :: (b ++ (u ++ x)) ∈ fieldsEnd (u :: fs) := by
    unfold fieldsEnd listed
    rw [mul_assoc]
    exact Language.mem_mul.2 ⟨',' :: (b ++ u), Language.mem_mul.2 ⟨[','], rfl, b ++ u, ⟨b, u, hb, ⟨rfl, h1, h2, h3, h4⟩, rfl⟩, rfl⟩, x, hx, by simp⟩
  obtain ⟨c, t, rfl, hc, hbc, -, -⟩ := fields_run fs x hx
  obtain ⟨c', t', e, -, -, -, hr⟩ := fields_run _ _ hm
  have := h b (u ++ c :: t) hb ?_ ?_
  · simpa using this
  · intro r
    have hs : skip (u ++ c :: (t ++ r)) = u ++ c :: (t ++ r) := by
      cases u with
      | nil => exact skip_of_head hbc
      | cons d u =>
        refine skip_of_head ?_
        have := h4 d u rfl
        rw [Written.blank_iff] at this
        simpa using this
    have hcc : ∀ v ∈ aperFunctions, c ∉ v := by
      refine functions_no ?_
      simp only [isFieldChar, Bool.and_eq_false_iff, bne_eq_false_iff_eq] at hc
      obtain (h | h) | h := hc
      · subst h
        have := fields_run fs _ hx
        obtain ⟨d, v, e1, -, -, h5, -⟩ := this
        cases fs with
        | nil =>
          have : All (fieldsEnd []) fun w => w = ['*'] := all_fieldsNil rfl
          exact absurd (List.cons.inj (this _ hx)).1 (by decide)
        | cons _ _ =>
          have := h5 (by simp)
          rw [this] at e1
          exact absurd (List.cons.inj e1).1 (by decide)
      · exact .inr (.inr h)
      · exact .inr (.inl h)
    simp only [oneOf, List.append_assoc, List.cons_append, hs, oneOfIn_append hcc, oneOfIn_none hf, Option.map_none]
  · intro b' r hb'
    have := fields_blank (b := b') hb' (by simp) (hr r)
    simpa using this

end Verif.Reading
