import Verif.Lemmas.Suffix
import Verif.Lemmas.ExprPrint
import Verif.Lemmas.Fmt

/-!
# Helper lemmas on the parser combinators and tokens
-/

namespace Verif.Peg

open Verif.Text Verif.Fmt Verif.Spec Verif.Syntax
open Verif.Math hiding P

/-! ## Blanks -/

theorem blank_isBlank {w : Text} (h : Blank w) : ∀ c ∈ w, isBlank c = true := by
  intro c hc
  have := h c hc
  simp only [isBlank, Bool.or_eq_true, beq_iff_eq]
  tauto

theorem skip_blank {w : Text} (h : Blank w) (s : Text) : skip (w ++ s) = skip s := by
  unfold skip
  rw [List.dropWhile_append_of_pos (blank_isBlank h)]

theorem blank_append {v w : Text} (hv : Blank v) (hw : Blank w) : Blank (v ++ w) := by
  intro c hc
  rcases List.mem_append.1 hc with h | h
  · exact hv c h
  · exact hw c h

/-- The element does not care about leading blanks. -/
def Skips {α : Type} (p : P α) : Prop := ∀ s, p s = p (skip s)

theorem Skips.blank {α : Type} {p : P α} (h : Skips p) {w : Text} (hw : Blank w) (s : Text) : p (w ++ s) = p s := by
  rw [h, skip_blank hw, ← h]

theorem skips_lit (w : Text) : Skips (lit w) := by intro s; simp [lit, skip_skip]
theorem skips_clit (w : Text) : Skips (clit w) := by intro s; simp [clit, skip_skip]
theorem skips_codeRe (l : Char) (w : Text) : Skips (codeRe l w) := by intro s; simp [codeRe, skip_skip]
theorem skips_mZeros : Skips mZeros := by intro s; simp [mZeros, skip_skip]
theorem skips_apertureId : Skips apertureId := by intro s; simp [apertureId, skip_skip]
theorem skips_fail {α : Type} : Skips (fun _ => .fail : P α) := by intro s; rfl
theorem skips_expr : Skips expr := by intro s; simp [expr, skip_skip]

theorem Skips.andThen {α β : Type} {p : P α} (h : Skips p) (f : α → P β) : Skips (p ~> f) := by
  intro s; simp only [Peg.andThen]; rw [h s]

theorem Skips.before {α β : Type} {p : P α} (h : Skips p) (q : P β) : Skips (p ≫ q) := h.andThen _
theorem Skips.mapP {α β : Type} {p : P α} (h : Skips p) (f : α → β) : Skips (mapP f p) := h.andThen _

theorem Skips.orElse {α : Type} {p q : P α} (h : Skips p) (h' : Skips q) : Skips (orElse p q) := by
  intro s; simp only [Peg.orElse]; rw [h s, h' s]

theorem Skips.firstOf {α : Type} {ps : List (P α)} (h : ∀ p ∈ ps, Skips p) : Skips (firstOf ps) := by
  induction ps with
  | nil => intro s; rfl
  | cons p ps ih => exact (h p (by simp)).orElse (ih (fun q hq => h q (by simp [hq])))

/-- An optional element does not swallow blanks, but what follows may ignore them. -/
theorem Skips.opt {α β : Type} {p : P α} (h : Skips p) {f : Option α → P β} (h' : Skips (f none)) :
    Skips (opt p ~> f) := by
  intro s
  simp only [Peg.andThen, Peg.opt]
  rw [← h s]
  cases hp : p s <;> simp
  exact h' s

/-! ## Postconditions -/

/-- Every value the element can yield satisfies `Q`, if there are no tabs in the text; then there are none in the rest. -/
def Yields {α : Type} (p : P α) (Q : α → Prop) : Prop := ∀ s a r, p s = .ok a r → '\t' ∉ s → Q a ∧ '\t' ∉ r

theorem Yields.of {α : Type} {p : P α} {Q : α → Prop} (hp : Grammar.Suf p) (h : ∀ s a r, p s = .ok a r → '\t' ∉ s → Q a) :
    Yields p Q := fun s a r e ht => ⟨h s a r e ht, fun hm => ht ((hp s a r e).mem hm)⟩

theorem Yields.triv {α : Type} (p : P α) (hp : Grammar.Suf p := by sufs) : Yields p (fun _ => True) := .of hp fun _ _ _ _ _ => trivial

theorem Yields.mono {α : Type} {p : P α} {Q R : α → Prop} (h : Yields p Q) (hi : ∀ a, Q a → R a) : Yields p R :=
  fun s a r hs ht => ⟨hi a (h s a r hs ht).1, (h s a r hs ht).2⟩

theorem Yields.andThen {α β : Type} {p : P α} {f : α → P β} {Q : α → Prop} {R : β → Prop} (h : Yields p Q)
    (hf : ∀ a, Q a → Yields (f a) R) : Yields (p ~> f) R := by
  intro s b r hs ht
  simp only [Peg.andThen] at hs
  cases hp : p s with
  | ok a r' => rw [hp] at hs; exact hf a (h _ _ _ hp ht).1 _ _ _ hs (h _ _ _ hp ht).2
  | fail => rw [hp] at hs; cases hs
  | raised => rw [hp] at hs; cases hs

theorem Yields.before {α β : Type} {p : P α} {q : P β} {R : β → Prop} (h : Yields q R) (hp : Grammar.Suf p := by sufs) :
    Yields (p ≫ q) R := (Yields.triv p hp).andThen (fun _ _ => h)

theorem Yields.ret {α : Type} {a : α} {Q : α → Prop} (h : Q a) : Yields (ret a) Q := by
  intro s b r hs ht; simp only [Peg.ret, Res.ok.injEq] at hs; rw [← hs.1, ← hs.2]; exact ⟨h, ht⟩

theorem Yields.raise {α : Type} {Q : α → Prop} : Yields (raise : P α) Q := by
  intro s b r hs; simp [Peg.raise] at hs

theorem Yields.mapP {α β : Type} {p : P α} {f : α → β} {Q : α → Prop} {R : β → Prop} (h : Yields p Q)
    (hf : ∀ a, Q a → R (f a)) : Yields (mapP f p) R := h.andThen (fun a ha => .ret (hf a ha))

theorem Yields.opt {α : Type} {p : P α} {Q : α → Prop} (h : Yields p Q) :
    Yields (opt p) (fun o => ∀ a, o = some a → Q a) := by
  intro s o r hs ht
  simp only [Peg.opt] at hs
  cases hp : p s with
  | ok b r' =>
    rw [hp] at hs
    simp only [Res.ok.injEq] at hs
    obtain ⟨rfl, rfl⟩ := hs
    have := h _ _ _ hp ht
    exact ⟨fun a ha => by simp at ha; exact ha ▸ this.1, this.2⟩
  | fail => rw [hp] at hs; simp only [Res.ok.injEq] at hs; obtain ⟨rfl, rfl⟩ := hs; exact ⟨fun a ha => by simp at ha, ht⟩
  | raised => rw [hp] at hs; cases hs

theorem Yields.orElse {α : Type} {p q : P α} {Q : α → Prop} (h : Yields p Q) (h' : Yields q Q) :
    Yields (orElse p q) Q := by
  intro s a r hs ht
  simp only [Peg.orElse] at hs
  cases hp : p s with
  | ok b r' => rw [hp] at hs; simp at hs; exact hs.1 ▸ hs.2 ▸ h _ _ _ hp ht
  | fail => rw [hp] at hs; exact h' _ _ _ hs ht
  | raised => rw [hp] at hs; cases hs

theorem Yields.firstOf {α : Type} {ps : List (P α)} {Q : α → Prop} (h : ∀ p ∈ ps, Yields p Q) :
    Yields (firstOf ps) Q := by
  induction ps with
  | nil => intro s a r hs; simp [Peg.firstOf] at hs
  | cons p ps ih => exact (h p (by simp)).orElse (ih (fun q hq => h q (by simp [hq])))

theorem Yields.manyFuel {α : Type} {p : P α} {Q : α → Prop} (h : Yields p Q) :
    ∀ n, Yields (manyFuel p n) (fun as => ∀ a ∈ as, Q a) := by
  intro n
  induction n with
  | zero => exact .ret (by simp)
  | succ n ih =>
    intro s as r hs ht
    simp only [Peg.manyFuel] at hs
    cases hp : p s with
    | ok b r' =>
      rw [hp] at hs
      exact (ih.mapP (R := fun as => ∀ a ∈ as, Q a)
        (fun as has a ha => by
          rcases List.mem_cons.1 ha with rfl | ha
          · exact (h _ _ _ hp ht).1
          · exact has a ha)) _ _ _ hs (h _ _ _ hp ht).2
    | fail => rw [hp] at hs; simp only [Res.ok.injEq] at hs; obtain ⟨rfl, rfl⟩ := hs; exact ⟨by simp, ht⟩
    | raised => rw [hp] at hs; cases hs

theorem Yields.many {α : Type} {p : P α} {Q : α → Prop} (h : Yields p Q) :
    Yields (many p) (fun as => ∀ a ∈ as, Q a) := fun s as r hs => h.manyFuel _ s as r hs

theorem Yields.many1 {α : Type} {p : P α} {Q : α → Prop} (h : Yields p Q) :
    Yields (many1 p) (fun as => as ≠ [] ∧ ∀ a ∈ as, Q a) := by
  refine h.andThen (fun a ha => h.many.andThen (fun as has => .ret ⟨by simp, ?_⟩))
  intro b hb
  rcases List.mem_cons.1 hb with rfl | hb
  · exact ha
  · exact has b hb

/-! ## Tokens on texts that begin with a given character -/

/-- Result of a literal. -/
def ofStrip : Option Text → Res Unit
  | some r => .ok () r
  | none => .fail

theorem lit_cons {w : Text} {c : Char} {s : Text} (h : isBlank c = false) :
    lit w (c :: s) = ofStrip (strip w (c :: s)) := by
  unfold lit; rw [skip_of_head h]; cases strip w (c :: s) <;> rfl

theorem clit_cons {w : Text} {c : Char} {s : Text} (h : isBlank c = false) :
    clit w (c :: s) = ofStrip (stripCaseless w (c :: s)) := by
  unfold clit; rw [skip_of_head h]; cases stripCaseless w (c :: s) <;> rfl

theorem lit_nil {a : Char} {w : Text} : lit (a :: w) [] = .fail := by simp [lit, strip]

/-! ## Texts of tokens -/

/-- Text of an aperture identifier. -/
def IdOk (i : Text) : Prop := ∃ ds, i = 'D' :: ds ∧ ds.all isDigit = true ∧ 2 ≤ (lstrip0 ds).length

/-- Text of an integer. -/
def IntOk (t : Text) : Prop :=
  ∃ ds, ds ≠ [] ∧ ds.all isDigit = true ∧ (t = ds ∨ ∃ c, isSign c = true ∧ t = c :: ds)

/-- Text of a name. -/
def NameOk (first : Char → Bool) (n : Text) : Prop := ∃ c t, n = c :: t ∧ first c = true ∧ t.all isNameChar = true

/-- Text of a string. -/
def StrOk (t : Text) : Prop := t ≠ [] ∧ (∀ c ∈ t, c ≠ '%' ∧ c ≠ '*') ∧ '\t' ∉ t

/-- Text of a field. -/
def FieldOk (f : Text) : Prop := (∀ c ∈ f, isFieldChar c = true) ∧ (∀ c t, f = c :: t → isBlank c = false) ∧ '\t' ∉ f

/-- The number formatting writes `q` so that the grammar reads it back. -/
def Reads (fd : ℚ → Text) (q : ℚ) : Prop :=
  (∃ c t, fd q = c :: t ∧ isBlank c = false ∧ isFieldChar c = true ∧ c ≠ 'X') ∧ (∀ c ∈ fd q, isFieldChar c = true ∧ c ≠ '\t') ∧
  ∀ rest, NumEnd rest → pDouble (fd q ++ rest) = some (q, rest)

theorem skip_head {s t : Text} {c : Char} (h : skip s = c :: t) : isBlank c = false := by
  have := List.head?_dropWhile_not isBlank s
  unfold skip at h
  rw [h] at this
  simpa using this

theorem apertureId_yields : Yields apertureId IdOk := by
  refine .of (by sufs) ?_
  intro s i r h ht
  simp only [apertureId] at h
  cases hs : skip s with
  | nil => rw [hs] at h; simp at h
  | cons c t =>
    rw [hs] at h
    simp only at h
    split at h
    · rename_i hc
      simp only [Res.ok.injEq] at h
      refine ⟨_, h.1.symm, ?_, hc.2⟩
      exact (digits_split (s := t) rfl).2.2.1
    · cases h

theorem integer_yields : Yields integer IntOk := by
  refine .of (by sufs) ?_
  intro s i r h ht
  simp only [integer] at h
  cases hs : skip s with
  | nil => rw [hs] at h; simp at h
  | cons c t =>
    rw [hs] at h
    simp only at h
    split at h
    · rename_i hc
      split at h
      · cases h
      · rename_i he
        simp only [Res.ok.injEq] at h
        exact ⟨(digits t).1, by simpa using he, (digits_split (s := t) rfl).2.2.1, .inr ⟨c, hc, h.1.symm⟩⟩
    · split at h
      · cases h
      · rename_i he
        simp only [Res.ok.injEq] at h
        exact ⟨(digits (c :: t)).1, by simpa using he, (digits_split (s := c :: t) rfl).2.2.1, .inl h.1.symm⟩

theorem nameRe_yields (first : Char → Bool) : Yields (nameRe first) (NameOk first) := by
  refine .of (by sufs) ?_
  intro s i r h ht
  simp only [nameRe] at h
  cases hs : skip s with
  | nil => rw [hs] at h; simp at h
  | cons c t =>
    rw [hs] at h
    simp only at h
    split at h
    · rename_i hc
      simp only [Res.ok.injEq] at h
      refine ⟨c, _, h.1.symm, hc, ?_⟩
      rw [List.all_eq_true]
      intro x hx
      exact List.mem_takeWhile_imp hx
    · cases h

theorem string_yields : Yields string StrOk := by
  refine .of (by sufs) ?_
  intro s i r h ht
  simp only [string] at h
  split at h
  · cases h
  · rename_i he
    simp only [Res.ok.injEq] at h
    refine ⟨by rw [← h.1]; simpa using he, ?_, ?_⟩
    · intro c hc
      rw [← h.1] at hc
      simpa using List.mem_takeWhile_imp hc
    · rw [← h.1]
      exact fun hm => ht ((List.takeWhile_prefix _).mem hm)

theorem field_yields : Yields field FieldOk := by
  refine .of (by sufs) ?_
  intro s i r h ht
  simp only [field, Res.ok.injEq] at h
  obtain ⟨rfl, _⟩ := h
  refine ⟨fun c hc => List.mem_takeWhile_imp hc, ?_, fun hm => ht ((Grammar.skip_suffix s).mem ((List.takeWhile_prefix _).mem hm))⟩
  intro c t hct
  cases hs : skip s with
  | nil => rw [hs] at hct; simp at hct
  | cons d u =>
    rw [hs, List.takeWhile_cons] at hct
    split at hct
    · simp at hct; rw [← hct.1]; exact skip_head hs
    · cases hct

theorem pDouble_decimal {s r : Text} {q : ℚ} (h : pDouble s = some (q, r)) : Decimal |q| := by
  unfold pDouble at h
  split at h
  · obtain ⟨_, _, _, hd, _⟩ := pUnsigned_sound h
    rwa [abs_of_nonneg (decimal_nonneg hd)]
  · rename_i t
    cases hu : pUnsigned t with
    | none => rw [hu] at h; simp at h
    | some p =>
      obtain ⟨v, r'⟩ := p
      rw [hu] at h
      simp at h
      obtain ⟨_, _, _, hd, _⟩ := pUnsigned_sound hu
      rw [← h.1, abs_neg, abs_of_nonneg (decimal_nonneg hd)]
      exact hd
  · obtain ⟨_, _, _, hd, _⟩ := pUnsigned_sound h
    rwa [abs_of_nonneg (decimal_nonneg hd)]

theorem double_yields : Yields double (fun q => Decimal |q|) := by
  refine .of (by sufs) ?_
  intro s q r h ht
  simp only [double] at h
  cases hp : pDouble (skip s) with
  | none => rw [hp] at h; cases h
  | some p => rw [hp] at h; simp at h; exact pDouble_decimal (r := p.2) (by rw [hp, ← h.1])

theorem oneOfIn_mem {ws : List Text} {s w r : Text} (h : oneOfIn ws s = some (w, r)) : w ∈ ws := by
  induction ws with
  | nil => simp [oneOfIn] at h
  | cons v ws ih =>
    simp only [oneOfIn] at h
    split at h
    · simp at h; simp [h.1]
    · simp [ih h]

theorem oneOf_yields (ws : List Text) : Yields (oneOf ws) (· ∈ ws) := by
  refine .of (by sufs) ?_
  intro s w r h ht
  simp only [oneOf] at h
  cases ho : oneOfIn ws (skip s) with
  | none => rw [ho] at h; cases h
  | some p => rw [ho] at h; simp at h; exact oneOfIn_mem (r := p.2) (by rw [ho, ← h.1])

theorem digit_yields : Yields digit (· < 10) := by
  refine .of (by sufs) ?_
  intro s n r h ht
  simp only [digit] at h
  cases hs : skip s with
  | nil => rw [hs] at h; cases h
  | cons c t =>
    rw [hs] at h
    simp only at h
    split at h
    · rename_i hc; simp at h; rw [← h.1]; exact digitVal_lt hc
    · cases h

theorem expr_yields : Yields expr (fun e => WF 6 e) := by
  refine .of (by sufs) ?_
  intro s e r h ht
  simp only [expr] at h
  cases hp : parse (skip s) with
  | none => rw [hp] at h; cases h
  | some p =>
    rw [hp] at h; simp at h
    obtain ⟨_, _, _, hw, _⟩ := sound_parse (skip s) e p.2 (by rw [hp, ← h.1])
    exact hw

/-! ## Reading printed tokens -/

theorem apertureId_ok {i : Text} (h : IdOk i) {c : Char} {r : Text} (hc : isDigit c = false) :
    apertureId (i ++ c :: r) = .ok i (c :: r) := by
  obtain ⟨ds, rfl, hd, hl⟩ := h
  have := digits_append (r := c :: r) hd (by intro x t hx; simp at hx; rw [← hx.1]; exact hc)
  simp only [apertureId, List.cons_append, skip_of_head (show isBlank 'D' = false by decide), this]
  simp [hl]

theorem sign_facts {c : Char} (h : isSign c = true) : isBlank c = false ∧ isDigit c = false := by
  simp [isSign] at h
  rcases h with rfl | rfl <;> decide

theorem integer_ok {t : Text} (h : IntOk t) {c : Char} {r : Text} (hc : isDigit c = false) :
    integer (t ++ c :: r) = .ok t (c :: r) := by
  obtain ⟨ds, hne, hd, h⟩ := h
  have hdig := digits_append (r := c :: r) hd (by intro x t hx; simp at hx; rw [← hx.1]; exact hc)
  rcases h with rfl | ⟨x, hx, rfl⟩
  · cases t with
    | nil => exact absurd rfl hne
    | cons a t =>
      have ha : isDigit a = true := by simp at hd; exact hd.1
      have hs : isSign a = false := by
        cases hh : isSign a with
        | false => rfl
        | true => have := (sign_facts hh).2; rw [ha] at this; cases this
      simp only [integer, List.cons_append, skip_of_head (isDigit_facts ha).1, hs]
      rw [← List.cons_append, hdig]
      simp
  · simp only [integer, List.cons_append, skip_of_head (sign_facts hx).1, hx, hdig]
    simp [hne]

theorem takeWhile_stop {p : Char → Bool} {t : Text} {c : Char} {r : Text} (h : ∀ x ∈ t, p x = true) (hc : p c = false) :
    (t ++ c :: r).takeWhile p = t ∧ (t ++ c :: r).dropWhile p = c :: r := by
  rw [List.takeWhile_append_of_pos h, List.dropWhile_append_of_pos h]
  simp [hc]

theorem nameRe_ok {first : Char → Bool} {n : Text} (h : NameOk first n) (hf : ∀ c, first c = true → isBlank c = false)
    {c : Char} {r : Text} (hc : isNameChar c = false) : nameRe first (n ++ c :: r) = .ok n (c :: r) := by
  obtain ⟨a, t, rfl, ha, ht⟩ := h
  have := takeWhile_stop (r := r) (List.all_eq_true.1 ht) hc
  simp [nameRe, skip_of_head (hf a ha), ha, this]

theorem string_ok {t : Text} (h : StrOk t) {r : Text} : string (t ++ '*' :: r) = .ok t ('*' :: r) := by
  have := takeWhile_stop (p := fun c => c != '%' && c != '*') (t := t) (c := '*') (r := r)
    (by intro x hx; simpa using h.2.1 x hx) (by decide)
  simp only [string, this]
  simp [h.1]

theorem string_star {r : Text} : string ('*' :: r) = .fail := by simp [string]

/-- Ends of a field. -/
theorem field_ok {f : Text} (h : FieldOk f) {c : Char} {r : Text} (hc : isFieldChar c = false) (hb : isBlank c = false) :
    field (f ++ c :: r) = .ok f (c :: r) := by
  have hs : skip (f ++ c :: r) = f ++ c :: r := by
    cases f with
    | nil => exact skip_of_head hb
    | cons a t => exact skip_of_head (h.2.1 a t rfl)
  have := takeWhile_stop (r := r) h.1 hc
  simp [field, hs, this]

theorem double_ok {fd : ℚ → Text} {q : ℚ} (h : Reads fd q) {rest : Text} (hr : NumEnd rest) :
    double (fd q ++ rest) = .ok q rest := by
  obtain ⟨⟨c, t, h1, h2, _⟩, _, h3⟩ := h
  have : skip (fd q ++ rest) = fd q ++ rest := by rw [h1]; exact skip_of_head h2
  simp [double, this, h3 rest hr]

theorem numEnd_cons {c : Char} {r : Text} (h : isDigit c = false) (h' : c ≠ '.') : NumEnd (c :: r) := by
  intro x t hx; simp at hx; rw [← hx.1]; exact ⟨h, h'⟩

theorem expr_ok {fd : ℚ → Text} {e : Expr} (hw : WF 6 e) (hc : Consts (Readable fd) e) {w : Text} (hb : Blank w)
    {c : Char} {r : Text} (h : c = ',' ∨ c = '*') : expr (w ++ (print fd false e ++ c :: r)) = .ok e (c :: r) := by
  obtain ⟨d, t, h1, h2, _⟩ := print_head hw hc
  have hf : Follow 6 (c :: r) := by
    rcases h with rfl | rfl
    · intro c u h; simp at h; rw [← h.1]; simp [Stops]; decide
    · intro c u h; simp at h; rw [← h.1]; simp [Stops]; decide
  have := parse_print hw hc (print fd false e ++ c :: r).length (c :: r) (by simp) hf
  rw [pAt_six] at this
  have hs : skip (w ++ (print fd false e ++ c :: r)) = print fd false e ++ c :: r := by
    rw [skip_blank hb, h1]; exact skip_of_head h2
  simp only [expr, hs]
  have hp : parse (print fd false e ++ c :: r) = some (e, c :: r) := this
  rw [hp]

/-! ## Repetition of printed elements -/

theorem manyFuel_stop {α : Type} {p : P α} {s : Text} (h : p s = .fail) (n : Nat) : manyFuel p n s = .ok [] s := by
  cases n with
  | zero => rfl
  | succ n => simp [manyFuel, h]

theorem manyFuel_step {α : Type} {p : P α} {s r r' : Text} {a : α} {as : List α} {n : Nat} (h : p s = .ok a r)
    (h' : manyFuel p n r = .ok as r') : manyFuel p (n + 1) s = .ok (a :: as) r' := by
  simp [manyFuel, h, mapP, andThen, h', ret]

end Verif.Peg
