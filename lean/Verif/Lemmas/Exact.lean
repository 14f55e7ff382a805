import Verif.Lemmas.RoundTrip
import Verif.Props.Expr
import Verif.Lemmas.Laid

/-!
# Which commands survive printing
-/

namespace Verif.Grammar

open Verif.Text Verif.Fmt Verif.Peg Verif.Syntax Verif.Spec Verif.Formatter
open Verif.Math hiding P
open Verif.Props.Expr (Plain readable_default consts_mono consts_wf)

/-! ## Layout -/

theorem blank_indent {c : Char} {i : Indent} (h : BlankIndent c i) : Blank (i.toText c) := by
  cases i with
  | count n =>
    intro x hx
    simp only [Indent.toText, List.mem_replicate] at hx
    rw [hx.2]
    rcases h with h | h
    · exact absurd h hx.1
    · exact h c (by simp)
  | text t => exact h

theorem layout_build {u : Options} (h : BlankLayout u) : Layout (build u) := by
  have nilOr (b : Bool) (i : Indent) (hi : BlankIndent u.indentChar i) : Blank (if b then [] else i.toText u.indentChar) := by
    cases b
    · exact blank_indent hi
    · exact blank_nil
  refine ⟨nilOr _ _ h.macroBody, nilOr _ _ h.macroParam, nilOr _ _ h.abIndent, nilOr _ _ h.srIndent, nilOr _ _ h.d01,
    nilOr _ _ h.d02, nilOr _ _ h.d03, ?_, ?_, h.explicit⟩
  · simp only [build]; split
    · exact blank_nil
    · exact breaks_blank (o := { lf := u.lf }) h.lf
  · simp only [build]; split
    · exact blank_nil
    · split
      · exact breaks_blank (o := { lf := u.lf }) h.lf
      · exact blank_nil

/-- Nothing is indented, or lines end with a line break. -/
theorem tabs_build {u : Options} (h : BlankLayout u) (b : Bool) :
    NoTabs (build { u with explicit := b }) ∨ Breaks (build { u with explicit := b }) := by
  cases hs : u.strip with
  | true => left; constructor <;> simp [build, hs]
  | false => right; simpa [Breaks, build, hs] using h.lf

/-! ## Numbers -/

/-- A character of a printed number. -/
def numChar (c : Char) : Prop := isDigit c = true ∨ c = '.' ∨ c = '+' ∨ c = '-'

theorem pUnsigned_prefix {s r : Text} {q : ℚ} (h : pUnsigned s = some (q, r)) : ∃ x, s = x ++ r ∧ x ≠ [] ∧ ∀ c ∈ x, numChar c := by
  unfold pUnsigned at h
  simp only at h
  obtain ⟨h1, _, h2, h3⟩ := digits_split (s := s) (d := (digits s).1) (r := (digits s).2) rfl
  generalize (digits s).1 = i at *
  generalize (digits s).2 = w at *
  have hi : ∀ c ∈ i, numChar c := fun c hc => .inl (List.all_eq_true.1 h2 c hc)
  split at h
  · rename_i r'
    obtain ⟨f1, _, f2, f3⟩ := digits_split (s := r') (d := (digits r').1) (r := (digits r').2) rfl
    split at h
    · split at h
      · cases h
      · rename_i hne
        simp only [Option.some.injEq, Prod.mk.injEq] at h
        obtain ⟨rfl, rfl⟩ := h
        exact ⟨i, h1, by simpa using hne, hi⟩
    · simp only [Option.some.injEq, Prod.mk.injEq] at h
      obtain ⟨rfl, rfl⟩ := h
      refine ⟨i ++ '.' :: (digits r').1, ?_, by simp, ?_⟩
      · rw [h1]; simp only [List.append_assoc, List.cons_append]; rw [← f1]
      · intro c hc
        simp only [List.mem_append, List.mem_cons] at hc
        rcases hc with hc | rfl | hc
        · exact hi c hc
        · exact .inr (.inl rfl)
        · exact .inl (List.all_eq_true.1 f2 c hc)
  · split at h
    · cases h
    · rename_i hne
      simp only [Option.some.injEq, Prod.mk.injEq] at h
      obtain ⟨rfl, rfl⟩ := h
      exact ⟨i, h1, by simpa using hne, hi⟩

theorem pDouble_prefix {s r : Text} {q : ℚ} (h : pDouble s = some (q, r)) : ∃ x, s = x ++ r ∧ x ≠ [] ∧ ∀ c ∈ x, numChar c := by
  unfold pDouble at h
  split at h
  · obtain ⟨x, rfl, h1, h2⟩ := pUnsigned_prefix h
    refine ⟨'+' :: x, rfl, by simp, ?_⟩
    intro c hc
    rcases List.mem_cons.1 hc with rfl | hc
    · exact .inr (.inr (.inl rfl))
    · exact h2 c hc
  · simp only [Option.map_eq_some_iff, Prod.exists, Prod.mk.injEq] at h
    obtain ⟨v, r', h, rfl, rfl⟩ := h
    obtain ⟨x, rfl, h1, h2⟩ := pUnsigned_prefix h
    refine ⟨'-' :: x, rfl, by simp, ?_⟩
    intro c hc
    rcases List.mem_cons.1 hc with rfl | hc
    · exact .inr (.inr (.inr rfl))
    · exact h2 c hc
  · exact pUnsigned_prefix h

theorem numChar_facts {c : Char} (h : numChar c) : isBlank c = false ∧ isFieldChar c = true ∧ c ≠ 'X' ∧ c ≠ '\t' := by
  rcases h with h | rfl | rfl | rfl
  · refine ⟨(isDigit_facts h).1, ?_, ?_, ?_⟩
    · simp only [isFieldChar, Bool.and_eq_true, bne_iff_ne, ne_eq]
      refine ⟨⟨?_, ?_⟩, ?_⟩ <;> rintro rfl <;> simp [isDigit] at h
    · rintro rfl; simp [isDigit] at h
    · rintro rfl; simp [isDigit] at h
  all_goals decide

theorem numEnd_nil : NumEnd [] := by intro x t h; cases h

/-- A text that is read back as a number has the form of a number. -/
theorem text_of_reads {t : Text} {q : ℚ} (h : ∀ rest, NumEnd rest → pDouble (t ++ rest) = some (q, rest)) :
    (∃ c r, t = c :: r ∧ numChar c) ∧ ∀ c ∈ t, numChar c := by
  have h0 := h [] numEnd_nil
  rw [List.append_nil] at h0
  obtain ⟨x, e, hne, hx⟩ := pDouble_prefix h0
  rw [List.append_nil] at e
  subst e
  cases t with
  | nil => exact absurd rfl hne
  | cons c r => exact ⟨⟨c, r, rfl, hx c (by simp)⟩, hx⟩

theorem reads_of {fd : ℚ → Text} {q : ℚ} (h : ∀ rest, NumEnd rest → pDouble (fd q ++ rest) = some (q, rest)) : Reads fd q := by
  obtain ⟨⟨c, r, e, hc⟩, ht⟩ := text_of_reads h
  obtain ⟨a, b, d, _⟩ := numChar_facts hc
  exact ⟨⟨c, r, e, a, b, d⟩, fun c hc => ⟨(numChar_facts (ht c hc)).2.1, (numChar_facts (ht c hc)).2.2.2⟩, h⟩

theorem rounds_int {n m : ℤ} (h : RoundsTo (n : ℚ) m) : m = n := by
  have h1 : |(n : ℚ) - m| ≤ 1 / 2 := by
    rcases h with h | h
    · exact h.le
    · exact h.1.le
  have h2 : |((n - m : ℤ) : ℚ)| < 1 := by push_cast; linarith
  have h3 : |n - m| < 1 := by exact_mod_cast h2
  have := Int.abs_lt_one_iff.1 h3
  omega

/-- A multiple of `10 ^ -d` is printed exactly with `d` places. -/
theorem fixed_exact {d : Nat} (hd : d ≠ 0) (trim : Bool) {q : ℚ} {m : ℤ} (hq : q = m / 10 ^ d) {rest : Text} (hr : NumEnd rest) :
    pDouble (fmtDouble (some d) trim q ++ rest) = some (q, rest) := by
  obtain ⟨m', h1, h2⟩ := Verif.Props.Expr.c39_reads_back_partial d trim (.inl hd) q rest hr
  have e : q * 10 ^ d = m := by rw [hq]; field_simp
  rw [e] at h1
  rw [h2, rounds_int h1, hq]

theorem plain_abs {q : ℚ} (h : PlainNumber q) : Plain |q| := by
  rcases h with rfl | h
  · exact .inl (by simp)
  · exact .inr h

theorem reads_str {q : ℚ} (hd : Decimal |q|) (h : PlainNumber q) : Reads strFloat q :=
  reads_of (fun rest hr => Verif.Props.Expr.c39_default_exact_partial q hd (plain_abs h) rest hr)

theorem reads_fd {u : Options} (hp : u.places ≠ some 0) {q : ℚ} (hd : Decimal |q|) (h : Exact u q) : Reads (build u).fd q := by
  have e : (build u).fd q = fmtDouble u.places true q := rfl
  cases hpl : u.places with
  | none =>
    rw [hpl] at e
    exact reads_of (fun rest hr => by rw [e]; exact Verif.Props.Expr.c39_default_exact_partial q hd (plain_abs h.1) rest hr)
  | some d =>
    rw [hpl] at e
    obtain ⟨m, hm⟩ := h.2 d hpl
    exact reads_of (fun rest hr => by rw [e]; exact fixed_exact (fun h0 => hp (by rw [hpl, h0])) true hm hr)

theorem ir_ok {u : Options} (hp : u.places ≠ some 0) (n : Node) : IrOk (build u) n := by
  cases n <;> try exact trivial
  rename_i n
  have key : ∀ rest, NumEnd rest → pDouble ((build u).fdInt n ++ rest) = some ((n : ℚ), rest) := by
    intro rest hr
    cases hpl : u.places with
    | none =>
      have e : (build u).fdInt n = intStr n := by simp only [Opts.fdInt, build, hpl]
      rw [e]
      have h1 := pUnsigned_int (all_natStr n.natAbs) (natStr_ne_nil n.natAbs) hr
      have h2 := pDouble_signed (neg := n < 0) (natStr_head n.natAbs) h1
      have h4 : (if n < 0 then -(floatOf false (natStr n.natAbs) []) else floatOf false (natStr n.natAbs) []) = (n : ℚ) := by
        have : ((n.natAbs : ℕ) : ℚ) = |(n : ℚ)| := by rw [Nat.cast_natAbs]; push_cast; rfl
        simp only [floatOf, natVal_natStr]
        simp only [this, natVal]
        split
        · rename_i h
          have : (n : ℚ) < 0 := by exact_mod_cast h
          rw [abs_of_neg this]; simp
        · rename_i h
          have : (0 : ℚ) ≤ n := by exact_mod_cast not_lt.1 h
          rw [abs_of_nonneg this]; simp
      rw [h4] at h2
      unfold intStr
      exact h2
    | some d =>
      have e : (build u).fdInt n = fmtDouble (some d) true (n : ℚ) := by simp only [Opts.fdInt, build, hpl]
      rw [e]
      refine fixed_exact (m := n * 10 ^ d) (fun h0 => hp (by rw [hpl, h0])) true ?_ hr
      push_cast
      field_simp
  obtain ⟨⟨c, r, e, hc⟩, _⟩ := text_of_reads key
  exact ⟨⟨c, r, e, (numChar_facts hc).1⟩, key⟩

/-! ## Expressions -/

theorem consts_of {p : ℚ → Prop} : (e : Expr) → (∀ q ∈ constants e, p q) → Consts p e
  | .const c, h => .const (h c (by simp [constants]))
  | .var _, _ => .var
  | .paren e, h => .paren (consts_of e (by simpa [constants] using h))
  | .neg e, h => .neg (consts_of e (by simpa [constants] using h))
  | .pos e, h => .pos (consts_of e (by simpa [constants] using h))
  | .bin _ e t, h => by
    simp only [constants, List.mem_append] at h
    exact .bin (consts_of e fun q hq => h q (.inl hq)) (consts_all t fun q hq => h q (.inr hq))
where
  consts_all : (t : List Expr) → (∀ q ∈ constants.constantsAll t, p q) → ∀ e ∈ t, Consts p e
  | [], _, _, he => by simp at he
  | a :: t, h, e, he => by
    simp only [constants.constantsAll, List.mem_append] at h
    rcases List.mem_cons.1 he with he' | he'
    · rw [he']; exact consts_of a fun q hq => h q (.inl hq)
    · exact consts_all t (fun q hq => h q (.inr hq)) e he'

theorem fmt_head {d : Nat} (hd : d ≠ 0) {q : ℚ} (h0 : 0 ≤ q) : ∃ c r, fmtDouble (some d) true q = c :: r ∧ isDigit c = true := by
  have hneg : ¬ (q < 0) := not_lt.2 h0
  obtain ⟨x, h1, h2, _⟩ := pUnsigned_trim hd q (rest := []) numEnd_nil
  have e1 : fmtDouble (some d) true q = x := by
    have := h1 []
    simp only [List.nil_append] at this
    simp [fmtDouble, fixed, hd, fixedParts, hneg, this]
  rw [e1]; exact h2

theorem readable_fd {u : Options} (hp : u.places ≠ some 0) {q : ℚ} (hd : Decimal q) (h : Exact u q) :
    Readable (build u).fd q := by
  have h0 := decimal_nonneg hd
  have e : (build u).fd q = fmtDouble u.places true q := rfl
  have head : ∃ c r, (build u).fd q = c :: r ∧ isDigit c = true := by
    cases hpl : u.places with
    | none =>
      rw [e, hpl]
      have := plain_abs h.1
      rw [abs_of_nonneg h0] at this
      exact (readable_default hd this).1
    | some d => rw [e, hpl]; exact fmt_head (fun h0 => hp (by rw [hpl, h0])) h0
  refine ⟨head, ?_⟩
  intro rest hr
  have := (reads_fd hp (by rwa [abs_of_nonneg h0]) h).2.2 rest hr
  obtain ⟨c, r, e', hc⟩ := head
  rw [e', List.cons_append] at this ⊢
  obtain ⟨_, hplus, hminus, _⟩ := isDigit_facts hc
  unfold pDouble at this
  split at this
  · rename_i h; simp at h; exact absurd h.1 hplus
  · rename_i h; simp at h; exact absurd h.1 hminus
  · exact this

/-! ## Nodes -/

theorem node_ok {rd : Text → Option Text} {u : Options} (hp : u.places ≠ some 0) {n : Node} (hb : Built rd n)
    (h : Printable u n) : NodeOk rd (build u) n := by
  obtain ⟨h1, h2, h3⟩ := h
  refine ⟨hb.1, ?_, ir_ok hp n, h1, ?_⟩
  · intro q hq
    exact ⟨reads_fd hp (hb.2 q hq) (h2 q hq), reads_str (hb.2 q hq) (h2 q hq).1⟩
  · intro e he
    cases n <;> simp only [exprs, List.not_mem_nil] at he
    rename_i nm ps
    have hw : WF 6 e := by
      simp only [List.mem_flatten, List.mem_map] at he
      obtain ⟨_, ⟨p, hp', rfl⟩, hpe⟩ := he
      exact hb.1.2.2 p hp' e hpe
    exact consts_mono (fun c hc => readable_fd hp hc.1 hc.2) (consts_wf hw (consts_of e (h3 e he)))

theorem dateLaw_of {rd : Text → Option Text} (h : StableDates rd) : DateLaw rd := by
  intro t d hd
  obtain ⟨h1, h2, h3⟩ := h t d hd
  refine ⟨h1, ?_, ?_, fun hc => (h2 _ hc).2.2.2 rfl⟩
  · intro c hc
    obtain ⟨a, b, e, _⟩ := h2 c hc
    simp [isFieldChar, a, b, e]
  · intro c r e
    by_contra hb
    refine h3 c r e ?_
    intro x hx
    simp only [List.mem_singleton] at hx
    subst hx
    simp only [isBlank] at hb
    by_contra hc
    simp only [not_or] at hc
    simp [hc.1, hc.2.1, hc.2.2.1, hc.2.2.2] at hb

/-! ## What is read back, when nothing is removed -/

theorem norm_keep {o : Opts} (hk : o.keep = true) (h54 : o.removeG54 = false) (h55 : o.removeG55 = false)
    {L : Node → Prop} {top : Bool} {ns : List Node} (h : WFs L top ns) : normAll o false ns = ns := by
  have hr (c : GCode) : removed o c = false := by simp [removed, h54, h55]
  induction h with
  | nil => simp [normAll]
  | @leaf top n ns hn hb hst _ ih =>
    have hj : joins o n = false := by
      cases n <;> try rfl
      simp only [standalone] at hst
      rw [hst]; rfl
    have e : norm o false n = [n] := by
      by_cases hg : isG n = true
      · cases n <;> simp only [isG, Bool.false_eq_true] at hg
        simp only [standalone] at hst
        simp [norm_g, hr, hst]
      · rw [norm_leaf hb (by simpa using hg)]
        simp [withFlag_standalone hst]
    simp only [normAll, e, hj, ih, List.singleton_append]
  | @pair top c d ns hc hd hD hs _ ih =>
    obtain ⟨g1, g2, g3⟩ := isG_of_isD hD
    simp [normAll, norm_g, joins_g, hr, hk, norm_leaf g2 g1, joins_false g1, withFlag_false hD hs, ih]
  | ab hn _ _ ihb ih => simp [normAll, norm, joins, ihb, ih]
  | sr hn _ _ ihb ih => simp [normAll, norm, joins, ihb, ih]

end Verif.Grammar
