import Verif.Lemmas.Means

/-!
# C11-C13: macro expressions; C39: printed floats
-/

namespace Verif.Props.Expr

open Verif.Text Verif.Fmt Verif.Spec Verif.Math

/-! ## C11 -/

/-- C11: the value computed for the tree the parser builds is the conventional value of the text it consumed, and
the text has no other conventional value. -/
theorem c11_conventional_value (s rest : List Char) (e : Expr) (ρ : List Char → Option ℚ) (v : ℚ)
    (hp : parse s = some (e, rest)) (hv : eval ρ e = .ok v) :
    ∃ u, s = u ++ rest ∧ Means ρ .sum u v ∧ ∀ w, Means ρ .sum u w → w = v := by
  obtain ⟨u, h1, _, _, h4⟩ := sound_parse s e rest hp
  have := h4 ρ v hv
  exact ⟨u, h1, this, fun w hw => means_unique hw this⟩

/-- `$1-$2-$3X-$4/$5` is `($1 - $2) - $3 * (-$4) / $5`. -/
example : ∃ e, parse ['$', '1', '-', '$', '2', '-', '$', '3', 'X', '-', '$', '4', '/', '$', '5'] = some (e, []) ∧
    eval (fun n => if n = ['$', '5'] then some 2 else some 3) e = .ok (9 / 2) := by
  refine ⟨.bin .sub (.var ['$', '1']) [.var ['$', '2'],
    .bin .mul (.var ['$', '3']) [.bin .div (.neg (.var ['$', '4'])) [.var ['$', '5']]]], rfl, ?_⟩
  simp [eval, evalTail, Op.step]
  norm_num

/-! ## Which trees the parser can produce, and printing them -/

/-- Numbers that Python's `str` writes without an exponent. -/
def Plain (q : ℚ) : Prop := q = 0 ∨ (1 / 10000 ≤ q ∧ q < 10 ^ 16)

/-- The default number formatting. -/
abbrev defaultFmt : ℚ → List Char := fmtDouble none true

theorem readable_default {c : ℚ} (hd : Decimal c) (hp : Plain c) : Readable defaultFmt c := by
  have h0 := decimal_nonneg hd
  have e : defaultFmt c = strNonneg c := by
    simp [defaultFmt, fmtDouble, strFloat, not_lt.2 h0, abs_of_nonneg h0]
  refine ⟨?_, ?_⟩
  · rw [e]; exact (pUnsigned_strNonneg hd hp (rest := []) (by intro x t h; cases h)).1
  · intro rest hr
    rw [e]; exact (pUnsigned_strNonneg hd hp hr).2

theorem consts_wf {p : ℚ → Prop} {l : Nat} {e : Expr} (h : WF l e) (hc : Consts p e) :
    Consts (fun c => Decimal c ∧ p c) e := by
  induction h with
  | const hd => cases hc with | const h => exact .const ⟨hd, h⟩
  | var => exact .var
  | paren _ ih => cases hc with | paren h => exact .paren (ih h)
  | neg _ ih => cases hc with | neg h => exact .neg (ih h)
  | pos _ ih => cases hc with | pos h => exact .pos (ih h)
  | bin _ _ _ _ ih1 ih2 => cases hc with | bin h1 h2 => exact .bin (ih1 h1) (fun e he => ih2 e he (h2 e he))
  | up _ _ ih => exact ih hc

theorem consts_mono {p q : ℚ → Prop} (h : ∀ c, p c → q c) {e : Expr} (hc : Consts p e) : Consts q e := by
  induction hc with
  | const hp => exact .const (h _ hp)
  | var => exact .var
  | paren _ ih => exact .paren ih
  | neg _ ih => exact .neg ih
  | pos _ ih => exact .pos ih
  | bin _ _ ih1 ih2 => exact .bin ih1 ih2

/-- What may follow an expression in a macro: the end of the text, a comma or an asterisk. -/
def MacroRest (rest : List Char) : Prop := rest = [] ∨ (∃ t, rest = ',' :: t) ∨ ∃ t, rest = '*' :: t

theorem follow_macroRest {rest : List Char} (h : MacroRest rest) : Follow 6 rest := by
  rcases h with rfl | ⟨t, rfl⟩ | ⟨t, rfl⟩
  · exact Follow.nil 6
  · intro c u h; simp at h; rw [← h.1]; simp [Stops]; decide
  · intro c u h; simp at h; rw [← h.1]; simp [Stops]; decide

theorem parse_of_wf {fd : ℚ → List Char} {e : Expr} (hw : WF 6 e) (hc : Consts (Readable fd) e)
    {rest : List Char} (hr : MacroRest rest) : parse (print fd false e ++ rest) = some (e, rest) := by
  have := parse_print hw hc (print fd false e ++ rest).length rest (by simp) (follow_macroRest hr)
  rw [pAt_six] at this
  exact this

/-! ## C12 -/

/-- C12 (partial: constants that Python prints without an exponent).  Printing a parsed expression with the default
options and parsing the result yields the same tree. -/
theorem c12_print_parse_partial (s rest₀ : List Char) (e : Expr) (hp : parse s = some (e, rest₀))
    (hc : Consts Plain e) (rest : List Char) (hr : MacroRest rest) :
    parse (print defaultFmt false e ++ rest) = some (e, rest) := by
  obtain ⟨_, _, _, hw, _⟩ := sound_parse s e rest₀ hp
  exact parse_of_wf hw (consts_mono (fun c h => readable_default h.1 h.2) (consts_wf hw hc)) hr

/-- C12 for a fixed number of decimals `d ≥ 1` with trimming (the shipped presets): trees whose constants are
multiples of the printed resolution. -/
theorem c12_print_parse_fixed_partial (d : Nat) (hd : d ≠ 0) (trim : Bool) (s rest₀ : List Char) (e : Expr)
    (hp : parse s = some (e, rest₀)) (hc : Consts (fun c => ∃ n : ℕ, c = n / 10 ^ d) e) (rest : List Char)
    (hr : MacroRest rest) : parse (print (fmtDouble (some d) trim) false e ++ rest) = some (e, rest) := by
  obtain ⟨_, _, _, hw, _⟩ := sound_parse s e rest₀ hp
  refine parse_of_wf hw (consts_mono ?_ hc) hr
  rintro c ⟨n, rfl⟩
  have h0 : (0 : ℚ) ≤ n / 10 ^ d := by positivity
  have hsc : scaled d ((n : ℚ) / 10 ^ d) = n := scaled_of_natCast_div (abs_of_nonneg h0)
  have hneg : ¬ ((n : ℚ) / 10 ^ d < 0) := not_lt.2 h0
  cases trim with
  | false =>
    have e1 : fmtDouble (some d) false ((n : ℚ) / 10 ^ d) =
        natStr (scaled d ((n : ℚ) / 10 ^ d) / 10 ^ d) ++ '.' ::
          rjust0 d (natStr (scaled d ((n : ℚ) / 10 ^ d) % 10 ^ d)) := by
      simp [fmtDouble, fixed, hd, fixedParts, hneg]
    refine ⟨?_, ?_⟩
    · rw [e1]
      obtain ⟨c, t, h1, h2⟩ := natStr_head (scaled d ((n : ℚ) / 10 ^ d) / 10 ^ d)
      exact ⟨c, _, by rw [h1]; rfl, h2⟩
    · intro rest hr
      rw [e1, pUnsigned_fixed hd _ hr, hsc]
  | true =>
    obtain ⟨x, h1, h2, _⟩ := pUnsigned_trim hd ((n : ℚ) / 10 ^ d) (rest := []) (by intro x t h; cases h)
    have e1 : fmtDouble (some d) true ((n : ℚ) / 10 ^ d) = x := by
      have := h1 []
      simp only [List.nil_append] at this
      simp [fmtDouble, fixed, hd, fixedParts, hneg, this]
    refine ⟨by rw [e1]; exact h2, ?_⟩
    intro rest hr
    obtain ⟨x', h1', h2', h3'⟩ := pUnsigned_trim hd ((n : ℚ) / 10 ^ d) hr
    have : x = x' := by
      have a := h1 []; have b := h1' []
      rw [a] at b; simpa using b
    rw [e1, this, h3', hsc]

example : ∃ e, parse ['-', '$', '1', 'X', '(', '2', '.', '5', '+', '$', '2', ')'] = some (e, []) ∧
    Consts Plain e := by
  refine ⟨.bin .mul (.neg (.var ['$', '1'])) [.paren (.bin .add (.const (floatOf false ['2'] ['5']))
    [.var ['$', '2']])], rfl, ?_⟩
  refine .bin (.neg .var) ?_
  intro e he
  simp at he; subst he
  refine .paren (.bin (.const ?_) ?_)
  · right; norm_num [floatOf, show natVal ['2'] = 2 from rfl, show natVal ['5'] = 5 from rfl]
  · intro e he; simp at he; subst he; exact .var

/-- C12 fails on the unchanged code for every constant between 0 and 0.0001: Python prints it with an exponent,
which the grammar does not know. -/
theorem c12_false_small_constants (c : ℚ) (hd : Decimal c) (h0 : 0 < c) (h1 : c < 1 / 10000) :
    parse (print defaultFmt false (.const c)) ≠ some (.const c, []) := by
  have hq := scaled_decPlaces hd
  have e0 : print defaultFmt false (.const c) = strNonneg c := by
    simp [print, defaultFmt, fmtDouble, strFloat, not_lt.2 h0.le, abs_of_nonneg h0.le]
  rw [e0]
  unfold strNonneg
  simp only
  generalize scaled (decPlaces c) c = m at *
  generalize decPlaces c = k at *
  have hm : m ≠ 0 := by rintro rfl; simp at hq; exact h0.ne' hq
  have hp10 : (0 : ℚ) < 10 ^ k := by positivity
  have hlt : 4 < k ∧ m < 10 ^ (k - 4) := by
    have hmk : (m : ℚ) * 10 ^ 4 < 10 ^ k := by
      rw [hq, div_lt_iff₀ hp10] at h1; norm_num at h1 ⊢; linarith
    have hmk' : m * 10 ^ 4 < 10 ^ k := by exact_mod_cast hmk
    have h4 : 4 < k := by
      by_contra hk
      have : 10 ^ k ≤ 10 ^ 4 := Nat.pow_le_pow_right (by norm_num) (by omega)
      have : 1 ≤ m := Nat.pos_of_ne_zero hm
      nlinarith
    refine ⟨h4, ?_⟩
    have e : 10 ^ k = 10 ^ (k - 4) * 10 ^ 4 := by rw [← pow_add]; congr 1; omega
    rw [e] at hmk'
    exact Nat.lt_of_mul_lt_mul_right hmk'
  have hlen := (length_natStr_le m (k - 4) (by omega)).2 hlt.2
  rw [if_neg hm, if_neg (by rintro ⟨h, _⟩; omega)]
  -- the mantissa
  have hall : (rstrip0 (natStr m)).all isDigit = true := all_rstrip0 (all_natStr m)
  have hne : rstrip0 (natStr m) ≠ [] := by
    intro h
    obtain ⟨j, hj⟩ := rstrip0_split (natStr m)
    rw [h] at hj
    have := natVal_natStr m
    rw [hj] at this
    simp at this
    exact hm this.symm
  generalize rstrip0 (natStr m) = ds at *
  cases ds with
  | nil => exact absurd rfl hne
  | cons a ds =>
    simp only [List.take_succ_cons, List.take_zero, List.drop_succ_cons, List.drop_zero, List.length_cons,
      List.cons_append, List.nil_append]
    simp only [List.all_cons, Bool.and_eq_true] at hall
    -- read as the constant printed by the mantissa alone, leaving the exponent unread
    have main : ∀ (man tail : List Char) (v : ℚ), man.head? = some a → 
        (∀ rest, NumEnd rest → pUnsigned (man ++ rest) = some (v, rest)) → Decimal v →
        parse (man ++ 'e' :: tail) ≠ some (.const c, []) := by
      intro man tail v hh hv hdv
      have hw : WF 6 (.const v) := by
        exact .up (by decide) (.up (by decide) (.up (by decide) (.up (by decide) (.up (by decide) (.up (by decide) (.const hdv))))))
      have hc : Consts (Readable (fun _ => man)) (.const v) := by
        refine .const ⟨?_, hv⟩
        cases man with
        | nil => simp at hh
        | cons b t => simp at hh; subst hh; exact ⟨b, t, rfl, hall.1⟩
      have := parse_print hw hc (man ++ 'e' :: tail).length ('e' :: tail) (by simp [print])
        (by intro c u h; simp at h; rw [← h.1]; simp [Stops]; decide)
      rw [pAt_six] at this
      have h2 : parse (man ++ 'e' :: tail) = some (.const v, 'e' :: tail) := this
      rw [h2]; simp
    by_cases hds : ds = []
    · subst hds
      simp only [List.length_nil, Nat.zero_add, le_refl, if_true, List.nil_append]
      exact main [a] _ _ rfl (fun rest hr => pUnsigned_int (i := [a]) (by simp [hall.1]) (by simp) hr)
        (decimal_floatOf _ _)
    · have : ¬ (ds.length + 1 ≤ 1) := by
        cases ds with
        | nil => exact absurd rfl hds
        | cons b t => simp
      rw [if_neg this]
      have := main (a :: '.' :: ds)
      simp only [List.cons_append] at this ⊢
      refine this _ _ rfl ?_ (decimal_floatOf [a] ds)
      intro rest hr
      have := pUnsigned_dec (i := [a]) (f := ds) (rest := rest) (by simp [hall.1]) hall.2 hds
        (fun x t hx => (hr x t hx).1)
      simpa using this

/-- Such constants are parsed: `0.00001`. -/
example : ∃ c, parse ['0', '.', '0', '0', '0', '0', '1'] = some (.const c, []) ∧ Decimal c ∧ 0 < c ∧
    c < 1 / 10000 := by
  refine ⟨floatOf false ['0'] ['0', '0', '0', '0', '1'], rfl, decimal_floatOf _ _, ?_, ?_⟩ <;>
    norm_num [floatOf, show natVal ['0'] = 0 from rfl, show natVal ['0', '0', '0', '0', '1'] = 1 from rfl]

/-! ## C13 -/

mutual
/-- The tree that explicit-parenthesis output stands for. -/
def reparsed : Expr → Expr
  | .const c => .const c
  | .var n => .var n
  | .paren e => reparsed e
  | .neg e => .neg (reparsed e)
  | .pos e => .pos (reparsed e)
  | .bin op h t => .paren (.bin op (reparsed h) (reparsedAll t))
/-- Pointwise `reparsed`. -/
def reparsedAll : List Expr → List Expr
  | [] => []
  | e :: es => reparsed e :: reparsedAll es
end

/-- The expression with its outer parentheses removed. -/
def unwrap : Expr → Expr
  | .paren e => unwrap e
  | e => e

/-- The expression, without its outer parentheses, begins with a plus sign. -/
def StartsPlus (e : Expr) : Prop := ∃ x, unwrap e = .pos x

/-- No minus sign is applied to a (parenthesised) expression that begins with a plus sign. -/
inductive NoMinusPlus : Expr → Prop
  | const {c} : NoMinusPlus (.const c)
  | var {n} : NoMinusPlus (.var n)
  | paren {e} : NoMinusPlus e → NoMinusPlus (.paren e)
  | neg {e} : ¬ StartsPlus e → NoMinusPlus e → NoMinusPlus (.neg e)
  | pos {e} : NoMinusPlus e → NoMinusPlus (.pos e)
  | bin {op h t} : NoMinusPlus h → (∀ e ∈ t, NoMinusPlus e) → NoMinusPlus (.bin op h t)

mutual
theorem print_reparsed (fd : ℚ → List Char) : ∀ e, print fd true e = print fd false (reparsed e)
  | .const c => rfl
  | .var n => rfl
  | .paren e => by simp [print, reparsed, print_reparsed fd e]
  | .neg e => by simp [print, reparsed, print_reparsed fd e]
  | .pos e => by simp [print, reparsed, print_reparsed fd e]
  | .bin op h t => by simp [print, reparsed, print_reparsed fd h, printTail_reparsed fd op t]
theorem printTail_reparsed (fd : ℚ → List Char) (op : Op) :
    ∀ t, printTail fd true op t = printTail fd false op (reparsedAll t)
  | [] => rfl
  | e :: es => by simp [printTail, reparsedAll, print_reparsed fd e, printTail_reparsed fd op es]
end

mutual
theorem eval_reparsed (ρ : List Char → Option ℚ) : ∀ e, eval ρ (reparsed e) = eval ρ e
  | .const c => rfl
  | .var n => rfl
  | .paren e => by simp [eval, reparsed, eval_reparsed ρ e]
  | .neg e => by simp [eval, reparsed, eval_reparsed ρ e]
  | .pos e => by simp [eval, reparsed, eval_reparsed ρ e]
  | .bin op h t => by
    simp only [eval, reparsed, eval_reparsed ρ h]
    split
    · exact evalTail_reparsed ρ op _ t
    · rfl
theorem evalTail_reparsed (ρ : List Char → Option ℚ) (op : Op) :
    ∀ a t, evalTail ρ op a (reparsedAll t) = evalTail ρ op a t
  | _, [] => rfl
  | a, e :: es => by
    simp only [evalTail, reparsedAll, eval_reparsed ρ e]
    split
    · split
      · exact evalTail_reparsed ρ op _ es
      · rfl
    · rfl
end

theorem mem_reparsedAll {x : Expr} : ∀ {t : List Expr}, x ∈ reparsedAll t → ∃ e ∈ t, x = reparsed e
  | [], h => by simp [reparsedAll] at h
  | a :: t, h => by
    simp only [reparsedAll, List.mem_cons] at h
    rcases h with h | h
    · exact ⟨a, by simp, h⟩
    · obtain ⟨e, he, hx⟩ := mem_reparsedAll h; exact ⟨e, by simp [he], hx⟩

theorem _root_.Verif.Math.WF.le {l : Nat} {e : Expr} (h : WF l e) : ∀ {l'}, l ≤ l' → l' ≤ 6 → WF l' e := by
  intro l' h1 h2
  induction l', h1 using Nat.le_induction with
  | base => exact h
  | succ n hn ih => exact .up (by omega) (ih (by omega))

theorem wf_reparsed {l : Nat} {e : Expr} (h : WF l e) (hn : NoMinusPlus e) :
    WF 2 (reparsed e) ∧ (¬ StartsPlus e → WF 1 (reparsed e)) ∧ Consts Decimal (reparsed e) := by
  induction h with
  | const hd => exact ⟨WF.le (.const hd) (by omega) (by omega), fun _ => WF.le (.const hd) (by omega) (by omega), .const hd⟩
  | var h1 h2 =>
    exact ⟨WF.le (.var h1 h2) (by omega) (by omega), fun _ => WF.le (.var h1 h2) (by omega) (by omega), .var⟩
  | paren _ ih =>
    cases hn with
    | paren hn =>
      obtain ⟨a, b, c⟩ := ih hn
      exact ⟨a, fun h => b (fun ⟨x, hx⟩ => h ⟨x, by simpa [unwrap] using hx⟩), c⟩
  | neg _ ih =>
    cases hn with
    | neg h hn =>
      obtain ⟨a, b, c⟩ := ih hn
      exact ⟨WF.le (.neg (b h)) (by omega) (by omega), fun _ => .neg (b h), .neg c⟩
  | @pos e _ ih =>
    cases hn with
    | pos hn =>
      obtain ⟨a, b, c⟩ := ih hn
      exact ⟨.pos a, fun h => absurd ⟨e, rfl⟩ h, .pos c⟩
  | @bin op h t l hl _ hne _ ih1 ih2 =>
    cases hn with
    | bin hn1 hn2 =>
      have hl2 : 2 ≤ l ∧ l < 6 := by cases op <;> simp [Op.level] at hl <;> omega
      have hb : WF 0 (.paren (.bin op (reparsed h) (reparsedAll t))) := by
        refine .paren (WF.le (l := l + 1) (.bin hl ((ih1 hn1).1.le (by omega) (by omega)) ?_ ?_) (by omega) (by omega))
        · cases t with
          | nil => exact absurd rfl hne
          | cons a t => simp [reparsedAll]
        · intro e he
          obtain ⟨x, hx, rfl⟩ := mem_reparsedAll he
          exact (ih2 x hx (hn2 x hx)).1.le (by omega) (by omega)
      refine ⟨WF.le hb (by omega) (by omega), fun _ => WF.le hb (by omega) (by omega), .paren (.bin (ih1 hn1).2.2 ?_)⟩
      intro e he
      obtain ⟨x, hx, rfl⟩ := mem_reparsedAll he
      exact (ih2 x hx (hn2 x hx)).2.2
  | up _ _ ih => exact ih hn

mutual
theorem consts_reparsed {p : ℚ → Prop} : ∀ e, Consts p e → Consts p (reparsed e)
  | .const _, h => h
  | .var _, h => h
  | .paren e, h => by cases h with | paren h => exact consts_reparsed e h
  | .neg e, h => by cases h with | neg h => exact .neg (consts_reparsed e h)
  | .pos e, h => by cases h with | pos h => exact .pos (consts_reparsed e h)
  | .bin op hd t, h => by
    cases h with
    | bin h1 h2 => exact .paren (.bin (consts_reparsed hd h1) (consts_reparsedAll t h2))
theorem consts_reparsedAll {p : ℚ → Prop} : ∀ t : List Expr, (∀ e ∈ t, Consts p e) → ∀ e ∈ reparsedAll t, Consts p e
  | [], _ => by simp [reparsedAll]
  | a :: t, h => by
    intro e he
    simp only [reparsedAll, List.mem_cons] at he
    rcases he with rfl | he
    · exact consts_reparsed a (h a (by simp))
    · exact consts_reparsedAll t (fun e he => h e (by simp [he])) e he
end

/-- C13 (partial: no minus sign directly before a plus sign, constants printed without exponent).  Printing a parsed
expression with explicit parentheses and parsing it back succeeds and does not change the value — or the error —
under any assignment of the variables. -/
theorem c13_explicit_parentheses_partial (s rest₀ : List Char) (e : Expr) (hp : parse s = some (e, rest₀))
    (hc : Consts Plain e) (hn : NoMinusPlus e) (rest : List Char) (hr : MacroRest rest) :
    ∃ e', parse (print defaultFmt true e ++ rest) = some (e', rest) ∧ ∀ ρ, eval ρ e' = eval ρ e := by
  obtain ⟨_, _, _, hw, _⟩ := sound_parse s e rest₀ hp
  obtain ⟨h1, _, h3⟩ := wf_reparsed hw hn
  refine ⟨reparsed e, ?_, fun ρ => eval_reparsed ρ e⟩
  rw [print_reparsed]
  refine parse_of_wf (h1.le (by omega) (by omega)) ?_ hr
  exact consts_mono (fun c h => readable_default h.1 h.2)
    (consts_wf (h1.le (l' := 6) (by omega) (by omega)) (consts_reparsed e hc))

example : ∃ e, parse ['-', '(', '$', '1', '-', '2', ')', '/', '$', '2', '+', '$', '3'] = some (e, []) ∧
    Consts Plain e ∧ NoMinusPlus e := by
  refine ⟨.bin .add (.bin .div (.neg (.paren (.bin .sub (.var ['$', '1']) [.const (floatOf false ['2'] [])])))
    [.var ['$', '2']]) [.var ['$', '3']], rfl, ?_, ?_⟩
  · refine .bin (.bin (.neg (.paren (.bin .var ?_))) ?_) ?_
    · intro e he; simp at he; subst he; refine .const (.inr ?_); norm_num [floatOf, show natVal ['2'] = 2 from rfl]
    · intro e he; simp at he; subst he; exact .var
    · intro e he; simp at he; subst he; exact .var
  · refine .bin (.bin (.neg ?_ (.paren (.bin .var ?_))) ?_) ?_
    · rintro ⟨x, hx⟩; simp [unwrap] at hx
    · intro e he; simp at he; subst he; exact .const
    · intro e he; simp at he; subst he; exact .var
    · intro e he; simp at he; subst he; exact .var

/-- C13 fails on the unchanged code: `-(+$1)` is accepted, is printed with explicit parentheses as `-+$1`, and that
text is rejected by the grammar. -/
theorem c13_false_minus_plus :
    parse ['-', '(', '+', '$', '1', ')'] = some (.neg (.paren (.pos (.var ['$', '1']))), []) ∧
    print defaultFmt true (.neg (.paren (.pos (.var ['$', '1'])))) = ['-', '+', '$', '1'] ∧
    parse ['-', '+', '$', '1'] = none :=
  ⟨rfl, rfl, rfl⟩

/-! ## C39 -/

/-- C39 (partial: trimming needs at least one decimal place).  The printed number reads back as the number correctly
rounded to the requested number of places, whatever non-numeric text follows. -/
theorem c39_reads_back_partial (d : Nat) (trim : Bool) (hd : d ≠ 0 ∨ trim = false) (v : ℚ) (rest : List Char)
    (hr : ∀ x t, rest = x :: t → isDigit x = false ∧ x ≠ '.') :
    ∃ m : ℤ, RoundsTo (v * 10 ^ d) m ∧ pDouble (fmtDouble (some d) trim v ++ rest) = some ((m : ℚ) / 10 ^ d, rest) := by
  have hs := scaled_spec d v
  refine ⟨if v < 0 then -(scaled d v : ℤ) else (scaled d v : ℤ), ?_, ?_⟩
  · by_cases hv : v < 0
    · rw [if_pos hv, abs_of_neg hv] at *
      have e : v * 10 ^ d - ((-(scaled d v : ℤ) : ℤ) : ℚ) = -(-v * 10 ^ d - (scaled d v : ℤ)) := by push_cast; ring
      unfold RoundsTo at hs ⊢
      rw [e, abs_neg]
      simpa using hs
    · rw [if_neg hv]
      rw [abs_of_nonneg (not_lt.1 hv)] at hs
      exact hs
  · have hval : (((if v < 0 then -(scaled d v : ℤ) else (scaled d v : ℤ) : ℤ)) : ℚ) / 10 ^ d =
        if v < 0 then -((scaled d v : ℚ) / 10 ^ d) else (scaled d v : ℚ) / 10 ^ d := by
      split <;> push_cast <;> ring
    rw [hval]
    by_cases hd0 : d = 0
    · subst hd0
      have ht : trim = false := by simpa using hd
      subst ht
      have e1 : fmtDouble (some 0) false v ++ rest = (if v < 0 then ['-'] else []) ++ natStr (scaled 0 v) ++ rest := by
        simp [fmtDouble, fixed]
      rw [e1]
      refine pDouble_signed (natStr_head _) ?_
      rw [pUnsigned_int (all_natStr _) (natStr_ne_nil _) hr]
      simp [floatOf, natVal_natStr]
    · cases trim with
      | false =>
        have e1 : fmtDouble (some d) false v ++ rest = (if v < 0 then ['-'] else []) ++
            (natStr (scaled d v / 10 ^ d) ++ '.' :: rjust0 d (natStr (scaled d v % 10 ^ d))) ++ rest := by
          simp [fmtDouble, fixed, hd0, fixedParts]
        rw [e1]
        refine pDouble_signed ?_ (pUnsigned_fixed hd0 v hr)
        obtain ⟨c, t, h1, h2⟩ := natStr_head (scaled d v / 10 ^ d)
        exact ⟨c, _, by rw [h1]; rfl, h2⟩
      | true =>
        obtain ⟨s, h1, h2, h3⟩ := pUnsigned_trim hd0 v hr
        have e1 : fmtDouble (some d) true v = (if v < 0 then ['-'] else []) ++ s := by
          have := h1 (if v < 0 then ['-'] else [])
          simpa [fmtDouble, fixed, hd0, fixedParts] using this
        rw [e1]
        exact pDouble_signed h2 h3

/-- With the default options (no limit on places) a decimal number that Python prints without exponent reads back
exactly. -/
theorem c39_default_exact_partial (v : ℚ) (hd : Decimal |v|) (hp : Plain |v|) (rest : List Char)
    (hr : ∀ x t, rest = x :: t → isDigit x = false ∧ x ≠ '.') :
    pDouble (fmtDouble none true v ++ rest) = some (v, rest) := by
  obtain ⟨h1, h2⟩ := pUnsigned_strNonneg hd hp hr
  have := pDouble_signed (neg := v < 0) h1 h2
  simp only [fmtDouble, strFloat]
  rw [this]
  congr 2
  split
  · rename_i h; rw [abs_of_neg h]; ring
  · rename_i h; rw [abs_of_nonneg (not_lt.1 h)]

example : Decimal |(-5 / 2 : ℚ)| ∧ Plain |(-5 / 2 : ℚ)| := by
  refine ⟨⟨25, 1, ?_⟩, .inr ?_⟩ <;> rw [abs_of_neg (by norm_num)] <;> norm_num

/-- C39 fails on the unchanged code with zero places and trimming: 100 is printed as `1`. -/
theorem c39_false_zero_places :
    fmtDouble (some 0) true 100 = ['1'] ∧ pDouble (fmtDouble (some 0) true 100) = some (1, []) := by
  have h : scaled 0 100 = 100 := by
    have := scaled_of_natCast_div (d := 0) (n := 100) (v := 100) (by norm_num)
    exact this
  have h2 : natStr 100 = ['1', '0', '0'] := by
    rw [natStr_ge (by norm_num), show 100 / 10 = 10 by norm_num, natStr_ge (by norm_num), natStr_lt (by norm_num)]
    rfl
  have h3 : fmtDouble (some 0) true 100 = ['1'] := by
    simp [fmtDouble, fixed, h, h2, rstrip0, rstripDot]
  rw [h3]
  refine ⟨rfl, ?_⟩
  rw [pDouble_pos rfl (by decide)]
  have := pUnsigned_int (i := ['1']) (rest := []) (by decide) (by simp) (by intro x t h; cases h)
  rw [List.append_nil] at this
  rw [this]
  norm_num [floatOf, show natVal ['1'] = 1 from rfl]

/-- … and 0 is printed as the empty text. -/
theorem c39_false_zero_places_zero : fmtDouble (some 0) true 0 = [] := by
  have h : scaled 0 0 = 0 := scaled_of_natCast_div (d := 0) (n := 0) (v := 0) (by norm_num)
  have h2 : natStr 0 = ['0'] := by rw [natStr_lt (by norm_num)]; rfl
  simp [fmtDouble, fixed, h, h2, rstrip0, rstripDot]

end Verif.Props.Expr
