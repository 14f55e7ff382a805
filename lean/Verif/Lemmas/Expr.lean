import Verif.Model.Expr
import Verif.Spec.Expr
import Verif.Lemmas.Text
import Mathlib.Tactic.Ring
import Mathlib.Data.List.TakeWhile
import Mathlib.Data.List.DropRight
import Mathlib.Tactic.FieldSimp

/-!
# Helper lemmas on the expression parser and printer
-/

namespace Verif.Math

open Verif.Text Verif.Fmt Verif.Spec

/-! ## Blanks and digits -/

theorem skip_split (s : List Char) : ∃ w, Blank w ∧ s = w ++ skip s := by
  refine ⟨s.takeWhile isBlank, ?_, (List.takeWhile_append_dropWhile).symm⟩
  intro c hc
  have := List.mem_takeWhile_imp hc
  simpa [isBlank, or_assoc] using this

theorem skip_of_head {c : Char} {s : List Char} (h : isBlank c = false) : skip (c :: s) = c :: s := by
  simp [skip, h]

@[simp] theorem skip_nil : skip [] = [] := rfl

theorem digits_split {s d r : List Char} (h : digits s = (d, r)) :
    s = d ++ r ∧ Digits d ∧ d.all isDigit = true ∧ (∀ c t, r = c :: t → isDigit c = false) := by
  simp only [digits, Prod.mk.injEq] at h
  obtain ⟨rfl, rfl⟩ := h
  have hall : (s.takeWhile isDigit).all isDigit = true := by
    rw [List.all_eq_true]; intro c hc; exact List.mem_takeWhile_imp hc
  refine ⟨(List.takeWhile_append_dropWhile).symm, (all_isDigit_iff _).1 hall, hall, ?_⟩
  intro c t hct
  have := List.head?_dropWhile_not isDigit s
  rw [hct] at this
  simpa using this

theorem digits_append {d r : List Char} (hd : d.all isDigit = true) (hr : ∀ c t, r = c :: t → isDigit c = false) :
    digits (d ++ r) = (d, r) := by
  have h1 : ∀ a ∈ d, isDigit a = true := by simpa [List.all_eq_true] using hd
  cases r with
  | nil =>
    simp only [digits, List.append_nil, Prod.mk.injEq]
    constructor
    · rw [List.takeWhile_eq_self_iff.2 h1]
    · rw [List.dropWhile_eq_nil_iff.2 h1]
  | cons c t =>
    have hc := hr c t rfl
    simp only [digits, Prod.mk.injEq]
    constructor
    · rw [List.takeWhile_append_of_pos h1]; simp [hc]
    · rw [List.dropWhile_append_of_pos h1]; simp [hc]

theorem floatOf_num (i : List Char) : floatOf false i [] = (numeral i : ℚ) := by
  simp [floatOf, natVal_eq_numeral, numeral]

theorem floatOf_dec (i f : List Char) : floatOf false i f = (numeral i : ℚ) + numeral f / 10 ^ f.length := by
  simp [floatOf, natVal_eq_numeral]

theorem decimal_nonneg {q : ℚ} (h : Decimal q) : 0 ≤ q := by
  obtain ⟨n, k, rfl⟩ := h; positivity

theorem decimal_floatOf (i f : List Char) : Decimal (floatOf false i f) := by
  refine ⟨natVal i * 10 ^ f.length + natVal f, f.length, ?_⟩
  simp only [floatOf]
  push_cast
  field_simp

theorem pUnsigned_sound {s r : List Char} {v : ℚ} (h : pUnsigned s = some (v, r)) :
    ∃ u, s = u ++ r ∧ u ≠ [] ∧ Decimal v ∧ (∀ c t, u = c :: t → isDigit c = true ∨ c = '.') ∧
      ∀ ρ w, Blank w → Means ρ .primary (w ++ u) v := by
  unfold pUnsigned at h
  generalize hd : digits s = p at h
  obtain ⟨i, t⟩ := p
  obtain ⟨hs, hi, hia, _⟩ := digits_split hd
  have hhead : ∀ {x : List Char}, i ≠ [] → ∀ c t, i ++ x = c :: t → isDigit c = true ∨ c = '.' := by
    intro x hne c t hct
    cases i with
    | nil => exact absurd rfl hne
    | cons a l => simp at hct; simp at hia; rw [← hct.1]; exact Or.inl hia.1
  have key : ∀ {r' : List Char}, i.isEmpty = false → s = i ++ r' → some (floatOf false i [], r') = some (v, r) →
    ∃ u, s = u ++ r ∧ u ≠ [] ∧ Decimal v ∧ (∀ c t, u = c :: t → isDigit c = true ∨ c = '.') ∧
      ∀ ρ w, Blank w → Means ρ .primary (w ++ u) v := by
    intro r' hne hs' he
    simp only [Option.some.injEq, Prod.mk.injEq] at he
    obtain ⟨rfl, rfl⟩ := he
    have hne' : i ≠ [] := by intro h0; simp [h0] at hne
    refine ⟨i, hs', hne', decimal_floatOf _ _, ?_, ?_⟩
    · intro c t hct; exact hhead (x := []) hne' c t (by simpa using hct)
    · intro ρ w hw; rw [floatOf_num]; exact Means.number hw hi hne'
  simp only at h
  split at h
  · rename_i r' _
    generalize hd2 : digits r' = p2 at h
    obtain ⟨f, r''⟩ := p2
    obtain ⟨hs2, hf, hfa, _⟩ := digits_split hd2
    simp only at h
    split at h
    · split at h
      · simp at h
      · rename_i hne; exact key (by simpa using hne) hs h
    · rename_i hfne
      simp only [Option.some.injEq, Prod.mk.injEq] at h
      obtain ⟨rfl, rfl⟩ := h
      refine ⟨i ++ '.' :: f, by simp [hs, hs2], by simp, decimal_floatOf _ _, ?_, ?_⟩
      · intro c t hct
        by_cases h0 : i = []
        · subst h0; simp at hct; right; exact hct.1.symm
        · exact hhead h0 c t hct
      · intro ρ w hw
        rw [floatOf_dec, ← List.append_assoc]
        exact Means.decimal hw hi hf (by intro h0; simp [h0] at hfne)
  · split at h
    · simp at h
    · rename_i hne; exact key (by simpa using hne) hs h

/-! ## Shape of the trees the parser produces -/

/-- Precedence level of an operator node: `/` binds tighter than `x`, then `-`, then `+`. -/
def Op.level : Op → Nat
  | .div => 3
  | .mul => 4
  | .sub => 5
  | .add => 6

/-- `WF l e`: the tree `e` can be produced by grammar level `l` (0 factor, 1 unary minus, 2 unary plus, 3 `/`,
4 `x`, 5 `-`, 6 `+`). -/
inductive WF : Nat → Expr → Prop
  | const {c} : Decimal c → WF 0 (.const c)
  | var {d} : d ≠ [] → d.all isDigit = true → WF 0 (.var ('$' :: d))
  | paren {e} : WF 6 e → WF 0 (.paren e)
  | neg {e} : WF 1 e → WF 1 (.neg e)
  | pos {e} : WF 2 e → WF 2 (.pos e)
  | bin {op h t} {l : Nat} : l + 1 = op.level → WF l h → t ≠ [] → (∀ e ∈ t, WF l e) → WF (l + 1) (.bin op h t)
  | up {l e} : l < 6 → WF l e → WF (l + 1) e

/-- The conventional level a grammar level belongs to. -/
def conv (l : Nat) : Level :=
  if l = 0 then .primary else if l ≤ 2 then .signed else if l ≤ 4 then .product else .sum

/-- What it means for a parser to be correct for grammar level `l`. -/
def Sound (l : Nat) (p : P Expr) : Prop :=
  ∀ s e r, p s = some (e, r) →
    ∃ u, s = u ++ r ∧ u ≠ [] ∧ WF l e ∧ ∀ ρ v, eval ρ e = .ok v → Means ρ (conv l) u v

theorem conv_succ {ρ l u v} (h : Means ρ (conv l) u v) : Means ρ (conv (l + 1)) u v := by
  unfold conv at h ⊢
  rcases l with _ | _ | _ | _ | _ | l
  · exact .primary h
  · exact h
  · exact .signed h
  · exact h
  · exact .product h
  · simpa using h

theorem means_sum_add {ρ s t w a b} (hs : Means ρ .sum s a) (hw : Blank w) (ht : Means ρ .sum t b) :
    Means ρ .sum (s ++ w ++ '+' :: t) (a + b) := by
  generalize hl : Level.sum = l at ht
  induction ht with
  | number | decimal | var | paren | primary | minus | plus | signed | times | over => cases hl
  | product h => exact .add hs hw h
  | add h1 hw' h2 ih =>
    have := Means.add (ih hl) hw' h2
    rw [add_assoc] at this
    simpa [List.append_assoc] using this
  | sub h1 hw' h2 ih =>
    have := Means.sub (ih hl) hw' h2
    rw [add_sub_assoc] at this
    simpa [List.append_assoc] using this

theorem means_product_mul {ρ s t w x a b} (hs : Means ρ .product s a) (hw : Blank w) (hx : x = 'x' ∨ x = 'X')
    (ht : Means ρ .product t b) : Means ρ .product (s ++ w ++ x :: t) (a * b) := by
  generalize hl : Level.product = l at ht
  induction ht with
  | number | decimal | var | paren | primary | minus | plus | product | add | sub => cases hl
  | signed h => exact .times hs hw hx h
  | times h1 hw' hx' h2 ih =>
    have := Means.times (ih hl) hw' hx' h2
    rw [mul_assoc] at this
    simpa [List.append_assoc] using this
  | over h1 hw' h2 hb ih =>
    have := Means.over (ih hl) hw' h2 hb
    rw [mul_div_assoc] at this
    simpa [List.append_assoc] using this

theorem sound_var {s e r} (h : pVar s = some (e, r)) :
    ∃ u, s = u ++ r ∧ u ≠ [] ∧ WF 0 e ∧ ∀ ρ v, eval ρ e = .ok v → Means ρ .primary u v := by
  unfold pVar at h
  obtain ⟨w, hw, hs⟩ := skip_split s
  split at h
  · rename_i r' heq
    generalize hd : digits r' = p at h
    obtain ⟨d, r''⟩ := p
    obtain ⟨hs2, hdd, hda, _⟩ := digits_split hd
    simp only at h
    split at h
    · simp at h
    · rename_i hne
      simp only [Option.some.injEq, Prod.mk.injEq] at h
      obtain ⟨rfl, rfl⟩ := h
      have hne' : d ≠ [] := by intro h0; simp [h0] at hne
      refine ⟨w ++ '$' :: d, ?_, by simp, .var hne' hda, ?_⟩
      · rw [hs, heq, hs2]; simp
      · intro ρ v hv
        simp only [eval] at hv
        split at hv
        · rename_i v' hv'
          simp only [Except.ok.injEq] at hv; subst hv
          exact .var hw hdd hne' hv'
        · cases hv
  · simp at h

theorem blank_nil : Blank [] := by intro c hc; simp at hc

theorem pDouble_sound {s r : List Char} {v : ℚ} (hs : ∀ t, s ≠ '-' :: t) (h : pDouble s = some (v, r)) :
    ∃ u, s = u ++ r ∧ u ≠ [] ∧ Decimal v ∧ (∀ ρ w, Blank w → Means ρ .signed (w ++ u) v) ∧
     ((∀ t, s ≠ '+' :: t) → ∀ ρ w, Blank w → Means ρ .primary (w ++ u) v) := by
  unfold pDouble at h
  split at h
  · obtain ⟨u, h1, h2, h3, _, h4⟩ := pUnsigned_sound h
    rename_i t _
    refine ⟨'+' :: u, by simp [h1], by simp, h3, ?_, ?_⟩
    · intro ρ w hw; exact .plus hw (.primary (h4 ρ [] blank_nil))
    · intro h0; exact absurd rfl (h0 t)
  · exact absurd rfl (hs _)
  · obtain ⟨u, h1, h2, h3, _, h4⟩ := pUnsigned_sound h
    exact ⟨u, h1, h2, h3, fun ρ w hw => .primary (h4 ρ w hw), fun _ => h4⟩

theorem sound_const {s e r} (hs : ∀ t, skip s ≠ '-' :: t) (h : pConst s = some (e, r)) :
    ∃ u, s = u ++ r ∧ u ≠ [] ∧ WF 0 e ∧ (∀ ρ v, eval ρ e = .ok v → Means ρ .signed u v) ∧
      ((∀ t, skip s ≠ '+' :: t) → ∀ ρ v, eval ρ e = .ok v → Means ρ .primary u v) := by
  unfold pConst at h
  obtain ⟨w, hw, hsp⟩ := skip_split s
  simp only [Option.map_eq_some_iff, Prod.mk.injEq, Prod.exists] at h
  obtain ⟨v, r', h1, rfl, rfl⟩ := h
  obtain ⟨u, h2, h3, h4, h5, h6⟩ := pDouble_sound hs h1
  refine ⟨w ++ u, ?_, ?_, .const h4, ?_, ?_⟩
  · rw [hsp, h2]; simp
  · simp [h3]
  · intro ρ v' hv; simp only [eval, Except.ok.injEq] at hv; subst hv; exact h5 ρ w hw
  · intro h0 ρ v' hv; simp only [eval, Except.ok.injEq] at hv; subst hv; exact h6 h0 ρ w hw

theorem sound_paren {inner : P Expr} (hi : Sound 6 inner) {s e r} (h : pParen inner s = some (e, r)) :
    ∃ u, s = u ++ r ∧ u ≠ [] ∧ WF 0 e ∧ ∀ ρ v, eval ρ e = .ok v → Means ρ .primary u v := by
  unfold pParen at h
  obtain ⟨w, hw, hs⟩ := skip_split s
  split at h
  · rename_i r1 heq
    split at h
    · rename_i e1 r2 h1
      obtain ⟨w', hw', hs'⟩ := skip_split r2
      split at h
      · rename_i r3 heq3
        simp only [Option.some.injEq, Prod.mk.injEq] at h
        obtain ⟨rfl, rfl⟩ := h
        obtain ⟨u, h2, h3, h4, h5⟩ := hi _ _ _ h1
        refine ⟨w ++ '(' :: u ++ w' ++ [')'], ?_, by simp, .paren h4, ?_⟩
        · rw [hs, heq, h2, hs', heq3]; simp
        · intro ρ v hv; exact .paren hw hw' (h5 ρ v (by simpa [eval] using hv))
      · simp at h
    · simp at h
  · simp at h

/-- `factor` on a text that does not begin with `-`. -/
theorem sound_factor {inner : P Expr} (hi : Sound 6 inner) {s e r} (hs : ∀ t, skip s ≠ '-' :: t)
    (h : pFactor inner s = some (e, r)) :
    ∃ u, s = u ++ r ∧ u ≠ [] ∧ WF 0 e ∧ ∀ ρ v, eval ρ e = .ok v → Means ρ .signed u v := by
  unfold pFactor at h
  cases h1 : pVar s with
  | some p =>
    obtain ⟨e1, r1⟩ := p
    simp [h1] at h
    obtain ⟨rfl, rfl⟩ := h
    obtain ⟨u, a, b, c, d⟩ := sound_var h1
    exact ⟨u, a, b, c, fun ρ v hv => .primary (d ρ v hv)⟩
  | none =>
    cases h2 : pConst s with
    | some p =>
      obtain ⟨e1, r1⟩ := p
      simp [h1, h2] at h
      obtain ⟨rfl, rfl⟩ := h
      obtain ⟨u, a, b, c, d, _⟩ := sound_const hs h2
      exact ⟨u, a, b, c, d⟩
    | none =>
      simp [h1, h2] at h
      obtain ⟨u, a, b, c, d⟩ := sound_paren hi h
      exact ⟨u, a, b, c, fun ρ v hv => .primary (d ρ v hv)⟩

theorem skip_length (s : List Char) : (skip s).length ≤ s.length := by
  obtain ⟨w, _, h⟩ := skip_split s
  have := congrArg List.length h
  simp at this; omega

theorem skip_skip (s : List Char) : skip (skip s) = skip s := by
  unfold skip
  exact List.dropWhile_idempotent (p := isBlank) (l := s)

/-- A text beginning with `-` that `factor` accepts is a negative constant, so what follows the sign is accepted
by `factor` too. -/
theorem factor_minus {inner : P Expr} {s t : List Char} {x} (hs : skip s = '-' :: t)
    (h : pFactor inner s = some x) : (pFactor inner t).isSome := by
  unfold pFactor at h ⊢
  have h1 : pVar s = none := by simp [pVar, hs]
  have h3 : pParen inner s = none := by simp [pParen, hs]
  simp only [h1, h3, Option.orElse_none] at h
  have h4 : pConst s = some x := by
    cases h5 : pConst s with
    | none => simp [h5] at h
    | some y => simpa [h5] using h
  unfold pConst at h4
  rw [hs] at h4
  simp only [pDouble, Option.map_map, Option.map_eq_some_iff] at h4
  obtain ⟨p, hp, _⟩ := h4
  obtain ⟨v, r⟩ := p
  obtain ⟨u, hu, hne, _, hhead, _⟩ := pUnsigned_sound hp
  have hc : pConst t = some (.const v, r) := by
    unfold pConst
    cases u with
    | nil => exact absurd rfl hne
    | cons c u' =>
      have hcc := hhead c u' rfl
      have hb : isBlank c = false := by
        rcases hcc with h | h
        · simp [isDigit] at h
          have : c.toNat ≠ 32 ∧ c.toNat ≠ 10 ∧ c.toNat ≠ 9 ∧ c.toNat ≠ 13 := by omega
          have h1 : c ≠ ' ' := by rintro rfl; simp at this
          have h2 : c ≠ '\n' := by rintro rfl; simp at this
          have h3 : c ≠ '\t' := by rintro rfl; simp at this
          have h4 : c ≠ '\r' := by rintro rfl; simp at this
          simp [isBlank, h1, h2, h3, h4]
        · subst h; decide
      have hp1 : c ≠ '+' := by
        rcases hcc with h | h
        · intro h0; subst h0; revert h; decide
        · subst h; decide
      have hp2 : c ≠ '-' := by
        rcases hcc with h | h
        · intro h0; subst h0; revert h; decide
        · subst h; decide
      rw [hu] at hp ⊢
      rw [List.cons_append, skip_of_head hb]
      have : pDouble (c :: (u' ++ r)) = pUnsigned (c :: (u' ++ r)) := by
        unfold pDouble
        split
        · rename_i heq; simp at heq; exact absurd heq.1 hp1
        · rename_i heq; simp at heq; exact absurd heq.1 hp2
        · rfl
      rw [this]
      simp only [List.cons_append] at hp
      rw [hp]; rfl
  cases h6 : pVar t with
  | some y => simp
  | none => simp [hc]

theorem sound_neg {inner : P Expr} (hi : Sound 6 inner) :
    ∀ n s, s.length ≤ n → ∀ e r, pUnary '-' .neg (pFactor inner) n s = some (e, r) →
      ∃ u, s = u ++ r ∧ u ≠ [] ∧ WF 1 e ∧ ∀ ρ v, eval ρ e = .ok v → Means ρ .signed u v := by
  -- if `factor` accepts, so does the unary level
  have accept : ∀ n s, (pFactor inner s).isSome → (pUnary '-' .neg (pFactor inner) n s).isSome := by
    intro n
    induction n with
    | zero => intro s h; simpa [pUnary] using h
    | succ n ih =>
      intro s h
      simp only [pUnary]
      split
      · split
        · split
          · simp
          · exact h
        · exact h
      · exact h
  intro n
  induction n with
  | zero =>
    intro s hn e r h
    have : s = [] := by simpa using hn
    subst this
    simp only [pUnary] at h
    obtain ⟨u, a, b, c, d⟩ := sound_factor hi (by simp) h
    exact ⟨u, a, b, .up (by decide) c, d⟩
  | succ n ih =>
    intro s hn e r h
    simp only [pUnary] at h
    obtain ⟨w, hw, hs⟩ := skip_split s
    split at h
    · rename_i c t heq
      have hlen : t.length ≤ n := by
        have := skip_length s; rw [heq] at this; simp at this; omega
      split at h
      · rename_i hc
        subst hc
        split at h
        · rename_i e' r' h1
          simp only [Option.some.injEq, Prod.mk.injEq] at h
          obtain ⟨rfl, rfl⟩ := h
          obtain ⟨u, a, b, c, d⟩ := ih t hlen _ _ h1
          refine ⟨w ++ '-' :: u, ?_, by simp, .neg c, ?_⟩
          · rw [hs, heq, a]; simp
          · intro ρ v hv
            simp only [eval] at hv
            split at hv
            · rename_i v' hv'
              simp only [Except.ok.injEq] at hv; subst hv
              exact .minus hw (d ρ _ hv')
            · cases hv
        · rename_i h1
          -- impossible: `factor` would accept what follows
          have := accept n t (factor_minus heq h)
          rw [h1] at this; simp at this
      · rename_i hc
        obtain ⟨u, a, b, c', d⟩ := sound_factor hi (by rw [heq]; intro t' h0; simp at h0; exact hc h0.1) h
        exact ⟨u, a, b, .up (by decide) c', d⟩
    · rename_i heq
      obtain ⟨u, a, b, c', d⟩ := sound_factor hi (by simp [heq]) h
      exact ⟨u, a, b, .up (by decide) c', d⟩

theorem sound_pos {last : P Expr} (hl : Sound 1 last) :
    ∀ n s e r, pUnary '+' .pos last n s = some (e, r) →
      ∃ u, s = u ++ r ∧ u ≠ [] ∧ WF 2 e ∧ ∀ ρ v, eval ρ e = .ok v → Means ρ .signed u v := by
  intro n
  have base : ∀ s e r, last s = some (e, r) →
      ∃ u, s = u ++ r ∧ u ≠ [] ∧ WF 2 e ∧ ∀ ρ v, eval ρ e = .ok v → Means ρ .signed u v := by
    intro s e r h
    obtain ⟨u, a, b, c, d⟩ := hl _ _ _ h
    exact ⟨u, a, b, .up (by decide) c, d⟩
  induction n with
  | zero => intro s e r h; exact base _ _ _ (by simpa [pUnary] using h)
  | succ n ih =>
    intro s e r h
    simp only [pUnary] at h
    obtain ⟨w, hw, hs⟩ := skip_split s
    split at h
    · rename_i c t heq
      split at h
      · rename_i hc
        subst hc
        split at h
        · rename_i e' r' h1
          simp only [Option.some.injEq, Prod.mk.injEq] at h
          obtain ⟨rfl, rfl⟩ := h
          obtain ⟨u, a, b, c, d⟩ := ih t _ _ h1
          refine ⟨w ++ '+' :: u, ?_, by simp, .pos c, ?_⟩
          · rw [hs, heq, a]; simp
          · intro ρ v hv; exact .plus hw (d ρ _ (by simpa [eval] using hv))
        · exact base _ _ _ h
      · exact base _ _ _ h
    · exact base _ _ _ h

/-- How an operator character continues a text at the level of the operator. -/
def Continues (op : Op) (isOp : Char → Bool) (l : Nat) : Prop :=
  l + 1 = op.level ∧
  ∀ ρ c s t w a b v, isOp c = true → Means ρ (conv (l + 1)) s a → Blank w → Means ρ (conv l) t b →
    op.step a b = .ok v → Means ρ (conv (l + 1)) (s ++ w ++ c :: t) v

theorem sound_many {op : Op} {isOp : Char → Bool} {l : Nat} (hc : Continues op isOp l) {last : P Expr}
    (hl : Sound l last) : ∀ n s es r, pMany isOp last n s = (es, r) →
      ∃ u, s = u ++ r ∧ (∀ e ∈ es, WF l e) ∧ ∀ ρ x a v, Means ρ (conv (l + 1)) x a →
        evalTail ρ op a es = .ok v → Means ρ (conv (l + 1)) (x ++ u) v := by
  intro n
  have base : ∀ s es r, (([] : List Expr), s) = (es, r) →
      ∃ u, s = u ++ r ∧ (∀ e ∈ es, WF l e) ∧ ∀ ρ x a v, Means ρ (conv (l + 1)) x a →
        evalTail ρ op a es = .ok v → Means ρ (conv (l + 1)) (x ++ u) v := by
    intro s es r h
    simp only [Prod.mk.injEq] at h
    obtain ⟨rfl, rfl⟩ := h
    refine ⟨[], by simp, by simp, ?_⟩
    intro ρ x a v hx hv
    simp only [evalTail, Except.ok.injEq] at hv
    subst hv; simpa using hx
  induction n with
  | zero => intro s es r h; exact base _ _ _ (by simpa [pMany] using h)
  | succ n ih =>
    intro s es r h
    simp only [pMany] at h
    obtain ⟨w, hw, hs⟩ := skip_split s
    split at h
    · rename_i c t heq
      split at h
      · rename_i hop
        split at h
        · rename_i e r1 h1
          generalize h2 : pMany isOp last n r1 = p at h
          obtain ⟨es', r2⟩ := p
          simp only [Prod.mk.injEq] at h
          obtain ⟨rfl, rfl⟩ := h
          obtain ⟨u, a1, b1, c1, d1⟩ := hl _ _ _ h1
          obtain ⟨u', a2, b2, c2⟩ := ih _ _ _ h2
          refine ⟨w ++ c :: u ++ u', ?_, ?_, ?_⟩
          · rw [hs, heq, a1, a2]; simp
          · intro e' he'
            rcases List.mem_cons.1 he' with rfl | h
            · exact c1
            · exact b2 _ h
          · intro ρ x a v hx hv
            simp only [evalTail] at hv
            split at hv
            · rename_i b hb
              split at hv
              · rename_i a' ha'
                have := hc.2 ρ c x u w a b a' hop hx hw (d1 ρ b hb) ha'
                have := c2 ρ _ a' v this hv
                simpa [List.append_assoc] using this
              · cases hv
            · cases hv
        · exact base _ _ _ h
      · exact base _ _ _ h
    · exact base _ _ _ h

theorem sound_bin {op : Op} {isOp : Char → Bool} {l : Nat} (hc : Continues op isOp l) {last : P Expr}
    (hl : Sound l last) : Sound (l + 1) (pBin op isOp last) := by
  intro s e r h
  have hl6 : l < 6 := by have := hc.1; cases op <;> simp [Op.level] at this <;> omega
  unfold pBin at h
  split at h
  · rename_i h0 r0 hh
    obtain ⟨u, a, b, c, d⟩ := hl _ _ _ hh
    split at h
    · simp only [Option.some.injEq, Prod.mk.injEq] at h
      obtain ⟨rfl, rfl⟩ := h
      exact ⟨u, a, b, .up hl6 c, fun ρ v hv => conv_succ (d ρ v hv)⟩
    · rename_i t ts r' hm
      simp only [Option.some.injEq, Prod.mk.injEq] at h
      obtain ⟨rfl, rfl⟩ := h
      obtain ⟨u', a', b', c'⟩ := sound_many hc hl _ _ _ _ hm
      refine ⟨u ++ u', by rw [a, a']; simp, by simp [b], .bin hc.1 c (by simp) b', ?_⟩
      intro ρ v hv
      simp only [eval] at hv
      split at hv
      · rename_i v0 hv0
        exact c' ρ u v0 v (conv_succ (d ρ v0 hv0)) hv
      · cases hv
  · simp at h

theorem continues_div : Continues .div (· == '/') 2 := by
  refine ⟨rfl, ?_⟩
  intro ρ c s t w a b v hc hs hw ht hv
  simp at hc; subst hc
  simp only [Op.step] at hv
  split at hv
  · cases hv
  · rename_i hb
    simp only [Except.ok.injEq] at hv; subst hv
    exact .over hs hw ht hb

theorem continues_mul : Continues .mul (fun c => c == 'x' || c == 'X') 3 := by
  refine ⟨rfl, ?_⟩
  intro ρ c s t w a b v hc hs hw ht hv
  simp at hc
  simp only [Op.step, Except.ok.injEq] at hv; subst hv
  exact means_product_mul hs hw hc ht

theorem continues_sub : Continues .sub (· == '-') 4 := by
  refine ⟨rfl, ?_⟩
  intro ρ c s t w a b v hc hs hw ht hv
  simp at hc; subst hc
  simp only [Op.step, Except.ok.injEq] at hv; subst hv
  exact .sub hs hw ht

theorem continues_add : Continues .add (· == '+') 5 := by
  refine ⟨rfl, ?_⟩
  intro ρ c s t w a b v hc hs hw ht hv
  simp at hc; subst hc
  simp only [Op.step, Except.ok.injEq] at hv; subst hv
  exact means_sum_add hs hw ht

theorem sound_levels {inner : P Expr} (hi : Sound 6 inner) : Sound 6 (pLevels inner) := by
  refine sound_bin continues_add (sound_bin continues_sub (sound_bin continues_mul (sound_bin continues_div ?_)))
  intro s e r h
  refine sound_pos ?_ _ _ _ _ h
  intro s e r h
  exact sound_neg hi _ _ le_rfl _ _ h

theorem sound_expr (n : Nat) : Sound 6 (pExpr n) := by
  induction n with
  | zero => intro s e r h; simp [pExpr] at h
  | succ n ih => exact sound_levels ih

theorem sound_parse : Sound 6 parse := fun s e r h => sound_expr _ s e r h

end Verif.Math
