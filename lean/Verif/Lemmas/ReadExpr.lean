import Verif.Lemmas.Written
import Verif.Lemmas.Peg

/-!
# Spellings of expressions are read as these expressions
-/

namespace Verif.Reading

open Verif.Text Verif.Fmt Verif.Peg Verif.Spec
open Verif.Math hiding P

/-! ## Numbers -/

theorem read_unsigned {u r : Text} {q : ℚ} (h : UnsignedText u q) (hr : NumEnd r) : pUnsigned (u ++ r) = some (q, r) := by
  cases h with
  | whole h1 h2 => rw [pUnsigned_int ((all_isDigit_iff _).2 h1) h2 hr, floatOf_num]
  | decimal h1 h2 h3 =>
    have := pUnsigned_dec ((all_isDigit_iff _).2 h1) ((all_isDigit_iff _).2 h2) h3 (fun c t e => (hr c t e).1)
    rw [floatOf_dec] at this
    simpa using this

theorem unsigned_head {u : Text} {q : ℚ} (h : UnsignedText u q) :
    ∃ c t, u = c :: t ∧ isBlank c = false ∧ c ≠ '-' ∧ c ≠ '+' ∧ c ≠ '$' ∧ c ≠ '(' := by
  have key : ∀ {i : Text}, Digits i → i ≠ [] →
      ∃ c t, i = c :: t ∧ isBlank c = false ∧ c ≠ '-' ∧ c ≠ '+' ∧ c ≠ '$' ∧ c ≠ '(' := by
    intro i h1 h2
    cases i with
    | nil => exact absurd rfl h2
    | cons c t =>
      have := (all_isDigit_iff _).2 h1
      simp only [List.all_cons, Bool.and_eq_true] at this
      obtain ⟨a, b, d, e, f, -⟩ := isDigit_facts this.1
      exact ⟨c, t, rfl, a, d, b, e, f⟩
  cases h with
  | whole h1 h2 => exact key h1 h2
  | @decimal i f h1 h2 h3 =>
    cases i with
    | nil => exact ⟨'.', f, rfl, by decide, by decide, by decide, by decide, by decide⟩
    | cons c t =>
      obtain ⟨c', t', e, h⟩ := key h1 (by simp)
      obtain ⟨rfl, rfl⟩ := List.cons.inj e
      exact ⟨c, _, rfl, h⟩

theorem pDouble_plain {c : Char} {t : Text} (h : c ≠ '-') (h' : c ≠ '+') : pDouble (c :: t) = pUnsigned (c :: t) := by
  unfold pDouble
  split
  · rename_i e; simp at e; exact absurd e.1 h'
  · rename_i e; simp at e; exact absurd e.1 h
  · rfl

theorem read_number {u r : Text} {q : ℚ} (h : NumberText u q) (hr : NumEnd r) : pDouble (u ++ r) = some (q, r) := by
  obtain ⟨s, v, x, hv, rfl, rfl⟩ := h
  have := read_unsigned hv hr
  cases s with
  | none =>
    obtain ⟨c, t, rfl, -, h1, h2, -⟩ := unsigned_head hv
    simp only [Sign.text, List.nil_append, Sign.factor, one_mul]
    rw [← this]
    exact pDouble_plain h1 h2
  | plus => simp [Sign.text, pDouble, this, Sign.factor]
  | minus => simp [Sign.text, pDouble, this, Sign.factor]

theorem number_head {u : Text} {q : ℚ} (h : NumberText u q) : ∃ c t, u = c :: t ∧ isBlank c = false := by
  obtain ⟨s, v, x, hv, rfl, rfl⟩ := h
  obtain ⟨c, t, rfl, h1, -⟩ := unsigned_head hv
  cases s
  · exact ⟨_, _, rfl, h1⟩
  · exact ⟨_, _, rfl, by decide⟩
  · exact ⟨_, _, rfl, by decide⟩

/-! ## Expressions -/

/-- What may follow an expression of a level. -/
def After (l : Nat) (r : Text) : Prop := Follow l (skip r)

theorem After.mono {l l' : Nat} {r : Text} (h : After l r) (hl : l' ≤ l) : After l' r := Follow.mono h hl

theorem After.num {l : Nat} {r : Text} (h : After l r) : NumEnd r := by
  intro c t e
  cases hb : isBlank c with
  | true =>
    simp only [isBlank, Bool.or_eq_true, beq_iff_eq] at hb
    obtain ((rfl | rfl) | rfl) | rfl := hb <;> decide
  | false =>
    have := h c t (by rw [e, skip_of_head hb])
    exact ⟨this.2.1, this.2.2.1⟩

theorem after_blank {l : Nat} {b : Text} {c : Char} {t : Text} (hb : Blank b) (h : Stops l c) : After l (b ++ c :: t) := by
  intro d u e
  rw [skip_blank hb, skip_of_head h.1] at e
  obtain ⟨rfl, rfl⟩ := List.cons.inj e
  exact h

theorem pUnary_fuel {sign : Char} {node : Expr → Expr} {last : Math.P Expr} :
    ∀ (k : Nat) (s : Text), s.length ≤ k → ∀ m, s.length ≤ m → pUnary sign node last m s = pUnary sign node last s.length s := by
  intro k
  induction k with
  | zero =>
    intro s hs m hm
    have : s = [] := List.eq_nil_of_length_eq_zero (by omega)
    subst this
    cases m <;> simp [pUnary, skip]
  | succ k ih =>
    intro s hs m hm
    cases hsk : skip s with
    | nil =>
      cases m <;> cases hl : s.length <;> simp [pUnary, hsk]
    | cons c r =>
      have hlen := skip_length s
      rw [hsk, List.length_cons] at hlen
      obtain ⟨m, rfl⟩ := Nat.exists_eq_succ_of_ne_zero (show m ≠ 0 by omega)
      obtain ⟨j, hj⟩ := Nat.exists_eq_succ_of_ne_zero (show s.length ≠ 0 by omega)
      rw [hj]
      simp only [pUnary, hsk]
      rw [ih r (by omega) m (by omega), ih r (by omega) j (by omega)]

theorem pUnary_pass {sign : Char} {node : Expr → Expr} {last : Math.P Expr} {b : Text} {c : Char} {t : Text} (hb : Blank b)
    (hc : isBlank c = false) (hs : c ≠ sign) (n : Nat) : pUnary sign node last n (b ++ c :: t) = last (b ++ c :: t) := by
  cases n with
  | zero => rfl
  | succ n => simp [pUnary, skip_blank hb, skip_of_head hc, hs]

theorem pUnary_sign {sign : Char} {node : Expr → Expr} {last : Math.P Expr} {b t r : Text} {e : Expr} (hb : Blank b)
    (hc : isBlank sign = false) (h : pUnary sign node last t.length t = some (e, r)) :
    pUnary sign node last (b ++ sign :: t).length (b ++ sign :: t) = some (node e, r) := by
  have : (b ++ sign :: t).length = (b.length + t.length) + 1 := by simp; omega
  rw [this]
  simp only [pUnary, skip_blank hb, skip_of_head hc, if_true]
  rw [pUnary_fuel t.length t le_rfl _ (by omega), h]

/-- The first character of an expression that is no blank. -/
theorem expr_head : ∀ {e : Expr} {w : Text}, w ∈ exprText e →
    ∃ b c t, w = b ++ c :: t ∧ Blank b ∧ isBlank c = false ∧ (rank e ≤ 0 → c ≠ '-') ∧ (rank e ≤ 1 → c ≠ '+') ∧
      c :: t ∈ exprText e
  | .const q, w, h => by
    rw [exprText] at h
    obtain ⟨b, u, hb, hu, rfl⟩ := h
    obtain ⟨c, t, rfl, h1, h2, h3, -⟩ := unsigned_head hu
    rw [exprText]
    exact ⟨b, c, t, rfl, hb, h1, fun _ => h2, fun _ => h3, [], _, blank_nil, hu, rfl⟩
  | .var n, w, h => by
    rw [exprText] at h
    obtain ⟨b, u, hb, ⟨rfl, ds, h1, h2, rfl⟩, rfl⟩ := h
    rw [exprText]
    exact ⟨b, '$', ds, rfl, hb, by decide, fun _ => by decide, fun _ => by decide, [], _, blank_nil, ⟨rfl, ds, h1, h2, rfl⟩, rfl⟩
  | .paren e, w, h => by
    rw [exprText, mul_assoc] at h
    obtain ⟨x, ⟨b, u, hb, rfl, rfl⟩, y, hy, rfl⟩ := Language.mem_mul.1 h
    rw [exprText, mul_assoc]
    exact ⟨b, '(', y, by simp, hb, by decide, fun _ => by decide, fun _ => by decide,
      Language.mem_mul.2 ⟨['('], ⟨[], _, blank_nil, rfl, rfl⟩, y, hy, rfl⟩⟩
  | .neg e, w, h => by
    rw [exprText] at h
    obtain ⟨x, ⟨b, u, hb, rfl, rfl⟩, y, hy, rfl⟩ := Language.mem_mul.1 h.2
    rw [exprText]
    exact ⟨b, '-', y, by simp, hb, by decide, fun h => by simp [rank] at h, fun _ => by decide, h.1,
      Language.mem_mul.2 ⟨['-'], ⟨[], _, blank_nil, rfl, rfl⟩, y, hy, rfl⟩⟩
  | .pos e, w, h => by
    rw [exprText] at h
    obtain ⟨x, ⟨b, u, hb, rfl, rfl⟩, y, hy, rfl⟩ := Language.mem_mul.1 h.2
    rw [exprText]
    exact ⟨b, '+', y, by simp, hb, by decide, fun h => by simp [rank] at h, fun h => by simp [rank] at h, h.1,
      Language.mem_mul.2 ⟨['+'], ⟨[], _, blank_nil, rfl, rfl⟩, y, hy, rfl⟩⟩
  | .bin op a as, w, h => by
    rw [exprText] at h
    obtain ⟨x, hx, y, hy, rfl⟩ := Language.mem_mul.1 h.2
    obtain ⟨b, c, t, rfl, h1, h2, -, -, h3⟩ := expr_head hx
    rw [exprText]
    exact ⟨b, c, t ++ y, by simp, h1, h2, fun h => by cases op <;> simp [rank] at h, fun h => by cases op <;> simp [rank] at h,
      h.1, Language.mem_mul.2 ⟨c :: t, h3, y, hy, rfl⟩⟩

theorem rank_level (op : Op) (h : Expr) (t : List Expr) : rank (.bin op h t) = op.level := by cases op <;> rfl

theorem rank_le (e : Expr) : rank e ≤ 6 := by
  cases e with
  | bin op h t => cases op <;> simp [rank]
  | _ => simp [rank]

/-- An expression that is read at a level is read at the levels above. -/
theorem read_up {inner : Math.P Expr} {e : Expr} {w : Text} {l : Nat} (hw : w ∈ exprText e)
    (h : ∀ r, After l r → pAt inner l (w ++ r) = some (e, r)) (hr : rank e ≤ l) :
    ∀ m, l ≤ m → m ≤ 6 → ∀ r, After m r → pAt inner m (w ++ r) = some (e, r) := by
  intro m hm
  induction m, hm using Nat.le_induction with
  | base => exact fun _ => h
  | succ m hm ih =>
    intro h6 r hf
    have h1 := ih (by omega) r (hf.mono (by omega))
    obtain ⟨b, c, t, rfl, hb, hc, hc1, hc2, -⟩ := expr_head hw
    rw [List.append_assoc, List.cons_append] at h1 ⊢
    rcases (by omega : m = 0 ∨ m = 1 ∨ 2 ≤ m) with rfl | rfl | h2
    · rw [pAt_one]
      simp only
      rw [pUnary_pass hb hc (hc1 (by omega)), h1]
    · rw [pAt_two]
      simp only
      rw [pUnary_pass hb hc (hc2 (by omega)), h1]
    · obtain ⟨op, hop⟩ := level_cases (by omega : m < 6) h2
      rw [pAt_bin _ hop]
      simp only [pBin, h1]
      have hs : ∀ n, pMany op.isOp (pAt inner m) n r = ([], r) := by
        intro n
        cases n with
        | zero => rfl
        | succ n =>
          cases hsk : skip r with
          | nil => simp [pMany, hsk]
          | cons d u =>
            have := stops_not_op (hop ▸ hf d u hsk)
            simp [pMany, hsk, this.2]
      rw [hs]

theorem opText_split {op : Op} {w : Text} (h : w ∈ opText op) :
    ∃ b c, w = b ++ [c] ∧ Blank b ∧ op.isOp c = true ∧ isBlank c = false ∧ ∀ l, l + 1 = op.level → Stops l c := by
  cases op
  · obtain ⟨b, u, hb, rfl, rfl⟩ := h
    refine ⟨b, '+', rfl, hb, by decide, by decide, fun l hl => ?_⟩
    exact char_stops .add hl
  · obtain ⟨b, u, hb, rfl, rfl⟩ := h
    refine ⟨b, '-', rfl, hb, by decide, by decide, fun l hl => ?_⟩
    exact char_stops .sub hl
  · obtain ⟨b, u, hb, rfl | rfl, rfl⟩ := h
    · exact ⟨b, 'x', rfl, hb, by decide, by decide, fun l hl => char_stops .mul hl⟩
    · refine ⟨b, 'X', rfl, hb, by decide, by decide, fun l hl => ?_⟩
      simp only [Op.level] at hl
      have : l = 3 := by omega
      subst this
      simp [Stops]; decide
  · obtain ⟨b, u, hb, rfl, rfl⟩ := h
    refine ⟨b, '/', rfl, hb, by decide, by decide, fun l hl => ?_⟩
    exact char_stops .div hl

/-- The operands of an operator are read. -/
theorem read_operands {inner : Math.P Expr} {op : Op} {l N : Nat} (hl : l + 1 = op.level)
    (ih : ∀ (e : Expr) (w : Text), w ∈ exprText e → w.length < N → rank e ≤ l → ∀ r, After l r → pAt inner l (w ++ r) = some (e, r)) :
    ∀ (t : List Expr) (w : Text), w ∈ operandsText op t → w.length ≤ N → ∀ n r, w.length ≤ n → After (l + 1) r →
      pMany op.isOp (pAt inner l) n (w ++ r) = (t, r) ∧ After l (w ++ r)
  | [], w, hw, _, n, r, hn, hf => by
    rw [operandsText] at hw
    obtain rfl := (Language.mem_one w).1 hw
    refine ⟨?_, hf.mono (by omega)⟩
    cases n with
    | zero => rfl
    | succ n =>
      rw [List.nil_append]
      cases hsk : skip r with
      | nil => simp [pMany, hsk]
      | cons d u =>
        have := stops_not_op (hl ▸ hf d u hsk)
        simp [pMany, hsk, this.2]
  | e :: es, w, hw, hN, n, r, hn, hf => by
    rw [operandsText] at hw
    obtain ⟨x, ⟨hr, hx⟩, y, hy, rfl⟩ := Language.mem_mul.1 hw
    obtain ⟨o, ho, v, hv, rfl⟩ := Language.mem_mul.1 hx
    obtain ⟨b, c, rfl, hb, h1, h2, h3⟩ := opText_split ho
    simp only [List.length_append, List.length_cons, List.length_nil] at hn hN
    obtain ⟨n, rfl⟩ := Nat.exists_eq_succ_of_ne_zero (show n ≠ 0 by omega)
    obtain ⟨g1, g2⟩ := read_operands hl ih es y hy (by omega) n r (by omega) hf
    rw [rank_level] at hr
    have e1 : b ++ [c] ++ v ++ y ++ r = b ++ c :: (v ++ (y ++ r)) := by simp
    rw [e1]
    refine ⟨?_, after_blank hb (h3 l hl)⟩
    simp only [pMany, skip_blank hb, skip_of_head h2, h1, if_true]
    rw [ih e v hv (by omega) (by omega) _ g2]
    simp only [g1]

theorem pVar_none {b : Text} {c : Char} {t : Text} (hb : Blank b) (hc : isBlank c = false) (h : c ≠ '$') : pVar (b ++ c :: t) = none := by
  simp [pVar, skip_blank hb, skip_of_head hc, h]

theorem read_const {b u r : Text} {q : ℚ} (hb : Blank b) (hu : UnsignedText u q) (hr : NumEnd r) (inner : Math.P Expr) :
    pFactor inner (b ++ (u ++ r)) = some (.const q, r) := by
  obtain ⟨c, t, rfl, h1, h2, h3, h4, -⟩ := unsigned_head hu
  have := read_unsigned hu hr
  rw [List.cons_append] at this ⊢
  simp [pFactor, pVar_none hb h1 h4, pConst, skip_blank hb, skip_of_head h1, pDouble_plain h2 h3, this]

theorem read_plus {b u r : Text} {q : ℚ} (hb : Blank b) (hu : UnsignedText u q) (hr : NumEnd r) (inner : Math.P Expr) :
    pFactor inner (b ++ '+' :: (u ++ r)) = some (.const q, r) := by
  have := read_unsigned hu hr
  simp [pFactor, pVar_none hb (show isBlank '+' = false by decide) (by decide), pConst, skip_blank hb,
    skip_of_head (show isBlank '+' = false by decide), pDouble, this]

/-- Every spelling of an expression is read as the expression. -/
theorem read_expr : ∀ (N : Nat) (e : Expr) (w : Text), w ∈ exprText e → w.length ≤ N → ∀ n, w.length ≤ n → ∀ l, rank e ≤ l → l ≤ 6 →
    ∀ r, After l r → pAt (pExpr n) l (w ++ r) = some (e, r) := by
  intro N
  induction N with
  | zero =>
    intro e w hw hN
    obtain ⟨b, c, t, rfl, -⟩ := expr_head hw
    simp at hN
  | succ N ih =>
    intro e w hw hN n hn l hl h6
    refine read_up hw ?_ le_rfl l hl h6
    intro r hf
    cases e with
    | const q =>
      rw [exprText] at hw
      obtain ⟨b, u, hb, hu, rfl⟩ := hw
      rw [List.append_assoc]
      exact read_const hb hu hf.num _
    | var m =>
      rw [exprText] at hw
      obtain ⟨b, u, hb, ⟨rfl, ds, h1, h2, rfl⟩, rfl⟩ := hw
      have hd := digits_append ((all_isDigit_iff _).2 h1) (fun c t hct => (hf.num c t hct).1)
      have : pVar (b ++ '$' :: (ds ++ r)) = some (.var ('$' :: ds), r) := by
        simp [pVar, skip_blank hb, skip_of_head (show isBlank '$' = false by decide), hd, h2]
      rw [List.append_assoc, List.cons_append]
      show pFactor _ _ = _
      rw [pFactor, this]; rfl
    | paren e =>
      rw [exprText, mul_assoc] at hw
      obtain ⟨x, ⟨b, u, hb, rfl, rfl⟩, y, hy, rfl⟩ := Language.mem_mul.1 hw
      obtain ⟨v, hv, z, ⟨b', u, hb', rfl, rfl⟩, rfl⟩ := Language.mem_mul.1 hy
      simp only [List.length_append, List.length_cons, List.length_nil] at hN hn
      obtain ⟨n, rfl⟩ := Nat.exists_eq_succ_of_ne_zero (show n ≠ 0 by omega)
      have h1 := ih e v hv (by omega) n (by omega) 6 (rank_le e) le_rfl (b' ++ ')' :: r)
        (after_blank hb' (by simp [Stops]; decide))
      rw [pAt_six] at h1
      have e1 : pExpr (n + 1) = pLevels (pExpr n) := rfl
      have e2 : b ++ ['('] ++ (v ++ (b' ++ [')'])) ++ r = b ++ '(' :: (v ++ (b' ++ ')' :: r)) := by simp
      rw [e2]
      show pFactor _ _ = _
      have hk : pConst (b ++ '(' :: (v ++ (b' ++ ')' :: r))) = none := by
        simp [pConst, skip_blank hb, skip_of_head (show isBlank '(' = false by decide), pDouble, pUnsigned, digits,
            show isDigit '(' = false by decide]
      rw [pFactor, pVar_none hb (by decide) (by decide), hk]
      simp [pParen, skip_blank hb, skip_blank hb', skip_of_head (show isBlank '(' = false by decide), e1, h1,
          skip_of_head (show isBlank ')' = false by decide)]
    | neg e =>
      rw [exprText] at hw
      obtain ⟨hr, hw⟩ := hw
      obtain ⟨x, ⟨b, u, hb, rfl, rfl⟩, y, hy, rfl⟩ := Language.mem_mul.1 hw
      simp only [List.length_append, List.length_cons, List.length_nil] at hN hn
      have e2 : b ++ ['-'] ++ y ++ r = b ++ '-' :: (y ++ r) := by simp
      rw [e2]
      show pUnary '-' .neg (pAt _ 0) _ _ = _
      refine pUnary_sign hb (by decide) ?_
      obtain hy | hy := (Language.mem_add _ _ _).1 hy
      · exact ih e y hy (by omega) n (by omega) 1 hr (by omega) r hf
      · cases e with
        | const q =>
          obtain ⟨b', _, hb', ⟨u, hu, rfl⟩, rfl⟩ := hy
          rw [List.append_assoc, List.cons_append, pUnary_pass hb' (by decide) (by decide)]
          exact read_plus hb' hu hf.num _
        | _ => exact hy.elim
    | pos e =>
      rw [exprText] at hw
      obtain ⟨hr, hw⟩ := hw
      obtain ⟨x, ⟨b, u, hb, rfl, rfl⟩, y, hy, rfl⟩ := Language.mem_mul.1 hw
      simp only [List.length_append, List.length_cons, List.length_nil] at hN hn
      have e2 : b ++ ['+'] ++ y ++ r = b ++ '+' :: (y ++ r) := by simp
      rw [e2]
      show pUnary '+' .pos (pAt _ 1) _ _ = _
      refine pUnary_sign hb (by decide) ?_
      exact ih e y hy (by omega) n (by omega) 2 hr (by omega) r hf
    | bin op a as =>
      rw [exprText] at hw
      obtain ⟨⟨hr, hne⟩, hw⟩ := hw
      obtain ⟨x, hx, y, hy, rfl⟩ := Language.mem_mul.1 hw
      rw [rank_level] at hr hf ⊢
      obtain ⟨l, hl⟩ : ∃ l, l + 1 = op.level := by cases op <;> exact ⟨_, rfl⟩
      have hl6 : l + 1 ≤ 6 := by rw [hl]; cases op <;> simp [Op.level]
      rw [← hl] at hr hf ⊢
      simp only [List.length_append] at hN hn
      have hy0 : 0 < y.length := by
        cases as with
        | nil => exact absurd rfl hne
        | cons b bs =>
          rw [operandsText] at hy
          obtain ⟨o, ⟨-, ho⟩, v, -, rfl⟩ := Language.mem_mul.1 hy
          obtain ⟨o, ho', v', -, rfl⟩ := Language.mem_mul.1 ho
          obtain ⟨b, c, rfl, -⟩ := opText_split ho'
          simp
      obtain ⟨b, c, t, rfl, -⟩ := expr_head hx
      have hx0 : 0 < (b ++ c :: t).length := by simp
      obtain ⟨g1, g2⟩ := read_operands (inner := pExpr n) (N := min (N + 1) (n + 1)) hl
        (fun e w hw hN' hr r hf => ih e w hw (by omega) n (by omega) l hr (by omega) r hf) as y hy (by omega) (y ++ r).length r
        (by simp) hf
      rw [pAt_bin _ hl, List.append_assoc]
      simp only [pBin]
      rw [ih a _ hx (by omega) n (by omega) l (by omega) (by omega) _ g2]
      simp only [g1]
      cases as with
      | nil => exact absurd rfl hne
      | cons b bs => rfl

/-- The expression reader reads spellings of expressions. -/
theorem expr_read {e : Expr} {w r : Text} (hw : w ∈ exprText e) (hr : After 6 r) : expr (w ++ r) = .ok e r := by
  obtain ⟨b, c, t, rfl, hb, hc, -, -, h2⟩ := expr_head hw
  have h3 := read_expr _ _ _ h2 le_rfl (c :: t ++ r).length (by simp) 6 (rank_le e) le_rfl r hr
  rw [pAt_six] at h3
  have h4 : parse (c :: t ++ r) = some (e, r) := h3
  simp only [expr, List.append_assoc, skip_blank hb, List.cons_append, skip_of_head hc]
  rw [List.cons_append] at h4
  rw [h4]

end Verif.Reading
