import Verif.Lemmas.Expr

/-!
# Parsing what the printer writes
-/

namespace Verif.Math

open Verif.Text Verif.Fmt Verif.Spec

/-- The levels of `pLevels` as a family indexed like `WF`. -/
def pAt (inner : P Expr) : Nat → P Expr
  | 0 => pFactor inner
  | n + 1 =>
    let last := pAt inner n
    if n = 0 then fun s => pUnary '-' .neg last s.length s
    else if n = 1 then fun s => pUnary '+' .pos last s.length s
    else if n = 2 then pBin .div (· == '/') last
    else if n = 3 then pBin .mul (fun c => c == 'x' || c == 'X') last
    else if n = 4 then pBin .sub (· == '-') last
    else pBin .add (· == '+') last

theorem pAt_zero (inner : P Expr) : pAt inner 0 = pFactor inner := rfl
theorem pAt_one (inner : P Expr) : pAt inner 1 = fun s => pUnary '-' .neg (pAt inner 0) s.length s := rfl
theorem pAt_two (inner : P Expr) : pAt inner 2 = fun s => pUnary '+' .pos (pAt inner 1) s.length s := rfl
theorem pAt_six (inner : P Expr) : pAt inner 6 = pLevels inner := rfl

/-- The character can not continue an expression of level `l`. -/
def Stops (l : Nat) (c : Char) : Prop :=
  isBlank c = false ∧ isDigit c = false ∧ c ≠ '.' ∧ (3 ≤ l → c ≠ '/') ∧ (4 ≤ l → c ≠ 'x' ∧ c ≠ 'X') ∧
    (5 ≤ l → c ≠ '-') ∧ (6 ≤ l → c ≠ '+')

/-- The text can follow an expression of level `l`. -/
def Follow (l : Nat) (rest : List Char) : Prop := ∀ c t, rest = c :: t → Stops l c

theorem Follow.nil (l : Nat) : Follow l [] := by intro c t h; cases h

theorem Stops.mono {l l' : Nat} {c : Char} (h : Stops l c) (hl : l' ≤ l) : Stops l' c := by
  obtain ⟨a, b, d, e, f, g, i⟩ := h
  exact ⟨a, b, d, fun x => e (by omega), fun x => f (by omega), fun x => g (by omega), fun x => i (by omega)⟩

theorem Follow.mono {l l' : Nat} {r : List Char} (h : Follow l r) (hl : l' ≤ l) : Follow l' r :=
  fun c t hc => (h c t hc).mono hl

/-- The number formatting `fd` writes `c` so that the grammar reads it back, whatever non-numeric text follows. -/
def Readable (fd : ℚ → List Char) (c : ℚ) : Prop :=
  (∃ d r, fd c = d :: r ∧ isDigit d = true) ∧
  ∀ rest, (∀ x t, rest = x :: t → isDigit x = false ∧ x ≠ '.') → pUnsigned (fd c ++ rest) = some (c, rest)

/-- Every constant of the tree satisfies `p`. -/
inductive Consts (p : ℚ → Prop) : Expr → Prop
  | const {c} : p c → Consts p (.const c)
  | var {n} : Consts p (.var n)
  | paren {e} : Consts p e → Consts p (.paren e)
  | neg {e} : Consts p e → Consts p (.neg e)
  | pos {e} : Consts p e → Consts p (.pos e)
  | bin {op h t} : Consts p h → (∀ e ∈ t, Consts p e) → Consts p (.bin op h t)

theorem isDigit_facts {c : Char} (h : isDigit c = true) :
    isBlank c = false ∧ c ≠ '+' ∧ c ≠ '-' ∧ c ≠ '$' ∧ c ≠ '(' ∧ c ≠ '.' := by
  simp [isDigit] at h
  have n32 : c ≠ ' ' := by rintro rfl; simp at h
  have n10 : c ≠ '\n' := by rintro rfl; simp at h
  have n9 : c ≠ '\t' := by rintro rfl; simp at h
  have n13 : c ≠ '\r' := by rintro rfl; simp at h
  refine ⟨by simp [isBlank, n32, n10, n9, n13], ?_, ?_, ?_, ?_, ?_⟩ <;> (rintro rfl; simp at h)

/-- First character of a printed tree. -/
theorem print_head {fd : ℚ → List Char} {l : Nat} {e : Expr} (hw : WF l e) (hc : Consts (Readable fd) e) :
    ∃ c t, print fd false e = c :: t ∧ isBlank c = false ∧ (l = 0 → c ≠ '-') ∧ (l ≤ 1 → c ≠ '+') := by
  induction hw with
  | const h =>
    cases hc with
    | const hr =>
      obtain ⟨d, r, h1, h2⟩ := hr.1
      obtain ⟨a, b, c, _⟩ := isDigit_facts h2
      exact ⟨d, r, by simp [print, h1], a, fun _ => c, fun _ => b⟩
  | @var d h1 h2 => exact ⟨'$', d, rfl, by decide, by decide, by decide⟩
  | paren h => exact ⟨'(', _, by simp [print]; rfl, by decide, by decide, by decide⟩
  | neg h => exact ⟨'-', _, by simp [print]; rfl, by decide, by omega, by decide⟩
  | pos h => exact ⟨'+', _, by simp [print]; rfl, by decide, by omega, by omega⟩
  | @bin op h t l hl hh hne ht ihh iht =>
    cases hc with
    | bin hc1 hc2 =>
      obtain ⟨c, u, h1, h2, h3, h4⟩ := ihh hc1
      have : 2 ≤ l := by cases op <;> simp [Op.level] at hl <;> omega
      exact ⟨c, u ++ printTail fd false op t, by simp [print, h1], h2, by omega, by omega⟩
  | @up l e hl h ih =>
    obtain ⟨c, u, h1, h2, h3, h4⟩ := ih hc
    exact ⟨c, u, h1, h2, by omega, fun _ => h4 (by omega)⟩

theorem pUnary_skip {sign : Char} {node : Expr → Expr} {last : P Expr} {c : Char} {t : List Char}
    (hb : isBlank c = false) (hs : c ≠ sign) (n : Nat) : pUnary sign node last n (c :: t) = last (c :: t) := by
  cases n with
  | zero => rfl
  | succ n => simp [pUnary, skip_of_head hb, hs]

theorem pMany_stop {isOp : Char → Bool} {last : P Expr} {r : List Char}
    (h : ∀ c t, r = c :: t → isBlank c = false ∧ isOp c = false) (n : Nat) : pMany isOp last n r = ([], r) := by
  cases n with
  | zero => rfl
  | succ n =>
    cases r with
    | nil => simp [pMany]
    | cons c t => obtain ⟨h1, h2⟩ := h c t rfl; simp [pMany, skip_of_head h1, h2]

/-- The operator recognised at a binary level. -/
def Op.isOp : Op → Char → Bool
  | .div => (· == '/')
  | .mul => fun c => c == 'x' || c == 'X'
  | .sub => (· == '-')
  | .add => (· == '+')

theorem pAt_bin (inner : P Expr) {op : Op} {l : Nat} (hl : l + 1 = op.level) :
    pAt inner (l + 1) = pBin op op.isOp (pAt inner l) := by
  cases op <;> simp only [Op.level] at hl
  · have : l = 5 := by omega
    subst this; rfl
  · have : l = 4 := by omega
    subst this; rfl
  · have : l = 3 := by omega
    subst this; rfl
  · have : l = 2 := by omega
    subst this; rfl

theorem level_cases {l : Nat} (h : l < 6) (h2 : 2 ≤ l) : ∃ op : Op, l + 1 = op.level := by
  have : l = 2 ∨ l = 3 ∨ l = 4 ∨ l = 5 := by omega
  rcases this with rfl | rfl | rfl | rfl
  exacts [⟨.div, rfl⟩, ⟨.mul, rfl⟩, ⟨.sub, rfl⟩, ⟨.add, rfl⟩]

theorem stops_not_op {op : Op} {c : Char} (h : Stops op.level c) : isBlank c = false ∧ op.isOp c = false := by
  obtain ⟨a, b, d, e, f, g, i⟩ := h
  refine ⟨a, ?_⟩
  cases op <;> simp [Op.level] at * <;> simp [Op.isOp, *]

theorem char_stops (op : Op) {l : Nat} (hl : l + 1 = op.level) : Stops l op.char := by
  cases op <;> simp only [Op.level] at hl
  · have : l = 5 := by omega
    subst this; simp [Stops, Op.char]; decide
  · have : l = 4 := by omega
    subst this; simp [Stops, Op.char]; decide
  · have : l = 3 := by omega
    subst this; simp [Stops, Op.char]; decide
  · have : l = 2 := by omega
    subst this; simp [Stops, Op.char]; decide

theorem char_isOp (op : Op) : op.isOp op.char = true ∧ isBlank op.char = false := by cases op <;> decide

theorem length_printTail (fd : ℚ → List Char) (op : Op) (t : List Expr) :
    ∀ e ∈ t, (print fd false e).length < (printTail fd false op t).length := by
  induction t with
  | nil => simp
  | cons a t ih =>
    intro e he
    simp only [printTail, List.cons_append, List.length_cons, List.length_append]
    rcases List.mem_cons.1 he with rfl | h
    · omega
    · have := ih e h; omega

theorem count_printTail (fd : ℚ → List Char) (op : Op) (t : List Expr) :
    t.length ≤ (printTail fd false op t).length := by
  induction t with
  | nil => simp
  | cons a t ih => simp only [printTail, List.cons_append, List.length_cons, List.length_append]; omega

theorem pMany_print {fd : ℚ → List Char} {op : Op} {l : Nat} (hl : l + 1 = op.level) {last : P Expr}
    {t : List Expr} (ih : ∀ e ∈ t, ∀ rest, Follow l rest → last (print fd false e ++ rest) = some (e, rest)) :
    ∀ n rest, t.length ≤ n → Follow (l + 1) rest →
      pMany op.isOp last n (printTail fd false op t ++ rest) = (t, rest) := by
  induction t with
  | nil =>
    intro n rest _ hf
    simp only [printTail, List.nil_append]
    exact pMany_stop (fun c t h => stops_not_op (hl ▸ hf c t h)) n
  | cons a t iht =>
    intro n rest hn hf
    cases n with
    | zero => simp at hn
    | succ n =>
      obtain ⟨h1, h2⟩ := char_isOp op
      have hfol : Follow l (printTail fd false op t ++ rest) := by
        intro c u hc
        cases t with
        | nil => simp only [printTail, List.nil_append] at hc; exact (hf c u hc).mono (by omega)
        | cons b t =>
          simp only [printTail, List.cons_append, List.cons.injEq] at hc
          rw [← hc.1]; exact char_stops op hl
      simp only [printTail, List.cons_append, List.append_assoc, pMany, skip_of_head h2, h1, if_true]
      rw [ih a (by simp) _ hfol]
      simp only
      rw [iht (fun e he => ih e (by simp [he])) n rest (by simpa using hn) hf]

/-- Printing with the ordinary options and parsing at the level of the tree gives the tree back. -/
theorem parse_print {fd : ℚ → List Char} {l : Nat} {e : Expr} (hw : WF l e) (hc : Consts (Readable fd) e) :
    ∀ n rest, (print fd false e).length ≤ n → Follow l rest →
      pAt (pExpr n) l (print fd false e ++ rest) = some (e, rest) := by
  induction hw with
  | @const c h =>
    intro n rest hn hf
    cases hc with
    | const hr =>
      obtain ⟨d, r, h1, h2⟩ := hr.1
      obtain ⟨hb, hp, hm, hd, hpar, _⟩ := isDigit_facts h2
      have h3 := hr.2 rest (fun x t hx => ⟨(hf x t hx).2.1, (hf x t hx).2.2.1⟩)
      simp only [print, pAt_zero, pFactor]
      have hv : pVar (fd c ++ rest) = none := by
        rw [h1, List.cons_append]; simp [pVar, skip_of_head hb, hd]
      have hk : pConst (fd c ++ rest) = some (.const c, rest) := by
        rw [h1, List.cons_append] at h3 ⊢
        simp only [pConst, skip_of_head hb]
        have : pDouble (d :: (r ++ rest)) = pUnsigned (d :: (r ++ rest)) := by
          unfold pDouble
          split
          · rename_i heq; simp at heq; exact absurd heq.1 hp
          · rename_i heq; simp at heq; exact absurd heq.1 hm
          · rfl
        rw [this, h3]; rfl
      rw [hv, hk]; rfl
  | @var d h1 h2 =>
    intro n rest hn hf
    simp only [print, pAt_zero, pFactor]
    have : pVar ('$' :: d ++ rest) = some (.var ('$' :: d), rest) := by
      have hdg := digits_append h2 (fun c t hct => (hf c t hct).2.1)
      simp [pVar, skip_of_head (show isBlank '$' = false by decide), hdg, h1]
    rw [this]; rfl
  | @paren e h ih =>
    intro n rest hn hf
    cases hc with
    | paren hc' =>
      simp only [print, Bool.false_eq_true, if_false, List.cons_append, List.nil_append, List.length_cons,
        List.length_append, List.length_nil, List.append_assoc] at hn ⊢
      cases n with
      | zero => omega
      | succ n =>
        have h1 := ih hc' n (')' :: rest) (by omega) (by
          intro c t hct; simp at hct; rw [← hct.1]; simp [Stops]; decide)
        rw [pAt_six] at h1
        have e1 : pExpr (n + 1) = pLevels (pExpr n) := rfl
        simp only [pAt_zero, pFactor]
        have hv : ∀ t, pVar ('(' :: t) = none := by
          intro t; simp [pVar, skip_of_head (show isBlank '(' = false by decide)]
        have hk : ∀ t, pConst ('(' :: t) = none := by
          intro t
          simp [pConst, skip_of_head (show isBlank '(' = false by decide), pDouble, pUnsigned, digits,
            show isDigit '(' = false by decide]
        rw [hv, hk]
        simp only [Option.orElse_none]
        simp [pParen, skip_of_head (show isBlank '(' = false by decide), e1, h1,
          skip_of_head (show isBlank ')' = false by decide)]
  | @neg e h ih =>
    intro n rest hn hf
    cases hc with
    | neg hc' =>
      simp only [print, List.length_cons] at hn
      have h1 := ih hc' n rest (by omega) hf
      simp only [pAt_one, pAt_two] at h1
      simp [print, pAt_one, pAt_two, pUnary, skip_of_head (show isBlank '-' = false by decide)]
      simp at h1
      rw [h1]
  | @pos e h ih =>
    intro n rest hn hf
    cases hc with
    | pos hc' =>
      simp only [print, List.length_cons] at hn
      have h1 := ih hc' n rest (by omega) hf
      simp only [pAt_one, pAt_two] at h1
      simp [print, pAt_one, pAt_two, pUnary, skip_of_head (show isBlank '+' = false by decide)]
      simp at h1
      rw [h1]
  | @bin op h t l hl hh hne ht ihh iht =>
    intro n rest hn hf
    cases hc with
    | bin hc1 hc2 =>
      have e1 : print fd false (.bin op h t) = print fd false h ++ printTail fd false op t := by simp [print]
      rw [e1] at hn ⊢
      simp only [List.length_append] at hn
      rw [pAt_bin _ hl, List.append_assoc]
      have hmany : ∀ m, t.length ≤ m → pMany op.isOp (pAt (pExpr n) l) m (printTail fd false op t ++ rest) = (t, rest) := by
        intro m hm
        refine pMany_print hl ?_ m rest hm hf
        intro e he rest' hf'
        have := length_printTail fd op t e he
        exact iht e he (hc2 e he) n rest' (by omega) hf'
      have hfol : Follow l (printTail fd false op t ++ rest) := by
        intro c u hcu
        cases t with
        | nil => exact absurd rfl hne
        | cons b t =>
          simp only [printTail, List.cons_append, List.cons.injEq] at hcu
          rw [← hcu.1]; exact char_stops op hl
      have hh1 := ihh hc1 n (printTail fd false op t ++ rest) (by omega) hfol
      have hcnt := count_printTail fd op t
      simp only [pBin, hh1]
      rw [hmany _ (by simp only [List.length_append]; omega)]
      cases t with
      | nil => exact absurd rfl hne
      | cons b t => rfl
  | @up l e hl h ih =>
    intro n rest hn hf
    have h1 := ih hc n rest hn (hf.mono (by omega))
    obtain ⟨c, u, e1, hb, h3, h4⟩ := print_head h hc
    rcases (by omega : l = 0 ∨ l = 1 ∨ 2 ≤ l) with rfl | rfl | h2
    · simp only [Nat.zero_add, Nat.reduceAdd, pAt_one, pAt_two] at h1 ⊢
      rw [e1, List.cons_append] at h1 ⊢
      rw [pUnary_skip hb (h3 rfl), h1]
    · simp only [Nat.zero_add, Nat.reduceAdd, pAt_one, pAt_two] at h1 ⊢
      rw [e1, List.cons_append] at h1 ⊢
      rw [pUnary_skip hb (h4 (by omega)), h1]
    · obtain ⟨op, hop⟩ := level_cases hl h2
      rw [pAt_bin _ hop]
      simp only [pBin, h1]
      rw [pMany_stop (fun c t hct => stops_not_op (hop ▸ hf c t hct))]

end Verif.Math
