import Verif.Lemmas.Fmt

/-!
# The conventional meaning of a text is unique

A small reference reader, used only in this proof.
-/

namespace Verif.Spec

open Verif.Text Verif.Fmt Verif.Math

/-- What the reference reader is looking for. -/
inductive Mode
  | prim | signed | prod | sum
  | moreProd (a : ℚ)
  | moreSum (a : ℚ)

/-- Reference reader. -/
def R (ρ : List Char → Option ℚ) : Nat → Mode → List Char → Option (ℚ × List Char)
  | 0, _, _ => none
  | n + 1, .prim, s =>
    match skip s with
    | '$' :: r => (ρ ('$' :: (digits r).1)).map (fun v => (v, (digits r).2))
    | '(' :: r =>
      match R ρ n .sum r with
      | some (v, r') => match skip r' with
        | ')' :: r'' => some (v, r'')
        | _ => none
      | none => none
    | s => pUnsigned s
  | n + 1, .signed, s =>
    match skip s with
    | '-' :: r => (R ρ n .signed r).map (fun p => (-p.1, p.2))
    | '+' :: r => R ρ n .signed r
    | _ => R ρ n .prim s
  | n + 1, .prod, s =>
    match R ρ n .signed s with
    | some (a, r) => R ρ n (.moreProd a) r
    | none => none
  | n + 1, .sum, s =>
    match R ρ n .prod s with
    | some (a, r) => R ρ n (.moreSum a) r
    | none => none
  | n + 1, .moreProd a, s =>
    match skip s with
    | 'x' :: r => match R ρ n .signed r with
      | some (b, r') => R ρ n (.moreProd (a * b)) r'
      | none => none
    | 'X' :: r => match R ρ n .signed r with
      | some (b, r') => R ρ n (.moreProd (a * b)) r'
      | none => none
    | '/' :: r => match R ρ n .signed r with
      | some (b, r') => R ρ n (.moreProd (a / b)) r'
      | none => none
    | _ => some (a, s)
  | n + 1, .moreSum a, s =>
    match skip s with
    | '+' :: r => match R ρ n .prod r with
      | some (b, r') => R ρ n (.moreSum (a + b)) r'
      | none => none
    | '-' :: r => match R ρ n .prod r with
      | some (b, r') => R ρ n (.moreSum (a - b)) r'
      | none => none
    | _ => some (a, s)

/-- With enough fuel the reader answers `x`. -/
def Ev (ρ : List Char → Option ℚ) (m : Mode) (s : List Char) (x : Option (ℚ × List Char)) : Prop :=
  ∃ N, ∀ n, N ≤ n → R ρ n m s = x

variable {ρ : List Char → Option ℚ}

theorem Ev.unique {m s x y} (hx : Ev ρ m s x) (hy : Ev ρ m s y) : x = y := by
  obtain ⟨N, h1⟩ := hx
  obtain ⟨M, h2⟩ := hy
  rw [← h1 (max N M) (le_max_left _ _), h2 _ (le_max_right _ _)]

theorem Ev.of_succ {m s x} (h : ∃ N, ∀ n, N ≤ n → R ρ (n + 1) m s = x) : Ev ρ m s x := by
  obtain ⟨N, h⟩ := h
  refine ⟨N + 1, fun n hn => ?_⟩
  obtain ⟨k, rfl⟩ : ∃ k, n = k + 1 := ⟨n - 1, by omega⟩
  exact h k (by omega)

theorem isBlank_iff (c : Char) : isBlank c = true ↔ c = ' ' ∨ c = '\n' ∨ c = '\t' ∨ c = '\r' := by
  simp [isBlank, or_assoc]

theorem skip_blank {w s : List Char} (hw : Blank w) : skip (w ++ s) = skip s := by
  unfold skip
  rw [List.dropWhile_append_of_pos]
  intro c hc
  exact (isBlank_iff c).2 (hw c hc)

theorem numEnd_blank {w s : List Char} (hw : Blank w) (hs : NumEnd s) : NumEnd (w ++ s) := by
  intro x t h
  cases w with
  | nil => exact hs x t h
  | cons c w =>
    simp only [List.cons_append, List.cons.injEq] at h
    have := hw c (by simp)
    rw [← h.1]
    rcases this with h | h | h | h <;> (subst h; decide)

theorem numEnd_cons {c : Char} {s : List Char} (h : isDigit c = false) (h' : c ≠ '.') : NumEnd (c :: s) := by
  intro x t hx; simp at hx; rw [← hx.1]; exact ⟨h, h'⟩

/-- The rest can not continue a product. -/
def ProdEnd (rest : List Char) : Prop := ∀ c t, skip rest = c :: t → c ≠ 'x' ∧ c ≠ 'X' ∧ c ≠ '/'

theorem ev_moreProd_end {a rest} (h : ProdEnd rest) : Ev ρ (.moreProd a) rest (some (a, rest)) := by
  refine Ev.of_succ ⟨0, fun n _ => ?_⟩
  simp only [R]
  split
  · rename_i r heq; exact absurd rfl (h _ _ heq).1
  · rename_i r heq; exact absurd rfl (h _ _ heq).2.1
  · rename_i r heq; exact absurd rfl (h _ _ heq).2.2
  · rfl

theorem ev_moreSum_end {a rest} (h : ∀ c t, skip rest = c :: t → c ≠ '+' ∧ c ≠ '-') :
    Ev ρ (.moreSum a) rest (some (a, rest)) := by
  refine Ev.of_succ ⟨0, fun n _ => ?_⟩
  simp only [R]
  split
  · rename_i r heq; exact absurd rfl (h _ _ heq).1
  · rename_i r heq; exact absurd rfl (h _ _ heq).2
  · rfl

theorem ev_prod {s a r x} (h1 : Ev ρ .signed s (some (a, r))) (h2 : Ev ρ (.moreProd a) r x) : Ev ρ .prod s x := by
  obtain ⟨N, h1⟩ := h1
  obtain ⟨M, h2⟩ := h2
  refine Ev.of_succ ⟨max N M, fun n hn => ?_⟩
  simp only [R, h1 n (by omega), h2 n (by omega)]

theorem ev_sum {s a r x} (h1 : Ev ρ .prod s (some (a, r))) (h2 : Ev ρ (.moreSum a) r x) : Ev ρ .sum s x := by
  obtain ⟨N, h1⟩ := h1
  obtain ⟨M, h2⟩ := h2
  refine Ev.of_succ ⟨max N M, fun n hn => ?_⟩
  simp only [R, h1 n (by omega), h2 n (by omega)]

theorem ev_signed_prim {s x} (h : Ev ρ .prim s x) (hs : ∀ c t, skip s = c :: t → c ≠ '+' ∧ c ≠ '-') :
    Ev ρ .signed s x := by
  obtain ⟨N, h1⟩ := h
  refine Ev.of_succ ⟨N, fun n hn => ?_⟩
  simp only [R]
  split
  · rename_i r heq; exact absurd rfl (hs _ _ heq).2
  · rename_i r heq; exact absurd rfl (hs _ _ heq).1
  · exact h1 n hn

theorem digits_all {s : List Char} (h : Digits s) : s.all isDigit = true := (all_isDigit_iff s).2 h

theorem ev_number {s rest : List Char} {c t v} (hs : s = c :: t) (hc : isDigit c = true ∨ c = '.') {w} (hw : Blank w)
    (h : pUnsigned (s ++ rest) = some (v, rest)) :
    Ev ρ .prim (w ++ s ++ rest) (some (v, rest)) ∧ (∀ c t, skip (w ++ s ++ rest) = c :: t → c ≠ '+' ∧ c ≠ '-') := by
  have hb : isBlank c = false := by
    rcases hc with h | h
    · exact (isDigit_facts h).1
    · subst h; decide
  have hne : c ≠ '$' ∧ c ≠ '(' ∧ c ≠ '+' ∧ c ≠ '-' := by
    rcases hc with h | h
    · have := isDigit_facts h; tauto
    · subst h; decide
  have e : skip (w ++ s ++ rest) = s ++ rest := by
    rw [List.append_assoc, skip_blank hw, hs, List.cons_append, skip_of_head hb]
  constructor
  · refine Ev.of_succ ⟨0, fun n _ => ?_⟩
    simp only [R, e]
    split
    · rename_i r heq; rw [hs] at heq; simp at heq; exact absurd heq.1 hne.1
    · rename_i r heq; rw [hs] at heq; simp at heq; exact absurd heq.1 hne.2.1
    · exact h
  · intro x u hx
    rw [e, hs] at hx
    simp at hx
    rw [← hx.1]; exact ⟨hne.2.2.1, hne.2.2.2⟩

/-- What the reader does on a text of each level. -/
def Reads (ρ : List Char → Option ℚ) : Level → List Char → ℚ → Prop
  | .primary, s, v => ∀ rest, NumEnd rest →
      Ev ρ .prim (s ++ rest) (some (v, rest)) ∧ ∀ c t, skip (s ++ rest) = c :: t → c ≠ '+' ∧ c ≠ '-'
  | .signed, s, v => ∀ rest, NumEnd rest → Ev ρ .signed (s ++ rest) (some (v, rest))
  | .product, s, v => ∀ rest x, NumEnd rest → Ev ρ (.moreProd v) rest x → Ev ρ .prod (s ++ rest) x
  | .sum, s, v => ∀ rest x, NumEnd rest → ProdEnd rest → Ev ρ (.moreSum v) rest x → Ev ρ .sum (s ++ rest) x

theorem means_reads {l s v} (h : Means ρ l s v) : Reads ρ l s v := by
  induction h with
  | @number w i hw hi hne =>
    intro rest hr
    have h1 := pUnsigned_int (digits_all hi) hne hr
    rw [floatOf_num] at h1
    cases i with
    | nil => exact absurd rfl hne
    | cons c t =>
      have hc := digits_all hi
      simp at hc
      exact ev_number rfl (.inl hc.1) hw h1
  | @decimal w i f hw hi hf hne =>
    intro rest hr
    have h1 := pUnsigned_dec (i := i) (digits_all hi) (digits_all hf) hne (fun x t hx => (hr x t hx).1)
    rw [floatOf_dec] at h1
    have hh : ∃ c t, i ++ '.' :: f = c :: t ∧ (isDigit c = true ∨ c = '.') := by
      cases i with
      | nil => exact ⟨'.', f, rfl, .inr rfl⟩
      | cons c t =>
        have hc := digits_all hi
        simp at hc
        exact ⟨c, _, rfl, .inl hc.1⟩
    obtain ⟨c, t, e, hc⟩ := hh
    have := ev_number (ρ := ρ) e hc hw h1
    simpa [List.append_assoc] using this
  | @var w d v hw hd hne hv =>
    intro rest hr
    have e : skip (w ++ '$' :: d ++ rest) = '$' :: (d ++ rest) := by
      rw [List.append_assoc, skip_blank hw, List.cons_append, skip_of_head (by decide)]
    have hdg := digits_append (digits_all hd) (fun c t h => (hr c t h).1)
    constructor
    · refine Ev.of_succ ⟨0, fun n _ => ?_⟩
      simp only [R, e, hdg, hv, Option.map_some]
    · intro c t h; rw [e] at h; simp at h; rw [← h.1]; decide
  | @paren w s w' v hw hw' h ih =>
    intro rest hr
    have e : skip (w ++ '(' :: s ++ w' ++ [')'] ++ rest) = '(' :: (s ++ (w' ++ ')' :: rest)) := by
      have : w ++ '(' :: s ++ w' ++ [')'] ++ rest = w ++ '(' :: (s ++ (w' ++ ')' :: rest)) := by simp
      rw [this, skip_blank hw, skip_of_head (by decide)]
    have e2 : skip (w' ++ ')' :: rest) = ')' :: rest := by
      rw [skip_blank hw', skip_of_head (by decide)]
    have h1 : Ev ρ .sum (s ++ (w' ++ ')' :: rest)) (some (v, w' ++ ')' :: rest)) := by
      refine ih _ _ (numEnd_blank hw' (numEnd_cons (by decide) (by decide))) ?_ (ev_moreSum_end ?_)
      · intro c t hc; rw [e2] at hc; simp at hc; rw [← hc.1]; decide
      · intro c t hc; rw [e2] at hc; simp at hc; rw [← hc.1]; decide
    constructor
    · obtain ⟨N, h1⟩ := h1
      refine Ev.of_succ ⟨N, fun n hn => ?_⟩
      simp only [R, e, h1 n hn, e2]
    · intro c t h; rw [e] at h; simp at h; rw [← h.1]; decide
  | primary h ih =>
    intro rest hr
    exact ev_signed_prim (ih rest hr).1 (ih rest hr).2
  | @minus w s v hw h ih =>
    intro rest hr
    have e : skip (w ++ '-' :: s ++ rest) = '-' :: (s ++ rest) := by
      rw [List.append_assoc, skip_blank hw, List.cons_append, skip_of_head (by decide)]
    obtain ⟨N, h1⟩ := ih rest hr
    refine Ev.of_succ ⟨N, fun n hn => ?_⟩
    simp only [R, e, h1 n hn, Option.map_some]
  | @plus w s v hw h ih =>
    intro rest hr
    have e : skip (w ++ '+' :: s ++ rest) = '+' :: (s ++ rest) := by
      rw [List.append_assoc, skip_blank hw, List.cons_append, skip_of_head (by decide)]
    obtain ⟨N, h1⟩ := ih rest hr
    refine Ev.of_succ ⟨N, fun n hn => ?_⟩
    simp only [R, e, h1 n hn]
  | signed h ih => intro rest x hr hx; exact ev_prod (ih rest hr) hx
  | @times s t w x a b h1 hw hx h2 ih1 ih2 =>
    intro rest y hr hy
    have e0 : s ++ w ++ x :: t ++ rest = s ++ (w ++ x :: (t ++ rest)) := by simp
    rw [e0]
    have e : skip (w ++ x :: (t ++ rest)) = x :: (t ++ rest) := by
      rw [skip_blank hw, skip_of_head (by rcases hx with h | h <;> (subst h; decide))]
    refine ih1 _ _ (numEnd_blank hw (numEnd_cons ?_ ?_)) ?_
    · rcases hx with h | h <;> (subst h; decide)
    · rcases hx with h | h <;> (subst h; decide)
    · obtain ⟨N, h3⟩ := ih2 rest hr
      obtain ⟨M, h4⟩ := hy
      refine Ev.of_succ ⟨max N M, fun n hn => ?_⟩
      rcases hx with h | h <;> subst h <;> simp only [R, e, h3 n (by omega), h4 n (by omega)]
  | @over s t w a b h1 hw h2 hb ih1 ih2 =>
    intro rest y hr hy
    have e0 : s ++ w ++ '/' :: t ++ rest = s ++ (w ++ '/' :: (t ++ rest)) := by simp
    rw [e0]
    have e : skip (w ++ '/' :: (t ++ rest)) = '/' :: (t ++ rest) := by
      rw [skip_blank hw, skip_of_head (by decide)]
    refine ih1 _ _ (numEnd_blank hw (numEnd_cons (by decide) (by decide))) ?_
    obtain ⟨N, h3⟩ := ih2 rest hr
    obtain ⟨M, h4⟩ := hy
    refine Ev.of_succ ⟨max N M, fun n hn => ?_⟩
    simp only [R, e, h3 n (by omega), h4 n (by omega)]
  | product h ih =>
    intro rest x hr hp hx
    exact ev_sum (ih rest _ hr (ev_moreProd_end hp)) hx
  | @add s t w a b h1 hw h2 ih1 ih2 =>
    intro rest y hr hp hy
    have e0 : s ++ w ++ '+' :: t ++ rest = s ++ (w ++ '+' :: (t ++ rest)) := by simp
    rw [e0]
    have e : skip (w ++ '+' :: (t ++ rest)) = '+' :: (t ++ rest) := by
      rw [skip_blank hw, skip_of_head (by decide)]
    refine ih1 _ _ (numEnd_blank hw (numEnd_cons (by decide) (by decide))) ?_ ?_
    · intro c u hc; rw [e] at hc; simp at hc; rw [← hc.1]; decide
    · obtain ⟨N, h3⟩ := ih2 rest _ hr (ev_moreProd_end hp)
      obtain ⟨M, h4⟩ := hy
      refine Ev.of_succ ⟨max N M, fun n hn => ?_⟩
      simp only [R, e, h3 n (by omega), h4 n (by omega)]
  | @sub s t w a b h1 hw h2 ih1 ih2 =>
    intro rest y hr hp hy
    have e0 : s ++ w ++ '-' :: t ++ rest = s ++ (w ++ '-' :: (t ++ rest)) := by simp
    rw [e0]
    have e : skip (w ++ '-' :: (t ++ rest)) = '-' :: (t ++ rest) := by
      rw [skip_blank hw, skip_of_head (by decide)]
    refine ih1 _ _ (numEnd_blank hw (numEnd_cons (by decide) (by decide))) ?_ ?_
    · intro c u hc; rw [e] at hc; simp at hc; rw [← hc.1]; decide
    · obtain ⟨N, h3⟩ := ih2 rest _ hr (ev_moreProd_end hp)
      obtain ⟨M, h4⟩ := hy
      refine Ev.of_succ ⟨max N M, fun n hn => ?_⟩
      simp only [R, e, h3 n (by omega), h4 n (by omega)]

/-- The conventional meaning of a text is unique. -/
theorem means_unique {s a b} (ha : Means ρ .sum s a) (hb : Means ρ .sum s b) : a = b := by
  have key : ∀ {v}, Means ρ .sum s v → Ev ρ .sum s (some (v, [])) := by
    intro v hv
    have h1 : NumEnd [] := by intro x t h; cases h
    have h2 : ProdEnd [] := by intro x t h; simp at h
    have := means_reads hv [] (some (v, [])) h1 h2 (ev_moreSum_end (by intro x t h; simp at h))
    simpa using this
  have := Ev.unique (key ha) (key hb)
  simpa using this

end Verif.Spec
