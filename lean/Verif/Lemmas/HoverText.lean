import Verif.Lemmas.Exact
import Verif.Model.HoverText
import Verif.Spec.HoverText

/-!
# Code spans and numbers in hovers (for C94)
-/

namespace Verif.Props.HoverText

open Verif.Peg Verif.Syntax Verif.Text Verif.Fmt Verif.HoverText Verif.Spec.HoverText
open Verif.Formatter (leaf build fieldsText ext intStr)
open Verif.Spec (Decimal PlainNumber)

/-! ## Characters of numbers -/

/-- Not a character of a number. -/
def Odd (x : Char) : Prop := isDigit x = false ∧ x ≠ '-' ∧ x ≠ '+' ∧ x ≠ '.' ∧ x ≠ 'e'

instance (x : Char) : Decidable (Odd x) := by unfold Odd; infer_instance

theorem odd_digit {x : Char} (hx : Odd x) {n : ℕ} (h : n < 10) (hc : x ∈ natStr n) : False := by
  have : n = 0 ∨ n = 1 ∨ n = 2 ∨ n = 3 ∨ n = 4 ∨ n = 5 ∨ n = 6 ∨ n = 7 ∨ n = 8 ∨ n = 9 := by omega
  have hx := hx.1
  rcases this with rfl | rfl | rfl | rfl | rfl | rfl | rfl | rfl | rfl | rfl <;>
    (rw [natStr] at hc; simp at hc; subst hc; revert hx; decide)

theorem natStr_odd {x : Char} (hx : Odd x) (n : ℕ) : x ∉ natStr n := by
  intro hc
  fun_induction natStr n with
  | case1 n h => exact odd_digit hx h (by rw [natStr]; simpa [h] using hc)
  | case2 n h ih =>
    rcases List.mem_append.1 hc with hc | hc
    · exact ih hc
    · exact odd_digit hx (Nat.mod_lt n (by decide)) (by rw [natStr]; simpa [Nat.mod_lt n (show 10 > 0 by decide)] using hc)

theorem rjust_odd {x : Char} (hx : Odd x) {w : ℕ} {s : Text} (h : x ∉ s) : x ∉ rjust0 w s := by
  have h0 : x ≠ '0' := by rintro rfl; exact absurd hx.1 (by decide)
  simp [rjust0, h, h0]

theorem strFloat_odd {x : Char} (hx : Odd x) (q : ℚ) : x ∉ strFloat q := by
  have h0 : x ≠ '0' := by rintro rfl; exact absurd hx.1 (by decide)
  obtain ⟨h1, h2, h3, h4, h5⟩ := id hx
  unfold strFloat
  simp only [List.mem_append, not_or]
  refine ⟨by split <;> simp [h2], ?_⟩
  unfold strNonneg
  simp only
  split
  · simp [h0, h4]
  · split
    · simp only [List.mem_append, List.mem_cons, not_or]
      refine ⟨natStr_odd hx _, h4, ?_⟩
      split
      · simp [h0]
      · exact rjust_odd hx (natStr_odd hx _)
    · have : x ∉ ((natStr (scaled (decPlaces |q|) |q|)).reverse.dropWhile (· == '0')).reverse := by
        simp only [List.mem_reverse]
        exact fun hc => natStr_odd hx _ (List.mem_reverse.1 ((List.dropWhile_suffix _).mem hc))
      simp only [List.mem_append, List.mem_cons, not_or]
      refine ⟨⟨fun hc => this (List.mem_of_mem_take hc), ?_⟩, h5, ?_, rjust_odd hx (natStr_odd hx _)⟩
      · split
        · simp
        · simp only [List.mem_cons, not_or]
          exact ⟨h4, fun hc => this (List.mem_of_mem_drop hc)⟩
      · split <;> simp [h2, h3]

theorem intStr_odd {x : Char} (hx : Odd x) (n : ℤ) : x ∉ intStr n := by
  unfold intStr
  simp only [List.mem_append, not_or]
  exact ⟨by split <;> simp [hx.2.1], natStr_odd hx _⟩

theorem natStr_ne (n : ℕ) : natStr n ≠ [] := by
  rw [natStr]; split <;> simp

theorem strFloat_ne (q : ℚ) : strFloat q ≠ [] := by
  unfold strFloat strNonneg
  simp only
  split <;> split <;> simp
  all_goals (split <;> simp)

/-- Numbers can be shown as they are. -/
theorem number_showable (q : ℚ) : Showable (strFloat q) :=
  ⟨strFloat_ne q, strFloat_odd (by decide) q, strFloat_odd (by decide) q, fun h =>
    strFloat_odd (x := ' ') (by decide) q (List.mem_of_mem_head? h)⟩

/-! ## Code spans -/

theorem pieces_gap {g : Text} (hg : '`' ∉ g) (h0 : g ≠ []) (t : Text) (ht : t.head? = some '`' ∨ t = []) :
    pieces (g ++ t) = .text g :: pieces t := by
  induction g with
  | nil => exact absurd rfl h0
  | cons c g ih =>
    simp only [List.mem_cons, not_or] at hg
    by_cases hg0 : g = []
    · subst hg0
      simp only [List.cons_append, List.nil_append, pieces, if_neg (Ne.symm hg.1)]
      rcases ht with ht | rfl
      · cases t with
        | nil => simp at ht
        | cons d t =>
          simp only [List.head?_cons, Option.some.injEq] at ht
          subst ht
          simp only [pieces, if_true]
          rcases pieces t with _ | ⟨(n | s), ps⟩ <;> rfl
      · rfl
    · simp only [List.cons_append, pieces, if_neg (Ne.symm hg.1), ih hg.2 hg0]

theorem pieces_tick (t : Text) (ht : t.head? ≠ some '`') : pieces ('`' :: t) = .ticks 1 :: pieces t := by
  simp only [pieces, if_true]
  cases t with
  | nil => rfl
  | cons c t =>
    have hc : c ≠ '`' := by rintro rfl; exact ht rfl
    simp only [pieces, if_neg hc]
    rcases pieces t with _ | ⟨(n | s), ps⟩ <;> rfl

/-- Texts with gaps before the spans. -/
def built : List (Text × Text) → Text → Text
  | [], fin => fin
  | (g, v) :: r, fin => g ++ code v ++ built r fin

theorem trimmed_showable {v : Text} (h : Showable v) : trimmed v = v := by
  have e : (v.map fun c => if c = '\n' then ' ' else c) = v := by
    conv_rhs => rw [← List.map_id v]
    refine List.map_congr_left fun c hc => ?_
    rw [if_neg (by rintro rfl; exact h.2.2.1 hc)]; rfl
  unfold trimmed
  simp only [e]
  rw [if_neg (fun h' => h.2.2.2 h'.1)]

theorem spans_built (l : List (Text × Text)) (fin : Text) (hf : '`' ∉ fin) (hg : ∀ s ∈ l, '`' ∉ s.1 ∧ Showable s.2)
    (hn : ∀ s ∈ l.tail, s.1 ≠ []) (fuel : ℕ) (hfuel : (pieces (built l fin)).length ≤ fuel) :
    spansOf fuel (pieces (built l fin)) = l.map (·.2) := by
  induction l generalizing fuel with
  | nil =>
    simp only [built, List.map_nil]
    by_cases h : fin = []
    · subst h; cases fuel <;> rfl
    · have := pieces_gap hf h [] (.inr rfl)
      rw [List.append_nil] at this
      rw [this]
      cases fuel with
      | zero => rfl
      | succ k => cases k <;> rfl
  | cons s l ih =>
    obtain ⟨g, v⟩ := s
    obtain ⟨hg1, hv⟩ := hg (g, v) (by simp)
    simp only at hg1 hv
    have hhead : (built l fin).head? ≠ some '`' := by
      cases l with
      | nil => exact fun h => hf (List.mem_of_mem_head? h)
      | cons s l =>
        obtain ⟨g', v'⟩ := s
        have h1 := (hg (g', v') (by simp)).1
        have h2 := hn (g', v') (by simp)
        intro h
        cases g' with
        | nil => exact h2 rfl
        | cons c g' =>
          simp only [built, List.cons_append, List.head?_cons, Option.some.injEq] at h
          exact h1 (by simp [h])
    have hvh : (v ++ '`' :: built l fin).head? ≠ some '`' := by
      obtain ⟨h0, h1, -⟩ := hv
      cases v with
      | nil => exact absurd rfl h0
      | cons c v =>
        simp only [List.cons_append, List.head?_cons, ne_eq, Option.some.injEq]
        rintro rfl; simp at h1
    have hp : pieces ('`' :: (v ++ '`' :: built l fin)) = .ticks 1 :: .text v :: .ticks 1 :: pieces (built l fin) := by
      rw [pieces_tick _ hvh, pieces_gap hv.2.1 hv.1 _ (.inl rfl), pieces_tick _ hhead]
    have hbt : built ((g, v) :: l) fin = g ++ '`' :: (v ++ '`' :: built l fin) := by
      simp [built, code]
    have ih' : ∀ k, (pieces (built l fin)).length ≤ k → spansOf k (pieces (built l fin)) = l.map (·.2) :=
      fun k hk => ih (fun s hs => hg s (by simp [hs])) (fun s hs => hn s (by
        cases l with
        | nil => simp at hs
        | cons a l => simp at hs ⊢; exact .inr hs)) k hk
    have step (k : ℕ) (hk : (pieces ('`' :: (v ++ '`' :: built l fin))).length ≤ k) :
        spansOf k (pieces ('`' :: (v ++ '`' :: built l fin))) = v :: l.map (·.2) := by
      rw [hp] at hk ⊢
      simp only [List.length_cons] at hk
      cases k with
      | zero => omega
      | succ k =>
        simp only [spansOf, closing, if_true, Option.map_some, List.append_nil, trimmed_showable hv]
        rw [ih' k (by omega)]
    rw [hbt] at hfuel ⊢
    by_cases h : g = []
    · subst h
      exact step fuel hfuel
    · rw [pieces_gap hg1 h _ (.inl rfl)] at hfuel ⊢
      cases fuel with
      | zero => simp at hfuel
      | succ k =>
        simp only [spansOf]
        exact step k (by simpa using hfuel)

theorem spans_eq {t : Text} (l : List (Text × Text)) (fin : Text) (e : t = built l fin) (hf : '`' ∉ fin)
    (hg : ∀ s ∈ l, '`' ∉ s.1 ∧ Showable s.2) (hn : ∀ s ∈ l.tail, s.1 ≠ []) : spans t = l.map (·.2) := by
  subst e; exact spans_built l fin hf hg hn _ le_rfl

theorem built_append (l m : List (Text × Text)) (fin : Text) : built (l ++ m) fin = built l (built m fin) := by
  induction l with
  | nil => rfl
  | cons s l ih => obtain ⟨g, v⟩ := s; simp [built, ih]

/-- The gaps and spans of a list of values behind a gap. -/
def listed (g : Text) : List Text → List (Text × Text)
  | [] => []
  | v :: vs => (g, v) :: vs.map fun w => (t!", ", w)

theorem commas_built (vs : List Text) (v : Text) (fin : Text) :
    commas ((v :: vs).map code) ++ fin = code v ++ built (vs.map fun w => (t!", ", w)) fin := by
  induction vs generalizing v with
  | nil => rfl
  | cons w vs ih =>
    have := ih w
    simp only [List.map_cons, commas, List.append_assoc, List.cons_append, built] at this ⊢
    rw [this]
    rfl

theorem listed_built (g : Text) (vs : List Text) (fin : Text) :
    g ++ (commas (vs.map code) ++ fin) = built (listed g vs) (if vs = [] then g ++ fin else fin) := by
  cases vs with
  | nil => simp [listed, built, commas]
  | cons v vs =>
    rw [commas_built]
    simp [listed, built]

theorem listed_values (g : Text) (vs : List Text) : (listed g vs).map (·.2) = vs := by
  cases vs <;> simp [listed, Function.comp_def]

theorem listed_good {g : Text} (h1 : '`' ∉ g) (h2 : g ≠ []) {vs : List Text} (h : ∀ v ∈ vs, Showable v) :
    ∀ s ∈ listed g vs, ('`' ∉ s.1 ∧ Showable s.2) ∧ s.1 ≠ [] := by
  cases vs with
  | nil => simp [listed]
  | cons v vs =>
    intro s hs
    simp only [listed, List.mem_cons, List.mem_map] at hs
    rcases hs with rfl | ⟨w, hw, rfl⟩
    · exact ⟨⟨h1, h v (by simp)⟩, h2⟩
    · exact ⟨⟨by simp, h w (by simp [hw])⟩, by simp⟩

/-- A name, perhaps behind a label, and a list of values. -/
theorem spans_listed {t : Text} (pre : List (Text × Text)) (g : Text) (vs : List Text)
    (e : t = built pre (g ++ commas (vs.map code))) (h1 : '`' ∉ g) (h2 : g ≠ [])
    (hp : ∀ s ∈ pre, '`' ∉ s.1 ∧ Showable s.2) (hn : ∀ s ∈ pre.tail, s.1 ≠ []) (h0 : pre ≠ [])
    (hv : ∀ v ∈ vs, Showable v) : spans t = pre.map (·.2) ++ vs := by
  have e' : t = built (pre ++ listed g vs) (if vs = [] then g ++ [] else []) := by
    have := listed_built g vs []
    rw [List.append_nil] at this
    rw [e, built_append, this]
  rw [spans_eq _ _ e' (by split <;> simp [h1]), List.map_append, listed_values]
  · intro s hs
    rcases List.mem_append.1 hs with hs | hs
    · exact hp s hs
    · exact (listed_good h1 h2 hv s hs).1
  · intro s hs
    rw [List.tail_append_of_ne_nil h0] at hs
    rcases List.mem_append.1 hs with hs | hs
    · exact hn s hs
    · exact (listed_good h1 h2 hv s hs).2

end Verif.Props.HoverText
