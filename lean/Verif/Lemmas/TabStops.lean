import Verif.Spec.Spans
import Mathlib.Data.List.Induction
import Mathlib.Data.List.TakeWhile

/-!
# Tab stops, and lines and columns
-/

namespace Verif.Spans

open Verif.Text Verif.Spec
open Verif.Peg (Text)
open Verif.Grammar (expandFrom expandTabs)

theorem cursor_line {source : Text} {line character o : Nat} (h : CursorAt source line character o) :
    lineAt source o = line + 1 ∧ columnAt source o = character + 1 ∧ o ≤ source.length := by
  obtain ⟨before, last, after, rfl, rfl, h1, h2, rfl, rfl⟩ := h
  have ht : (before ++ last ++ after).take (before.length + last.length) = before ++ last := by
    rw [← List.length_append]; exact List.take_left
  unfold lineAt columnAt
  rw [ht]
  refine ⟨by rw [List.count_append, List.count_eq_zero.2 h1, Nat.add_zero], ?_, by simp⟩
  rw [List.reverse_append, List.takeWhile_append_of_pos]
  · rcases h2 with rfl | ⟨b, rfl⟩
    · simp
    · simp
  · intro c hc
    simp only [bne_iff_ne, ne_eq]
    rintro rfl
    exact h1 (List.mem_reverse.1 hc)

theorem cursor_of {source : Text} {line character o : Nat} (h1 : lineAt source o = line + 1) (h2 : columnAt source o = character + 1)
    (h3 : o ≤ source.length) : CursorAt source line character o := by
  unfold lineAt at h1
  unfold columnAt at h2
  set t := source.take o with ht
  have hl : t.length = o := by simp [ht, h3]
  have e : t = (t.reverse.dropWhile (fun c => c != '\n')).reverse ++ (t.reverse.takeWhile (fun c => c != '\n')).reverse := by
    rw [← List.reverse_append, List.takeWhile_append_dropWhile, List.reverse_reverse]
  have hn : '\n' ∉ (t.reverse.takeWhile (fun c => c != '\n')).reverse := by
    intro h
    have := List.mem_takeWhile_imp (List.mem_reverse.1 h)
    simp at this
  refine ⟨(t.reverse.dropWhile (fun c => c != '\n')).reverse, _, source.drop o, ?_, ?_, hn, ?_, ?_, ?_⟩
  · rw [← e, ht, List.take_append_drop]
  · rw [← List.length_append, ← e, hl]
  · cases hd : t.reverse.dropWhile (fun c => c != '\n') with
    | nil => exact .inl rfl
    | cons c r =>
      right
      have : c = '\n' := by
        have := List.head?_dropWhile_not (fun c => c != '\n') t.reverse
        rw [hd] at this
        simpa using this
      exact ⟨r.reverse, by simp [this]⟩
  · have := congrArg (List.count '\n') e
    rw [List.count_append, List.count_eq_zero.2 hn, Nat.add_zero] at this
    omega
  · rw [List.length_reverse]
    omega

/-- The column behind a text. -/
def endCol (col : Nat) (t : Text) : Nat := t.foldl (fun k c => if c = '\n' ∨ c = '\r' then 0 else k + 1) col

theorem endCol_append (col : Nat) (a b : Text) : endCol col (a ++ b) = endCol (endCol col a) b := by
  simp [endCol]

theorem lastLine_eq (t : Text) : lastLine t = endCol 0 t := by
  induction t using List.reverseRecOn with
  | nil => rfl
  | append_singleton t c ih =>
    rw [endCol_append, ← ih]
    simp only [lastLine, List.reverse_append, List.reverse_singleton, List.singleton_append, List.takeWhile_cons, endCol,
      List.foldl_cons, List.foldl_nil]
    by_cases h1 : c = '\n' <;> by_cases h2 : c = '\r' <;> simp [h1, h2]

theorem endCol_spaces (col k : Nat) : endCol col (List.replicate k ' ') = col + k := by
  induction k generalizing col with
  | zero => rfl
  | succ k ih =>
    have := ih (col + 1)
    simp only [endCol] at this
    simp only [endCol, List.replicate_succ, List.foldl_cons, show ¬ (' ' = '\n' ∨ ' ' = '\r') by decide, if_false, this]
    omega

theorem expandFrom_append (col : Nat) (a b : Text) :
    expandFrom col (a ++ b) = expandFrom col a ++ expandFrom (endCol col (expandFrom col a)) b := by
  induction a generalizing col with
  | nil => rfl
  | cons c a ih =>
    simp only [List.cons_append, expandFrom]
    split
    · rw [ih, endCol_append, endCol_spaces, List.append_assoc]
    · split
      · rename_i h
        rw [ih]
        simp [endCol, h]
      · rename_i h
        rw [ih]
        simp [endCol, h]

theorem expanded_tabs (code : Text) : Expanded code (expandTabs code) := by
  induction code using List.reverseRecOn with
  | nil => exact .nil
  | append_singleton a c ih =>
    unfold expandTabs at *
    rw [expandFrom_append]
    by_cases h : c = '\t'
    · subst h
      simp only [expandFrom, if_true, List.append_nil]
      refine .tab ih (by omega) (by omega) ?_
      rw [lastLine_eq]
      omega
    · have : expandFrom (endCol 0 (expandFrom 0 a)) [c] = [c] := by
        simp only [expandFrom, if_neg h]
        split <;> rfl
      rw [this]
      exact .char ih h

theorem expanded_unique {a t t' : Text} (h : Expanded a t) (h' : Expanded a t') : t = t' := by
  induction h generalizing t' with
  | nil => generalize e : ([] : Text) = x at h'; cases h' <;> simp_all
  | @char a t c h hc ih =>
    generalize e : a ++ [c] = x at h'
    cases h' with
    | nil => simp at e
    | char h1 h2 =>
      obtain ⟨rfl, e2⟩ := List.append_inj' e rfl
      simp only [List.cons.injEq, and_true] at e2
      rw [ih h1, e2]
    | tab h1 =>
      obtain ⟨-, e2⟩ := List.append_inj' e rfl
      simp only [List.cons.injEq, and_true] at e2
      exact absurd e2 hc
  | @tab a t k h h1 h2 h3 ih =>
    generalize e : a ++ ['\t'] = x at h'
    cases h' with
    | nil => simp at e
    | char h4 h5 =>
      obtain ⟨-, e2⟩ := List.append_inj' e rfl
      simp only [List.cons.injEq, and_true] at e2
      exact absurd e2.symm h5
    | tab h4 h5 h6 h7 =>
      obtain ⟨rfl, -⟩ := List.append_inj' e rfl
      obtain rfl := ih h4
      congr 2
      omega

theorem count_expandFrom (col : Nat) (s : Text) : (expandFrom col s).count '\n' = s.count '\n' := by
  induction s generalizing col with
  | nil => rfl
  | cons c s ih =>
    unfold expandFrom
    split
    · rename_i h
      subst h
      rw [List.count_append, ih, List.count_eq_zero.2 (by simp), List.count_cons_of_ne (by decide), Nat.zero_add]
    · split <;> simp only [List.count_cons, ih]

theorem take_expand (code : Text) (o : Nat) :
    (expandTabs code).take (expandTabs (code.take o)).length = expandTabs (code.take o) := by
  unfold expandTabs
  conv_lhs => rw [← List.take_append_drop o code, expandFrom_append]
  simp

theorem line_expand (code : Text) (o : Nat) : lineAt (expandTabs code) (expandTabs (code.take o)).length = lineAt code o := by
  unfold lineAt
  rw [take_expand]
  unfold expandTabs
  rw [count_expandFrom]

end Verif.Spans
