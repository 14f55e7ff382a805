import Verif.Model.Grammar
import Mathlib.Tactic.SplitIfs
import Mathlib.Data.List.Basic
import Mathlib.Data.List.Infix

/-!
# Parser elements read a part of the text
-/

namespace Verif.Grammar

open Verif.Text Verif.Fmt Verif.Peg Verif.Syntax
open Verif.Math hiding P

/-! ## Suffixes -/

/-- What is left is a suffix of the text. -/
def Suf {α : Type} (p : P α) : Prop := ∀ s a r, p s = .ok a r → r <:+ s

/-- What is left is a proper suffix of the text. -/
def Eats {α : Type} (p : P α) : Prop := ∀ s a r, p s = .ok a r → r <:+ s ∧ r.length < s.length

theorem Eats.suf {α : Type} {p : P α} (h : Eats p) : Suf p := fun s a r e => (h s a r e).1

theorem Suf.ret {α : Type} (a : α) : Suf (ret a) := by
  intro s b r h; simp only [Peg.ret, Res.ok.injEq] at h; rw [h.2]

theorem Suf.raise {α : Type} : Suf (raise : P α) := by
  intro s b r h; simp [Peg.raise] at h

theorem andThen_ok {α β : Type} {p : P α} {f : α → P β} {s r : Text} {b : β} (h : (p ~> f) s = .ok b r) :
    ∃ a t, p s = .ok a t ∧ f a t = .ok b r := by
  simp only [andThen] at h
  cases hp : p s with
  | ok a t => rw [hp] at h; exact ⟨a, t, rfl, h⟩
  | fail => rw [hp] at h; cases h
  | raised => rw [hp] at h; cases h

theorem Suf.andThen {α β : Type} {p : P α} {f : α → P β} (h : Suf p) (hf : ∀ a, Suf (f a)) : Suf (p ~> f) := by
  intro s b r e
  obtain ⟨a, t, h1, h2⟩ := andThen_ok e
  exact (hf _ _ _ _ h2).trans (h _ _ _ h1)

theorem Suf.before {α β : Type} {p : P α} {q : P β} (h : Suf p) (hq : Suf q) : Suf (p ≫ q) := h.andThen fun _ => hq

theorem Suf.mapP {α β : Type} {p : P α} {f : α → β} (h : Suf p) : Suf (mapP f p) := h.andThen fun _ => .ret _

theorem Suf.orElse {α : Type} {p q : P α} (h : Suf p) (hq : Suf q) : Suf (orElse p q) := by
  intro s a r e
  simp only [Peg.orElse] at e
  cases hp : p s with
  | ok b t => rw [hp] at e; simp only [Res.ok.injEq] at e; obtain ⟨rfl, rfl⟩ := e; exact h _ _ _ hp
  | fail => rw [hp] at e; exact hq _ _ _ e
  | raised => rw [hp] at e; cases e

theorem Suf.nil {α : Type} : Suf (firstOf ([] : List (P α))) := by intro s a r e; simp [firstOf] at e

theorem Suf.cons {α : Type} {p : P α} {ps : List (P α)} (h : Suf p) (hs : Suf (firstOf ps)) : Suf (firstOf (p :: ps)) := h.orElse hs

theorem Suf.firstOf {α : Type} {ps : List (P α)} (h : ∀ p ∈ ps, Suf p) : Suf (firstOf ps) := by
  induction ps with
  | nil => exact .nil
  | cons p ps ih => exact .cons (h p (by simp)) (ih fun q hq => h q (by simp [hq]))

theorem Suf.opt {α : Type} {p : P α} (h : Suf p) : Suf (opt p) := by
  intro s a r e
  simp only [Peg.opt] at e
  cases hp : p s with
  | ok b t => rw [hp] at e; simp only [Res.ok.injEq] at e; obtain ⟨-, rfl⟩ := e; exact h _ _ _ hp
  | fail => rw [hp] at e; simp only [Res.ok.injEq] at e; rw [e.2]
  | raised => rw [hp] at e; cases e

theorem Suf.manyFuel {α : Type} {p : P α} (h : Suf p) : ∀ n, Suf (manyFuel p n)
  | 0 => .ret _
  | n + 1 => by
    intro s a r e
    simp only [Peg.manyFuel] at e
    cases hp : p s with
    | ok b t => rw [hp] at e; exact ((h.manyFuel n).mapP _ _ _ e).trans (h _ _ _ hp)
    | fail => rw [hp] at e; simp only [Res.ok.injEq] at e; rw [e.2]
    | raised => rw [hp] at e; cases e

theorem Suf.many {α : Type} {p : P α} (h : Suf p) : Suf (many p) := fun s => h.manyFuel s.length s

theorem Suf.many1 {α : Type} {p : P α} (h : Suf p) : Suf (many1 p) := h.andThen fun _ => h.many.andThen fun _ => .ret _

/-! ## Tokens -/

theorem skip_suffix (s : Text) : skip s <:+ s := List.dropWhile_suffix _

theorem strip_suffix : ∀ {w s r : Text}, strip w s = some r → r <:+ s ∧ r.length + w.length = s.length
  | [], s, r, h => by simp only [strip, Option.some.injEq] at h; simp [h]
  | _ :: _, [], r, h => by simp [strip] at h
  | a :: w, c :: s, r, h => by
    simp only [strip] at h
    split_ifs at h
    obtain ⟨h1, h2⟩ := strip_suffix h
    exact ⟨h1.trans (List.suffix_cons _ _), by simp; omega⟩

theorem stripCaseless_suffix : ∀ {w s r : Text}, stripCaseless w s = some r → r <:+ s ∧ r.length + w.length = s.length
  | [], s, r, h => by simp only [stripCaseless, Option.some.injEq] at h; simp [h]
  | _ :: _, [], r, h => by simp [stripCaseless] at h
  | a :: w, c :: s, r, h => by
    simp only [stripCaseless] at h
    split_ifs at h
    obtain ⟨h1, h2⟩ := stripCaseless_suffix h
    exact ⟨h1.trans (List.suffix_cons _ _), by simp; omega⟩

theorem eats_lit {w : Text} (hw : w ≠ []) : Eats (lit w) := by
  intro s a r h
  simp only [lit] at h
  split at h
  · next r' e =>
    simp only [Res.ok.injEq] at h
    obtain ⟨-, rfl⟩ := h
    obtain ⟨h1, h2⟩ := strip_suffix e
    refine ⟨h1.trans (skip_suffix _), ?_⟩
    have := (skip_suffix s).length_le
    have := List.length_pos_of_ne_nil hw
    omega
  · cases h

theorem suf_lit (w : Text) : Suf (lit w) := by
  intro s a r h
  simp only [lit] at h
  split at h
  · next r' e =>
    simp only [Res.ok.injEq] at h
    obtain ⟨-, rfl⟩ := h
    exact (strip_suffix e).1.trans (skip_suffix _)
  · cases h

theorem suf_clit (w : Text) : Suf (clit w) := by
  intro s a r h
  simp only [clit] at h
  split at h
  · next r' e =>
    simp only [Res.ok.injEq] at h
    obtain ⟨-, rfl⟩ := h
    exact (stripCaseless_suffix e).1.trans (skip_suffix _)
  · cases h

theorem oneOfIn_suffix : ∀ {ws : List Text} {s w r : Text}, oneOfIn ws s = some (w, r) → r <:+ s
  | [], _, _, _, h => by simp [oneOfIn] at h
  | w :: ws, s, w', r, h => by
    simp only [oneOfIn] at h
    split at h
    · next e => simp only [Option.some.injEq, Prod.mk.injEq] at h; exact h.2 ▸ (strip_suffix e).1
    · exact oneOfIn_suffix h

theorem suf_oneOf (ws : List Text) : Suf (oneOf ws) := by
  intro s a r h
  simp only [oneOf] at h
  split at h
  · next w r' e => simp only [Res.ok.injEq] at h; exact h.2 ▸ (oneOfIn_suffix e).trans (skip_suffix _)
  · cases h

theorem suf_followedBy (cs : List Char) : Suf (followedBy cs) := by
  intro s a r h
  simp only [followedBy] at h
  split at h
  · split_ifs at h; simp only [Res.ok.injEq] at h; rw [h.2]
  · cases h

theorem suf_string : Suf Peg.string := by
  intro s a r h
  simp only [Peg.string] at h
  split_ifs at h
  simp only [Res.ok.injEq] at h
  exact h.2 ▸ List.dropWhile_suffix _

theorem suf_nameRe (f : Char → Bool) : Suf (nameRe f) := by
  intro s a r h
  simp only [nameRe] at h
  split at h
  · next c t e =>
    split_ifs at h
    simp only [Res.ok.injEq] at h
    have := skip_suffix s
    rw [e] at this
    exact h.2 ▸ (List.dropWhile_suffix _).trans ((List.suffix_cons _ _).trans this)
  · cases h

theorem suf_field : Suf field := by
  intro s a r h
  simp only [field, Res.ok.injEq] at h
  exact h.2 ▸ (List.dropWhile_suffix _).trans (skip_suffix _)

theorem pUnsigned_suffix {s r : Text} {q : ℚ} (h : pUnsigned s = some (q, r)) : r <:+ s := by
  have hd : (digits s).2 <:+ s := List.dropWhile_suffix _
  simp only [pUnsigned] at h
  split at h
  · next r' e =>
    have hd' := hd
    rw [e] at hd
    have h2 : (digits r').2 <:+ s := (List.dropWhile_suffix _).trans ((List.suffix_cons _ _).trans hd)
    split_ifs at h <;> simp only [Option.some.injEq, Prod.mk.injEq, reduceCtorEq] at h
    · exact h.2 ▸ hd'
    · exact h.2 ▸ h2
  · split_ifs at h
    simp only [Option.some.injEq, Prod.mk.injEq] at h
    exact h.2 ▸ hd

theorem pDouble_suffix {s r : Text} {q : ℚ} (h : pDouble s = some (q, r)) : r <:+ s := by
  unfold pDouble at h
  split at h
  · exact (pUnsigned_suffix h).trans (List.suffix_cons _ _)
  · simp only [Option.map_eq_some_iff, Prod.exists, Prod.mk.injEq] at h
    obtain ⟨a, b, h1, -, rfl⟩ := h
    exact (pUnsigned_suffix h1).trans (List.suffix_cons _ _)
  · exact pUnsigned_suffix h

theorem suf_double : Suf double := by
  intro s a r h
  simp only [double] at h
  split at h
  · next e => simp only [Res.ok.injEq] at h; exact h.2 ▸ (pDouble_suffix e).trans (skip_suffix _)
  · cases h

theorem suf_doubleText : Suf doubleText := by
  intro s a r h
  simp only [doubleText] at h
  split at h
  · next e => simp only [Res.ok.injEq] at h; exact h.2 ▸ (pDouble_suffix e).trans (skip_suffix _)
  · cases h

theorem suf_integer : Suf integer := by
  intro s a r h
  simp only [integer] at h
  split at h
  · next c t e =>
    have hs := skip_suffix s
    rw [e] at hs
    split_ifs at h <;> simp only [Res.ok.injEq] at h
    · exact h.2 ▸ (List.dropWhile_suffix _).trans ((List.suffix_cons _ _).trans hs)
    · exact h.2 ▸ (List.dropWhile_suffix _).trans hs
  · cases h

theorem suf_apertureId : Suf apertureId := by
  intro s a r h
  simp only [apertureId] at h
  split at h
  · next c t e =>
    have hs := skip_suffix s
    rw [e] at hs
    split_ifs at h
    simp only [Res.ok.injEq] at h
    exact h.2 ▸ (List.dropWhile_suffix _).trans ((List.suffix_cons _ _).trans hs)
  · cases h

theorem suf_codeRe (l : Char) (w : Text) : Suf (codeRe l w) := by
  intro s a r h
  simp only [codeRe] at h
  split at h
  · next c t e =>
    have hs := skip_suffix s
    rw [e] at hs
    split_ifs at h
    split at h
    · next r' e' =>
      simp only [Res.ok.injEq] at h
      exact h.2 ▸ (strip_suffix e').1.trans ((List.dropWhile_suffix _).trans ((List.suffix_cons _ _).trans hs))
    · cases h
  · cases h

theorem suf_mZeros : Suf mZeros := by
  intro s a r h
  simp only [mZeros] at h
  split at h
  · next t e =>
    have hs := skip_suffix s
    rw [e] at hs
    simp only [Res.ok.injEq] at h
    exact h.2 ▸ (List.dropWhile_suffix _).trans ((List.suffix_cons _ _).trans ((List.suffix_cons _ _).trans hs))
  · cases h

theorem suf_digit : Suf digit := by
  intro s a r h
  simp only [digit] at h
  split at h
  · next c t e =>
    have hs := skip_suffix s
    rw [e] at hs
    split_ifs at h
    simp only [Res.ok.injEq] at h
    exact h.2 ▸ (List.suffix_cons _ _).trans hs
  · cases h

/-! ## Expressions -/

/-- What an expression leaves is a suffix. -/
def Suf' (p : Math.P Expr) : Prop := ∀ s e r, p s = some (e, r) → r <:+ s

theorem suf_pVar : Suf' pVar := by
  intro s e r h
  simp only [pVar] at h
  split at h
  · next t e' =>
    have hs := skip_suffix s
    rw [e'] at hs
    split_ifs at h
    simp only [Option.some.injEq, Prod.mk.injEq] at h
    exact h.2 ▸ (List.dropWhile_suffix _).trans ((List.suffix_cons _ _).trans hs)
  · cases h

theorem suf_pFactor {inner : Math.P Expr} (hi : Suf' inner) : Suf' (pFactor inner) := by
  intro s e r h
  simp only [pFactor] at h
  cases h1 : pVar s with
  | some x => rw [h1] at h; simp only [Option.orElse_some, Option.some.injEq] at h; exact suf_pVar _ _ _ (h ▸ h1)
  | none =>
    rw [h1] at h
    simp only [Option.orElse_none] at h
    cases h2 : pConst s with
    | some x =>
      rw [h2] at h
      simp only [Option.orElse_some, Option.some.injEq] at h
      rw [h] at h2
      simp only [pConst, Option.map_eq_some_iff, Prod.exists, Prod.mk.injEq] at h2
      obtain ⟨a, b, h3, -, rfl⟩ := h2
      exact (pDouble_suffix h3).trans (skip_suffix _)
    | none =>
      rw [h2] at h
      simp only [Option.orElse_none, pParen] at h
      split at h
      · next t e' =>
        have hs := skip_suffix s
        rw [e'] at hs
        split at h
        · next e1 r1 e2 =>
          split at h
          · next r2 e3 =>
            simp only [Option.some.injEq, Prod.mk.injEq] at h
            have h4 := skip_suffix r1
            rw [e3] at h4
            exact h.2 ▸ (List.suffix_cons _ _).trans (h4.trans ((hi _ _ _ e2).trans ((List.suffix_cons _ _).trans hs)))
          · cases h
        · cases h
      · cases h

theorem suf_pUnary (c : Char) (f : Expr → Expr) {last : Math.P Expr} (hl : Suf' last) : ∀ n, Suf' (pUnary c f last n)
  | 0 => hl
  | n + 1 => by
    intro s e r h
    simp only [pUnary] at h
    split at h
    · next c' t e' =>
      have hs := skip_suffix s
      rw [e'] at hs
      split_ifs at h
      · split at h
        · next e1 => simp only [Option.some.injEq, Prod.mk.injEq] at h
                     exact h.2 ▸ (suf_pUnary c f hl n _ _ _ e1).trans ((List.suffix_cons _ _).trans hs)
        · exact hl _ _ _ h
      · exact hl _ _ _ h
    · exact hl _ _ _ h

theorem suf_pMany (isOp : Char → Bool) {last : Math.P Expr} (hl : Suf' last) : ∀ n s, (pMany isOp last n s).2 <:+ s
  | 0, s => List.suffix_refl _
  | n + 1, s => by
    simp only [pMany]
    split
    · next c' t e' =>
      have hs := skip_suffix s
      rw [e'] at hs
      split_ifs
      · split
        · next e1 => exact (suf_pMany isOp hl n _).trans ((hl _ _ _ e1).trans ((List.suffix_cons _ _).trans hs))
        · exact List.suffix_refl _
      · exact List.suffix_refl _
    · exact List.suffix_refl _

theorem suf_pBin (op : Op) (isOp : Char → Bool) {last : Math.P Expr} (hl : Suf' last) : Suf' (pBin op isOp last) := by
  intro s e r h
  simp only [pBin] at h
  split at h
  · next h' r' e1 =>
    have hm := suf_pMany isOp hl r'.length r'
    split at h <;> simp only [Option.some.injEq, Prod.mk.injEq] at h
    · exact h.2 ▸ hl _ _ _ e1
    · next e2 => rw [e2] at hm; exact h.2 ▸ hm.trans (hl _ _ _ e1)
  · cases h

theorem suf_pExpr : ∀ n, Suf' (pExpr n)
  | 0 => by intro s e r h; simp [pExpr] at h
  | n + 1 => by
    have h1 := suf_pFactor (suf_pExpr n)
    have h2 : Suf' (fun s => pUnary '-' .neg (pFactor (pExpr n)) s.length s) := fun s => suf_pUnary _ _ h1 s.length s
    have h3 : Suf' (fun s => pUnary '+' .pos (fun s => pUnary '-' .neg (pFactor (pExpr n)) s.length s) s.length s) :=
      fun s => suf_pUnary _ _ h2 s.length s
    exact suf_pBin _ _ (suf_pBin _ _ (suf_pBin _ _ (suf_pBin _ _ h3)))

theorem suf_expr : Suf expr := by
  intro s a r h
  simp only [expr] at h
  split at h
  · next e => simp only [Res.ok.injEq] at h; exact h.2 ▸ (suf_pExpr _ _ _ _ e).trans (skip_suffix _)
  · cases h

theorem suf_variable : Suf variable_ := by
  intro s a r h
  simp only [variable_] at h
  split at h
  · next e => simp only [Res.ok.injEq] at h; exact h.2 ▸ (suf_pVar _ _ _ e).trans (skip_suffix _)
  · cases h

/-! ## Commands -/

theorem Suf.convert {α β : Type} {f : α → Option β} {p : P α} (h : Suf p) : Suf (convert f p) := by
  refine h.andThen fun a => ?_
  cases f a
  · exact .raise
  · exact .ret _

theorem Suf.ite {α : Type} {c : Prop} [Decidable c] {p q : P α} (h : Suf p) (h' : Suf q) : Suf (if c then p else q) := by
  split_ifs <;> assumption

theorem Eats.andThen {α β : Type} {p : P α} {f : α → P β} (h : Eats p) (hf : ∀ a, Suf (f a)) : Eats (p ~> f) := by
  intro s b r e
  obtain ⟨a, t, h1, h2⟩ := andThen_ok e
  obtain ⟨h3, h4⟩ := h _ _ _ h1
  have h5 := hf _ _ _ _ h2
  exact ⟨h5.trans h3, lt_of_le_of_lt h5.length_le h4⟩

theorem Eats.after {α β : Type} {p : P α} {f : α → P β} (h : Suf p) (hf : ∀ a, Eats (f a)) : Eats (p ~> f) := by
  intro s b r e
  obtain ⟨a, t, h1, h2⟩ := andThen_ok e
  have h3 := h _ _ _ h1
  obtain ⟨h4, h5⟩ := hf _ _ _ _ h2
  exact ⟨h4.trans h3, lt_of_lt_of_le h5 h3.length_le⟩

theorem Eats.mapP {α β : Type} {p : P α} {f : α → β} (h : Eats p) : Eats (mapP f p) := h.andThen fun _ => .ret _

theorem Eats.convert {α β : Type} {f : α → Option β} {p : P α} (h : Eats p) : Eats (convert f p) := by
  refine h.andThen fun a => ?_
  cases f a
  · exact .raise
  · exact .ret _

theorem Eats.firstOf {α : Type} {ps : List (P α)} (h : ∀ p ∈ ps, Eats p) : Eats (firstOf ps) := by
  induction ps with
  | nil => intro s a r e; simp [Peg.firstOf] at e
  | cons p ps ih =>
    intro s a r e
    simp only [Peg.firstOf, Peg.orElse] at e
    cases hp : p s with
    | ok b t => rw [hp] at e; simp only [Res.ok.injEq] at e; obtain ⟨rfl, rfl⟩ := e; exact h p (by simp) _ _ _ hp
    | fail => rw [hp] at e; exact ih (fun q hq => h q (by simp [hq])) _ _ _ e
    | raised => rw [hp] at e; cases e

theorem suf_comma : Suf comma := suf_lit _
theorem suf_asterisk : Suf asterisk := suf_lit _
theorem Suf.cs {α : Type} {p : P α} (h : Suf p) : Suf (cs p) := suf_comma.before h
theorem suf_fields : Suf fields := suf_field.cs.many
theorem eats_asterisk : Eats asterisk := eats_lit (by simp)

theorem eats_command {α : Type} {p : P α} (h : Suf p) : Eats (command p) :=
  .after h fun _ => eats_asterisk.andThen fun _ => .ret _

theorem eats_extended {α : Type} {p : P α} (h : Suf p) : Eats (extended p) :=
  (eats_lit (by simp)).andThen fun _ => h.andThen fun _ => suf_asterisk.andThen fun _ => (suf_lit _).andThen fun _ => .ret _

theorem eats_one {p : P Node} (h : Eats p) : Eats (one p) := h.mapP

theorem suf_coordinate (l : Char) : Suf (coordinate l) := (suf_clit _).before suf_integer

/-- Follow the structure of a parser element. -/
macro "sufs" : tactic => `(tactic| repeat' (with_reducible first
  | exact suf_lit _ | exact suf_clit _ | exact suf_comma | exact suf_asterisk | exact suf_fields | exact suf_expr
  | exact suf_oneOf _ | exact suf_followedBy _ | exact suf_string | exact suf_nameRe _ | exact suf_field
  | exact suf_double | exact suf_doubleText | exact suf_integer | exact suf_apertureId | exact suf_codeRe _ _
  | exact suf_mZeros | exact suf_digit | exact suf_variable | exact Suf.ret _ | exact Suf.raise
  | refine Suf.before ?_ ?_ | refine Suf.andThen ?_ (fun _ => ?_) | refine Suf.mapP ?_ | refine Suf.opt ?_ | refine Suf.cs ?_
  | refine Suf.many ?_ | refine Suf.many1 ?_ | refine Suf.convert ?_ | refine Suf.ite ?_ ?_ | exact suf_coordinate _ | assumption))

end Verif.Grammar
