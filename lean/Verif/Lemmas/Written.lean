import Verif.Spec.Written
import Verif.Lemmas.Suffix
import Verif.Lemmas.Expr

/-!
# What parser elements read is spelled as prescribed: tokens and combinators
-/

namespace Verif.Written

open Verif.Text Verif.Fmt Verif.Peg Verif.Syntax Verif.Grammar Verif.Spec
open Verif.Math hiding P

/-- The text `s` is a text of the language, followed by `r`. -/
def Cut (l : Language Char) (s r : Text) : Prop := ∃ w ∈ l, w ++ r = s

theorem Cut.mul {l m : Language Char} {s t r : Text} (h : Cut l s t) (h' : Cut m t r) : Cut (l * m) s r := by
  obtain ⟨w, hw, rfl⟩ := h
  obtain ⟨v, hv, rfl⟩ := h'
  exact ⟨w ++ v, Language.mem_mul.2 ⟨w, hw, v, hv, rfl⟩, by simp⟩

theorem Cut.one (s : Text) : Cut 1 s s := ⟨[], Language.mem_one [] |>.2 rfl, rfl⟩

theorem Cut.mono {l m : Language Char} {s r : Text} (h : Cut l s r) (hm : ∀ w ∈ l, w ∈ m) : Cut m s r := by
  obtain ⟨w, hw, e⟩ := h
  exact ⟨w, hm w hw, e⟩

theorem Cut.given {c : Prop} {l : Language Char} {s r : Text} (h : Cut l s r) (hc : c) : Cut (provided c l) s r :=
  h.mono fun _ hw => ⟨hc, hw⟩

/-! ## Combinators -/

theorem andThen_iff {α β : Type} {p : P α} {f : α → P β} {s r : Text} {b : β} :
    (p ~> f) s = .ok b r ↔ ∃ a t, p s = .ok a t ∧ f a t = .ok b r := by
  refine ⟨andThen_ok, ?_⟩
  rintro ⟨a, t, h1, h2⟩
  simp [andThen, h1, h2]

theorem before_iff {α β : Type} {p : P α} {q : P β} {s r : Text} {b : β} :
    (p ≫ q) s = .ok b r ↔ ∃ a t, p s = .ok a t ∧ q t = .ok b r := andThen_iff

theorem ret_iff {α : Type} {a b : α} {s r : Text} : ret a s = .ok b r ↔ b = a ∧ r = s := by
  simp only [ret, Res.ok.injEq]
  constructor <;> rintro ⟨rfl, rfl⟩ <;> exact ⟨rfl, rfl⟩

theorem raise_iff {α : Type} {b : α} {s r : Text} : (raise : P α) s = .ok b r ↔ False := by simp [raise]

theorem mapP_iff {α β : Type} {f : α → β} {p : P α} {s r : Text} {b : β} :
    mapP f p s = .ok b r ↔ ∃ a, p s = .ok a r ∧ b = f a := by
  simp only [mapP, andThen_iff, ret_iff]
  constructor
  · rintro ⟨a, t, h, rfl, rfl⟩; exact ⟨a, h, rfl⟩
  · rintro ⟨a, h, rfl⟩; exact ⟨a, r, h, rfl, rfl⟩

theorem convert_iff {α β : Type} {f : α → Option β} {p : P α} {s r : Text} {b : β} :
    convert f p s = .ok b r ↔ ∃ a, p s = .ok a r ∧ f a = some b := by
  simp only [convert, andThen_iff]
  constructor
  · rintro ⟨a, t, h, h'⟩
    cases hf : f a with
    | none => rw [hf] at h'; simp [raise] at h'
    | some c => rw [hf] at h'; obtain ⟨rfl, rfl⟩ := ret_iff.1 h'; exact ⟨a, h, hf⟩
  · rintro ⟨a, h, h'⟩
    exact ⟨a, r, h, by simp [h', ret]⟩

theorem firstOf_some {α : Type} {s r : Text} {a : α} : ∀ {ps : List (P α)}, firstOf ps s = .ok a r → ∃ p ∈ ps, p s = .ok a r
  | [], h => by simp [firstOf] at h
  | p :: ps, h => by
    simp only [firstOf, orElse] at h
    cases hp : p s with
    | ok b t => rw [hp] at h; exact ⟨p, by simp, by rw [hp]; exact h⟩
    | raised => rw [hp] at h; cases h
    | fail =>
      rw [hp] at h
      obtain ⟨q, hq, e⟩ := firstOf_some h
      exact ⟨q, by simp [hq], e⟩

theorem opt_cut {α : Type} {p : P α} {f : α → Language Char} {o : Option α} {s r : Text}
    (hp : ∀ a s r, p s = .ok a r → Cut (f a) s r) (h : opt p s = .ok o r) : Cut (perhaps f o) s r := by
  simp only [opt] at h
  cases e : p s with
  | ok a t => rw [e] at h; simp only [Res.ok.injEq] at h; obtain ⟨rfl, rfl⟩ := h; exact hp _ _ _ e
  | fail => rw [e] at h; simp only [Res.ok.injEq] at h; obtain ⟨rfl, rfl⟩ := h; exact .one _
  | raised => rw [e] at h; cases h

theorem manyFuel_cut {α : Type} {p : P α} {f : α → Language Char} (hp : ∀ a s r, p s = .ok a r → Cut (f a) s r) :
    ∀ {n : Nat} {as : List α} {s r : Text}, manyFuel p n s = .ok as r → Cut (listed f as) s r
  | 0, as, s, r, h => by obtain ⟨rfl, rfl⟩ := ret_iff.1 h; exact .one _
  | n + 1, as, s, r, h => by
    simp only [manyFuel] at h
    cases e : p s with
    | ok a t =>
      rw [e] at h
      obtain ⟨b, h1, rfl⟩ := mapP_iff.1 h
      exact (hp _ _ _ e).mul (manyFuel_cut hp h1)
    | fail => rw [e] at h; simp only [Res.ok.injEq] at h; obtain ⟨rfl, rfl⟩ := h; exact .one _
    | raised => rw [e] at h; cases h

theorem many_cut {α : Type} {p : P α} {f : α → Language Char} {as : List α} {s r : Text}
    (hp : ∀ a s r, p s = .ok a r → Cut (f a) s r) (h : many p s = .ok as r) : Cut (listed f as) s r := manyFuel_cut hp h

/-! ## Tokens -/

theorem tok_cut {S : Text → Prop} {s w r : Text} (hw : S w) (h : w ++ r = skip s) : Cut (tok S) s r := by
  obtain ⟨b, hb, e⟩ := Math.skip_split s
  exact ⟨b ++ w, ⟨b, w, hb, hw, rfl⟩, by rw [List.append_assoc, h, ← e]⟩

theorem strip_some : ∀ {w s r : Text}, strip w s = some r → w ++ r = s
  | [], s, r, h => by simp only [strip, Option.some.injEq] at h; simp [h]
  | _ :: _, [], r, h => by simp [strip] at h
  | a :: w, c :: s, r, h => by
    simp only [strip] at h
    split_ifs at h with hac
    rw [List.cons_append, strip_some h, hac]

theorem stripCaseless_some : ∀ {w s r : Text}, stripCaseless w s = some r →
    ∃ v : Text, v.map Char.toUpper = w.map Char.toUpper ∧ v ++ r = s
  | [], s, r, h => by simp only [stripCaseless, Option.some.injEq] at h; exact ⟨[], rfl, by simp [h]⟩
  | _ :: _, [], r, h => by simp [stripCaseless] at h
  | a :: w, c :: s, r, h => by
    simp only [stripCaseless] at h
    split_ifs at h with hac
    obtain ⟨v, h1, h2⟩ := stripCaseless_some h
    exact ⟨c :: v, by simp [h1, hac], by simp [h2]⟩

theorem lit_cut {w s r : Text} {u : Unit} (h : lit w s = .ok u r) : Cut (word w) s r := by
  simp only [lit] at h
  split at h
  · next t e => simp only [Res.ok.injEq] at h; obtain ⟨-, rfl⟩ := h; exact tok_cut rfl (strip_some e)
  · cases h

theorem clit_cut {w s r : Text} {u : Unit} (h : clit w s = .ok u r) : Cut (anyCase w) s r := by
  simp only [clit] at h
  split at h
  · next t e =>
    simp only [Res.ok.injEq] at h
    obtain ⟨-, rfl⟩ := h
    obtain ⟨v, h1, h2⟩ := stripCaseless_some e
    exact tok_cut h1 h2
  · cases h

theorem oneOfIn_some : ∀ {ws : List Text} {s w r : Text}, oneOfIn ws s = some (w, r) → w ∈ ws ∧ w ++ r = s
  | [], s, w, r, h => by simp [oneOfIn] at h
  | v :: ws, s, w, r, h => by
    simp only [oneOfIn] at h
    split at h
    · next t e =>
      simp only [Option.some.injEq, Prod.mk.injEq] at h
      obtain ⟨rfl, rfl⟩ := h
      exact ⟨by simp, strip_some e⟩
    · obtain ⟨h1, h2⟩ := oneOfIn_some h
      exact ⟨by simp [h1], h2⟩

theorem oneOf_cut {ws : List Text} {s w r : Text} (h : oneOf ws s = .ok w r) : Cut (choice ws w) s r := by
  simp only [oneOf] at h
  split at h
  · next v t e =>
    simp only [Res.ok.injEq] at h
    obtain ⟨rfl, rfl⟩ := h
    obtain ⟨h1, h2⟩ := oneOfIn_some e
    exact (tok_cut rfl h2 : Cut (word _) _ _).given h1
  · cases h

theorem string_cut {s w r : Text} (h : Peg.string s = .ok w r) : Cut (freeText w) s r := by
  simp only [Peg.string] at h
  split_ifs at h with he
  simp only [Res.ok.injEq] at h
  obtain ⟨rfl, rfl⟩ := h
  refine ⟨_, ⟨rfl, by simpa using he, ?_, ?_⟩, List.takeWhile_append_dropWhile⟩
  · intro hc; have := List.mem_takeWhile_imp hc; simp at this
  · intro hc; have := List.mem_takeWhile_imp hc; simp at this

theorem nameChar {c : Char} (h : isNameChar c = true) : NameChar c := by
  simp only [isNameChar, isDigit, Bool.or_eq_true, beq_iff_eq, Bool.and_eq_true, decide_eq_true_eq] at h
  unfold NameChar
  tauto

theorem userStart {c : Char} (h : isUserStart c = true) : UserNameStart c := by
  simp only [isUserStart, Bool.or_eq_true, beq_iff_eq, Bool.and_eq_true, decide_eq_true_eq] at h
  unfold UserNameStart
  tauto

theorem name_cut {s w r : Text} (h : Peg.name s = .ok w r) : Cut (macroName w) s r := by
  simp only [Peg.name, nameRe] at h
  split at h
  · next c t e =>
    split_ifs at h with hc
    simp only [Res.ok.injEq] at h
    obtain ⟨rfl, rfl⟩ := h
    refine tok_cut ⟨rfl, c, _, rfl, ?_, fun x hx => nameChar (List.mem_takeWhile_imp hx)⟩ ?_
    · simp only [isNameStart, Bool.or_eq_true, beq_iff_eq] at hc
      exact hc.imp_right userStart
    · rw [e, List.cons_append, List.takeWhile_append_dropWhile]
  · cases h

theorem userName_cut {s w r : Text} (h : userName s = .ok w r) : Cut (userAttribute w) s r := by
  simp only [userName, nameRe] at h
  split at h
  · next c t e =>
    split_ifs at h with hc
    simp only [Res.ok.injEq] at h
    obtain ⟨rfl, rfl⟩ := h
    refine tok_cut ⟨rfl, c, _, rfl, userStart hc, fun x hx => nameChar (List.mem_takeWhile_imp hx)⟩ ?_
    rw [e, List.cons_append, List.takeWhile_append_dropWhile]
  · cases h

theorem blank_iff {c : Char} : Blank [c] ↔ isBlank c = true := by
  simp [Blank, isBlank, or_assoc]

theorem skip_head {s t : Text} {c : Char} (h : skip s = c :: t) : isBlank c = false := by
  have : skip (c :: t) = c :: t := by rw [← h, Math.skip_skip]
  by_contra hc
  simp only [Bool.not_eq_false] at hc
  have h2 : skip (c :: t) = skip t := by simp [skip, hc]
  have h3 : (skip t).length ≤ t.length := Math.skip_length t
  rw [← h2, this] at h3
  simp at h3

theorem field_cut {s w r : Text} (h : field s = .ok w r) : Cut (fieldText w) s r := by
  simp only [field, Res.ok.injEq] at h
  obtain ⟨rfl, rfl⟩ := h
  refine tok_cut ⟨rfl, ?_, ?_, ?_, ?_⟩ List.takeWhile_append_dropWhile
  · intro hc; have := List.mem_takeWhile_imp hc; simp [isFieldChar] at this
  · intro hc; have := List.mem_takeWhile_imp hc; simp [isFieldChar] at this
  · intro hc; have := List.mem_takeWhile_imp hc; simp [isFieldChar] at this
  · intro c t e hb
    rw [blank_iff] at hb
    cases hs : skip s with
    | nil => rw [hs] at e; simp at e
    | cons d u =>
      rw [hs, List.takeWhile_cons] at e
      split_ifs at e
      · simp only [List.cons.injEq] at e
        rw [← e.1, skip_head hs] at hb
        cases hb

theorem unsigned_text {s r : Text} {q : ℚ} (h : pUnsigned s = some (q, r)) : ∃ w, w ++ r = s ∧ UnsignedText w q := by
  obtain ⟨h1, h2, -, -⟩ := Math.digits_split (s := s) (d := (digits s).1) (r := (digits s).2) rfl
  have num : ∀ d : Text, Digits d → d ≠ [] → UnsignedText d (floatOf false d []) := fun d hd hn => by
    rw [Math.floatOf_num]; exact .whole hd hn
  simp only [pUnsigned] at h
  split at h
  · next r' e =>
    obtain ⟨h3, h4, -, -⟩ := Math.digits_split (s := r') (d := (digits r').1) (r := (digits r').2) rfl
    split_ifs at h with g1 g2
    · simp only [Option.some.injEq, Prod.mk.injEq] at h
      obtain ⟨rfl, rfl⟩ := h
      exact ⟨_, h1.symm, num _ h2 (by simpa using g2)⟩
    · simp only [Option.some.injEq, Prod.mk.injEq] at h
      obtain ⟨rfl, rfl⟩ := h
      refine ⟨(digits s).1 ++ '.' :: (digits r').1, ?_, ?_⟩
      · rw [List.append_assoc, List.cons_append, ← h3, ← e, ← h1]
      · rw [Math.floatOf_dec]
        exact .decimal h2 h4 (by simpa using g1)
  · split_ifs at h with g2
    simp only [Option.some.injEq, Prod.mk.injEq] at h
    obtain ⟨rfl, rfl⟩ := h
    exact ⟨_, h1.symm, num _ h2 (by simpa using g2)⟩

theorem signed_text {s r : Text} {q : ℚ} (g : Sign) (h : pUnsigned s = some (q, r)) :
    ∃ w, w ++ r = g.text ++ s ∧ NumberText w (g.factor * q) := by
  obtain ⟨w, rfl, h1⟩ := unsigned_text h
  exact ⟨g.text ++ w, by simp, g, w, q, h1, rfl, rfl⟩

theorem double_text {s r : Text} {q : ℚ} (h : pDouble s = some (q, r)) : ∃ w, w ++ r = s ∧ NumberText w q := by
  unfold pDouble at h
  split at h
  · obtain ⟨w, h1, h2⟩ := signed_text .plus h
    exact ⟨w, h1, by simpa [Sign.factor] using h2⟩
  · simp only [Option.map_eq_some_iff, Prod.exists, Prod.mk.injEq] at h
    obtain ⟨a, b, h1, rfl, rfl⟩ := h
    obtain ⟨w, h1, h2⟩ := signed_text .minus h1
    exact ⟨w, h1, by simpa [Sign.factor] using h2⟩
  · obtain ⟨w, h1, h2⟩ := signed_text .none h
    exact ⟨w, h1, by simpa [Sign.factor] using h2⟩

theorem double_cut {s r : Text} {q : ℚ} (h : double s = .ok q r) : Cut (numeric q) s r := by
  simp only [double] at h
  split at h
  · next q' t e =>
    simp only [Res.ok.injEq] at h
    obtain ⟨rfl, rfl⟩ := h
    obtain ⟨w, h1, h2⟩ := double_text e
    exact tok_cut h2 h1
  · cases h

theorem doubleText_cut {s r t : Text} (h : doubleText s = .ok t r) : Cut (numberAs t) s r := by
  simp only [doubleText] at h
  split at h
  · next q' t' e =>
    simp only [Res.ok.injEq] at h
    obtain ⟨rfl, rfl⟩ := h
    obtain ⟨w, h1, h2⟩ := double_text e
    have e2 : (skip s).take ((skip s).length - t'.length) = w := by rw [← h1]; simp
    rw [e2]
    exact tok_cut ⟨rfl, _, h2⟩ h1
  · cases h

theorem integer_cut {s r t : Text} (h : integer s = .ok t r) : Cut (wholeAs t) s r := by
  simp only [integer] at h
  split at h
  · next c u e =>
    split_ifs at h with g1 g2 g3
    · obtain ⟨h1, h2, -, -⟩ := Math.digits_split (s := u) (d := (digits u).1) (r := (digits u).2) rfl
      simp only [Res.ok.injEq] at h
      obtain ⟨rfl, rfl⟩ := h
      have hne : (digits u).1 ≠ [] := by simpa using g2
      simp only [isSign, Bool.or_eq_true, beq_iff_eq] at g1
      refine tok_cut (w := c :: (digits u).1) ⟨rfl, ?_⟩ (by rw [e, List.cons_append, ← h1])
      obtain rfl | rfl := g1
      · exact ⟨.plus, _, h2, hne, rfl⟩
      · exact ⟨.minus, _, h2, hne, rfl⟩
    · obtain ⟨h1, h2, -, -⟩ := Math.digits_split (s := c :: u) (d := (digits (c :: u)).1) (r := (digits (c :: u)).2) rfl
      simp only [Res.ok.injEq] at h
      obtain ⟨rfl, rfl⟩ := h
      exact tok_cut ⟨rfl, .none, _, h2, by simpa using g3, rfl⟩ (by rw [e, ← h1])
  · cases h

theorem strip_zeros (r : Text) : ∃ z, r = List.replicate z '0' ++ lstrip0 r := by
  induction r with
  | nil => exact ⟨0, rfl⟩
  | cons c r ih =>
    unfold lstrip0 at *
    by_cases h : c = '0'
    · obtain ⟨z, hz⟩ := ih
      refine ⟨z + 1, ?_⟩
      subst h
      simp only [List.dropWhile_cons, beq_self_eq_true, if_true, List.replicate_succ, List.cons_append, ← hz]
    · exact ⟨0, by simp [h]⟩

theorem numeral_zeros (z : Nat) (ds : Text) : numeral (List.replicate z '0' ++ ds) = numeral ds := by
  induction z with
  | zero => simp
  | succ z ih => simp [List.replicate_succ, numeral, ih]

theorem digits_zeros {z : Nat} {ds : Text} (h : Digits ds) : Digits (List.replicate z '0' ++ ds) := by
  intro c hc
  rw [List.mem_append] at hc
  obtain hc | hc := hc
  · rw [List.eq_of_mem_replicate hc]; decide
  · exact h c hc

theorem codeRe_cut {l : Char} {w s r : Text} {u : Unit} (hd : Digits w) (hw : w ≠ []) (h : codeRe l w s = .ok u r) :
    Cut (code l (numeral w)) s r := by
  simp only [codeRe] at h
  split at h
  · next c t e =>
    split_ifs at h with hc
    split at h
    · next r' e' =>
      simp only [Res.ok.injEq] at h
      obtain ⟨-, rfl⟩ := h
      obtain ⟨z, hz⟩ := strip_zeros t
      refine tok_cut (w := c :: (List.replicate z '0' ++ w)) ⟨_, digits_zeros hd, by simp [hw], numeral_zeros z w, by rw [hc]⟩ ?_
      rw [e, List.cons_append, List.append_assoc, strip_some e', ← hz]
    · cases h
  · cases h

theorem comment_cut {s r : Text} {u : Unit} (h : codeRe 'G' ['4'] s = .ok u r) :
    Cut (tok fun w => ∃ zs : Text, (∀ c ∈ zs, c = '0') ∧ w = 'G' :: zs ++ t!"4") s r := by
  simp only [codeRe] at h
  split at h
  · next c t e =>
    split_ifs at h with hc
    split at h
    · next r' e' =>
      simp only [Res.ok.injEq] at h
      obtain ⟨-, rfl⟩ := h
      obtain ⟨z, hz⟩ := strip_zeros t
      refine tok_cut (w := c :: (List.replicate z '0' ++ t!"4"))
        ⟨List.replicate z '0', fun c hc => List.eq_of_mem_replicate hc, by rw [hc]; rfl⟩ ?_
      rw [e, List.cons_append, List.append_assoc, strip_some e', ← hz]
    · cases h
  · cases h

theorem mZeros_cut {s r : Text} {u : Unit} (h : mZeros s = .ok u r) : Cut (code 'M' 0) s r := by
  simp only [mZeros] at h
  split at h
  · next t e =>
    simp only [Res.ok.injEq] at h
    obtain ⟨-, rfl⟩ := h
    obtain ⟨z, hz⟩ := strip_zeros t
    refine tok_cut (w := 'M' :: '0' :: List.replicate z '0') ⟨'0' :: List.replicate z '0', ?_, by simp, ?_, rfl⟩ ?_
    · have := digits_zeros (z := z + 1) (ds := []) (by intro c hc; cases hc)
      simpa [List.replicate_succ] using this
    · have := numeral_zeros (z + 1) []
      simpa [List.replicate_succ, numeral] using this
    · rw [e, List.cons_append, List.cons_append, ← hz]
  · cases h

theorem ten_le {ds : Text} (h : 2 ≤ (lstrip0 ds).length) (hd : Digits ds) : 10 ≤ numeral ds := by
  obtain ⟨z, hz⟩ := strip_zeros ds
  rw [hz, numeral_zeros]
  match e : lstrip0 ds, h with
  | c :: d :: r, _ =>
    have hc : c ≠ '0' := by
      intro hc
      have : (c == '0') = false := by
        have := List.dropWhile_get_zero_not (p := (· == '0')) ds (by rw [show List.dropWhile _ ds = lstrip0 ds from rfl, e]; simp)
        simpa [show List.dropWhile (· == '0') ds = lstrip0 ds from rfl, e] using this
      simp [hc] at this
    have hm : c ∈ ds := by rw [hz, e]; simp
    obtain ⟨h1, -⟩ := hd c hm
    have hn : '0'.toNat < c.toNat := by
      have : '0'.toNat ≤ c.toNat := h1
      refine lt_of_le_of_ne this fun h => hc ?_
      exact (Char.ext (UInt32.toNat_inj.1 h)).symm
    simp only [numeral, List.length_cons]
    have : 1 ≤ c.toNat - '0'.toNat := by omega
    have h10 : 10 ≤ 10 ^ (r.length + 1) := by
      rw [pow_succ]
      have := Nat.one_le_pow r.length 10 (by norm_num)
      omega
    exact le_trans (by simpa using Nat.mul_le_mul this h10) (Nat.le_add_right _ _)

theorem apertureId_cut {s r t : Text} (h : apertureId s = .ok t r) : Cut (apertureCode t) s r := by
  simp only [apertureId] at h
  split at h
  · next c u e =>
    split_ifs at h with hc
    obtain ⟨h1, h2, -, -⟩ := Math.digits_split (s := u) (d := (digits u).1) (r := (digits u).2) rfl
    simp only [Res.ok.injEq] at h
    obtain ⟨rfl, rfl⟩ := h
    refine tok_cut (w := 'D' :: (digits u).1) ⟨rfl, _, h2, ten_le hc.2 h2, rfl⟩ ?_
    rw [e, List.cons_append, ← h1, hc.1]
  · cases h

theorem digit_cut {s r : Text} {n : Nat} (h : digit s = .ok n r) : Cut (oneDigit n) s r := by
  simp only [digit] at h
  split at h
  · next c u e =>
    split_ifs at h with hc
    simp only [Res.ok.injEq] at h
    obtain ⟨rfl, rfl⟩ := h
    refine tok_cut (w := [c]) ⟨c, rfl, ?_, ?_⟩ (by rw [e]; rfl)
    · exact (all_isDigit_iff _).1 (by simp [hc])
    · simp [numeral, digitVal]
  · cases h

theorem followedBy_begins {cs : List Char} {s r : Text} {u : Unit} (h : followedBy cs s = .ok u r) :
    r = s ∧ BeginsWith cs s := by
  simp only [followedBy] at h
  split at h
  · next c t e =>
    split_ifs at h with hc
    simp only [Res.ok.injEq] at h
    obtain ⟨b, hb, e'⟩ := Math.skip_split s
    exact ⟨h.2.symm, b, c, t, hb, hc, by rw [← e]; exact e'⟩
  · cases h

end Verif.Written
