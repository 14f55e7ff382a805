import Verif.Lemmas.Highlight

/-!
# Lemmas on highlighting words
-/

namespace Verif.Lexer
open Verif.Spec.Highlight

/-- What precedes a word: nothing that the lexer would look behind for. -/
def Quiet (bef : List Char) : Prop :=
  Nameless bef ∧ lookBehind [(· == 'S'), (· == 'F'), (· == '%')] bef = false ∧
  lookBehind [(· == 'O'), (· == 'M'), (· == '%')] bef = false ∧ ∀ cs, bef ≠ 'D' :: cs

theorem quiet_nil : Quiet [] := ⟨⟨rfl, rfl, rfl, rfl⟩, rfl, rfl, by simp⟩

theorem quiet_mark {c : Char} (h : c ∈ ['*', '%', '\n', ',']) (bef : List Char) : Quiet (c :: bef) := by
  simp only [List.mem_cons, List.not_mem_nil, or_false] at h
  rcases h with rfl | rfl | rfl | rfl <;> exact ⟨⟨rfl, rfl, rfl, rfl⟩, rfl, rfl, by simp⟩

theorem digit_ne {c : Char} (h : isDigit c = true) : c ≠ 'D' ∧ c ≠ 'M' ∧ c ≠ 'S' ∧ c ≠ 'O' ∧ c ≠ '%' ∧ c ≠ 'A' ∧ c ≠ 'I' := by
  have := digit_mem h
  simp only [List.mem_cons, List.not_mem_nil, or_false] at this
  rcases this with rfl | rfl | rfl | rfl | rfl | rfl | rfl | rfl | rfl | rfl <;> decide

theorem quiet_reversed {rs : List Char} (hr : rs ≠ []) (h : ∀ c ∈ rs, isDigit c = true) {c : Char}
    (hc : isDigit c = false) {bef : List Char} (hd : c = 'D' → ∀ cs, bef ≠ 'D' :: cs) : Quiet (rs ++ c :: bef) := by
  have key : ((c == 'D') && lookBehind [(· == 'D'), (· == 'A'), (· == '%')] bef) = false := by
    by_cases e : c = 'D'
    · cases bef with
      | nil => simp [lookBehind]
      | cons b bef =>
        have : b ≠ 'D' := fun eb => hd e bef (by rw [eb])
        simp [lookBehind, this]
    · simp [e]
  match rs, hr with
  | [a], _ =>
    have ha := h a (by simp)
    obtain ⟨a1, a2, a3, a4, a5, a6, a7⟩ := digit_ne ha
    refine ⟨⟨?_, ?_, ?_, ?_⟩, ?_, ?_, ?_⟩
    · simp only [List.singleton_append, lookBehind, ha, Bool.true_and]
      exact key
    all_goals simp [lookBehind, hc, a1, a2, a3, a4]
  | [a, b], _ =>
    have ha := h a (by simp)
    have hb := h b (by simp)
    obtain ⟨a1, a2, a3, a4, a5, a6, a7⟩ := digit_ne ha
    obtain ⟨b1, b2, b3, b4, b5, b6, b7⟩ := digit_ne hb
    refine ⟨⟨?_, ?_, ?_, ?_⟩, ?_, ?_, ?_⟩
    · simp [lookBehind, b1]
    · simp only [List.cons_append, List.nil_append, lookBehind, ha, hb, Bool.true_and]
      exact key
    all_goals simp [lookBehind, hc, a1, a2, a3, a4]
  | [a, b, d], _ =>
    have ha := h a (by simp)
    have hb := h b (by simp)
    have hd := h d (by simp)
    obtain ⟨a1, a2, a3, a4, a5, a6, a7⟩ := digit_ne ha
    obtain ⟨b1, b2, b3, b4, b5, b6, b7⟩ := digit_ne hb
    obtain ⟨d1, d2, d3, d4, d5, d6, d7⟩ := digit_ne hd
    refine ⟨⟨?_, ?_, ?_, ?_⟩, ?_, ?_, ?_⟩
    · simp [lookBehind, b1]
    · simp [lookBehind, d1]
    · simp only [List.cons_append, List.nil_append, lookBehind, ha, hb, hd, Bool.true_and]
      exact key
    all_goals simp [lookBehind, a1, a2, a3, a4]
  | a :: b :: d :: e :: rs, _ =>
    have ha := h a (by simp)
    have hb := h b (by simp)
    have hd := h d (by simp)
    have he := h e (by simp)
    obtain ⟨a1, a2, a3, a4, a5, a6, a7⟩ := digit_ne ha
    obtain ⟨b1, b2, b3, b4, b5, b6, b7⟩ := digit_ne hb
    obtain ⟨d1, d2, d3, d4, d5, d6, d7⟩ := digit_ne hd
    obtain ⟨e1, e2, e3, e4, e5, e6, e7⟩ := digit_ne he
    refine ⟨⟨?_, ?_, ?_, ?_⟩, ?_, ?_, ?_⟩
    · simp [lookBehind, b1]
    · simp [lookBehind, d1]
    · simp [lookBehind, e1]
    all_goals simp [lookBehind, a1, a2, a3, a4]

theorem quiet_digits {ds : List Char} (h : Digits ds) {c : Char} (hc : isDigit c = false) {bef : List Char}
    (hd : c = 'D' → ∀ cs, bef ≠ 'D' :: cs) : Quiet (ds.reverse ++ c :: bef) :=
  quiet_reversed (by simpa using h.1) (fun d hd => digits_mem h d (by simpa using hd)) hc hd

theorem quiet_numeral {n : Numeral} (h : n.Ok) {c : Char} (hc : isDigit c = false) (hd : c ≠ 'D') (bef : List Char) :
    Quiet (n.text.reverse ++ c :: bef) := by
  obtain ⟨hs, hw, hf⟩ := h
  cases hfr : n.fraction with
  | some f =>
    have : n.text.reverse ++ c :: bef = f.reverse ++ '.' :: (n.whole.reverse ++ (n.sign.reverse ++ c :: bef)) := by
      simp [Numeral.text, hfr]
    rw [this]
    exact quiet_digits (hf f hfr) rfl (by simp)
  | none =>
    cases hsg : n.sign.reverse with
    | nil =>
      have : n.text.reverse ++ c :: bef = n.whole.reverse ++ c :: bef := by simp [Numeral.text, hfr, hsg]
      rw [this]
      exact quiet_digits hw hc fun e => absurd e hd
    | cons s ss =>
      have : n.text.reverse ++ c :: bef = n.whole.reverse ++ s :: (ss ++ c :: bef) := by
        simp [Numeral.text, hfr, hsg]
      rw [this]
      have hm : s ∈ n.sign := List.mem_reverse.mp (by rw [hsg]; exact List.mem_cons_self ..)
      rcases hs s hm with rfl | rfl
      · exact quiet_digits hw rfl (by simp)
      · exact quiet_digits hw rfl (by simp)

/-! ### Words -/

theorem behind_skip {ps : List (Char → Bool)} {bef : List Char} (h : lookBehind ps bef = false) (r : Re) (kind : Kind)
    (rs : List (Re × Kind)) (t : List Char) :
    firstMatch ((Re.seq (.behind ps) r, kind) :: rs) bef t = firstMatch rs bef t := by
  simp [firstMatch, Re.run, h]

theorem second_skip {a b c d : Char} (h : d ≠ b) (bef t : List Char) (kind : Kind) (rs : List (Re × Kind)) :
    firstMatch ((codeRe a b, kind) :: rs) bef (c :: d :: t) = firstMatch rs bef (c :: d :: t) := by
  by_cases h1 : lookBehind [(· == '%')] bef = true <;> by_cases h2 : c = a <;>
    simp [firstMatch, codeRe, ch, Re.run, h, h1, h2]

theorem mark_token {c : Char} (h : c ∈ ['*', '%', '\n', ',']) (bef rest : List Char) :
    Lexes bef [c] [(if c = '\n' then .whitespace else .error, [c])] rest := by
  apply Lexes.single
  simp only [List.mem_cons, List.not_mem_nil, or_false] at h
  rcases h with rfl | rfl | rfl | rfl <;> exact rules_at bef _ rest [] rfl

theorem nameless_skip {bef : List Char} (h : Nameless bef) (rs : List (Re × Kind)) (t : List Char) :
    firstMatch
      ((.seq (.behind [isDigit, (· == 'D'), (· == 'D'), (· == 'A'), (· == '%')]) nameRe, .className) ::
       (.seq (.behind [isDigit, isDigit, (· == 'D'), (· == 'D'), (· == 'A'), (· == '%')]) nameRe, .className) ::
       (.seq (.behind [isDigit, isDigit, isDigit, (· == 'D'), (· == 'D'), (· == 'A'), (· == '%')]) nameRe, .className) ::
       (.seq (.behind [(· == 'M'), (· == 'A'), (· == '%')]) nameRe, .className) :: rs) bef t = firstMatch rs bef t := by
  rw [behind_skip h.1, behind_skip h.2.1, behind_skip h.2.2.1, behind_skip h.2.2.2]

theorem g_token {ds : List Char} (h : Digits ds) {bef rest : List Char} (hb : Quiet bef) (hr : Ends isDigit rest) :
    Lexes bef ('G' :: ds) [(.keyword, 'G' :: ds)] rest := by
  apply Lexes.token
  rw [List.cons_append, rules_at bef 'G' (ds ++ rest) _ rfl]
  refine (nameless_skip hb.1 [(.seq (ch 'G') digitsRe, .keyword)] _).trans ?_
  have : (Re.seq (ch 'G') digitsRe).run (fun b t => some (b, t)) bef ('G' :: (ds ++ rest)) =
      some (ds.reverse ++ 'G' :: bef, rest) := by
    simp only [Re.run, ch, beq_self_eq_true, if_true]
    exact digits_run _ h hr rfl
  simp only [firstMatch, this]
  simp

theorem param_token {ds : List Char} (h : Digits ds) {bef rest : List Char} (hb : Quiet bef) (hr : Ends isDigit rest) :
    Lexes bef ('$' :: ds) [(.variable, '$' :: ds)] rest := by
  apply Lexes.token
  rw [List.cons_append, rules_at bef '$' (ds ++ rest) _ rfl]
  refine (nameless_skip hb.1 [(.seq (ch '$') digitsRe, .variable)] _).trans ?_
  have : (Re.seq (ch '$') digitsRe).run (fun b t => some (b, t)) bef ('$' :: (ds ++ rest)) =
      some (ds.reverse ++ '$' :: bef, rest) := by
    simp only [Re.run, ch, beq_self_eq_true, if_true]
    exact digits_run _ h hr rfl
  simp only [firstMatch, this]
  simp

theorem m_token {ds : List Char} (h : Digits ds) {bef rest : List Char} (hb : Quiet bef) (hr : Ends isDigit rest) :
    Lexes bef ('M' :: ds) [(.keyword, 'M' :: ds)] rest := by
  apply Lexes.token
  have hv : (Re.seq (ch 'M') digitsRe).run (fun b t => some (b, t)) bef ('M' :: (ds ++ rest)) =
      some (ds.reverse ++ 'M' :: bef, rest) := by
    simp only [Re.run, ch, beq_self_eq_true, if_true]
    exact digits_run _ h hr rfl
  rw [List.cons_append, rules_at bef 'M' (ds ++ rest) _ rfl]
  have e : rules.filter (fun r => r.1.starts 'M') =
      (.seq (codeRe 'M' 'O') (.ahead (.alt (.seq (ch 'M') (ch 'M')) (.seq (ch 'I') (ch 'N')))), .keyword) ::
      (.seq (.behind [(· == 'O'), (· == 'M'), (· == '%')])
        (.alt (.seq (ch 'M') (ch 'M')) (.seq (ch 'I') (ch 'N'))), .constant) ::
      (codeRe 'M' 'I', .keyword) ::
      (.seq (.behind [isDigit, (· == 'D'), (· == 'D'), (· == 'A'), (· == '%')]) nameRe, .className) ::
      (.seq (.behind [isDigit, isDigit, (· == 'D'), (· == 'D'), (· == 'A'), (· == '%')]) nameRe, .className) ::
      (.seq (.behind [isDigit, isDigit, isDigit, (· == 'D'), (· == 'D'), (· == 'A'), (· == '%')]) nameRe, .className) ::
      (.seq (.behind [(· == 'M'), (· == 'A'), (· == '%')]) nameRe, .className) ::
      [(.seq (ch 'M') digitsRe, .keyword)] := by rfl
  rw [e]
  have h1 : (Re.seq (codeRe 'M' 'O') (.ahead (.alt (.seq (ch 'M') (ch 'M')) (.seq (ch 'I') (ch 'N'))))).run
      (fun b t => some (b, t)) bef ('M' :: (ds ++ rest)) = none := by
    obtain ⟨d, ds, rfl⟩ := List.exists_cons_of_ne_nil h.1
    have := (digit_ne (digits_mem h d (by simp))).2.2.2.1
    by_cases hb : lookBehind [(· == '%')] bef = true <;> simp [codeRe, Re.run, ch, hb, this]
  rw [firstMatch, h1]
  simp only
  rw [behind_skip hb.2.2.1]
  have h2 : firstMatch ((codeRe 'M' 'I', Kind.keyword) ::
      (.seq (.behind [isDigit, (· == 'D'), (· == 'D'), (· == 'A'), (· == '%')]) nameRe, .className) ::
      (.seq (.behind [isDigit, isDigit, (· == 'D'), (· == 'D'), (· == 'A'), (· == '%')]) nameRe, .className) ::
      (.seq (.behind [isDigit, isDigit, isDigit, (· == 'D'), (· == 'D'), (· == 'A'), (· == '%')]) nameRe, .className) ::
      (.seq (.behind [(· == 'M'), (· == 'A'), (· == '%')]) nameRe, .className) ::
      [(.seq (ch 'M') digitsRe, .keyword)]) bef ('M' :: (ds ++ rest)) =
      firstMatch [(.seq (ch 'M') digitsRe, .keyword)] bef ('M' :: (ds ++ rest)) := by
    obtain ⟨d, ds, rfl⟩ := List.exists_cons_of_ne_nil h.1
    have := (digit_ne (digits_mem h d (by simp))).2.2.2.2.2.2
    rw [List.cons_append, second_skip this, nameless_skip hb.1]
  rw [h2, firstMatch, hv]
  simp

theorem axis_token {c : Char} (hc : c ∈ ['X', 'Y', 'I', 'J']) {n : Numeral} (h : n.Ok) {bef rest : List Char}
    (hb : Quiet bef) :
    Lexes bef [c] [(if n.sign = [] then .keyword else .error, [c])] (n.text ++ rest) := by
  by_cases hs : n.sign = []
  · rw [if_pos hs]
    apply Lexes.token
    obtain ⟨d, ds, e⟩ := List.exists_cons_of_ne_nil h.2.1.1
    have hd : isDigit d = true := digits_mem h.2.1 d (by rw [e]; simp)
    obtain ⟨t, et⟩ : ∃ t, n.text ++ rest = d :: t := ⟨_, by simp [Numeral.text, hs, e]; rfl⟩
    rw [et]
    have ha : ∀ t, digitsRe.run (fun _ _ => some ()) (c :: bef) (d :: t) = some () := by
      intro t
      simp only [digitsRe, Re.run, hd, if_true]
      generalize d :: c :: bef = b
      induction t generalizing b with
      | nil => rfl
      | cons x xs ih =>
        rw [runStar]
        split
        · rw [ih]
        · rfl
    have hrun : (axisRe c).run (fun b t => some (b, t)) bef (c :: d :: t) = some (c :: bef, d :: t) := by
      simp only [axisRe, ch, Re.run, beq_self_eq_true, if_true]
      rw [ha]
    simp only [List.mem_cons, List.not_mem_nil, or_false] at hc
    rcases hc with rfl | rfl | rfl | rfl
    all_goals
      rw [List.singleton_append, rules_at bef _ (d :: t) _ rfl]
      simp only [List.reverse_singleton, List.singleton_append]
      refine Eq.trans (b := firstMatch ((axisRe _, Kind.keyword) :: _) bef _) rfl ?_
      rw [firstMatch, hrun]
  · rw [if_neg hs]
    obtain ⟨d, ds, e⟩ := List.exists_cons_of_ne_nil hs
    have hd : d = '+' ∨ d = '-' := h.1 d (by rw [e]; simp)
    obtain ⟨t, et⟩ : ∃ t, n.text ++ rest = d :: t := ⟨_, by simp [Numeral.text, e]; rfl⟩
    rw [et]
    have hn : c ≠ '\n' := by rintro rfl; revert hc; decide
    have : Kind.error = if c = '\n' then Kind.whitespace else Kind.error := by rw [if_neg hn]
    rw [this]
    apply Lexes.single
    have hrun : ∀ kind rs, firstMatch ((axisRe c, kind) :: rs) bef (c :: d :: t) = firstMatch rs bef (c :: d :: t) := by
      intro kind rs
      rcases hd with rfl | rfl <;> simp [firstMatch, axisRe, ch, Re.run, digitsRe, isDigit]
    simp only [List.mem_cons, List.not_mem_nil, or_false] at hc
    rcases hc with rfl | rfl | rfl | rfl
    · rw [rules_at bef _ (d :: t) _ rfl]
      exact (hrun _ _).trans (nameless_skip hb.1 [] _)
    · rw [rules_at bef _ (d :: t) _ rfl]
      exact (hrun _ _).trans (nameless_skip hb.1 [] _)
    · rw [rules_at bef _ (d :: t) _ rfl]
      refine (hrun _ _).trans ?_
      have e : rules.filter (fun r => r.1.starts 'I') = (axisRe 'I', Kind.keyword) ::
          (codeRe 'I' 'P', .keyword) :: (codeRe 'I' 'R', .keyword) ::
          (.seq (.behind [(· == 'O'), (· == 'M'), (· == '%')])
            (.alt (.seq (ch 'M') (ch 'M')) (.seq (ch 'I') (ch 'N'))), .constant) ::
          (codeRe 'I' 'N', .keyword) ::
          (.seq (.behind [isDigit, (· == 'D'), (· == 'D'), (· == 'A'), (· == '%')]) nameRe, .className) ::
          (.seq (.behind [isDigit, isDigit, (· == 'D'), (· == 'D'), (· == 'A'), (· == '%')]) nameRe, .className) ::
          (.seq (.behind [isDigit, isDigit, isDigit, (· == 'D'), (· == 'D'), (· == 'A'), (· == '%')]) nameRe, .className) ::
          (.seq (.behind [(· == 'M'), (· == 'A'), (· == '%')]) nameRe, .className) :: [] := by rfl
      have hP : d ≠ 'P' := by rcases hd with rfl | rfl <;> decide
      have hR : d ≠ 'R' := by rcases hd with rfl | rfl <;> decide
      have hN : d ≠ 'N' := by rcases hd with rfl | rfl <;> decide
      have hh := hrun .keyword ((rules.filter (fun r => r.1.starts 'I')).tail)
      rw [e, List.tail_cons, second_skip hP, second_skip hR, behind_skip hb.2.2.1, second_skip hN, nameless_skip hb.1] at hh
      rw [e] at *
      refine Eq.trans ?_ rfl (b := firstMatch [] bef ('I' :: d :: t))
      refine Eq.trans ?_ hh
      exact (hrun _ _).symm
    · rw [rules_at bef _ (d :: t) _ rfl]
      exact (hrun _ _).trans (nameless_skip hb.1 [] _)

theorem code_token {a b : Char} {bef rest : List Char} {rs : List (Re × Kind)}
    (h : rules.filter (fun r => r.1.starts a) = rs)
    (hf : firstMatch rs ('%' :: bef) (a :: b :: rest) = some (.keyword, b :: a :: '%' :: bef, rest)) :
    Lexes ('%' :: bef) [a, b] [(.keyword, [a, b])] rest := by
  apply Lexes.token
  exact (rules_at _ a (b :: rest) rs h).trans hf

theorem fs_token (bef rest : List Char) : Lexes ('%' :: bef) ['F', 'S'] [(.keyword, ['F', 'S'])] rest :=
  code_token rfl rfl

theorem ad_token (bef rest : List Char) : Lexes ('%' :: bef) ['A', 'D'] [(.keyword, ['A', 'D'])] rest :=
  code_token rfl rfl

theorem am_token (bef rest : List Char) : Lexes ('%' :: bef) ['A', 'M'] [(.keyword, ['A', 'M'])] rest :=
  code_token rfl rfl

theorem mo_token {i : Bool} (bef rest : List Char) : Lexes ('%' :: bef) ['M', 'O'] [(.keyword, ['M', 'O'])]
    ((if i then ['I', 'N'] else ['M', 'M']) ++ rest) := by
  cases i
  · exact code_token rfl rfl
  · exact code_token rfl rfl

theorem format_token {z a : Char} (hz : z = 'L' ∨ z = 'T') (ha : a = 'A' ∨ a = 'I') (bef rest : List Char) :
    Lexes ('S' :: 'F' :: '%' :: bef) [z, a] [(.constant, [z, a])] rest := by
  apply Lexes.token
  rcases hz with rfl | rfl <;> rcases ha with rfl | rfl <;>
    exact (rules_at _ _ (_ :: rest) _ rfl).trans rfl

theorem unit_token {i : Bool} (bef rest : List Char) :
    Lexes ('O' :: 'M' :: '%' :: bef) (if i then ['I', 'N'] else ['M', 'M'])
      [(.constant, if i then ['I', 'N'] else ['M', 'M'])] rest := by
  apply Lexes.token
  cases i
  · exact (rules_at _ _ (_ :: rest) _ rfl).trans rfl
  · exact (rules_at _ _ (_ :: rest) _ rfl).trans rfl

/-! ### Names -/

theorem firstMatch_append {bef t : List Char} : ∀ (as bs : List (Re × Kind)), firstMatch as bef t = none →
    firstMatch (as ++ bs) bef t = firstMatch bs bef t
  | [], _, _ => rfl
  | (r, k) :: as, bs, h => by
    rw [firstMatch] at h
    split at h
    · cases h
    · rename_i hn
      rw [List.cons_append, firstMatch, hn]
      exact firstMatch_append as bs h

theorem isLetter_iff (c : Char) : isLetter c = true ↔ Letter c := by
  simp [isLetter, Letter, or_assoc]

theorem name_run {s bef rest : List Char} (h : Name s) (he : Ends (fun c => isLetter c || isDigit c) rest) :
    nameRe.run (fun b t => some (b, t)) bef (s ++ rest) = some (s.reverse ++ bef, rest) := by
  obtain ⟨c, cs, rfl, hc, hcs, -⟩ := h
  have h1 : (isLetter c || c == '$') = true := by simpa [isLetter_iff] using hc
  simp only [nameRe, List.cons_append, Re.run, h1, if_true]
  refine runStar_all _ _ _ _ (fun d hd => ?_) he (by simp)
  rcases hcs d hd with h | h
  · simp [(isLetter_iff d).mpr h]
  · simp [(isDigit_iff d).mpr h]

theorem name_axis {s bef rest : List Char} (h : Name s) (he : Ends (fun c => isLetter c || isDigit c) rest) :
    firstMatch axisRules bef (s ++ rest) = none := by
  obtain ⟨c, cs, rfl, -, -, hx⟩ := h
  have hd : c ∈ ['X', 'Y', 'I', 'J'] → Ends isDigit (cs ++ rest) := by
    intro hc d ds e
    cases cs with
    | nil =>
      have := he d ds e
      simp at this
      exact this.2
    | cons x xs =>
      cases e
      have := hx hc d xs rfl
      rw [← isDigit_iff] at this
      simpa using this
  have : ∀ a ∈ ['X', 'Y', 'I', 'J'], (axisRe a).run (fun b t => some (b, t)) bef (c :: (cs ++ rest)) = none := by
    intro a ha
    by_cases e : c = a
    · subst e
      simp only [axisRe, ch, Re.run, beq_self_eq_true, if_true]
      rw [digitsRe_other _ (hd ha)]
    · simp [axisRe, ch, Re.run, e]
  simp only [axisRules, firstMatch, List.cons_append, this 'X' (by simp), this 'Y' (by simp), this 'I' (by simp),
    this 'J' (by simp)]

theorem property_none {c : Char} (h1 : c ≠ '%') (h2 : c ≠ 'S') (h3 : c ≠ 'O') (bef t : List Char) :
    firstMatch propertyRules (c :: bef) t = none := by
  simp [propertyRules, firstMatch, codeRe, Re.run, lookBehind, h1, h2, h3]

theorem define_name {s bef rest ds : List Char} (h : Name s) (he : Ends (fun c => isLetter c || isDigit c) rest)
    (hd : Digits ds) (hl : ds.length ≤ 3) :
    Lexes (ds.reverse ++ 'D' :: 'D' :: 'A' :: '%' :: bef) s [(.className, s)] rest := by
  apply Lexes.token
  have hrun : ∀ b, nameRe.run (fun b t => some (b, t)) b (s ++ rest) = some (s.reverse ++ b, rest) := fun b =>
    name_run h he
  have hm := digits_mem hd
  rw [rules, List.append_assoc, List.append_assoc, firstMatch_append _ _ (name_axis h he)]
  match ds, hd.1, hl with
  | [a], _, _ =>
    obtain ⟨a1, a2, a3, a4, a5, a6, a7⟩ := digit_ne (hm a (by simp))
    have := hm a (by simp)
    simp only [List.reverse_singleton, List.singleton_append]
    rw [firstMatch_append _ _ (property_none a5 a3 a4 _ _)]
    simp [apertureRules, firstMatch, Re.run, lookBehind, this, hrun]
  | [a, b], _, _ =>
    obtain ⟨a1, a2, a3, a4, a5, a6, a7⟩ := digit_ne (hm b (by simp))
    obtain ⟨b1, _⟩ := digit_ne (hm a (by simp))
    have ha := hm a (by simp)
    have hb := hm b (by simp)
    simp only [List.reverse_cons, List.reverse_nil, List.nil_append, List.cons_append]
    rw [firstMatch_append _ _ (property_none a5 a3 a4 _ _)]
    simp [apertureRules, firstMatch, Re.run, lookBehind, ha, hb, hrun]
  | [a, b, d], _, _ =>
    obtain ⟨a1, a2, a3, a4, a5, a6, a7⟩ := digit_ne (hm d (by simp))
    obtain ⟨b1, _⟩ := digit_ne (hm b (by simp))
    have ha := hm a (by simp)
    have hb := hm b (by simp)
    have hd := hm d (by simp)
    simp only [List.reverse_cons, List.reverse_nil, List.nil_append, List.cons_append]
    rw [firstMatch_append _ _ (property_none a5 a3 a4 _ _)]
    simp [apertureRules, firstMatch, Re.run, lookBehind, ha, hb, hd, hrun, b1]

theorem template_name {s bef rest : List Char} (h : Name s) (he : Ends (fun c => isLetter c || isDigit c) rest) :
    Lexes ('M' :: 'A' :: '%' :: bef) s [(.className, s)] rest := by
  apply Lexes.token
  have hrun : ∀ b, nameRe.run (fun b t => some (b, t)) b (s ++ rest) = some (s.reverse ++ b, rest) := fun b =>
    name_run h he
  rw [rules, List.append_assoc, List.append_assoc, firstMatch_append _ _ (name_axis h he),
    firstMatch_append _ _ (property_none (by decide) (by decide) (by decide) _ _)]
  have : isDigit 'M' = false := rfl
  simp [apertureRules, codeRe, firstMatch, Re.run, lookBehind, hrun, this]

/-! ### Texts -/

theorem word_head {w : Word} (h : w.Ok) : ∃ c cs, w.text = c :: cs ∧
    c ∈ ['X', 'Y', 'I', 'J', ',', 'G', 'M', 'D', '$', '*', '%', '\n'] ∧ (c = '*' ↔ w.text = ['*']) := by
  cases w with
  | axis c n =>
    have hc := h.1
    refine ⟨c, n.text, rfl, ?_, ?_⟩
    · simp only [List.mem_cons, List.not_mem_nil, or_false] at hc ⊢
      rcases hc with rfl | rfl | rfl | rfl <;> simp
    · constructor
      · rintro rfl; exact absurd hc (by decide)
      · intro e; simp [Word.text] at e; exact e.1
  | unit i => cases i <;> exact ⟨_, _, rfl, by simp, by simp [Word.text]⟩
  | _ => exact ⟨_, _, rfl, by simp, by simp [Word.text]⟩

theorem words_after {ws : List Word} (h : ∀ w ∈ ws, w.Ok) : After (textOf ws) ∧
    (ws.head?.map Word.text = some ['*'] ↔ ∃ t, textOf ws = '*' :: t) := by
  cases ws with
  | nil =>
    refine ⟨fun c cs e => by simp [textOf] at e, ?_⟩
    simp [textOf]
  | cons w ws =>
    obtain ⟨c, cs, e, hc, hs⟩ := word_head (h w (by simp))
    refine ⟨?_, ?_⟩
    · intro d ds ed
      simp [textOf, e] at ed
      rw [← ed.1]
      simp only [List.mem_cons, List.not_mem_nil, or_false] at hc
      rcases hc with rfl | rfl | rfl | rfl | rfl | rfl | rfl | rfl | rfl | rfl | rfl | rfl <;> rfl
    · simp only [List.head?_cons, Option.map_some, Option.some.injEq]
      rw [← hs]
      simp [textOf, e]

theorem word_lexes {w : Word} (h : w.Ok) {next : List Word} {bef rest : List Char} (hb : Quiet bef) (hr : After rest)
    (hs : next.head?.map Word.text = some ['*'] ↔ ∃ t, rest = '*' :: t) :
    Lexes bef w.text (w.marked next) rest ∧ Quiet (w.text.reverse ++ bef) := by
  cases w with
  | axis c n =>
    obtain ⟨hc, hn⟩ := h
    refine ⟨(axis_token hc hn hb).append (w := [c]) (v := n.text) (numeral_token hn hr), ?_⟩
    simp only [Word.text, List.reverse_cons, List.append_assoc, List.singleton_append]
    simp only [List.mem_cons, List.not_mem_nil, or_false] at hc
    rcases hc with rfl | rfl | rfl | rfl <;> exact quiet_numeral hn rfl (by decide) _
  | comma n =>
    have hn : n.Ok := h
    refine ⟨(mark_token (c := ',') (by simp) bef _).append (numeral_token hn hr), ?_⟩
    simp only [Word.text, List.reverse_cons, List.append_assoc, List.singleton_append]
    exact quiet_numeral hn rfl (by decide) _
  | g ds =>
    have hd : Digits ds := h
    refine ⟨g_token hd hb hr.digit, ?_⟩
    simp only [Word.text, List.reverse_cons, List.append_assoc, List.singleton_append]
    exact quiet_digits hd rfl (by simp)
  | m ds =>
    have hd : Digits ds := h
    refine ⟨m_token hd hb hr.digit, ?_⟩
    simp only [Word.text, List.reverse_cons, List.append_assoc, List.singleton_append]
    exact quiet_digits hd rfl (by simp)
  | d ds =>
    have hd : Digits ds := h
    refine ⟨d_token hd hb.1 hr.digit hs, ?_⟩
    simp only [Word.text, List.reverse_cons, List.append_assoc, List.singleton_append]
    exact quiet_digits hd rfl fun _ => hb.2.2.2
  | param ds =>
    have hd : Digits ds := h
    refine ⟨param_token hd hb hr.digit, ?_⟩
    simp only [Word.text, List.reverse_cons, List.append_assoc, List.singleton_append]
    exact quiet_digits hd rfl (by simp)
  | star => exact ⟨mark_token (c := '*') (by simp) bef _, quiet_mark (by simp) _⟩
  | percent => exact ⟨mark_token (c := '%') (by simp) bef _, quiet_mark (by simp) _⟩
  | newline => exact ⟨mark_token (c := '\n') (by simp) bef _, quiet_mark (by simp) _⟩
  | format z a =>
    obtain ⟨hz, ha⟩ := h
    refine ⟨(mark_token (c := '%') (by simp) bef _).append
      ((fs_token bef _).append (format_token hz ha bef rest)), ?_⟩
    rcases hz with rfl | rfl <;> rcases ha with rfl | rfl <;> exact ⟨⟨rfl, rfl, rfl, rfl⟩, rfl, rfl, by simp [Word.text]⟩
  | unit i =>
    have := (mark_token (c := '%') (by simp) bef _).append ((mo_token (i := i) bef _).append (unit_token bef rest))
    cases i
    · exact ⟨this, ⟨⟨rfl, rfl, rfl, rfl⟩, rfl, rfl, by simp [Word.text]⟩⟩
    · exact ⟨this, ⟨⟨rfl, rfl, rfl, rfl⟩, rfl, rfl, by simp [Word.text]⟩⟩
  | define ds s n =>
    obtain ⟨hd, hl, hn, hx⟩ := h
    have hend : ∀ (c : Char), c = '*' ∨ c = ',' → ∀ t,
        Lexes bef (['%'] ++ (['A', 'D'] ++ ('D' :: ds ++ s)))
          [(.error, ['%']), (.keyword, ['A', 'D']), (.variable, 'D' :: ds), (.className, s)] (c :: t) := by
      intro c hc t
      have he : Ends (fun c => isLetter c || isDigit c) (c :: t) := fun d ds e => by
        cases e
        rcases hc with rfl | rfl <;> rfl
      refine (mark_token (c := '%') (by simp) bef _).append ((ad_token bef _).append ?_ )
      obtain ⟨x, xs, rfl, hx', -, -⟩ := id hn
      have h1 : Ends isDigit (x :: xs ++ c :: t) := fun d ds e => by
        cases e
        rcases hx' with hx' | rfl
        · cases hdg : isDigit x with
          | false => rfl
          | true =>
            exfalso
            have hx'' := (isLetter_iff x).mpr hx'
            have := digit_mem hdg
            simp only [List.mem_cons, List.not_mem_nil, or_false] at this
            rcases this with rfl | rfl | rfl | rfl | rfl | rfl | rfl | rfl | rfl | rfl <;> exact absurd hx'' (by decide)
        · rfl
      have h2 : False ↔ ∃ u, x :: xs ++ c :: t = '*' :: u := by
        simp only [false_iff, not_exists]
        intro u e
        cases e
        rcases hx' with hx' | hx'
        · exact absurd ((isLetter_iff '*').mpr hx') (by decide)
        · exact absurd hx' (by decide)
      have hdt := d_token hd (bef := 'D' :: 'A' :: '%' :: bef) ⟨rfl, rfl, rfl, rfl⟩ h1 h2
      simp only [and_false, if_false] at hdt
      have hdn := define_name (bef := bef) hn he hd hl
      have := hdt.append (v := x :: xs) (b := [(.className, x :: xs)]) (rest := c :: t)
        (by simpa using hdn)
      simpa using this
    cases n with
    | none =>
      have := (hend '*' (.inl rfl) rest).append (v := ['*']) (mark_token (c := '*') (by simp) _ rest)
      refine ⟨by simpa [Word.text, Word.marked] using this, ?_⟩
      have e : (Word.define ds s none).text.reverse ++ bef =
          '*' :: ((['%', 'A', 'D', 'D'] ++ ds ++ s).reverse ++ bef) := by
        simp [Word.text]
      rw [e]
      exact quiet_mark (by simp) _
    | some x =>
      have hx := hx x rfl
      have := (hend ',' (.inr rfl) (x.text ++ rest)).append (v := ',' :: x.text)
        ((mark_token (c := ',') (by simp) _ _).append (w := [',']) (v := x.text) (numeral_token hx hr))
      refine ⟨by simpa [Word.text, Word.marked] using this, ?_⟩
      have e : (Word.define ds s (some x)).text.reverse ++ bef =
          x.text.reverse ++ ',' :: ((['%', 'A', 'D', 'D'] ++ ds ++ s).reverse ++ bef) := by
        simp [Word.text]
      rw [e]
      exact quiet_numeral hx rfl (by decide) _
  | template s =>
    have hn : Name s := h
    have he : Ends (fun c => isLetter c || isDigit c) ('*' :: rest) := fun d ds e => by cases e; rfl
    have := (mark_token (c := '%') (by simp) bef _).append ((am_token bef _).append
      ((template_name (bef := bef) hn he).append (v := ['*']) (mark_token (c := '*') (by simp) _ rest)))
    refine ⟨by simpa [Word.text, Word.marked] using this, ?_⟩
    have e : (Word.template s).text.reverse ++ bef = '*' :: ((['%', 'A', 'M'] ++ s).reverse ++ bef) := by
      simp [Word.text]
    rw [e]
    exact quiet_mark (by simp) _

theorem words_lex : ∀ (ws : List Word), (∀ w ∈ ws, w.Ok) → ∀ bef, Quiet bef → Lexes bef (textOf ws) (marked ws) []
  | [], _, bef, _ => Lexes.nil bef []
  | w :: ws, h, bef, hb => by
    have hws := fun v hv => h v (List.mem_cons_of_mem _ hv)
    obtain ⟨ha, hs⟩ := words_after hws
    obtain ⟨h1, h2⟩ := word_lexes (h w (by simp)) hb ha hs
    have h3 := words_lex ws hws _ h2
    have := Lexes.append (v := textOf ws) (by simpa using h1) h3
    simpa [textOf, marked] using this

/-! ### Characters that no rule matches -/

/-- A character that no match contains. -/
def Re.avoids (x : Char) : Re → Bool
  | .cls p => !p x
  | .star p => !p x
  | .seq a b => a.avoids x && b.avoids x
  | .alt a b => a.avoids x && b.avoids x
  | .ahead _ => true
  | .behind _ => true

theorem run_avoids {α : Type} {y : Char} (r : Re) : ∀ (k : List Char → List Char → Option α) (x : α)
    (bef rest : List Char), r.avoids y = true → r.run k bef rest = some x →
      ∃ w t, rest = w ++ t ∧ y ∉ w ∧ k (w.reverse ++ bef) t = some x := by
  induction r with
  | cls p =>
    intro k x bef rest ha h
    cases rest with
    | nil => simp [Re.run] at h
    | cons c cs =>
      simp only [Re.run] at h
      split at h
      · rename_i hp
        refine ⟨[c], cs, rfl, ?_, by simpa using h⟩
        simp only [List.mem_singleton]
        rintro rfl
        simp [Re.avoids, hp] at ha
      · cases h
  | star p =>
    intro k x bef rest ha h
    obtain ⟨w, t, e, hw, hk⟩ := runStar_consumes p k x rest bef h
    refine ⟨w, t, e, ?_, hk⟩
    intro hy
    simp [Re.avoids, hw _ hy] at ha
  | seq a b iha ihb =>
    intro k x bef rest ha h
    simp only [Re.avoids, Bool.and_eq_true] at ha
    obtain ⟨w, t, rfl, hl, hk⟩ := iha _ _ _ _ ha.1 h
    obtain ⟨v, u, rfl, hl', hk'⟩ := ihb _ _ _ _ ha.2 hk
    exact ⟨w ++ v, u, by simp, by simp [hl, hl'], by simpa using hk'⟩
  | alt a b iha ihb =>
    intro k x bef rest ha h
    simp only [Re.avoids, Bool.and_eq_true] at ha
    simp only [Re.run] at h
    split at h
    · rename_i y hy
      cases h
      exact iha _ _ _ _ ha.1 hy
    · exact ihb _ _ _ _ ha.2 h
  | ahead a _ =>
    intro k x bef rest _ h
    simp only [Re.run] at h
    split at h
    · exact ⟨[], rest, rfl, by simp, h⟩
    · cases h
  | behind ps =>
    intro k x bef rest _ h
    simp only [Re.run] at h
    split at h
    · exact ⟨[], rest, rfl, by simp, h⟩
    · cases h

theorem firstMatch_avoids {y : Char} : ∀ (rs : List (Re × Kind)), (∀ r ∈ rs, r.1.avoids y = true) →
    ∀ {bef rest kind b t}, firstMatch rs bef rest = some (kind, b, t) → ∃ w, rest = w ++ t ∧ y ∉ w := by
  intro rs
  induction rs with
  | nil => intro _ bef rest kind b t h; cases h
  | cons r rs ih =>
    intro hr bef rest kind b t h
    obtain ⟨r, k⟩ := r
    rw [firstMatch] at h
    split at h
    · rename_i b' t' he
      cases h
      obtain ⟨w, t', e, hl, hk⟩ := run_avoids r _ _ _ _ (hr (r, kind) (List.mem_cons_self ..)) he
      cases hk
      exact ⟨w, e, hl⟩
    · exact ih (fun r h' => hr r (List.mem_cons_of_mem _ h')) h

/-- A character that no rule matches is a token of its own. -/
theorem lexLoop_error {y : Char} (hy : ∀ r ∈ rules, r.1.avoids y = true) (hn : y ≠ '\n') :
    ∀ (fuel : ℕ) (bef rest : List Char) (ts : List Token), lexLoop fuel bef rest = some ts → y ∈ rest →
      ∃ t ∈ ts, t.kind = .error ∧ t.value = [y] := by
  intro fuel
  induction fuel with
  | zero => intro bef rest ts h; cases h
  | succ fuel ih =>
    intro bef rest ts h hm
    unfold lexLoop at h
    split at h
    · rename_i kind b t he
      obtain ⟨w, rfl, hw⟩ := firstMatch_avoids rules hy he
      rw [Option.map_eq_some_iff] at h
      obtain ⟨ts', h', rfl⟩ := h
      obtain ⟨x, hx, hx'⟩ := ih _ _ _ h' ((List.mem_append.mp hm).resolve_left hw)
      exact ⟨x, List.mem_cons_of_mem _ hx, hx'⟩
    · cases rest with
      | nil => cases hm
      | cons c cs =>
        simp only [Option.map_eq_some_iff] at h
        obtain ⟨ts', h', rfl⟩ := h
        rcases List.mem_cons.mp hm with rfl | hm
        · exact ⟨_, List.mem_cons_self .., by simp [hn], rfl⟩
        · obtain ⟨x, hx, hx'⟩ := ih _ _ _ h' hm
          exact ⟨x, List.mem_cons_of_mem _ hx, hx'⟩

end Verif.Lexer
