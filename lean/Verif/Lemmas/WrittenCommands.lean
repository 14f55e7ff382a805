import Verif.Lemmas.Written

/-!
# What parser elements read is spelled as prescribed: expressions and commands
-/

namespace Verif.Written

open Verif.Text Verif.Fmt Verif.Peg Verif.Syntax Verif.Grammar Verif.Spec
open Verif.Math hiding P

/-! ## Expressions -/

/-- Expression readers whose results, not above a rank, are spelled by what they read. -/
def Reads (l : ℕ) (p : Math.P Expr) : Prop := ∀ s e r, p s = some (e, r) → rank e ≤ l ∧ Cut (exprText e) s r

theorem cut_skip {l : Text → Prop} {s r : Text} (h : Cut (tok l) (skip s) r) : Cut (tok l) s r := by
  obtain ⟨_, ⟨b, w, hb, hw, rfl⟩, e⟩ := h
  obtain ⟨b', hb', e'⟩ := Math.skip_split s
  refine ⟨b' ++ b ++ w, ⟨b' ++ b, w, ?_, hw, rfl⟩, ?_⟩
  · intro c hc
    rw [List.mem_append] at hc
    exact hc.elim (hb' c) (hb c)
  · rw [List.append_assoc] at e
    rw [List.append_assoc, List.append_assoc, e, ← e']

theorem reads_var : Reads 0 pVar := by
  intro s e r h
  unfold pVar at h
  split at h
  · next t e' =>
    split_ifs at h with hd
    obtain ⟨h1, h2, -, -⟩ := Math.digits_split (s := t) (d := (digits t).1) (r := (digits t).2) rfl
    simp only [Option.some.injEq, Prod.mk.injEq] at h
    obtain ⟨rfl, rfl⟩ := h
    rw [exprText]
    refine ⟨le_rfl, tok_cut (w := '$' :: (digits t).1) ⟨rfl, _, h2, by simpa using hd, rfl⟩ ?_⟩
    rw [e', List.cons_append, ← h1]
  · cases h

theorem const_cut {s r : Text} {e : Expr} (hs : ∀ t, skip s ≠ '-' :: t) (h : pConst s = some (e, r)) :
    rank e = 0 ∧ Cut (exprText e + plusConst e) s r ∧ ((∀ t, skip s ≠ '+' :: t) → Cut (exprText e) s r) := by
  unfold pConst at h
  simp only [Option.map_eq_some_iff, Prod.mk.injEq, Prod.exists] at h
  obtain ⟨v, r', h1, rfl, rfl⟩ := h
  refine ⟨rfl, ?_⟩
  rw [exprText, plusConst]
  unfold pDouble at h1
  split at h1
  · next t e' =>
    obtain ⟨w, h2, h3⟩ := unsigned_text h1
    refine ⟨Cut.mono (tok_cut (S := fun x => ∃ u, UnsignedText u v ∧ x = '+' :: u) (w := '+' :: w) ⟨w, h3, rfl⟩ ?_)
      fun _ hw => (Language.mem_add _ _ _).2 (.inr hw), fun h => absurd e' (h t)⟩
    rw [e', ← h2, List.cons_append]
  · next t e' => exact absurd e' (hs t)
  · obtain ⟨w, h2, h3⟩ := unsigned_text h1
    have := tok_cut (S := (UnsignedText · v)) h3 h2
    exact ⟨this.mono fun _ hw => (Language.mem_add _ _ _).2 (.inl hw), fun _ => this⟩

theorem char_cut {c : Char} {s r : Text} (h : skip s = c :: r) : Cut (word [c]) s r := tok_cut rfl h.symm

theorem reads_paren {l : ℕ} {inner : Math.P Expr} (hi : Reads l inner) : Reads 0 (pParen inner) := by
  intro s e r h
  unfold pParen at h
  split at h
  · next r1 e1 =>
    split at h
    · next e' r2 h1 =>
      split at h
      · next r3 e3 =>
        simp only [Option.some.injEq, Prod.mk.injEq] at h
        obtain ⟨rfl, rfl⟩ := h
        rw [exprText]
        exact ⟨le_rfl, ((char_cut e1).mul (hi _ _ _ h1).2).mul (char_cut e3)⟩
      · cases h
    · cases h
  · cases h

theorem cut_left {l m : Language Char} {s r : Text} (h : Cut l s r) : Cut (l + m) s r :=
  h.mono fun _ hw => (Language.mem_add _ _ _).2 (.inl hw)

theorem factor_cut {l : ℕ} {inner : Math.P Expr} (hi : Reads l inner) {s r : Text} {e : Expr} (hs : ∀ t, skip s ≠ '-' :: t)
    (h : pFactor inner s = some (e, r)) :
    rank e = 0 ∧ Cut (exprText e + plusConst e) s r ∧ ((∀ t, skip s ≠ '+' :: t) → Cut (exprText e) s r) := by
  unfold pFactor at h
  cases h1 : pVar s with
  | some x =>
    rw [h1] at h
    simp only [Option.orElse] at h
    obtain ⟨h2, h3⟩ := reads_var _ _ _ (h1.trans h)
    exact ⟨Nat.le_zero.1 h2, cut_left h3, fun _ => h3⟩
  | none =>
    rw [h1] at h
    simp only [Option.orElse] at h
    cases h2 : pConst s with
    | some x => rw [h2] at h; exact const_cut hs (h2.trans h)
    | none =>
      rw [h2] at h
      obtain ⟨h2, h3⟩ := reads_paren hi _ _ _ h
      exact ⟨Nat.le_zero.1 h2, cut_left h3, fun _ => h3⟩

theorem unary_accepts {c : Char} {f : Expr → Expr} {last : Math.P Expr} : ∀ n s, (last s).isSome → (pUnary c f last n s).isSome
  | 0, s, h => by simpa [pUnary] using h
  | n + 1, s, h => by
    simp only [pUnary]
    split
    · split
      · split
        · simp
        · exact h
      · exact h
    · exact h

/-- What `factor` accepts is accepted without its plus sign. -/
theorem factor_plus {inner : Math.P Expr} {s t : Text} {x} (hs : skip s = '+' :: t) (h : pFactor inner s = some x) :
    (pFactor inner t).isSome := by
  refine Math.factor_minus (s := '-' :: t) (inner := inner) (x := (.const (-(pUnsigned t).get!.1), (pUnsigned t).get!.2)) (by simp [skip, isBlank]) ?_
  unfold pFactor at h ⊢
  have h1 : pVar s = none := by simp [pVar, hs]
  have h3 : pParen inner s = none := by simp [pParen, hs]
  simp only [h1, h3, Option.orElse_none] at h
  have h4 : pConst s = some x := by
    cases h5 : pConst s with
    | none => simp [h5] at h
    | some y => simpa [h5] using h
  unfold pConst at h4
  rw [hs] at h4
  simp only [pDouble, Option.map_eq_some_iff] at h4
  obtain ⟨⟨v, r⟩, hp, _⟩ := h4
  have e1 : pVar ('-' :: t) = none := by simp [pVar, skip, isBlank]
  have e2 : skip ('-' :: t) = '-' :: t := by simp [skip, isBlank]
  have e3 : pConst ('-' :: t) = some (.const (-v), r) := by
    simp [pConst, e2, pDouble, hp]
  rw [e1, e3]
  simp [hp]

theorem neg_cut {l : ℕ} {inner : Math.P Expr} (hi : Reads l inner) : ∀ n s, s.length ≤ n → ∀ e r,
    pUnary '-' .neg (pFactor inner) n s = some (e, r) →
      rank e ≤ 1 ∧ Cut (exprText e + plusConst e) s r ∧ ((∀ t, skip s ≠ '+' :: t) → Cut (exprText e) s r) := by
  intro n
  induction n with
  | zero =>
    intro s hn e r h
    have : s = [] := by simpa using hn
    subst this
    simp only [pUnary] at h
    obtain ⟨h1, h2⟩ := factor_cut hi (by simp) h
    exact ⟨by omega, h2⟩
  | succ n ih =>
    intro s hn e r h
    simp only [pUnary] at h
    split at h
    · next c t e' =>
      have hlen : t.length ≤ n := by
        have := Math.skip_length s; rw [e'] at this; simp at this; omega
      split_ifs at h with hc
      · subst hc
        split at h
        · next e2 r2 h2 =>
          simp only [Option.some.injEq, Prod.mk.injEq] at h
          obtain ⟨rfl, rfl⟩ := h
          obtain ⟨g1, g2, -⟩ := ih t hlen _ _ h2
          have : Cut (exprText (.neg e2)) s r2 := by
            rw [exprText]
            exact Cut.given ((char_cut e').mul g2) g1
          exact ⟨le_rfl, cut_left this, fun _ => this⟩
        · next h1 =>
          have := unary_accepts (c := '-') (f := .neg) n t (Math.factor_minus e' h)
          rw [h1] at this
          simp at this
      · obtain ⟨h1, h2⟩ := factor_cut hi (by rw [e']; intro t' h0; simp at h0; exact hc h0.1) h
        exact ⟨by omega, h2⟩
    · next e' =>
      obtain ⟨h1, h2⟩ := factor_cut hi (by simp [e']) h
      exact ⟨by omega, h2⟩

theorem reads_pos {l : ℕ} {inner : Math.P Expr} (hi : Reads l inner) : ∀ n s, s.length ≤ n → ∀ e r,
    pUnary '+' .pos (fun s => pUnary '-' .neg (pFactor inner) s.length s) n s = some (e, r) →
      rank e ≤ 2 ∧ Cut (exprText e) s r := by
  have base : ∀ s e r, (∀ t, skip s ≠ '+' :: t) → pUnary '-' .neg (pFactor inner) s.length s = some (e, r) →
      rank e ≤ 2 ∧ Cut (exprText e) s r := by
    intro s e r hs h
    obtain ⟨h1, -, h2⟩ := neg_cut hi _ s le_rfl e r h
    exact ⟨by omega, h2 hs⟩
  have plus : ∀ s t x, skip s = '+' :: t → pUnary '-' .neg (pFactor inner) s.length s = some x →
      (pUnary '-' .neg (pFactor inner) t.length t).isSome := by
    intro s t x hs h
    refine unary_accepts _ _ (factor_plus hs (x := x) ?_)
    cases hl : s.length with
    | zero =>
      have : s = [] := by simpa using hl
      subst this
      simp at hs
    | succ n =>
      rw [hl] at h
      simp only [pUnary, hs] at h
      simpa using h
  intro n
  induction n with
  | zero =>
    intro s hn e r h
    simp only [pUnary] at h
    have : s = [] := by simpa using hn
    subst this
    exact base [] e r (by simp) h
  | succ n ih =>
    intro s hn e r h
    simp only [pUnary] at h
    split at h
    · next c t e' =>
      have hlen : t.length ≤ n := by
        have := Math.skip_length s; rw [e'] at this; simp at this; omega
      split_ifs at h with hc
      · subst hc
        split at h
        · next e2 r2 h2 =>
          simp only [Option.some.injEq, Prod.mk.injEq] at h
          obtain ⟨rfl, rfl⟩ := h
          obtain ⟨g1, g2⟩ := ih t hlen _ _ h2
          rw [exprText]
          exact ⟨le_rfl, Cut.given ((char_cut e').mul g2) g1⟩
        · next h1 =>
          have := unary_accepts (c := '+') (f := .pos) (last := fun s => pUnary '-' .neg (pFactor inner) s.length s) n t
            (plus s t _ e' h)
          rw [h1] at this
          simp at this
      · exact base s e r (by rw [e']; intro t' h0; simp at h0; exact hc h0.1) h
    · next e' => exact base s e r (by simp [e']) h

theorem reads_many {l : ℕ} {op : Op} {isOp : Char → Bool} (ho : ∀ c s r, skip s = c :: r → isOp c = true → Cut (opText op) s r)
    (hop : ∀ e es, rank (.bin op e es) = l + 1) {last : Math.P Expr} (hl : Reads l last) :
    ∀ n s, Cut (operandsText op (pMany isOp last n s).1) s (pMany isOp last n s).2
  | 0, s => by simp only [pMany, operandsText]; exact .one s
  | n + 1, s => by
    simp only [pMany]
    split
    · next c r e =>
      split_ifs with hc
      · split
        · next e2 r2 h2 =>
          simp only [operandsText]
          obtain ⟨g1, g2⟩ := hl _ _ _ h2
          exact (Cut.given ((ho _ _ _ e hc).mul g2) (by rw [hop]; omega)).mul (reads_many ho hop hl n r2)
        · simp only [operandsText]; exact .one s
      · simp only [operandsText]; exact .one s
    · simp only [operandsText]; exact .one s

theorem reads_bin {l : ℕ} {op : Op} {isOp : Char → Bool} (ho : ∀ c s r, skip s = c :: r → isOp c = true → Cut (opText op) s r)
    (hop : ∀ e es, rank (.bin op e es) = l + 1) {last : Math.P Expr} (hl : Reads l last) : Reads (l + 1) (pBin op isOp last) := by
  intro s e r h
  unfold pBin at h
  split at h
  · next h0 r0 e0 =>
    have hm := reads_many ho hop hl r0.length r0
    obtain ⟨g1, g2⟩ := hl _ _ _ e0
    split at h
    · next em =>
      simp only [Option.some.injEq, Prod.mk.injEq] at h
      obtain ⟨rfl, rfl⟩ := h
      exact ⟨by omega, g2⟩
    · next t ts r' em =>
      simp only [Option.some.injEq, Prod.mk.injEq] at h
      obtain ⟨rfl, rfl⟩ := h
      rw [em] at hm
      rw [exprText]
      exact ⟨(hop _ _).le, Cut.given (g2.mul hm) ⟨by rw [hop]; omega, by simp⟩⟩
  · cases h

theorem reads_levels {l : ℕ} {inner : Math.P Expr} (hi : Reads l inner) : Reads 6 (pLevels inner) := by
  unfold pLevels
  refine reads_bin ?_ (fun _ _ => rfl) (reads_bin ?_ (fun _ _ => rfl) (reads_bin ?_ (fun _ _ => rfl) (reads_bin ?_ (fun _ _ => rfl)
    fun s => reads_pos hi _ s le_rfl)))
  · intro c s r e h; simp only [beq_iff_eq] at h; subst h; exact char_cut e
  · intro c s r e h; simp only [beq_iff_eq] at h; subst h; exact char_cut e
  · intro c s r e h
    simp only [Bool.or_eq_true, beq_iff_eq] at h
    exact tok_cut (w := [c]) (by obtain rfl | rfl := h <;> simp) e.symm
  · intro c s r e h; simp only [beq_iff_eq] at h; subst h; exact char_cut e

theorem reads_expr : ∀ n, Reads 6 (pExpr n)
  | 0 => fun s e r h => by simp [pExpr] at h
  | n + 1 => reads_levels (reads_expr n)

/-- Blanks before a text of the language make a text of the language. -/
def Absorbs (l : Language Char) : Prop := ∀ b w, Blank b → w ∈ l → b ++ w ∈ l

theorem absorbs_tok (S : Text → Prop) : Absorbs (tok S) := by
  rintro b _ hb ⟨b', w, hb', hw, rfl⟩
  refine ⟨b ++ b', w, ?_, hw, by simp⟩
  intro c hc
  rw [List.mem_append] at hc
  exact hc.elim (hb c) (hb' c)

theorem Absorbs.mul {l m : Language Char} (h : Absorbs l) : Absorbs (l * m) := by
  intro b w hb hw
  obtain ⟨x, hx, y, hy, rfl⟩ := Language.mem_mul.1 hw
  exact Language.mem_mul.2 ⟨b ++ x, h b x hb hx, y, hy, by simp⟩

theorem Absorbs.given {c : Prop} {l : Language Char} (h : Absorbs l) : Absorbs (provided c l) :=
  fun b w hb hw => ⟨hw.1, h b w hb hw.2⟩

theorem absorbs_expr : ∀ e : Expr, Absorbs (exprText e)
  | .const q => by rw [exprText]; exact absorbs_tok _
  | .var n => by rw [exprText]; exact absorbs_tok _
  | .paren e => by rw [exprText]; exact (absorbs_tok _).mul.mul
  | .neg e => by rw [exprText]; exact (absorbs_tok _).mul.given
  | .pos e => by rw [exprText]; exact (absorbs_tok _).mul.given
  | .bin op h t => by rw [exprText]; exact (absorbs_expr h).mul.given

theorem Absorbs.skip {l : Language Char} (hl : Absorbs l) {s r : Text} (h : Cut l (skip s) r) : Cut l s r := by
  obtain ⟨b, hb, e'⟩ := Math.skip_split s
  obtain ⟨w, hw, h2⟩ := h
  exact ⟨b ++ w, hl b w hb hw, by rw [List.append_assoc, h2, ← e']⟩

theorem expr_cut {e : Expr} {s r : Text} (h : expr s = .ok e r) : Cut (exprText e) s r := by
  simp only [expr] at h
  split at h
  · next e' t he =>
    simp only [Res.ok.injEq] at h
    obtain ⟨rfl, rfl⟩ := h
    exact (absorbs_expr _).skip (reads_expr _ _ _ _ he).2
  · cases h

theorem variable_cut {n : Text} {s r : Text} (h : variable_ s = .ok n r) : Cut (exprText (.var n)) s r := by
  simp only [variable_] at h
  split at h
  · next m t he =>
    simp only [Res.ok.injEq] at h
    obtain ⟨rfl, rfl⟩ := h
    exact (absorbs_expr _).skip (reads_var _ _ _ he).2
  · cases h

/-! ## Commands -/

theorem asterisk_cut {s r : Text} {u : Unit} (h : asterisk s = .ok u r) : Cut (word t!"*") s r := lit_cut h

theorem cs_cut {α : Type} {p : P α} {l : α → Language Char} (hp : ∀ a s r, p s = .ok a r → Cut (l a) s r) {a : α} {s r : Text}
    (h : cs p s = .ok a r) : Cut (after (l a)) s r := by
  obtain ⟨u, t, h1, h2⟩ := before_iff.1 h
  exact (lit_cut h1).mul (hp _ _ _ h2)

theorem command_cut {α : Type} {p : P α} {l : Language Char} {a : α} (hp : ∀ s r, p s = .ok a r → Cut l s r) {s r : Text}
    (h : command p s = .ok a r) : Cut (starred l) s r := by
  simp only [command, andThen_iff, before_iff, ret_iff] at h
  obtain ⟨b, t, h1, u, v, h2, rfl, rfl⟩ := h
  exact (hp _ _ h1).mul (asterisk_cut h2)

theorem extended_cut {α : Type} {p : P α} {l : Language Char} {a : α} (hp : ∀ s r, p s = .ok a r → Cut l s r) {s r : Text}
    (h : extended p s = .ok a r) : Cut (percented l) s r := by
  simp only [extended, andThen_iff, before_iff, ret_iff] at h
  obtain ⟨_, t, h0, b, t', h1, u, v, h2, _, _, h3, rfl, rfl⟩ := h
  exact (((lit_cut h0).mul (hp _ _ h1)).mul (asterisk_cut h2)).mul (lit_cut h3)

theorem field'_cut (a : Text) (s r : Text) (h : field s = .ok a r) : Cut (fieldText a) s r := field_cut h

/-- The text does not begin with a blank. -/
def Tight (s : Text) : Prop := ∀ c t, s = c :: t → isBlank c = false

theorem tight_dropWhile {f : Char → Bool} (hf : ∀ c, isBlank c = true → f c = true) (s : Text) : Tight (s.dropWhile f) := by
  intro c t e
  by_contra hb
  have hc : f c = true := hf c (by simpa using hb)
  have := List.dropWhile_get_zero_not (p := f) s (by rw [e]; simp)
  simp [e, hc] at this

theorem tight_field {s w r : Text} (h : field s = .ok w r) : Tight r := by
  simp only [field, Res.ok.injEq] at h
  rw [← h.2]
  refine tight_dropWhile (fun c hc => ?_) _
  simp only [isBlank, Bool.or_eq_true, beq_iff_eq] at hc
  obtain ((rfl | rfl) | rfl) | rfl := hc <;> decide

theorem tight_string {s w r : Text} (h : Peg.string s = .ok w r) : Tight r := by
  simp only [Peg.string] at h
  split_ifs at h with he
  simp only [Res.ok.injEq] at h
  rw [← h.2]
  refine tight_dropWhile (fun c hc => ?_) _
  simp only [isBlank, Bool.or_eq_true, beq_iff_eq] at hc
  obtain ((rfl | rfl) | rfl) | rfl := hc <;> decide

theorem Tight.cut {S : Text → Prop} {s r : Text} (ht : Tight s) (h : Cut (tok S) s r) : Cut {w | S w} s r := by
  obtain ⟨w, ⟨b, v, hb, hv, rfl⟩, rfl⟩ := h
  cases b with
  | nil => exact ⟨v, hv, rfl⟩
  | cons c b =>
    have h1 := ht c _ rfl
    have h2 : isBlank c = true := blank_iff.1 fun x hx => hb x (by simp only [List.mem_singleton] at hx; simp [hx])
    rw [h1] at h2
    cases h2

theorem closing_nil {s r : Text} {u : Unit} (h : asterisk s = .ok u r) : Cut (closing []) s r := by
  refine (asterisk_cut h).mono ?_
  rintro _ ⟨b, v, hb, rfl, rfl⟩
  exact ⟨b, t!"*", hb, Language.mem_mul.2 ⟨[], rfl, t!"*", rfl, rfl⟩, rfl⟩

theorem closing_cons {f : Text} {fs : List Text} {s t r : Text} (h : cs field s = .ok f t) (h' : Cut (closing fs) t r) :
    Cut (closing (f :: fs)) s r := by
  simp only [cs, before_iff] at h
  obtain ⟨_, t1, h1, h2⟩ := h
  have h3 : Cut (fieldsEnd fs) t r := (tight_field h2).cut h'
  have h4 : Cut (word t!"," * (fieldText f * fieldsEnd fs)) s r := (lit_cut h1).mul ((field'_cut _ _ _ h2).mul h3)
  refine h4.mono ?_
  intro w hw
  obtain ⟨_, ⟨b, v, hb, rfl, rfl⟩, y, hy, rfl⟩ := Language.mem_mul.1 hw
  refine ⟨b, ',' :: y, hb, ?_, by simp⟩
  show ',' :: y ∈ listed (fun f => {t!","} * fieldText f) (f :: fs) * {t!"*"}
  rw [listed, mul_assoc, mul_assoc]
  exact Language.mem_mul.2 ⟨t!",", rfl, y, hy, rfl⟩

theorem closing_fields {fs : List Text} {s t r : Text} {u : Unit} (h : fields s = .ok fs t) (h' : asterisk t = .ok u r) :
    Cut (closing fs) s r := by
  have : ∀ {n : Nat} {fs : List Text} {s : Text}, manyFuel (cs field) n s = .ok fs t → Cut (closing fs) s r := by
    intro n
    induction n with
    | zero => intro fs s h; obtain ⟨rfl, rfl⟩ := ret_iff.1 h; exact closing_nil h'
    | succ n ih =>
      intro fs s h
      simp only [manyFuel] at h
      cases e : cs field s with
      | ok a v =>
        rw [e] at h
        obtain ⟨b, h1, rfl⟩ := mapP_iff.1 h
        exact closing_cons e (ih h1)
      | fail => rw [e] at h; simp only [Res.ok.injEq] at h; obtain ⟨rfl, rfl⟩ := h; exact closing_nil h'
      | raised => rw [e] at h; cases h
  exact this h

theorem textEnd_cut {t : Text} {s v r : Text} {u : Unit} (h : Peg.string s = .ok t v) (h' : asterisk v = .ok u r) :
    Cut (textEnd t) s r := (string_cut h).mul ((tight_string h).cut (asterisk_cut h'))

theorem attr_ok {α : Type} {p : P α} {a : α} {s r : Text} (h : extended p s = .ok a r) :
    ∃ t v u, p t = .ok a v ∧ asterisk v = .ok () u ∧ ∀ l m x, Cut l t x → Cut m x u → Cut (word t!"%" * l * m * word t!"%") s r := by
  simp only [extended, andThen_iff, before_iff, ret_iff] at h
  obtain ⟨_, t, h0, b, t', h1, u, v, h2, _, _, h3, rfl, rfl⟩ := h
  exact ⟨_, _, _, h1, h2, fun l m x hl hm => (((lit_cut h0).mul hl).mul hm).mul (lit_cut h3)⟩

theorem expr'_cut (a : Expr) (s r : Text) (h : expr s = .ok a r) : Cut (exprText a) s r := expr_cut h

theorem csExpr_cut {e : Expr} {s r : Text} (h : cs expr s = .ok e r) : Cut (after (exprText e)) s r := cs_cut expr'_cut h

theorem csField_cut {e : Text} {s r : Text} (h : cs field s = .ok e r) : Cut (after (fieldText e)) s r := cs_cut field'_cut h

theorem csDouble_cut {e : ℚ} {s r : Text} (h : cs double s = .ok e r) : Cut (after (numeric e)) s r :=
  cs_cut (fun _ _ _ h => double_cut h) h

theorem coordinate_cut {l : Char} {a : Text} {s r : Text} (h : coordinate l s = .ok a r) : Cut (anyCase [l] * wholeAs a) s r := by
  obtain ⟨u, t, h1, h2⟩ := before_iff.1 h
  exact (clit_cut h1).mul (integer_cut h2)

theorem axis_cut {l : Char} {o : Option Text} {s r : Text} (h : opt (coordinate l) s = .ok o r) : Cut (axis l o) s r :=
  opt_cut (fun _ _ _ h => coordinate_cut h) h

theorem xDouble_cut {q : ℚ} {s r : Text} (h : xDouble s = .ok q r) : Cut (xNumber q) s r := by
  obtain ⟨u, t, h1, h2⟩ := before_iff.1 h
  exact (lit_cut h1).mul (double_cut h2)

theorem optX_cut {o : Option ℚ} {s r : Text} (h : opt xDouble s = .ok o r) : Cut (perhaps xNumber o) s r :=
  opt_cut (fun _ _ _ h => xDouble_cut h) h

theorem letter_cut {c : Char} {q : ℚ} {s r : Text} (h : (lit [c] ≫ double) s = .ok q r) : Cut (letterNumber c q) s r := by
  obtain ⟨u, t, h1, h2⟩ := before_iff.1 h
  exact (lit_cut h1).mul (double_cut h2)

theorem optLetter_cut {c : Char} {o : Option ℚ} {s r : Text} (h : opt (lit [c] ≫ double) s = .ok o r) :
    Cut (perhaps (letterNumber c) o) s r := opt_cut (fun _ _ _ h => letter_cut h) h

theorem sizeText_cut {c : Char} {o : Option Text} {s r : Text} (h : opt (lit [c] ≫ doubleText) s = .ok o r) :
    Cut (perhaps (fun q => word [c] * numberAs q) o) s r := opt_cut (fun _ _ _ h => by
      obtain ⟨u, t, h1, h2⟩ := before_iff.1 h
      exact (lit_cut h1).mul (doubleText_cut h2)) h

theorem dot_cut {l : Char} {w : Text} {n : Nat} {s r : Text} {u : Unit} (h : codeRe l w s = .ok u r)
    (hw : Digits w ∧ w ≠ [] ∧ numeral w = n) : Cut (code l n) s r := hw.2.2 ▸ codeRe_cut hw.1 hw.2.1 h

theorem extended_ok {α : Type} {p : P α} {a : α} {s r : Text} (h : extended p s = .ok a r) :
    ∃ t u, p t = .ok a u ∧ ∀ l, Cut l t u → Cut (percented l) s r := by
  simp only [extended, andThen_iff, before_iff, ret_iff] at h
  obtain ⟨_, t, h0, b, t', h1, u, v, h2, _, _, h3, rfl, rfl⟩ := h
  exact ⟨_, _, h1, fun l hl => (((lit_cut h0).mul hl).mul (asterisk_cut h2)).mul (lit_cut h3)⟩

theorem command_ok {α : Type} {p : P α} {a : α} {s r : Text} (h : command p s = .ok a r) :
    ∃ t, p s = .ok a t ∧ ∀ l, Cut l s t → Cut (starred l) s r := by
  simp only [command, andThen_iff, before_iff, ret_iff] at h
  obtain ⟨b, t, h1, u, v, h2, rfl, rfl⟩ := h
  exact ⟨_, h1, fun l hl => hl.mul (asterisk_cut h2)⟩

/-- Take a successful sequence apart. -/
macro "apart" h:ident : tactic => `(tactic| (
  simp only [andThen_iff, before_iff, ret_iff, mapP_iff, convert_iff, raise_iff] at $h:ident
  casesm* ∃ _, _, _ ∧ _
  try subst_vars))

/-- Put the parts together. -/
syntax "together" : tactic

macro_rules
  | `(tactic| together) => `(tactic| first
    | exact lit_cut ‹_› | exact clit_cut ‹_› | exact apertureId_cut ‹_› | exact double_cut ‹_› | exact optX_cut ‹_›
    | exact xDouble_cut ‹_› | exact axis_cut ‹_› | exact name_cut ‹_› | exact userName_cut ‹_›
    | exact csField_cut ‹_› | exact csDouble_cut ‹_› | exact csExpr_cut ‹_› | exact digit_cut ‹_›
    | exact expr_cut ‹_› | exact variable_cut ‹_› | exact optLetter_cut ‹_› | exact sizeText_cut ‹_›
    | exact mZeros_cut ‹_› | exact dot_cut ‹_› (by decide) | assumption
    | (refine Cut.mul (t := ?_) ?_ ?_; rotate_left 2; together; together))

/-- The commands that an element reads are spelled by what it reads. -/
def Spells (date : Text → Option Text) (p : P Node) : Prop := ∀ s n r, p s = .ok n r → OnItsOwn n ∧ Cut (commandText date n) s r

variable {date : Text → Option Text}

theorem adc_spells : Spells date adc := by
  intro s n r h
  obtain ⟨t, u, h, hl⟩ := extended_ok h
  apart h
  exact ⟨trivial, hl _ (by together)⟩

theorem adr_spells : Spells date adr := by
  intro s n r h
  obtain ⟨t, u, h, hl⟩ := extended_ok h
  apart h
  exact ⟨trivial, hl _ (by together)⟩

theorem ado_spells : Spells date ado := by
  intro s n r h
  obtain ⟨t, u, h, hl⟩ := extended_ok h
  apart h
  exact ⟨trivial, hl _ (by together)⟩

theorem opt_none {α : Type} {p : P α} {s r : Text} (h : opt p s = .ok none r) : r = s ∧ p s = .fail := by
  simp only [opt] at h
  cases e : p s with
  | ok a t => rw [e] at h; simp at h
  | fail => rw [e] at h; simp only [Res.ok.injEq] at h; exact ⟨h.2.symm, rfl⟩
  | raised => rw [e] at h; cases h

theorem opt_some {α : Type} {p : P α} {s r : Text} {a : α} (h : opt p s = .ok (some a) r) : p s = .ok a r := by
  simp only [opt] at h
  cases e : p s with
  | ok b t => rw [e] at h; simpa using h
  | fail => rw [e] at h; simp at h
  | raised => rw [e] at h; cases h

theorem adp_spells : Spells date adp := by
  intro s n r h
  obtain ⟨⟨v, i, d, ro, ho⟩, t, h, h2⟩ := andThen_iff.1 h
  dsimp only at h2
  split_ifs at h2 with hv
  · obtain ⟨rfl, rfl⟩ := ret_iff.1 h2
    obtain ⟨t, u, h, hl⟩ := extended_ok h
    simp only [andThen_iff, before_iff, ret_iff, Prod.mk.injEq] at h
    obtain ⟨_, _, h1, _, _, h2, _, _, h3, _, _, h4, _, _, h5, _, _, h6, _, _, h7, ⟨rfl, rfl, rfl, rfl, rfl⟩, rfl⟩ := h
    refine ⟨trivial, Cut.given (hl _ ?_) ?_⟩
    · rw [(Rat.den_eq_one_iff v).1 hv]
      together
    · rintro rfl
      obtain ⟨rfl, hf⟩ := opt_none h6
      simp only [opt, hf, Res.ok.injEq] at h7
      exact h7.1.symm
  · cases h2

theorem listed_append {α : Type} (f : α → Language Char) (a b : List α) : listed f (a ++ b) = listed f a * listed f b := by
  induction a with
  | nil => simp [listed]
  | cons x a ih => simp [listed, ih, mul_assoc]

theorem adMacro_spells : Spells date adMacro := by
  intro s n r h
  obtain ⟨t, u, h, hl⟩ := extended_ok h
  simp only [andThen_iff, before_iff, ret_iff] at h
  obtain ⟨_, _, h1, _, _, h2, _, _, h3, o, _, h4, rfl, rfl⟩ := h
  refine ⟨trivial, ?_⟩
  cases o with
  | none =>
    obtain ⟨rfl, -⟩ := opt_none h4
    exact hl _ (by together)
  | some ps =>
    have := opt_some h4
    simp only [andThen_iff, ret_iff] at this
    obtain ⟨p, _, h5, qs, _, h6, rfl, rfl⟩ := this
    have h7 : Cut (listed xNumber qs) _ _ := many_cut (fun _ _ _ h => xDouble_cut h) h6
    exact hl _ (by together)

theorem spells_firstOf {ps : List (P Node)} (h : ∀ p ∈ ps, Spells date p) : Spells date (firstOf ps) := by
  intro s n r e
  obtain ⟨p, hp, e⟩ := firstOf_some e
  exact h p hp s n r e

theorem addAperture_spells : Spells date addAperture := by
  refine spells_firstOf ?_
  simp only [List.mem_cons, List.not_mem_nil, or_false, forall_eq_or_imp, forall_eq]
  exact ⟨adc_spells, adr_spells, ado_spells, adp_spells, adMacro_spells⟩

/-! ### Attributes -/

theorem taUser_spells : Spells date taUser := by
  intro s n r h
  obtain ⟨t, v, u, h, ha, hl⟩ := attr_ok h
  simp only [andThen_iff, before_iff, mapP_iff] at h
  obtain ⟨_, _, h1, _, _, h2, _, h3, rfl⟩ := h
  exact ⟨trivial, hl _ _ _ ((lit_cut h1).mul (userName_cut h2)) (closing_fields h3 ha)⟩

theorem tfUser_spells : Spells date tfUser := by
  intro s n r h
  obtain ⟨t, v, u, h, ha, hl⟩ := attr_ok h
  simp only [andThen_iff, before_iff, mapP_iff] at h
  obtain ⟨_, _, h1, _, _, h2, _, h3, rfl⟩ := h
  exact ⟨trivial, hl _ _ _ ((lit_cut h1).mul (userName_cut h2)) (closing_fields h3 ha)⟩

theorem toUser_spells : Spells date toUser := by
  intro s n r h
  obtain ⟨t, v, u, h, ha, hl⟩ := attr_ok h
  simp only [andThen_iff, before_iff, mapP_iff] at h
  obtain ⟨_, _, h1, _, _, h2, _, h3, rfl⟩ := h
  exact ⟨trivial, hl _ _ _ ((lit_cut h1).mul (userName_cut h2)) (closing_fields h3 ha)⟩

theorem strip_append (w r : Text) : strip w (w ++ r) = some r := by
  induction w with
  | nil => rfl
  | cons c w ih => simp [strip, ih]

theorem oneOfIn_none : ∀ {ws : List Text} {s w : Text}, oneOfIn ws s = none → w ∈ ws → ¬w <+: s
  | [], s, w, _, hw => by cases hw
  | v :: ws, s, w, h, hw => by
    simp only [oneOfIn] at h
    split at h
    · cases h
    · next e =>
      rintro ⟨r, rfl⟩
      obtain rfl | hw := List.mem_cons.1 hw
      · rw [strip_append] at e
        cases e
      · exact oneOfIn_none h hw ⟨r, rfl⟩

theorem taFunction_spells : Spells date taFunction := by
  intro s n r h
  obtain ⟨t, v, u, h, ha, hl⟩ := attr_ok h
  simp only [andThen_iff, before_iff, mapP_iff] at h
  obtain ⟨_, _, h1, _, _, h2, o, _, h3, fs, h4, rfl⟩ := h
  refine ⟨trivial, ?_⟩
  have hc := closing_fields h4 ha
  cases o with
  | some w => exact hl _ _ _ (((lit_cut h1).mul (lit_cut h2)).mul (cs_cut (fun _ _ _ h => oneOf_cut h) (opt_some h3))) hc
  | none =>
    obtain ⟨rfl, hf⟩ := opt_none h3
    refine Cut.given (hl _ _ _ ((lit_cut h1).mul (lit_cut h2)) hc) ?_
    intro f hf' w hw hp
    simp only [fields, many] at h4
    rename_i x y
    cases hx : y with
    | nil => rw [hx] at h4; simp [manyFuel, ret] at h4; simp [h4.1] at hf'
    | cons c y' =>
      rw [show y.length = y'.length + 1 by rw [hx]; rfl] at h4
      simp only [manyFuel] at h4
      cases e : cs field y with
      | fail => rw [e] at h4; simp only [Res.ok.injEq] at h4; simp [← h4.1] at hf'
      | raised => rw [e] at h4; cases h4
      | ok a z =>
        rw [e] at h4
        obtain ⟨b, h5, rfl⟩ := mapP_iff.1 h4
        simp only [List.head?_cons, Option.mem_def, Option.some.injEq] at hf'
        subst hf'
        simp only [cs, before_iff] at e
        obtain ⟨_, t1, g1, g2⟩ := e
        simp only [cs, Peg.before, Peg.andThen, g1, oneOf] at hf
        split at hf
        · cases hf
        · next e1 =>
          refine oneOfIn_none e1 hw (hp.trans ?_)
          simp only [field, Res.ok.injEq] at g2
          rw [← g2.1]
          exact List.takeWhile_prefix _

theorem taDrill_spells : Spells date taDrill := by
  intro s n r h
  obtain ⟨t, u, h, hl⟩ := extended_ok h
  simp only [andThen_iff, before_iff, ret_iff] at h
  obtain ⟨_, _, h1, _, _, h2, o, _, h3, rfl, rfl⟩ := h
  refine ⟨trivial, ?_⟩
  cases o with
  | none =>
    obtain ⟨rfl, -⟩ := opt_none h3
    refine Cut.given (hl _ ?_) (fun _ => rfl)
    exact ((Cut.mul (by together) (by together)).mul (Cut.one _)).mul (Cut.one _)
  | some p =>
    have := opt_some h3
    simp only [andThen_iff, ret_iff] at this
    obtain ⟨p, _, h5, m, _, h6, rfl, rfl⟩ := this
    have h7 : Cut (perhaps (fun q => after (numeric q)) m) _ _ := opt_cut (fun _ _ _ h => csDouble_cut h) h6
    refine Cut.given (hl _ ?_) (fun h => by cases h)
    exact Cut.mul (Cut.mul (Cut.mul (by together) (by together)) (csDouble_cut h5)) h7

theorem taFlash_spells : Spells date taFlash := by
  intro s n r h
  obtain ⟨t, v, u, h, ha, hl⟩ := attr_ok h
  simp only [andThen_iff, before_iff, mapP_iff] at h
  obtain ⟨_, _, h1, _, _, h2, st, t3, h3, m, t4, h4, ro, t5, h5, f, _, h6, z, _, h7, _, h8, rfl⟩ := h
  refine ⟨trivial, ?_⟩
  have hf : ∀ {o : Option Text} {a b : Text}, cs (opt field) a = .ok o b → ∃ x, o = some x ∧ cs field a = .ok x b := by
    intro o a b h
    simp only [cs, before_iff] at h
    obtain ⟨_, c, g1, g2⟩ := h
    cases o with
    | none => obtain ⟨-, g⟩ := opt_none g2; simp [field] at g
    | some x => exact ⟨x, rfl, before_iff.2 ⟨_, c, g1, opt_some g2⟩⟩
  obtain ⟨x, rfl, hx⟩ := hf h6
  obtain ⟨y, rfl, hy⟩ := hf h7
  simp only [cs, before_iff] at h3 h4 h5
  obtain ⟨_, _, g1, g2⟩ := h3
  obtain ⟨_, _, g3, g4⟩ := h4
  obtain ⟨_, t6, g5, g6⟩ := h5
  have g7 : Cut {t!","} t3 _ := (tight_field g2).cut (lit_cut g3)
  have g8 : Cut (orMissing t!"R" (choice [t!"R", t!"M"]) (ro.getD ['R'])) t6 t5 := by
    cases ro with
    | none =>
      obtain ⟨rfl, -⟩ := opt_none g6
      exact (Cut.one _).mono fun w hw => .inr ⟨rfl, (Language.mem_one w).1 hw⟩
    | some v => exact (oneOf_cut (opt_some g6)).mono fun w hw => .inl hw
  exact hl _ _ _ (Cut.mul (Cut.mul (Cut.mul (Cut.mul ((lit_cut h1).mul (lit_cut h2)) ((lit_cut g1).mul (field_cut g2))) g7)
    (oneOf_cut g4)) ((lit_cut g5).mul g8)) (closing_cons hx (closing_cons hy (closing_fields h8 ha)))

theorem ta_spells : Spells date ta := by
  refine spells_firstOf ?_
  simp only [List.mem_cons, List.not_mem_nil, or_false, forall_eq_or_imp, forall_eq]
  exact ⟨taUser_spells, taFunction_spells, taDrill_spells, taFlash_spells⟩

/-- Where `string` fails, an asterisk follows at once. -/
theorem no_string {s r : Text} {u : Unit} (h : Peg.string s = .fail) (h' : asterisk s = .ok u r) : s = '*' :: r := by
  obtain ⟨w, ⟨b, v, hb, hv, rfl⟩, rfl⟩ := asterisk_cut h'
  have hv : v = t!"*" := hv
  subst hv
  cases b with
  | nil => rfl
  | cons c b =>
    exfalso
    simp only [Peg.string] at h
    split_ifs at h with he
    obtain h1 | h1 | h1 | h1 := hb c (by simp) <;> subst h1 <;> simp at he

theorem td_spells : Spells date td := by
  intro s n r h
  simp only [td, extended, andThen_iff, before_iff, ret_iff, mapP_iff] at h
  obtain ⟨_, _, h0, _, _, ⟨_, _, h1, o, h2, rfl⟩, _, _, h3, _, _, h4, rfl, rfl⟩ := h
  refine ⟨trivial, ?_⟩
  cases o with
  | none =>
    obtain ⟨rfl, hf⟩ := opt_none h2
    have e := no_string hf h3
    have h3' : Cut {t!"*"} _ _ := ⟨t!"*", Set.mem_singleton _, e.symm⟩
    exact (((lit_cut h0).mul (lit_cut h1)).mul h3').mul (lit_cut h4)
  | some t => exact (((lit_cut h0).mul (lit_cut h1)).mul (textEnd_cut (opt_some h2) h3)).mul (lit_cut h4)

theorem tfPart_spells : Spells date tfPart := by
  intro s n r h
  obtain ⟨⟨p, fs⟩, t, h, h2⟩ := andThen_iff.1 h
  dsimp only at h2
  split_ifs at h2 with hv
  · obtain ⟨rfl, rfl⟩ := ret_iff.1 h2
    obtain ⟨t, v, u, h, ha, hl⟩ := attr_ok h
    simp only [andThen_iff, before_iff, mapP_iff, Prod.mk.injEq] at h
    obtain ⟨_, _, h1, _, _, h2, _, _, h3, _, h4, rfl, rfl⟩ := h
    exact ⟨trivial, Cut.given (hl _ _ _ ((lit_cut h1).mul (clit_cut h2)) (closing_cons h3 (closing_fields h4 ha))) hv⟩
  · cases h2

theorem tfFunction_spells : Spells date tfFunction := by
  intro s n r h
  obtain ⟨⟨p, fs⟩, t, h, h2⟩ := andThen_iff.1 h
  dsimp only at h2
  split_ifs at h2 with hv
  · obtain ⟨rfl, rfl⟩ := ret_iff.1 h2
    obtain ⟨t, v, u, h, ha, hl⟩ := attr_ok h
    simp only [andThen_iff, before_iff, mapP_iff, Prod.mk.injEq] at h
    obtain ⟨_, _, h1, _, _, h2, _, _, h3, _, h4, rfl, rfl⟩ := h
    exact ⟨trivial, Cut.given (hl _ _ _ ((lit_cut h1).mul (clit_cut h2)) (closing_cons h3 (closing_fields h4 ha))) hv⟩
  · cases h2

theorem tfPolarity_spells : Spells date tfPolarity := by
  intro s n r h
  obtain ⟨p, t, h, h2⟩ := andThen_iff.1 h
  split_ifs at h2 with hv
  · obtain ⟨rfl, rfl⟩ := ret_iff.1 h2
    obtain ⟨t, v, u, h, ha, hl⟩ := attr_ok h
    simp only [before_iff] at h
    obtain ⟨_, _, h1, _, _, h2, h3⟩ := h
    exact ⟨trivial, Cut.given (hl _ _ _ ((lit_cut h1).mul (clit_cut h2)) (closing_cons h3 (closing_nil ha))) (by simpa using hv)⟩
  · cases h2

theorem opt_field_cut {p : Option Text} {a b r : Text} {u : Unit} (h : opt (cs field) a = .ok p b) (ha : asterisk b = .ok u r) :
    Cut (closing p.toList) a r := by
  cases p with
  | none => obtain ⟨rfl, -⟩ := opt_none h; exact closing_nil ha
  | some v => exact closing_cons (opt_some h) (closing_nil ha)

theorem tfSame_spells : Spells date tfSame := by
  intro s n r h
  obtain ⟨t, v, u, h, ha, hl⟩ := attr_ok h
  simp only [before_iff, mapP_iff] at h
  obtain ⟨_, _, h1, _, _, h2, _, h3, rfl⟩ := h
  exact ⟨trivial, hl _ _ _ ((lit_cut h1).mul (clit_cut h2)) (opt_field_cut h3 ha)⟩

theorem tfDate_spells : Spells date (tfDate date) := by
  intro s n r h
  simp only [tfDate, convert_iff, Option.map_eq_some_iff] at h
  obtain ⟨w, h, d, hd, rfl⟩ := h
  obtain ⟨t, v, u, h, ha, hl⟩ := attr_ok h
  simp only [before_iff] at h
  obtain ⟨_, _, h1, _, _, h2, h3⟩ := h
  exact ⟨trivial, Cut.mono (hl _ _ _ ((lit_cut h1).mul (clit_cut h2)) (closing_cons h3 (closing_nil ha))) fun v hv => ⟨w, hd, hv⟩⟩

theorem upTo3_cut {a b c : Option Text} {s v r : Text} {u : Unit} (h : upTo3 s = .ok (a, b, c) v) (ha : asterisk v = .ok u r) :
    ((a = none → b = none) ∧ (b = none → c = none)) ∧ Cut (closing (a.toList ++ b.toList ++ c.toList)) s r := by
  simp only [upTo3, mapP_iff, Prod.mk.injEq] at h
  obtain ⟨o, h, rfl, rfl, rfl⟩ := h
  cases o with
  | none =>
    obtain ⟨rfl, -⟩ := opt_none h
    exact ⟨⟨fun _ => rfl, fun _ => rfl⟩, closing_nil ha⟩
  | some x =>
    have := opt_some h
    simp only [andThen_iff, ret_iff] at this
    obtain ⟨a, _, h1, bc, _, h2, rfl, rfl⟩ := this
    cases bc with
    | none =>
      obtain ⟨rfl, -⟩ := opt_none h2
      exact ⟨⟨fun h => by simp at h, fun _ => rfl⟩, closing_cons h1 (closing_nil ha)⟩
    | some y =>
      have := opt_some h2
      simp only [andThen_iff, ret_iff] at this
      obtain ⟨b, _, h3, c, _, h4, rfl, rfl⟩ := this
      exact ⟨by constructor <;> (intro h; simp at h), closing_cons h1 (closing_cons h3 (opt_field_cut h4 ha))⟩

theorem tfSoftware_spells : Spells date tfSoftware := by
  intro s n r h
  obtain ⟨t, v, u, h, ha, hl⟩ := attr_ok h
  simp only [before_iff, mapP_iff] at h
  obtain ⟨_, _, h1, _, _, h2, ⟨a, b, c⟩, h3, rfl⟩ := h
  obtain ⟨g1, g2⟩ := upTo3_cut h3 ha
  exact ⟨trivial, Cut.given (hl _ _ _ ((lit_cut h1).mul (clit_cut h2)) g2) g1⟩

theorem tfProject_spells : Spells date tfProject := by
  intro s n r h
  obtain ⟨t, v, u, h, ha, hl⟩ := attr_ok h
  simp only [before_iff, mapP_iff] at h
  obtain ⟨_, _, h1, _, _, h2, ⟨a, b, c⟩, h3, rfl⟩ := h
  obtain ⟨g1, g2⟩ := upTo3_cut h3 ha
  exact ⟨trivial, Cut.given (hl _ _ _ ((lit_cut h1).mul (clit_cut h2)) g2) g1⟩

theorem tfMd5_spells : Spells date tfMd5 := by
  intro s n r h
  obtain ⟨p, t, h, h2⟩ := andThen_iff.1 h
  split_ifs at h2 with hv
  · obtain ⟨rfl, rfl⟩ := ret_iff.1 h2
    obtain ⟨t, v, u, h, ha, hl⟩ := attr_ok h
    simp only [before_iff] at h
    obtain ⟨_, _, h1, _, _, h2, h3⟩ := h
    exact ⟨trivial, Cut.given (hl _ _ _ ((lit_cut h1).mul (clit_cut h2)) (closing_cons h3 (closing_nil ha))) hv⟩
  · cases h2

theorem tf_spells : Spells date (tf date) := by
  refine spells_firstOf ?_
  simp only [List.mem_cons, List.not_mem_nil, or_false, forall_eq_or_imp, forall_eq]
  exact ⟨tfUser_spells, tfPart_spells, tfFunction_spells, tfPolarity_spells, tfSame_spells, tfDate_spells,
    tfSoftware_spells, tfProject_spells, tfMd5_spells⟩

theorem toN_spells : Spells date toN := by
  intro s n r h
  obtain ⟨t, v, u, h, ha, hl⟩ := attr_ok h
  simp only [before_iff, mapP_iff] at h
  obtain ⟨_, _, h1, _, _, h2, _, h3, rfl⟩ := h
  exact ⟨trivial, hl _ _ _ ((lit_cut h1).mul (clit_cut h2)) (closing_fields h3 ha)⟩

theorem toP_spells : Spells date toP := by
  intro s n r h
  obtain ⟨t, v, u, h, ha, hl⟩ := attr_ok h
  simp only [andThen_iff, before_iff, mapP_iff] at h
  obtain ⟨_, _, h1, _, _, h2, a, _, h3, b, t4, h4, c, h5, rfl⟩ := h
  exact ⟨trivial, hl _ _ _ ((lit_cut h1).mul (clit_cut h2)) (closing_cons h3 (closing_cons h4 (opt_field_cut h5 ha)))⟩

theorem objectName_cut {k : ToKind} {s r : Text} {u : Unit} (h : clit (toLiteral k) s = .ok u r) : Cut (anyCase (objectName k)) s r := by
  have := clit_cut h
  have e : anyCase (objectName k) = anyCase (toLiteral k) := by
    cases k <;> rfl
  rwa [e]

theorem toText_spells (k : ToKind) : Spells date (toText k) := by
  intro s n r h
  obtain ⟨t, v, u, h, ha, hl⟩ := attr_ok h
  simp only [before_iff, mapP_iff] at h
  obtain ⟨_, _, h1, _, _, h2, _, h3, rfl⟩ := h
  exact ⟨trivial, hl _ _ _ ((lit_cut h1).mul (objectName_cut h2)) (closing_cons h3 (closing_nil ha))⟩

theorem float_text {w : Text} {q : ℚ} (hq : floatText w = some q) : NumberText w q := by
  simp only [floatText] at hq
  split at hq
  · next q' e =>
    simp only [Option.some.injEq] at hq
    subst hq
    obtain ⟨v, h1, h2⟩ := double_text e
    rw [List.append_nil] at h1
    rwa [← h1]
  · cases hq

theorem toRot_spells : Spells date toRot := by
  intro s n r h
  simp only [toRot, convert_iff, Option.map_eq_some_iff] at h
  obtain ⟨w, h, q, hq, rfl⟩ := h
  obtain ⟨t, v, u, h, ha, hl⟩ := attr_ok h
  simp only [before_iff] at h
  obtain ⟨_, _, h1, _, _, h2, h3⟩ := h
  exact ⟨trivial, Cut.mono (hl _ _ _ ((lit_cut h1).mul (clit_cut h2)) (closing_cons h3 (closing_nil ha)))
    fun x hx => ⟨w, float_text hq, hx⟩⟩

theorem toHeight_spells : Spells date toHeight := by
  intro s n r h
  simp only [toHeight, convert_iff, Option.map_eq_some_iff] at h
  obtain ⟨w, h, q, hq, rfl⟩ := h
  obtain ⟨t, v, u, h, ha, hl⟩ := attr_ok h
  simp only [before_iff] at h
  obtain ⟨_, _, h1, _, _, h2, h3⟩ := h
  exact ⟨trivial, Cut.mono (hl _ _ _ ((lit_cut h1).mul (clit_cut h2)) (closing_cons h3 (closing_nil ha)))
    fun x hx => ⟨w, float_text hq, hx⟩⟩

theorem toMount_spells : Spells date toMount := by
  intro s n r h
  obtain ⟨p, t, h, h2⟩ := andThen_iff.1 h
  split_ifs at h2 with hv
  · obtain ⟨rfl, rfl⟩ := ret_iff.1 h2
    obtain ⟨t, v, u, h, ha, hl⟩ := attr_ok h
    simp only [before_iff] at h
    obtain ⟨_, _, h1, _, _, h2, h3⟩ := h
    exact ⟨trivial, Cut.given (hl _ _ _ ((lit_cut h1).mul (clit_cut h2)) (closing_cons h3 (closing_nil ha))) hv⟩
  · cases h2

theorem toSup_spells : Spells date toSup := by
  intro s n r h
  obtain ⟨t, v, u, h, ha, hl⟩ := attr_ok h
  simp only [andThen_iff, before_iff, mapP_iff] at h
  obtain ⟨_, _, h1, _, _, h2, a, _, h3, b, _, h4, c, h5, rfl⟩ := h
  exact ⟨trivial, hl _ _ _ ((lit_cut h1).mul (clit_cut h2)) (closing_cons h3 (closing_cons h4 (closing_fields h5 ha)))⟩

theorem to_spells : Spells date to_ := by
  refine spells_firstOf ?_
  simp only [List.mem_cons, List.not_mem_nil, or_false, forall_eq_or_imp, forall_eq]
  exact ⟨toUser_spells, toN_spells, toP_spells, toText_spells _, toRot_spells, toText_spells _, toText_spells _, toText_spells _,
    toMount_spells, toText_spells _, toText_spells _, toText_spells _, toHeight_spells, toText_spells _, toText_spells _,
    toSup_spells⟩

theorem attributes_spells : Spells date (attributes date) := by
  refine spells_firstOf ?_
  simp only [List.mem_cons, List.not_mem_nil, or_false, forall_eq_or_imp, forall_eq]
  exact ⟨ta_spells, td_spells, tf_spells, to_spells⟩

end Verif.Written
