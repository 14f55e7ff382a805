import Verif.Lemmas.Resilient
import Verif.Spec.Resilient
import Mathlib.Tactic.Tauto

/-!
# The resilient parser and the strict one
-/

namespace Verif.Grammar

open Verif.Text Verif.Fmt Verif.Peg Verif.Syntax Verif.Spec
open Verif.Math hiding P

/-! ## Repetition without fuel -/

theorem manyFuel_more {α : Type} {p : P α} (h : Eats p) (h0 : p [] = .fail) :
    ∀ n m s, s.length ≤ n → s.length ≤ m → manyFuel p n s = manyFuel p m s := by
  intro n
  induction n with
  | zero =>
    intro m s hn _
    have : s = [] := List.length_eq_zero_iff.1 (by omega)
    subst this
    rw [manyFuel_stop h0, manyFuel_stop h0]
  | succ n ih =>
    intro m s hn hm
    cases m with
    | zero =>
      have : s = [] := List.length_eq_zero_iff.1 (by omega)
      subst this
      rw [manyFuel_stop h0, manyFuel_stop h0]
    | succ m =>
      simp only [manyFuel]
      cases hp : p s with
      | ok a r =>
        have := (h _ _ _ hp).2
        simp only [mapP, andThen, ih m r (by omega) (by omega)]
      | fail => rfl
      | raised => rfl

theorem many_ok {α : Type} {p : P α} (h : Eats p) (h0 : p [] = .fail) {s r : Text} {a : α} (hp : p s = .ok a r) :
    many p s = mapP (a :: ·) (many p) r := by
  have hl := (h _ _ _ hp).2
  cases hn : s.length with
  | zero => omega
  | succ n => simp only [many, hn, manyFuel, hp, mapP, andThen, manyFuel_more h h0 n r.length r (by omega) (le_refl _)]

theorem many_fail {α : Type} {p : P α} {s : Text} (hp : p s = .fail) : many p s = .ok [] s := manyFuel_stop hp _

theorem many_raised {α : Type} {p : P α} (h0 : p [] = .fail) {s : Text} (hp : p s = .raised) : many p s = .raised := by
  cases hn : s.length with
  | zero => rw [List.length_eq_zero_iff] at hn; subst hn; rw [h0] at hp; cases hp
  | succ n => simp only [many, hn, manyFuel, hp]

/-- The result of a repetition: it ends where the element fails, or the element raises. -/
theorem many_end {α : Type} {p : P α} (h : Eats p) (h0 : p [] = .fail) (s : Text) :
    many p s = .raised ∨ ∃ as r, many p s = .ok as r ∧ p r = .fail ∧ r <:+ s := by
  induction hn : s.length using Nat.strong_induction_on generalizing s with
  | _ n ih =>
    subst hn
    cases hp : p s with
    | fail => exact .inr ⟨[], s, many_fail hp, hp, List.suffix_refl _⟩
    | raised => exact .inl (many_raised h0 hp)
    | ok a r =>
      rw [many_ok h h0 hp]
      obtain ⟨hs, hl⟩ := h _ _ _ hp
      rcases ih _ hl r rfl with h1 | ⟨as, r', h1, h2, h3⟩
      · exact .inl (by simp [mapP, andThen, h1])
      · exact .inr ⟨a :: as, r', by simp [mapP, andThen, h1, ret], h2, h3.trans hs⟩

theorem many1_eq {α : Type} {p : P α} (h : Eats p) (h0 : p [] = .fail) {s : Text} (hp : p s ≠ .fail) :
    many1 p s = many p s := by
  cases hp' : p s with
  | fail => exact absurd hp' hp
  | raised => rw [many_raised h0 hp']; simp [many1, andThen, hp']
  | ok a r => rw [many_ok h h0 hp']; simp [many1, mapP, andThen, hp']

theorem many1_fail {α : Type} {p : P α} {s : Text} (hp : p s = .fail) : many1 p s = .fail := by
  simp [many1, andThen, hp]

/-! ## The bound of the nesting -/

/-- Two elements are the same on texts of bounded length. -/
def Agree {α : Type} (n : Nat) (p q : P α) : Prop := ∀ s, s.length ≤ n → p s = q s

theorem Agree.manyFuel {α : Type} {n : Nat} {p q : P α} (h : Agree n p q) (hp : Suf p) :
    ∀ m, Agree n (manyFuel p m) (manyFuel q m)
  | 0 => fun _ _ => rfl
  | m + 1 => by
    intro s hs
    simp only [Peg.manyFuel]
    rw [← h s hs]
    cases hp' : p s with
    | ok a r =>
      have := (hp _ _ _ hp').length_le
      simp only [mapP, andThen, h.manyFuel hp m r (by omega)]
    | fail => rfl
    | raised => rfl

theorem Agree.many {α : Type} {n : Nat} {p q : P α} (h : Agree n p q) (hp : Suf p) : Agree n (many p) (many q) :=
  fun s hs => h.manyFuel hp _ s hs

theorem Agree.firstOf {α : Type} {n : Nat} : ∀ {ps qs : List (P α)}, List.Forall₂ (Agree n) ps qs → Agree n (firstOf ps) (firstOf qs)
  | _, _, .nil => fun _ _ => rfl
  | _, _, .cons h hs => fun s hl => by simp only [Peg.firstOf, orElse, h s hl, Agree.firstOf hs s hl]

theorem Agree.rfl' {α : Type} {n : Nat} {p : P α} : Agree n p p := fun _ _ => rfl

theorem Agree.mapP {α β : Type} {n : Nat} {p q : P α} {f : α → β} (h : Agree n p q) : Agree n (mapP f p) (mapP f q) := by
  intro s hs; simp only [Peg.mapP, andThen, h s hs]

theorem agree_body (rd : Text → Option Text) {n : Nat} {p q : P Node} (h : Agree n p q) : Agree n (bodyItem rd p) (bodyItem rd q) :=
  .firstOf (.cons .rfl' (.cons .rfl' (.cons .rfl' (.cons .rfl' (.cons .rfl' (.cons .rfl' (.cons .rfl' (.cons h.mapP
    (.cons .rfl' (.cons .rfl' .nil))))))))))

theorem agree_block (rd : Text → Option Text) : ∀ n k k', n ≤ k → n ≤ k' → Agree n (apertureBlock rd k) (apertureBlock rd k') := by
  have nilBlock : ∀ k, apertureBlock rd k [] = .fail := by
    intro k
    cases k with
    | zero => rfl
    | succ k => exact andThen_fail (by simp [abOpen, extended, Peg.before, Peg.andThen, lit, strip, skip])
  intro n
  induction n with
  | zero =>
    intro k k' _ _ s hs
    have : s = [] := List.length_eq_zero_iff.1 (by omega)
    subst this
    rw [nilBlock, nilBlock]
  | succ n ih =>
    intro k k' hk hk' s hs
    obtain ⟨k, rfl⟩ : ∃ j, k = j + 1 := ⟨k - 1, by omega⟩
    obtain ⟨k', rfl⟩ : ∃ j, k' = j + 1 := ⟨k' - 1, by omega⟩
    have ha := (agree_body rd (ih k k' (by omega) (by omega))).many (suf_bodyItem rd (eats_apertureBlock rd k).suf)
    simp only [apertureBlock, andThen]
    cases ho : abOpen s with
    | ok i r =>
      have hl := ((eats_extended (by sufs) : Eats abOpen) _ _ _ ho).2
      simp only [ha r (by omega)]
    | fail => rfl
    | raised => rfl

/-- The bound of the nesting in the model does not restrict the files that are read: any bound that is not less than the
length of the text gives the same result. -/
theorem agree_root (rd : Text → Option Text) {n k k' : Nat} (hk : n ≤ k) (hk' : n ≤ k') :
    Agree n (rootItem rd k) (rootItem rd k') := by
  have hb := agree_block rd n k k' hk hk'
  have hs : Agree n (stepRepeat rd k) (stepRepeat rd k') := by
    intro s hs
    have ha := (agree_body rd hb).many (suf_bodyItem rd (eats_apertureBlock rd k).suf)
    simp only [stepRepeat, andThen]
    cases ho : srOpen s with
    | ok i r =>
      have hl := ((eats_extended (by sufs) : Eats srOpen) _ _ _ ho).2
      simp only [ha r (by omega)]
    | fail => rfl
    | raised => rfl
  have hap : Agree n (aperture rd k) (aperture rd k') := .firstOf (.cons hb (.cons .rfl' (.cons hs (.cons .rfl' .nil))))
  exact .firstOf (.cons .rfl' (.cons .rfl' (.cons .rfl' (.cons hap.mapP (.cons .rfl' (.cons .rfl' (.cons .rfl' .nil)))))))

/-! ## The alternatives of the resilient parser -/

theorem firstOf_valid (ps : List (P (List Node))) (q : P (List Entry)) (s : Text) :
    firstOf (ps.map valid ++ [q]) s =
      match firstOf ps s with
      | .ok ns r => .ok (ns.map .node) r
      | .fail => q s
      | .raised => .raised := by
  induction ps with
  | nil =>
    simp only [List.map_nil, List.nil_append, firstOf, orElse]
    cases q s <;> rfl
  | cons p ps ih =>
    simp only [List.map_cons, List.cons_append, firstOf, orElse]
    cases hp : p s with
    | ok a r => simp [valid, mapP, andThen, hp, ret]
    | fail => simp only [valid, mapP, andThen, hp]; exact ih
    | raised => simp [valid, mapP, andThen, hp]

theorem resilient_eq (rd : Text → Option Text) (k : Nat) (s : Text) :
    resilientItem rd k s =
      match rootItem rd k s with
      | .ok ns r => .ok (ns.map .node) r
      | .fail => invalidToken s
      | .raised => .raised :=
  firstOf_valid [one (dCodes true), gCodes, one load, one (aperture rd k), one (attributes rd), one properties, one mCodes] _ s

theorem skip_head {s t : Text} {c : Char} (h : skip s = c :: t) : isBlank c = false := by
  have := List.head?_dropWhile_not isBlank s
  have e : (s.dropWhile isBlank) = c :: t := h
  rw [e] at this
  simpa using this

theorem eats_invalid : Eats invalidToken := by
  intro s a r h
  simp only [invalidToken] at h
  split_ifs at h with he
  simp only [Res.ok.injEq] at h
  have h1 := skip_suffix s
  have h2 : (skip s).dropWhile (fun c => c != '\n') <:+ skip s := List.dropWhile_suffix _
  refine ⟨h.2 ▸ h2.trans h1, ?_⟩
  rw [← h.2]
  refine lt_of_lt_of_le ?_ h1.length_le
  cases hs : skip s with
  | nil => simp [hs] at he
  | cons c t =>
    have hc : (c != '\n') = true := by
      have := skip_head hs
      by_contra hn
      simp only [bne_iff_ne, ne_eq, not_not] at hn
      subst hn
      simp [isBlank] at this
    rw [List.dropWhile_cons, if_pos hc]
    have : (t.dropWhile (fun c => c != '\n')).length ≤ t.length := (List.dropWhile_suffix _).length_le
    simp only [List.length_cons]
    omega

theorem eats_resilient (rd : Text → Option Text) (k : Nat) : Eats (resilientItem rd k) := by
  intro s a r h
  rw [resilient_eq] at h
  cases hr : rootItem rd k s with
  | ok ns r' => rw [hr] at h; simp only [Res.ok.injEq] at h; exact h.2 ▸ eats_rootItem rd k _ _ _ hr
  | fail => rw [hr] at h; exact eats_invalid _ _ _ h
  | raised => rw [hr] at h; cases h

theorem resilient_nil (rd : Text → Option Text) (k : Nat) : resilientItem rd k [] = .fail := by
  rw [resilient_eq, root_nil]; rfl

theorem agree_resilient (rd : Text → Option Text) {n k k' : Nat} (hk : n ≤ k) (hk' : n ≤ k') :
    Agree n (resilientItem rd k) (resilientItem rd k') := by
  intro s hs
  rw [resilient_eq, resilient_eq, agree_root rd hk hk' s hs]

/-- The resilient parser stops at the end of the text only. -/
theorem resilient_stop {rd : Text → Option Text} {k : Nat} {s : Text} (h : resilientItem rd k s = .fail) : skip s = [] := by
  rw [resilient_eq] at h
  cases hr : rootItem rd k s with
  | ok ns r' => rw [hr] at h; cases h
  | fail =>
    rw [hr] at h
    simp only [invalidToken] at h
    split_ifs at h with he
    simpa using he
  | raised => rw [hr] at h; cases h

theorem skips_invalid : Skips invalidToken := by intro s; simp [invalidToken, skip_skip]

theorem skips_resilient (rd : Text → Option Text) (k : Nat) : Skips (resilientItem rd k) := by
  intro s
  rw [resilient_eq, resilient_eq, skips_rootItem rd k s, skips_invalid s]

/-! ## Whole texts -/

theorem mapP_mapP {α β γ : Type} (f : α → β) (g : β → γ) (p : P α) (s : Text) :
    mapP g (mapP f p) s = mapP (g ∘ f) p s := by
  simp only [mapP, andThen]
  cases p s <;> rfl

theorem mapP_many_ok {α β : Type} {f : List α → β} {p : P (List α)} {s r : Text} {as : List α} (h : p s = .ok as r) :
    mapP f p s = .ok (f as) r := by simp [mapP, andThen, h, ret]

/-- What the strict parser reads, the resilient parser reads, and it goes on from there. -/
theorem resilient_many (rd : Text → Option Text) (k : Nat) : ∀ (nss : List (List Node)) (s r : Text),
    many (rootItem rd k) s = .ok nss r →
    many (resilientItem rd k) s = mapP (fun es => nss.map (List.map Entry.node) ++ es) (many (resilientItem rd k)) r := by
  intro nss
  induction nss with
  | nil =>
    intro s r h
    cases hp : rootItem rd k s with
    | fail =>
      rw [many_fail hp] at h
      simp only [Res.ok.injEq, true_and] at h
      subst h
      simp only [List.map_nil, List.nil_append, mapP, andThen]
      cases many (resilientItem rd k) s <;> rfl
    | raised => rw [many_raised (root_nil rd k) hp] at h; cases h
    | ok a t =>
      rw [many_ok (eats_rootItem rd k) (root_nil rd k) hp] at h
      obtain ⟨b, u, -, h2⟩ := andThen_ok h
      simp [ret] at h2
  | cons ns nss ih =>
    intro s r h
    cases hp : rootItem rd k s with
    | fail => rw [many_fail hp] at h; simp at h
    | raised => rw [many_raised (root_nil rd k) hp] at h; cases h
    | ok a t =>
      rw [many_ok (eats_rootItem rd k) (root_nil rd k) hp] at h
      obtain ⟨b, u, h1, h2⟩ := andThen_ok h
      simp only [ret, Res.ok.injEq, List.cons.injEq] at h2
      obtain ⟨⟨rfl, rfl⟩, rfl⟩ := h2
      have hp' : resilientItem rd k s = .ok (a.map .node) t := by rw [resilient_eq, hp]
      rw [many_ok (eats_resilient rd k) (resilient_nil rd k) hp']
      have := ih t u h1
      simp only [mapP, andThen] at this ⊢
      rw [this]
      cases many (resilientItem rd k) u <;> rfl

theorem resilient_many_raised (rd : Text → Option Text) (k : Nat) (s : Text) (h : many (rootItem rd k) s = .raised) :
    many (resilientItem rd k) s = .raised := by
  induction hn : s.length using Nat.strong_induction_on generalizing s with
  | _ n ih =>
    subst hn
    cases hp : rootItem rd k s with
    | fail => rw [many_fail hp] at h; cases h
    | raised => exact many_raised (resilient_nil rd k) (by rw [resilient_eq, hp])
    | ok a t =>
      rw [many_ok (eats_rootItem rd k) (root_nil rd k) hp] at h
      have hp' : resilientItem rd k s = .ok (a.map .node) t := by rw [resilient_eq, hp]
      rw [many_ok (eats_resilient rd k) (resilient_nil rd k) hp']
      have ht : many (rootItem rd k) t = .raised := by
        simp only [mapP, andThen] at h
        cases hm : many (rootItem rd k) t with
        | ok b u => rw [hm] at h; simp [ret] at h
        | fail => rw [hm] at h; cases h
        | raised => rfl
      simp [mapP, andThen, ih _ (eats_rootItem rd k _ _ _ hp).2 t ht rfl]

/-- The result of the resilient parser in terms of repetition. -/
theorem parseResilient_eq (rd : Text → Option Text) (strict : Bool) (s : Text) :
    parseResilient rd strict s =
      if skip s = [] then .parseException
      else match many (resilientItem rd s.length) s with
        | .ok es _ => .file es.flatten
        | _ => .validationError := by
  unfold parseResilient parseAll
  split_ifs with hs
  · rw [many1_fail]
    rw [skips_resilient, hs, resilient_nil]
  · rw [many1_eq (eats_resilient rd _) (resilient_nil rd _) (fun h => hs (resilient_stop h))]
    rcases many_end (eats_resilient rd s.length) (resilient_nil rd _) s with h | ⟨as, r, h, h', -⟩
    · rw [h]
    · rw [h]; simp [resilient_stop h']

theorem parsePlain_eq (rd : Text → Option Text) (s : Text) :
    parsePlain rd false s = .parseException ∧ rootItem rd s.length s = .fail ∨
    parsePlain rd false s = .validationError ∧ many (rootItem rd s.length) s = .raised ∨
    ∃ nss r, parsePlain rd false s = .file nss.flatten ∧ many (rootItem rd s.length) s = .ok nss r ∧ r <:+ s ∧
      rootItem rd s.length r = .fail ∧ r.length < s.length := by
  unfold parsePlain parseAll
  by_cases hf : rootItem rd s.length s = .fail
  · exact .inl ⟨by rw [many1_fail hf], hf⟩
  · rw [many1_eq (eats_rootItem rd _) (root_nil rd _) hf]
    rcases many_end (eats_rootItem rd s.length) (root_nil rd _) s with h | ⟨as, r, h, h', hs⟩
    · exact .inr (.inl ⟨by rw [h], h⟩)
    · refine .inr (.inr ⟨as, r, by rw [h]; rfl, h, hs, h', ?_⟩)
      rcases lt_or_eq_of_le hs.length_le with e | e
      · exact e
      · rw [hs.eq_of_length e] at h'; exact absurd h' hf

theorem many_depth (rd : Text → Option Text) {s : Text} {k : Nat} (h : s.length ≤ k) :
    many (resilientItem rd k) s = many (resilientItem rd s.length) s :=
  (agree_resilient rd h (le_refl _)).many (eats_resilient rd k).suf s (le_refl _)

/-- Reading on after some nodes. -/
theorem then_read (rd : Text → Option Text) (strict : Bool) {r : Text} {k : Nat} (h : r.length ≤ k) (es : List (List Entry)) :
    (match mapP (fun fs => es ++ fs) (many (resilientItem rd k)) r with
      | .ok fs _ => Parsed.file fs.flatten
      | _ => .validationError) = thenRead es.flatten (parseResilient rd strict r) := by
  rw [parseResilient_eq, ← many_depth rd h]
  simp only [mapP, andThen]
  split_ifs with hs
  · have : many (resilientItem rd k) r = .ok [] r := many_fail (by rw [skips_resilient, hs, resilient_nil])
    simp [this, ret, thenRead]
  · cases many (resilientItem rd k) r <;> simp [ret, thenRead]

/-- An unreadable line. -/
theorem resilient_invalid (rd : Text → Option Text) (strict : Bool) {s : Text} (hs : skip s ≠ [])
    (hp : ∀ k, s.length ≤ k → rootItem rd k s = .fail) :
    parseResilient rd strict s = thenRead [.invalid ((skip s).takeWhile (fun c => c != '\n'))]
      (parseResilient rd strict ((skip s).dropWhile (fun c => c != '\n'))) := by
  have h1 : resilientItem rd s.length s = .ok [.invalid ((skip s).takeWhile (fun c => c != '\n'))]
      ((skip s).dropWhile (fun c => c != '\n')) := by
    rw [resilient_eq, hp _ (le_refl _)]
    simp [invalidToken, hs]
  have h2 := eats_resilient rd _ _ _ _ h1
  have h3 := then_read rd strict (le_of_lt h2.2) [[.invalid ((skip s).takeWhile (fun c => c != '\n'))]]
  rw [parseResilient_eq, if_neg hs, many_ok (eats_resilient rd _) (resilient_nil rd _) h1]
  simpa using h3

/-! ## Lines without a command -/

theorem notBlank {c : Char} (h : ¬ Blank [c]) : isBlank c = false := by
  by_contra hn
  apply h
  intro d hd
  simp only [List.mem_singleton] at hd
  subst hd
  simp only [isBlank, Bool.not_eq_false, Bool.or_eq_true, beq_iff_eq] at hn
  tauto

theorem extended_head {α : Type} {p : P α} {c : Char} {t : Text} (hb : isBlank c = false) (h : c ≠ '%') :
    extended p (c :: t) = .fail := by
  refine andThen_fail ?_
  have h' : ¬ '%' = c := fun e => h e.symm
  simp [lit, skip_of_head hb, strip, h']

theorem noCommand_char (rd : Text → Option Text) (k : Nat) {c : Char} {t : Text} (hb : isBlank c = false) (hc : c ∉ commandStarts) :
    rootItem rd k (c :: t) = .fail := by
  simp only [commandStarts, List.mem_cons, List.not_mem_nil, or_false, not_or] at hc
  obtain ⟨h1, h2, h3, h4, h5, h6, h7, h8, h9, h10, h11, h12, h13⟩ := hc
  have e {α : Type} (p : P α) : extended p (c :: t) = .fail := extended_head hb h1
  have up : ∀ d : Char, d ∈ ['X', 'Y', 'I', 'J'] → c.toUpper ≠ d.toUpper := by
    intro d hd hu
    have hv : c.toUpper = d := by
      simp only [List.mem_cons, List.not_mem_nil, or_false] at hd
      rcases hd with rfl | rfl | rfl | rfl <;> exact hu
    simp only [Char.toUpper] at hv
    split at hv
    · have hn := congrArg Char.val hv
      simp only [List.mem_cons, List.not_mem_nil, or_false] at hd
      have key : ∀ x : Char, c.val + ('A'.val - 'a'.val) = x.val + ('A'.val - 'a'.val) → c = x := by
        intro x hx
        have := congrArg (fun v => v - ('A'.val - 'a'.val)) hx
        simp only [UInt32.add_sub_cancel] at this
        exact Char.ext this
      rcases hd with rfl | rfl | rfl | rfl
      · exact h10 (key 'x' (hn.trans (by decide)))
      · exact h11 (key 'y' (hn.trans (by decide)))
      · exact h12 (key 'i' (hn.trans (by decide)))
      · exact h13 (key 'j' (hn.trans (by decide)))
    · subst hv; simp only [List.mem_cons, List.not_mem_nil, or_false] at hd; tauto
  have dF : dCodes true (c :: t) = .fail := by
    have hx := coordinate_fail (l := 'X') (t := t) hb (up _ (by simp))
    have hy := coordinate_fail (l := 'Y') (t := t) hb (up _ (by simp))
    have hi := coordinate_fail (l := 'I') (t := t) hb (up _ (by simp))
    have hj := coordinate_fail (l := 'J') (t := t) hb (up _ (by simp))
    have hd := fun w => codeRe_fail (l := 'D') (w := w) (t := t) hb h3
    have ha := apertureId_fail (t := t) hb h3
    have hs : asterisk (c :: t) = .fail := by
      have h' : ¬ '*' = c := fun e => h2 e.symm
      simp [asterisk, lit, skip_of_head hb, strip, h']
    apply firstOf_fail
    simp only [List.mem_cons, List.not_mem_nil, or_false, forall_eq_or_imp, forall_eq]
    refine ⟨?_, ?_, ?_, ?_⟩ <;>
      simp [dnn, d01, d02, d03, command, mapP, Peg.before, andThen, opt, hx, hy, hi, hj, hd, ha, hs, ret]
  have aF : aperture rd k (c :: t) = .fail := by
    apply firstOf_fail
    simp only [List.mem_cons, List.not_mem_nil, or_false, forall_eq_or_imp, forall_eq]
    have h' : ¬ '%' = c := fun e => h1 e.symm
    refine ⟨?_, andThen_fail (by simp [lit, skip_of_head hb, strip, h']), andThen_fail (e _), firstOf_fail ?_⟩
    · cases k with
      | zero => rfl
      | succ k => exact andThen_fail (e _)
    · simp only [List.mem_cons, List.not_mem_nil, or_false, forall_eq_or_imp, forall_eq]
      exact ⟨e _, e _, e _, andThen_fail (e _), e _⟩
  apply firstOf_fail
  simp only [List.mem_cons, List.not_mem_nil, or_false, forall_eq_or_imp, forall_eq]
  refine ⟨one_fail dF, gCodes_fail hb h4, one_fail ?_, one_fail aF, one_fail ?_, one_fail ?_, one_fail (mCodes_fail hb h5)⟩
  · apply firstOf_fail
    simp only [List.mem_cons, List.not_mem_nil, or_false, forall_eq_or_imp, forall_eq]
    exact ⟨e _, e _, e _, e _, e _⟩
  · apply firstOf_fail
    simp only [List.mem_cons, List.not_mem_nil, or_false, forall_eq_or_imp, forall_eq]
    refine ⟨?_, e _, ?_, ?_⟩
    · apply firstOf_fail
      simp only [List.mem_cons, List.not_mem_nil, or_false, forall_eq_or_imp, forall_eq]
      exact ⟨e _, e _, e _, e _⟩
    · apply firstOf_fail
      simp only [List.mem_cons, List.not_mem_nil, or_false, forall_eq_or_imp, forall_eq]
      exact ⟨e _, andThen_fail (e _), andThen_fail (e _), andThen_fail (e _), e _, andThen_fail (e _), e _, e _,
        andThen_fail (e _)⟩
    · apply firstOf_fail
      simp only [List.mem_cons, List.not_mem_nil, or_false, forall_eq_or_imp, forall_eq]
      exact ⟨e _, e _, e _, e _, andThen_fail (e _), e _, e _, e _, andThen_fail (e _), e _, e _, e _,
        andThen_fail (e _), e _, e _, e _⟩
  · apply firstOf_fail
    simp only [List.mem_cons, List.not_mem_nil, or_false, forall_eq_or_imp, forall_eq]
    exact ⟨e _, e _, e _, andThen_fail (e _), e _, e _, e _, e _, e _⟩

theorem noCommand_code (rd : Text → Option Text) (k : Nat) {a b : Char} {t : Text} (hb : isBlank a = false)
    (h : [a, b] ∉ extendedCodes) : rootItem rd k ('%' :: a :: b :: t) = .fail := by
  have h' : [a, b] ∉ loadWords ∧ [a, b] ∉ attrWords ∧ [a, b] ∉ propWords ∧ [a, b] ∉ [t!"AB", t!"AM", t!"SR", t!"AD"] := by
    have : ∀ l : List Text, l ⊆ extendedCodes → [a, b] ∉ l := fun l hl hm => h (hl hm)
    exact ⟨this _ (by decide), this _ (by decide), this _ (by decide), this _ (by decide)⟩
  apply firstOf_fail
  simp only [List.mem_cons, List.not_mem_nil, or_false, forall_eq_or_imp, forall_eq]
  exact ⟨fd_percent _, fg_percent _, one_fail (load_fail hb h'.1), one_fail (aperture_fail hb h'.2.2.2),
    one_fail (attributes_fail hb h'.2.1), one_fail (properties_fail hb h'.2.2.1), one_fail (mCodes_fail (by decide) (by decide))⟩

theorem noCommand_fail (rd : Text → Option Text) (k : Nat) {line : Text} (h : NoCommand line) (t : Text) :
    rootItem rd k (line ++ t) = .fail := by
  obtain ⟨-, ⟨c, l, rfl, hb, hc⟩ | ⟨a, b, l, rfl, hb, hc⟩⟩ := h
  · exact noCommand_char rd k (notBlank hb) hc
  · exact noCommand_code rd k (notBlank hb) hc

theorem noCommand_line {line : Text} (h : NoCommand line) {w : Text} (hw : Blank w) (t : Text) :
    skip (w ++ (line ++ '\n' :: t)) = line ++ '\n' :: t ∧ line ≠ [] ∧ (line ++ '\n' :: t).takeWhile (fun c => c != '\n') = line ∧
      (line ++ '\n' :: t).dropWhile (fun c => c != '\n') = '\n' :: t := by
  have hl : ∀ c ∈ line, (c != '\n') = true := by
    intro c hc; simp only [bne_iff_ne, ne_eq]; rintro rfl; exact h.1 hc
  refine ⟨?_, ?_, ?_, ?_⟩
  · rw [skip_blank hw]
    obtain ⟨-, ⟨c, l, rfl, hb, hc⟩ | ⟨a, b, l, rfl, hb, hc⟩⟩ := h
    · exact skip_of_head (notBlank hb)
    · exact skip_of_head rfl
  · obtain ⟨-, ⟨c, l, rfl, hb, hc⟩ | ⟨a, b, l, rfl, hb, hc⟩⟩ := h <;> simp
  · rw [List.takeWhile_append_of_pos hl]; simp
  · rw [List.dropWhile_append_of_pos hl]; simp

end Verif.Grammar
