import Verif.Spec.Svg
import Verif.Props.Image
import Mathlib.Tactic.Linarith
import Mathlib.Tactic.NormNum
import Mathlib.Algebra.Ring.Parity

/-!
# C77: a saved SVG shows the geometry
-/

namespace Verif.Props.Svg
open Verif.Geom Verif.Color Verif.Peg Verif.Console Verif.Svg Verif.Spec

/-! ### Reading what was spelled -/

/-- A name. -/
def Name (n : Text) : Prop := n ≠ [] ∧ n.all nameCharacter = true

theorem named {n : Text} (h : ((n != []) && n.all nameCharacter) = true) : Name n := by
  simp only [Bool.and_eq_true, bne_iff_ne] at h
  exact h

/-- A value that may stand between quotes. -/
def Plain (v : Text) : Prop := ∀ c ∈ v, c ≠ '"' ∧ c ≠ '<' ∧ c ≠ '&'

/-- Attributes, each after a blank. -/
def spellAttributes : List Attribute → Text
  | [] => []
  | (n, v) :: as => ' ' :: n ++ '=' :: '"' :: v ++ '"' :: spellAttributes as

theorem takeWhile_append {p : Char → Bool} {a : Text} (h : a.all p = true) (b : Text) (hb : ∀ c, b.head? = some c → p c = false) :
    (a ++ b).takeWhile p = a ∧ (a ++ b).dropWhile p = b := by
  induction a with
  | nil =>
    cases b with
    | nil => simp
    | cons c b => simp [hb c rfl]
  | cons c a ih =>
    simp only [List.all_cons, Bool.and_eq_true] at h
    simp [h.1, ih h.2]

theorem name_no_blank {n : Text} (h : n.all nameCharacter = true) : ∀ c ∈ n, c ≠ ' ' ∧ c ≠ '>' ∧ c ≠ '/' ∧ c ≠ '=' := by
  intro c hc
  have := List.all_eq_true.1 h c hc
  refine ⟨?_, ?_, ?_, ?_⟩ <;> (rintro rfl; revert this; decide)

/-- Attributes are read back; blanks before the end of the tag are allowed. -/
theorem read_attributes : ∀ (as : List Attribute) (fuel : ℕ) (blank rest : Text), as.length < fuel →
    (∀ a ∈ as, Name a.1 ∧ Plain a.2) → (∀ c ∈ blank, c = ' ') → (rest.head? = some '>' ∨ rest.head? = some '/') →
    readAttributes fuel (spellAttributes as ++ (blank ++ rest)) = some (as, rest)
  | [], fuel + 1, blank, rest, _, _, hb, hr => by
    have hd : (blank ++ rest).dropWhile (· == ' ') = rest := by
      refine (takeWhile_append (p := (· == ' ')) ?_ rest ?_).2
      · rw [List.all_eq_true]; intro c hc; simp [hb c hc]
      · intro c hc
        rcases hr with hr | hr <;> rw [hr] at hc <;> cases hc <;> decide
    simp only [spellAttributes, List.nil_append, readAttributes, hd]
    cases rest with
    | nil => simp at hr
    | cons c rest =>
      simp only [List.head?_cons, Option.some.injEq] at hr
      rcases hr with rfl | rfl <;> rfl
  | (n, v) :: as, fuel + 1, blank, rest, hf, ha, hb, hr => by
    obtain ⟨⟨hn0, hn⟩, hv⟩ := ha _ (List.mem_cons_self ..)
    obtain ⟨c, n', rfl⟩ : ∃ c n', n = c :: n' := by cases n with
      | nil => exact absurd rfl hn0
      | cons c n' => exact ⟨c, n', rfl⟩
    have hc := name_no_blank hn c (List.mem_cons_self ..)
    have ih := read_attributes as fuel blank rest (by simpa using hf) (fun a h => ha a (List.mem_cons_of_mem _ h)) hb hr
    have h1 := takeWhile_append hn ('=' :: '"' :: v ++ '"' :: (spellAttributes as ++ (blank ++ rest))) (by
      intro c hc; cases hc; decide)
    have hv' : v.all (· != '"') = true := by
      rw [List.all_eq_true]; intro c hc; simpa using (hv c hc).1
    have h2 := takeWhile_append hv' ('"' :: (spellAttributes as ++ (blank ++ rest))) (by intro c hc; cases hc; decide)
    have hs : spellAttributes ((c :: n', v) :: as) ++ (blank ++ rest) =
        ' ' :: ((c :: n') ++ ('=' :: '"' :: v ++ '"' :: (spellAttributes as ++ (blank ++ rest)))) := by
      simp [spellAttributes]
    rw [hs]
    generalize hw : ('=' :: '"' :: v ++ '"' :: (spellAttributes as ++ (blank ++ rest))) = w at h1
    have hd : (' ' :: ((c :: n') ++ w)).dropWhile (· == ' ') = (c :: n') ++ w := by
      simp [hc.1]
    simp only [readAttributes, hd]
    simp only [List.cons_append]
    split
    · rename_i heq; cases heq; exact absurd rfl hc.2.1
    · rename_i heq; cases heq; exact absurd rfl hc.2.2.1
    · simp only [List.cons_append] at h1
      rw [h1.1, h1.2, if_pos (by simp), ← hw]
      simp only [List.cons_append]
      rw [h2.1, h2.2]
      have : ¬ ('<' ∈ v ∨ '&' ∈ v) := by
        rintro (h | h)
        · exact (hv _ h).2.1 rfl
        · exact (hv _ h).2.2 rfl
      simp only [this, if_false, ih]

/-- Texts that are read as an element, whatever follows; `n` is enough fuel. -/
def Spells (t : Text) (x : Xml) (n : ℕ) : Prop :=
  (∃ c t', t = '<' :: c :: t' ∧ c ≠ '/') ∧
  ∀ fuel rest, n ≤ fuel → readElement fuel (t ++ rest) = some (x, rest)

/-- Texts that are read as elements up to a closing tag. -/
def SpellsAll (t : Text) (xs : List Xml) (n : ℕ) : Prop :=
  ∀ fuel rest, n ≤ fuel → readChildren fuel (t ++ '<' :: '/' :: rest) = some (xs, '<' :: '/' :: rest)

theorem spells_nil : SpellsAll [] [] 1 := by
  intro fuel rest h
  obtain ⟨k, rfl⟩ : ∃ k, fuel = k + 1 := ⟨fuel - 1, by omega⟩
  rfl

theorem spells_cons {t ts : Text} {x : Xml} {xs : List Xml} {n m : ℕ} (h : Spells t x n) (hs : SpellsAll ts xs m) :
    SpellsAll (t ++ ts) (x :: xs) (max n m + 1) := by
  intro fuel rest hf
  obtain ⟨k, rfl⟩ : ∃ k, fuel = k + 1 := ⟨fuel - 1, by omega⟩
  obtain ⟨⟨c, t', rfl, ht⟩, h⟩ := h
  have h1 := h k (ts ++ '<' :: '/' :: rest) (by omega)
  have h2 := hs k rest (by omega)
  rw [List.append_assoc]
  unfold readChildren
  simp only [List.cons_append] at h1 ⊢
  split
  · rename_i r heq
    simp only [List.cons.injEq, true_and] at heq
    exact absurd heq.1 ht
  · rw [h1]
    simp only [h2]

/-- An element without children, `<name attributes blank/>`. -/
theorem spells_empty {name : Text} {as : List Attribute} {blank : Text} (hn : Name name)
    (ha : ∀ a ∈ as, Name a.1 ∧ Plain a.2) (hb : ∀ c ∈ blank, c = ' ') :
    Spells ('<' :: name ++ (spellAttributes as ++ blank) ++ ['/', '>']) (.element name as []) (as.length + 2) := by
  obtain ⟨c, n', rfl⟩ : ∃ c n', name = c :: n' := by cases name with
    | nil => exact absurd rfl hn.1
    | cons c n' => exact ⟨c, n', rfl⟩
  have hc := name_no_blank hn.2 c (List.mem_cons_self ..)
  refine ⟨⟨_, _, rfl, hc.2.2.1⟩, ?_⟩
  intro fuel rest hf
  obtain ⟨k, rfl⟩ : ∃ k, fuel = k + 1 := ⟨fuel - 1, by omega⟩
  have h1 := takeWhile_append hn.2 (spellAttributes as ++ (blank ++ '/' :: '>' :: rest)) (by
    intro d hd
    cases as with
    | nil =>
      cases blank with
      | nil => simp [spellAttributes] at hd; subst hd; decide
      | cons b blank => simp [spellAttributes, hb b] at hd; subst hd; decide
    | cons a as => obtain ⟨n, v⟩ := a; simp [spellAttributes] at hd; subst hd; decide)
  have h2 := read_attributes as k blank ('/' :: '>' :: rest) (by omega) ha hb (.inr rfl)
  have e : ('<' :: (c :: n') ++ (spellAttributes as ++ blank) ++ ['/', '>']) ++ rest =
      '<' :: ((c :: n') ++ (spellAttributes as ++ (blank ++ '/' :: '>' :: rest))) := by simp
  rw [e]
  simp only [readElement, h1.1, h1.2, h2, reduceCtorEq, if_false]

/-- An element with children. -/
theorem spells_element {name : Text} {as : List Attribute} {blank : Text} {ts : Text} {xs : List Xml} {m : ℕ}
    (hn : Name name) (ha : ∀ a ∈ as, Name a.1 ∧ Plain a.2) (hb : ∀ c ∈ blank, c = ' ') (hs : SpellsAll ts xs m) :
    Spells ('<' :: name ++ (spellAttributes as ++ blank) ++ '>' :: ts ++ '<' :: '/' :: name ++ ['>'])
      (.element name as xs) (max (as.length + 2) (m + 1)) := by
  obtain ⟨c, n', rfl⟩ : ∃ c n', name = c :: n' := by cases name with
    | nil => exact absurd rfl hn.1
    | cons c n' => exact ⟨c, n', rfl⟩
  have hc := name_no_blank hn.2 c (List.mem_cons_self ..)
  refine ⟨⟨_, _, rfl, hc.2.2.1⟩, ?_⟩
  intro fuel rest hf
  obtain ⟨k, rfl⟩ : ∃ k, fuel = k + 1 := ⟨fuel - 1, by omega⟩
  have h1 := takeWhile_append hn.2 (spellAttributes as ++ (blank ++ '>' :: (ts ++ '<' :: '/' :: ((c :: n') ++ '>' :: rest)))) (by
    intro d hd
    cases as with
    | nil =>
      cases blank with
      | nil => simp [spellAttributes] at hd; subst hd; decide
      | cons b blank => simp [spellAttributes, hb b] at hd; subst hd; decide
    | cons a as => obtain ⟨n, v⟩ := a; simp [spellAttributes] at hd; subst hd; decide)
  have h2 := read_attributes as k blank ('>' :: (ts ++ '<' :: '/' :: ((c :: n') ++ '>' :: rest))) (by omega) ha hb (.inl rfl)
  have h3 := hs k ((c :: n') ++ '>' :: rest) (by omega)
  have e : ('<' :: (c :: n') ++ (spellAttributes as ++ blank) ++ '>' :: ts ++ '<' :: '/' :: (c :: n') ++ ['>']) ++ rest =
      '<' :: ((c :: n') ++ (spellAttributes as ++ (blank ++ '>' :: (ts ++ '<' :: '/' :: ((c :: n') ++ '>' :: rest))))) := by simp
  rw [e]
  simp only [readElement, h1.1, h1.2, h2, h3, reduceCtorEq, if_false]
  have hp : ('<' :: '/' :: ((c :: n') ++ ['>'])).isPrefixOf ('<' :: '/' :: ((c :: n') ++ '>' :: rest)) = true := by
    rw [List.isPrefixOf_iff_prefix]
    exact ⟨rest, by simp⟩
  rw [if_pos hp]
  simp

/-! ### Replacing the outline colour -/

/-- The text that is looked for. -/
abbrev old : Text := t!"stroke=\"#555555\""
/-- The text that is put in its place. -/
abbrev new : Text := t!"stroke=\"#00000000\""

/-- Replacing turns `s` into `s'`, whatever follows. -/
def Turns (s s' : Text) : Prop := ∀ rest fuel, (s ++ rest).length < fuel →
  ∃ fuel', rest.length < fuel' ∧ replaced old new fuel (s ++ rest) = s' ++ replaced old new fuel' rest

theorem Turns.append {a a' b b' : Text} (ha : Turns a a') (hb : Turns b b') : Turns (a ++ b) (a' ++ b') := by
  intro rest fuel hf
  rw [List.append_assoc] at hf ⊢
  obtain ⟨f1, h1, h2⟩ := ha (b ++ rest) fuel hf
  obtain ⟨f2, h3, h4⟩ := hb rest f1 h1
  exact ⟨f2, h3, by rw [h2, h4, List.append_assoc]⟩

/-- Nothing is found in `s`, nor does an occurrence begin in it. -/
def clean : Text → Bool
  | [] => true
  | c :: cs => (!old.isPrefixOf (c :: cs) && !(c :: cs).isPrefixOf old) && clean cs

theorem turns_clean : ∀ {s : Text}, clean s = true → Turns s s
  | [], _ => fun rest fuel h => ⟨fuel, h, rfl⟩
  | c :: cs, h => by
    simp only [clean, Bool.and_eq_true, Bool.not_eq_true'] at h
    intro rest fuel hf
    obtain ⟨k, rfl⟩ : ∃ k, fuel = k + 1 := ⟨fuel - 1, by simp at hf; omega⟩
    obtain ⟨f', h1, h2⟩ := turns_clean h.2 rest k (by simp at hf ⊢; omega)
    refine ⟨f', h1, ?_⟩
    have hp : old.isPrefixOf (c :: (cs ++ rest)) = false := by
      by_contra hc
      rw [Bool.not_eq_false, List.isPrefixOf_iff_prefix] at hc
      have hc' : c :: cs <+: c :: (cs ++ rest) := ⟨rest, rfl⟩
      rcases List.prefix_or_prefix_of_prefix hc hc' with h3 | h3
      · exact absurd (List.isPrefixOf_iff_prefix.2 h3) (by simp [h.1.1])
      · exact absurd (List.isPrefixOf_iff_prefix.2 h3) (by simp [h.1.2])
    simp only [List.cons_append, replaced, hp, h2, Bool.false_eq_true, if_false]

theorem turns_old : Turns old new := by
  intro rest fuel hf
  obtain ⟨k, rfl⟩ : ∃ k, fuel = k + 1 := ⟨fuel - 1, by simp at hf; omega⟩
  refine ⟨k, by simp at hf; omega, ?_⟩
  have hp : old.isPrefixOf (old ++ rest) = true := List.isPrefixOf_iff_prefix.2 ⟨rest, rfl⟩
  have e : old ++ rest = 's' :: (t!"troke=\"#555555\"" ++ rest) := rfl
  rw [e] at hp ⊢
  simp only [replaced, hp, if_true]
  rfl

theorem clean_of_no_s {s : Text} (h : ∀ c ∈ s, c ≠ 's') : clean s = true := by
  induction s with
  | nil => rfl
  | cons c cs ih =>
    have hc := h c (List.mem_cons_self ..)
    simp [clean, ih (fun d hd => h d (List.mem_cons_of_mem _ hd)), List.isPrefixOf, hc, hc.symm]

theorem replace_turns {s s' : Text} (h : Turns s s') : replace old new s = s' := by
  obtain ⟨f, h1, h2⟩ := h [] (s.length + 1) (by simp)
  rw [List.append_nil] at h2
  rw [replace, h2]
  cases f <;> simp [replaced]

/-! ### Numbers -/

/-- Characters of numbers. -/
def NumberText (t : Text) : Prop := ∀ c ∈ t, c.isDigit = true ∨ c = '+' ∨ c = '-' ∨ c = '.' ∨ c = 'e'

theorem mem_cut (sep : Char) : ∀ (t : Text) (c : Char), c ∈ t → c = sep ∨ ∃ p ∈ cut sep t, c ∈ p
  | d :: t, c, h => by
    rcases List.mem_cons.1 h with rfl | h
    · by_cases hc : c = sep
      · exact .inl hc
      · right
        simp only [cut, hc, if_false]
        cases cut sep t with
        | nil => exact ⟨_, List.mem_cons_self .., List.mem_cons_self ..⟩
        | cons p ps => exact ⟨_, List.mem_cons_self .., List.mem_cons_self ..⟩
    · rcases mem_cut sep t c h with h1 | ⟨p, hp, hc⟩
      · exact .inl h1
      · right
        by_cases hd : d = sep
        · simp only [cut, hd, if_true]
          exact ⟨p, List.mem_cons_of_mem _ hp, hc⟩
        · simp only [cut, hd, if_false]
          cases hk : cut sep t with
          | nil => rw [hk] at hp; cases hp
          | cons q ps =>
            rw [hk] at hp
            rcases List.mem_cons.1 hp with rfl | hp
            · exact ⟨_, List.mem_cons_self .., List.mem_cons_of_mem _ hc⟩
            · exact ⟨p, List.mem_cons_of_mem _ hp, hc⟩

theorem digits_text {t : Text} {n : ℕ} (h : digits t = some n) : ∀ c ∈ t, c.isDigit = true := by
  unfold digits at h
  split at h
  · rename_i ha; exact List.all_eq_true.1 ha
  · cases h

theorem withSign_text (t : Text) : ∀ c ∈ t, c = '+' ∨ c = '-' ∨ c ∈ (withSign t).2 := by
  intro c hc
  unfold withSign
  split
  · rcases List.mem_cons.1 hc with rfl | h <;> simp_all
  · rcases List.mem_cons.1 hc with rfl | h <;> simp_all
  · exact .inr (.inr hc)

theorem withPoint_text {t : Text} {q : ℚ} (h : withPoint t = some q) : NumberText t := by
  intro c hc
  rcases mem_cut '.' t c hc with rfl | ⟨p, hp, hcp⟩
  · simp
  · left
    unfold withPoint at h
    split at h
    · rename_i w heq
      rw [heq] at hp
      split at h
      · cases h
      · cases hd : digits w with
        | none => rw [hd] at h; cases h
        | some n =>
          simp only [List.mem_singleton] at hp
          subst hp
          exact digits_text hd c hcp
    · rename_i w part heq
      rw [heq] at hp
      split at h
      · cases h
      · cases hd : digits (w ++ part) with
        | none => rw [hd] at h; cases h
        | some n =>
          refine digits_text hd c ?_
          simp only [List.mem_cons, List.not_mem_nil, or_false] at hp
          rcases hp with rfl | rfl <;> simp [hcp]
    · cases h

theorem number_text {t : Text} {q : ℚ} (h : number t = some q) : NumberText t := by
  intro c hc
  rcases withSign_text t c hc with rfl | rfl | hu
  · simp
  · simp
  rcases mem_cut 'e' _ c hu with rfl | ⟨p, hp, hcp⟩
  · simp
  unfold number at h
  simp only at h
  split at h
  · rename_i m heq
    rw [heq, List.mem_singleton] at hp
    subst hp
    cases hw : withPoint p with
    | none => rw [hw] at h; cases h
    | some q => exact withPoint_text hw c hcp
  · rename_i m x heq
    rw [heq] at hp
    split at h
    · rename_i q n hm hx
      simp only [List.mem_cons, List.not_mem_nil, or_false] at hp
      rcases hp with rfl | rfl
      · exact withPoint_text hm c hcp
      · rcases withSign_text p c hcp with rfl | rfl | hv
        · simp
        · simp
        · left
          unfold wholeNumber at hx
          simp only at hx
          split at hx
          · rename_i hd
            exact digits_text hd c hv
          · cases hx
    · cases h
  · cases h

theorem readNumber_text {t : Text} {x : ℝ} (h : readNumber t = some x) : NumberText t := by
  unfold readNumber at h
  cases hn : number t with
  | none => rw [hn] at h; cases h
  | some q => exact number_text hn

theorem NumberText.ne {t : Text} (h : NumberText t) {d : Char} (hd : d.isDigit = false) (h1 : d ≠ '+') (h2 : d ≠ '-')
    (h3 : d ≠ '.') (h4 : d ≠ 'e') : ∀ c ∈ t, c ≠ d := by
  rintro c hc rfl
  rcases h c hc with h | h | h | h | h
  · rw [hd] at h; cases h
  · exact h1 h
  · exact h2 h
  · exact h3 h
  · exact h4 h

theorem NumberText.plain {t : Text} (h : NumberText t) : Plain t := fun c hc =>
  ⟨h.ne (by decide) (by decide) (by decide) (by decide) (by decide) c hc,
   h.ne (by decide) (by decide) (by decide) (by decide) (by decide) c hc,
   h.ne (by decide) (by decide) (by decide) (by decide) (by decide) c hc⟩

theorem NumberText.turns {t : Text} (h : NumberText t) : Turns t t :=
  turns_clean (clean_of_no_s (h.ne (by decide) (by decide) (by decide) (by decide) (by decide)))

/-! ### Path data -/

theorem cut_self {sep : Char} : ∀ {t : Text}, (∀ c ∈ t, c ≠ sep) → cut sep t = [t]
  | [], _ => rfl
  | c :: t, h => by
    simp only [cut, h c (List.mem_cons_self ..), if_false, cut_self (fun d hd => h d (List.mem_cons_of_mem _ hd))]

theorem cut_append {sep : Char} (b : Text) : ∀ {t : Text}, (∀ c ∈ t, c ≠ sep) → cut sep (t ++ sep :: b) = t :: cut sep b
  | [], _ => by simp [cut]
  | c :: t, h => by
    have ih := cut_append b (fun d hd => h d (List.mem_cons_of_mem _ hd))
    simp only [List.cons_append, cut, h c (List.mem_cons_self ..), if_false, ih]

theorem joined_append (sep : Text) : ∀ {a b : List Text}, a ≠ [] → b ≠ [] → joined sep (a ++ b) = joined sep a ++ sep ++ joined sep b
  | [x], [], _, hb => absurd rfl hb
  | [x], y :: b, _, _ => by simp [joined]
  | x :: y :: a, b, _, hb => by
    have ih := joined_append sep (a := y :: a) (b := b) (by simp) hb
    simp only [List.cons_append] at ih
    simp only [List.cons_append, joined, ih, List.append_assoc]

theorem cut_joined : ∀ {ts : List Text}, ts ≠ [] → (∀ t ∈ ts, ∀ c ∈ t, c ≠ ' ') → cut ' ' (joined t!" " ts) = ts
  | [t], _, h => cut_self (h t (List.mem_cons_self ..))
  | t :: u :: ts, _, h => by
    have ih := cut_joined (ts := u :: ts) (by simp) (fun x hx => h x (List.mem_cons_of_mem _ hx))
    simp only [joined, List.append_assoc, List.cons_append, List.nil_append]
    rw [cut_append _ (h t (List.mem_cons_self ..)), ih]

variable {text : ℝ → Text}

/-- The words of a closed line. -/
def words (text : ℝ → Text) : Ring → List Text
  | [] => []
  | p :: ps => t!"M" :: pointText text p :: (ps.flatMap (fun q => [t!"L", pointText text q]) ++ [t!"z"])

theorem joined_words : ∀ (ps : List (Vec ℝ)), ps ≠ [] →
    t!"L " ++ joined t!" L " (ps.map (pointText text)) = joined t!" " (ps.flatMap (fun q => [t!"L", pointText text q]))
  | [p], _ => by simp [joined]
  | p :: q :: ps, _ => by
    have ih := joined_words (q :: ps) (by simp)
    have h : joined t!" " ((p :: q :: ps).flatMap (fun q => [t!"L", pointText text q])) =
        joined t!" " ([t!"L", pointText text p] ++ (q :: ps).flatMap (fun q => [t!"L", pointText text q])) := rfl
    rw [h, joined_append _ (by simp) (by simp), ← ih]
    simp [joined]

theorem ringText_words {r : Ring} (h : 2 ≤ r.length) : ringText text r = joined t!" " (words text r) := by
  match r, h with
  | p :: q :: ps, _ =>
    have h1 := joined_words (text := text) (q :: ps) (by simp)
    have h2 : words text (p :: q :: ps) = [t!"M", pointText text p] ++
        ((q :: ps).flatMap (fun q => [t!"L", pointText text q]) ++ [t!"z"]) := rfl
    rw [h2, joined_append _ (by simp) (by simp), joined_append _ (by simp) (by simp), ← h1]
    simp [ringText, joined]

theorem words_ne {r : Ring} (h : 2 ≤ r.length) : words text r ≠ [] := by
  match r, h with
  | p :: q :: ps, _ => simp [words]

theorem joined_rings : ∀ (rs : List Ring), rs ≠ [] → (∀ r ∈ rs, 2 ≤ r.length) →
    joined t!" " (rs.map (ringText text)) = joined t!" " (rs.flatMap (words text))
  | [r], _, h => by simp [joined, ringText_words (h r (List.mem_cons_self ..))]
  | r :: s :: rs, _, h => by
    have ih := joined_rings (s :: rs) (by simp) (fun x hx => h x (List.mem_cons_of_mem _ hx))
    have hs : (s :: rs).flatMap (words text) ≠ [] := by
      simp [words_ne (text := text) (h s (by simp))]
    rw [List.flatMap_cons, joined_append _ (words_ne (h r (List.mem_cons_self ..))) hs, ← ih,
      ← ringText_words (h r (List.mem_cons_self ..))]
    simp [joined]

/-- The number is printed so that it can be read. -/
def Prints (text : ℝ → Text) (x : ℝ) : Prop := readNumber (text x) = some x

theorem readPoint_text {p : Vec ℝ} (hx : Prints text p.x) (hy : Prints text p.y) :
    readPoint (pointText text p) = some p := by
  have h1 : cut ',' (pointText text p) = [text p.x, text p.y] := by
    rw [pointText, List.append_assoc, List.cons_append, List.nil_append,
      cut_append _ ((readNumber_text hx).ne (by decide) (by decide) (by decide) (by decide) (by decide)),
      cut_self ((readNumber_text hy).ne (by decide) (by decide) (by decide) (by decide) (by decide))]
  unfold Prints at hx hy
  simp [readPoint, h1, hx, hy]

theorem readLines_M {w : Text} {p : Vec ℝ} (h : readPoint w = some p) (more : List Text) :
    readLines (t!"M" :: w :: more) [] = readLines more [p] := by
  rw [readLines]; simp only [h]

theorem readLines_L {w : Text} {p : Vec ℝ} (h : readPoint w = some p) (more : List Text) (q : Vec ℝ) (l : List (Vec ℝ)) :
    readLines (t!"L" :: w :: more) (q :: l) = readLines more (q :: l ++ [p]) := by
  rw [readLines]; simp only [h]

theorem readLines_z (more : List Text) (q : Vec ℝ) (l : List (Vec ℝ)) :
    readLines (t!"z" :: more) (q :: l) = (readLines more []).map ((q :: l) :: ·) := by
  cases h : readLines more [] with
  | none => simp [readLines, h]
  | some lines => simp [readLines, h]

theorem readLines_more : ∀ (ps line : List (Vec ℝ)) (more : List Text), line ≠ [] →
    (∀ p ∈ ps, Prints text p.x ∧ Prints text p.y) →
    readLines (ps.flatMap (fun q => [t!"L", pointText text q]) ++ (t!"z" :: more)) line =
      (readLines more []).map ((line ++ ps) :: ·)
  | [], line, more, hl, _ => by
    obtain ⟨q, l, rfl⟩ : ∃ q l, line = q :: l := by cases line with
      | nil => exact absurd rfl hl
      | cons q l => exact ⟨q, l, rfl⟩
    rw [List.flatMap_nil, List.nil_append, readLines_z, List.append_nil]
  | p :: ps, line, more, hl, h => by
    obtain ⟨q, l, rfl⟩ : ∃ q l, line = q :: l := by cases line with
      | nil => exact absurd rfl hl
      | cons q l => exact ⟨q, l, rfl⟩
    have hp := h p (List.mem_cons_self ..)
    have ih := readLines_more ps (q :: l ++ [p]) more (by simp) (fun x hx => h x (List.mem_cons_of_mem _ hx))
    rw [List.flatMap_cons]
    simp only [List.cons_append, List.nil_append]
    rw [readLines_L (readPoint_text hp.1 hp.2), ih]
    simp

theorem readLines_words {r : Ring} (hr : 2 ≤ r.length) (h : ∀ p ∈ r, Prints text p.x ∧ Prints text p.y) (more : List Text) :
    readLines (words text r ++ more) [] = (readLines more []).map (r :: ·) := by
  match r, hr with
  | p :: q :: ps, _ =>
    have hp := h p (List.mem_cons_self ..)
    have := readLines_more (text := text) (q :: ps) [p] more (by simp) (fun x hx => h x (List.mem_cons_of_mem _ hx))
    simp only [words, List.cons_append, List.append_assoc, List.nil_append] at this ⊢
    rw [readLines_M (readPoint_text hp.1 hp.2)]
    exact this

theorem readLines_rings : ∀ (rs : List Ring), (∀ r ∈ rs, 2 ≤ r.length ∧ ∀ p ∈ r, Prints text p.x ∧ Prints text p.y) →
    readLines (rs.flatMap (words text)) [] = some rs
  | [], _ => rfl
  | r :: rs, h => by
    have hr := h r (List.mem_cons_self ..)
    rw [List.flatMap_cons, readLines_words hr.1 hr.2, readLines_rings rs (fun x hx => h x (List.mem_cons_of_mem _ hx))]
    rfl

theorem pointText_no_blank {p : Vec ℝ} (hx : Prints text p.x) (hy : Prints text p.y) : ∀ c ∈ pointText text p, c ≠ ' ' := by
  intro c hc
  simp only [pointText, List.append_assoc, List.mem_append, List.mem_cons, List.not_mem_nil, or_false] at hc
  rcases hc with hc | rfl | hc
  · exact (readNumber_text hx).ne (by decide) (by decide) (by decide) (by decide) (by decide) c hc
  · decide
  · exact (readNumber_text hy).ne (by decide) (by decide) (by decide) (by decide) (by decide) c hc

theorem words_no_blank {r : Ring} (h : ∀ p ∈ r, Prints text p.x ∧ Prints text p.y) : ∀ t ∈ words text r, ∀ c ∈ t, c ≠ ' ' := by
  intro t ht
  cases r with
  | nil => cases ht
  | cons p ps =>
    simp only [words, List.mem_cons, List.mem_append, List.mem_flatMap, List.not_mem_nil, or_false] at ht
    rcases ht with rfl | rfl | ⟨q, hq, rfl | rfl⟩ | rfl
    · decide
    · exact pointText_no_blank (h p (by simp)).1 (h p (by simp)).2
    · decide
    · exact pointText_no_blank (h q (by simp [hq])).1 (h q (by simp [hq])).2
    · decide

/-- Path data is read back. -/
theorem read_data {rs : List Ring} (hne : rs ≠ []) (h : ∀ r ∈ rs, 2 ≤ r.length ∧ ∀ p ∈ r, Prints text p.x ∧ Prints text p.y) :
    readLines (cut ' ' (joined t!" " (rs.map (ringText text)))) [] = some rs := by
  rw [joined_rings rs hne (fun r hr => (h r hr).1), cut_joined, readLines_rings rs h]
  · cases rs with
    | nil => exact absurd rfl hne
    | cons r rs => simp [words_ne (text := text) (h r (by simp)).1]
  · intro t ht
    obtain ⟨r, hr, ht⟩ := List.mem_flatMap.1 ht
    exact words_no_blank (h r hr).2 t ht

/-- Characters of path data. -/
theorem mem_joined {sep : Text} {c : Char} : ∀ {ts : List Text}, c ∈ joined sep ts → c ∈ sep ∨ ∃ t ∈ ts, c ∈ t
  | [t], h => .inr ⟨t, by simp, h⟩
  | t :: u :: ts, h => by
    simp only [joined, List.append_assoc, List.mem_append] at h
    rcases h with h | h | h
    · exact .inr ⟨t, by simp, h⟩
    · exact .inl h
    · rcases mem_joined h with h | ⟨x, hx, h⟩
      · exact .inl h
      · exact .inr ⟨x, List.mem_cons_of_mem _ hx, h⟩

theorem data_characters {rs : List Ring} (hne : rs ≠ []) (h : ∀ r ∈ rs, 2 ≤ r.length ∧ ∀ p ∈ r, Prints text p.x ∧ Prints text p.y)
    {d : Char} (hd : d.isDigit = false) (h1 : d ∉ t!"+-.eMLz, ") : ∀ c ∈ joined t!" " (rs.map (ringText text)), c ≠ d := by
  rintro c hc rfl
  rw [joined_rings rs hne (fun r hr => (h r hr).1)] at hc
  simp only [List.mem_cons, List.not_mem_nil, or_false, not_or] at h1
  obtain ⟨a1, a2, a3, a4, a5, a6, a7, a8, a9⟩ := h1
  rcases mem_joined hc with hc | ⟨t, ht, hc⟩
  · simp [a9] at hc
  · obtain ⟨r, hr, ht⟩ := List.mem_flatMap.1 ht
    have point : ∀ p ∈ r, c ∉ pointText text p := by
      intro p hp hc
      simp only [pointText, List.append_assoc, List.mem_append, List.mem_cons, List.not_mem_nil, or_false] at hc
      rcases hc with hc | hc | hc
      · exact (readNumber_text ((h r hr).2 p hp).1).ne hd a1 a2 a3 a4 c hc rfl
      · exact a8 hc
      · exact (readNumber_text ((h r hr).2 p hp).2).ne hd a1 a2 a3 a4 c hc rfl
    cases r with
    | nil => cases ht
    | cons p ps =>
      simp only [words, List.mem_cons, List.mem_append, List.mem_flatMap, List.not_mem_nil, or_false] at ht
      rcases ht with rfl | rfl | ⟨q, hq, rfl | rfl⟩ | rfl
      · simp [a5] at hc
      · exact point p (by simp) hc
      · simp [a6] at hc
      · exact point q (by simp [hq]) hc
      · simp [a7] at hc

/-! ### The document -/

theorem Spells.mono {t : Text} {x : Xml} {n m : ℕ} (h : Spells t x n) (hm : n ≤ m) : Spells t x m :=
  ⟨h.1, fun fuel rest hf => h.2 fuel rest (hm.trans hf)⟩

theorem spellAttributes_length : ∀ as : List Attribute, as.length ≤ (spellAttributes as).length
  | [] => le_rfl
  | (n, v) :: as => by
    have := spellAttributes_length as
    simp only [spellAttributes, List.length_cons, List.length_append]
    omega

/-- A text that is read as an element with as much fuel as it has characters. -/
abbrev Document (t : Text) (x : Xml) : Prop := Spells t x t.length
/-- A text that is read as elements with little more fuel than it has characters. -/
abbrev Documents (t : Text) (xs : List Xml) : Prop := SpellsAll t xs (t.length + 1)

theorem documents_nil : Documents [] [] := spells_nil

theorem documents_cons {t ts : Text} {x : Xml} {xs : List Xml} (h : Document t x) (hs : Documents ts xs) :
    Documents (t ++ ts) (x :: xs) := by
  obtain ⟨⟨c, t', rfl, hc⟩, h2⟩ := h
  intro fuel rest hf
  refine spells_cons ⟨⟨c, t', rfl, hc⟩, h2⟩ hs fuel rest (le_trans ?_ hf)
  simp only [List.length_append, List.length_cons]
  omega

theorem document_empty {name : Text} {as : List Attribute} {blank : Text} (hn : Name name)
    (ha : ∀ a ∈ as, Name a.1 ∧ Plain a.2) (hb : ∀ c ∈ blank, c = ' ') :
    Document ('<' :: name ++ (spellAttributes as ++ blank) ++ ['/', '>']) (.element name as []) := by
  refine (spells_empty hn ha hb).mono ?_
  have := spellAttributes_length as
  simp only [List.length_append, List.length_cons, List.length_nil]
  omega

theorem document_element {name : Text} {as : List Attribute} {blank : Text} {ts : Text} {xs : List Xml}
    (hn : Name name) (ha : ∀ a ∈ as, Name a.1 ∧ Plain a.2) (hb : ∀ c ∈ blank, c = ' ') (hs : Documents ts xs) :
    Document ('<' :: name ++ (spellAttributes as ++ blank) ++ '>' :: ts ++ '<' :: '/' :: name ++ ['>'])
      (.element name as xs) := by
  refine (spells_element hn ha hb hs).mono ?_
  have := spellAttributes_length as
  simp only [List.length_append, List.length_cons, List.length_nil]
  omega

theorem document_read {t : Text} {x : Xml} (h : Document t x) : readXml t = some x := by
  have := h.2 t.length [] le_rfl
  rw [List.append_nil] at this
  simp only [readXml, this]

/-- The path data of a polygon. -/
noncomputable def pathData (text : ℝ → Text) (P : Poly) : Text := joined t!" " ((P.exterior :: P.interiors).map (ringText text))

/-- The attributes of the path of a polygon. -/
noncomputable def pathAttributes (text : ℝ → Text) (fill : Text) (P : Poly) : List Attribute :=
  [(t!"fill-rule", t!"evenodd"), (t!"fill", fill), (t!"stroke", t!"#00000000"), (t!"stroke-width", text 0),
   (t!"opacity", t!"0.6"), (t!"d", pathData text P)]

/-- The path of a polygon. -/
noncomputable def pathText (text : ℝ → Text) (fill : Text) (P : Poly) : Text :=
  '<' :: t!"path" ++ (spellAttributes (pathAttributes text fill P) ++ t!" ") ++ ['/', '>']

/-- Coordinates of the polygon can be read, its rings have two points or more. -/
def Legible (text : ℝ → Text) (P : Poly) : Prop :=
  ∀ r ∈ P.exterior :: P.interiors, 2 ≤ r.length ∧ ∀ p ∈ r, Prints text p.x ∧ Prints text p.y

theorem hex_text (c : Color) : ∀ d ∈ c.toHex, d ≠ '"' ∧ d ≠ '<' ∧ d ≠ '&' ∧ d ≠ 's' := by
  have key : ∀ n : Fin 16, hexDigit n.1 ≠ '"' ∧ hexDigit n.1 ≠ '<' ∧ hexDigit n.1 ≠ '&' ∧ hexDigit n.1 ≠ 's' := by decide
  have k1 : ∀ n : Fin 256, ∀ d ∈ hex2 n.1, d ≠ '"' ∧ d ≠ '<' ∧ d ≠ '&' ∧ d ≠ 's' := by
    intro n d hd
    simp only [hex2, List.mem_cons, List.not_mem_nil, or_false] at hd
    rcases hd with rfl | rfl
    · exact key ⟨n.1 / 16, by omega⟩
    · exact key ⟨n.1 % 16, by omega⟩
  intro d hd
  simp only [Color.toHex, List.mem_cons, List.mem_append] at hd
  rcases hd with rfl | ((hd | hd) | hd) | hd
  · decide
  all_goals exact k1 _ d hd

theorem turns_polygon (h0 : Prints text 0) (c : Color) {P : Poly} (h : Legible text P) :
    Turns (polygonSvg text 0 c.toHex P) (pathText text c.toHex P) := by
  have h1 : Turns c.toHex c.toHex := turns_clean (clean_of_no_s fun d hd => (hex_text c d hd).2.2.2)
  have h2 : Turns (pathData text P) (pathData text P) := turns_clean (clean_of_no_s
    (data_characters (by simp) h (by decide) (by decide)))
  have h3 := (readNumber_text h0).turns
  have h4 : Turns t!"<path fill-rule=\"evenodd\" fill=\"" t!"<path fill-rule=\"evenodd\" fill=\"" := turns_clean (by decide)
  have h5 : Turns t!"\" " t!"\" " := turns_clean (by decide)
  have h6 : Turns t!" stroke-width=\"" t!" stroke-width=\"" := turns_clean (by decide)
  have h7 : Turns t!"\" opacity=\"0.6\" d=\"" t!"\" opacity=\"0.6\" d=\"" := turns_clean (by decide)
  have h8 : Turns t!"\" />" t!"\" />" := turns_clean (by decide)
  have := ((((((h4.append h1).append h5).append turns_old).append h6).append h3).append h7).append (h2.append h8)
  unfold Turns at this ⊢
  intro rest fuel hf
  have e1 : polygonSvg text 0 c.toHex P = t!"<path fill-rule=\"evenodd\" fill=\"" ++ c.toHex ++ t!"\" " ++ old ++ t!" stroke-width=\"" ++
      text 0 ++ t!"\" opacity=\"0.6\" d=\"" ++ (pathData text P ++ t!"\" />") := by
    simp [polygonSvg, pathData]
  have e2 : pathText text c.toHex P = t!"<path fill-rule=\"evenodd\" fill=\"" ++ c.toHex ++ t!"\" " ++ new ++ t!" stroke-width=\"" ++
      text 0 ++ t!"\" opacity=\"0.6\" d=\"" ++ (pathData text P ++ t!"\" />") := by
    simp [pathText, pathAttributes, spellAttributes]
  rw [e1] at hf ⊢
  rw [e2]
  exact this rest fuel hf

theorem turns_polygons (h0 : Prints text 0) (c : Color) : ∀ {Ps : List Poly}, (∀ P ∈ Ps, Legible text P) →
    Turns (Ps.map (polygonSvg text 0 c.toHex)).flatten (Ps.map (pathText text c.toHex)).flatten
  | [], _ => turns_clean rfl
  | P :: Ps, h => by
    simp only [List.map_cons, List.flatten_cons]
    exact (turns_polygon h0 c (h P (by simp))).append (turns_polygons h0 c fun Q hQ => h Q (by simp [hQ]))

theorem document_path (h0 : Prints text 0) (c : Color) {P : Poly} (h : Legible text P) :
    Document (pathText text c.toHex P) (.element t!"path" (pathAttributes text c.toHex P) []) := by
  refine document_empty (named rfl) ?_ (by decide)
  intro a ha
  simp only [pathAttributes, List.mem_cons, List.not_mem_nil, or_false] at ha
  rcases ha with rfl | rfl | rfl | rfl | rfl | rfl
  · exact ⟨named rfl, by unfold Plain; decide⟩
  · exact ⟨named rfl, fun d hd => ⟨(hex_text c d hd).1, (hex_text c d hd).2.1, (hex_text c d hd).2.2.1⟩⟩
  · exact ⟨named rfl, by unfold Plain; decide⟩
  · exact ⟨named rfl, (readNumber_text h0).plain⟩
  · exact ⟨named rfl, by unfold Plain; decide⟩
  · exact ⟨named rfl, fun d hd =>
      ⟨data_characters (by simp) h (by decide) (by decide) d hd,
       data_characters (by simp) h (by decide) (by decide) d hd,
       data_characters (by simp) h (by decide) (by decide) d hd⟩⟩

theorem documents_paths (h0 : Prints text 0) (c : Color) : ∀ {Ps : List Poly}, (∀ P ∈ Ps, Legible text P) →
    Documents (Ps.map (pathText text c.toHex)).flatten (Ps.map fun P => .element t!"path" (pathAttributes text c.toHex P) [])
  | [], _ => documents_nil
  | P :: Ps, h => by
    simp only [List.map_cons, List.flatten_cons]
    exact documents_cons (document_path h0 c (h P (by simp))) (documents_paths h0 c fun Q hQ => h Q (by simp [hQ]))

/-- What is in the group of the document. -/
noncomputable def inner (text : ℝ → Text) (c : Color) : Geometry → List Xml
  | .polygon P => [.element t!"path" (pathAttributes text c.toHex P) []]
  | .several Ps => [.element t!"g" [] (Ps.map fun P => .element t!"path" (pathAttributes text c.toHex P) [])]

/-- The text of the geometry, without outlines. -/
noncomputable def innerText (text : ℝ → Text) (c : Color) : Geometry → Text
  | .polygon P => pathText text c.toHex P
  | .several Ps => t!"<g>" ++ (Ps.map (pathText text c.toHex)).flatten ++ t!"</g>"

theorem turns_geometry (h0 : Prints text 0) (c : Color) {g : Geometry} (h : ∀ P ∈ g.polygons, Legible text P) :
    Turns (g.svg text 0 c.toHex) (innerText text c g) := by
  cases g with
  | polygon P => exact turns_polygon h0 c (h P (by simp [Geometry.polygons]))
  | several Ps =>
    exact ((turns_clean (s := t!"<g>") (by decide)).append (turns_polygons (Ps := Ps) h0 c h)).append
      (turns_clean (s := t!"</g>") (by decide))

theorem documents_geometry (h0 : Prints text 0) (c : Color) {g : Geometry} (h : ∀ P ∈ g.polygons, Legible text P) :
    Documents (innerText text c g) (inner text c g) := by
  cases g with
  | polygon P =>
    have := documents_cons (document_path h0 c (h P (by simp [Geometry.polygons]))) documents_nil
    rw [List.append_nil] at this
    exact this
  | several Ps =>
    have h1 := document_element (name := t!"g") (as := []) (blank := []) (named rfl) (by simp) (by simp)
      (documents_paths (Ps := Ps) h0 c h)
    have h2 := documents_cons h1 documents_nil
    rw [List.append_nil] at h2
    simpa [innerText, inner, spellAttributes] using h2

/-- The whole text. -/
noncomputable def svgText (text : ℝ → Text) (g : Geometry) (color : Style) : Text := (dumpSvg text g color).flatten

/-- The attributes of the document. -/
noncomputable def topAttributes (text : ℝ → Text) (g : Geometry) : List Attribute :=
  let (xmin, ymin, xmax, ymax) := g.bounds
  [(t!"xmlns", t!"http://www.w3.org/2000/svg"), (t!"xmlns:xlink", t!"http://www.w3.org/1999/xlink"),
   (t!"width", text (xmax - xmin)), (t!"height", text (ymax - ymin)),
   (t!"viewBox", text xmin ++ t!" " ++ text ymin ++ t!" " ++ text (xmax - xmin) ++ t!" " ++ text (ymax - ymin)),
   (t!"preserveAspectRatio", t!"xMidYMid meet")]

/-- The transformation of the group. -/
noncomputable def flip (text : ℝ → Text) (g : Geometry) : Text :=
  t!"matrix(1,0,0,-1,0," ++ text (g.bounds.2.2.2 + g.bounds.2.1) ++ t!")"

/-- The numbers of the bounds can be read. -/
structure LegibleBounds (text : ℝ → Text) (g : Geometry) : Prop where
  zero : Prints text 0
  xmin : Prints text g.bounds.1
  ymin : Prints text g.bounds.2.1
  dx : Prints text (g.bounds.2.2.1 - g.bounds.1)
  dy : Prints text (g.bounds.2.2.2 - g.bounds.2.1)
  sum : Prints text (g.bounds.2.2.2 + g.bounds.2.1)

set_option maxRecDepth 8000 in
theorem read_document {g : Geometry} {color : Style} (hne : g.isEmpty = false) (hb : LegibleBounds text g)
    (h : ∀ P ∈ g.polygons, Legible text P) :
    readXml (svgText text g color) = some (.element t!"svg" (topAttributes text g)
      [.element t!"g" [(t!"transform", flip text g)] (inner text color.foreground g)]) := by
  have hs := (readNumber_text hb.sum)
  have k1 : Turns (t!"<g transform=\"" ++ flip text g ++ t!"\">" ++ g.svg text 0 color.foreground.toHex ++ t!"</g>")
      (t!"<g transform=\"" ++ flip text g ++ t!"\">" ++ innerText text color.foreground g ++ t!"</g>") := by
    refine ((((turns_clean (by decide)).append ?_).append (turns_clean (by decide))).append
      (turns_geometry hb.zero _ h)).append (turns_clean (by decide))
    exact ((turns_clean (by decide)).append hs.turns).append (turns_clean (by decide))
  have k2 := replace_turns k1
  have p1 : Plain (flip text g) := by
    intro d hd
    simp only [flip, List.mem_append] at hd
    rcases hd with (hd | hd) | hd
    · revert d; decide
    · exact hs.plain d hd
    · revert d; decide
  have k3 := document_element (name := t!"g") (as := [(t!"transform", flip text g)]) (blank := [])
    (named rfl) (by
      intro a ha
      simp only [List.mem_singleton] at ha
      subst ha
      exact ⟨named rfl, p1⟩) (by simp) (documents_geometry hb.zero color.foreground h)
  have k4 := documents_cons k3 documents_nil
  rw [List.append_nil] at k4
  have p2 : ∀ a ∈ topAttributes text g, Name a.1 ∧ Plain a.2 := by
    intro a ha
    simp only [topAttributes, List.mem_cons, List.not_mem_nil, or_false] at ha
    rcases ha with rfl | rfl | rfl | rfl | rfl | rfl
    · exact ⟨named rfl, by unfold Plain; decide⟩
    · exact ⟨named rfl, by unfold Plain; decide⟩
    · exact ⟨named rfl, (readNumber_text hb.dx).plain⟩
    · exact ⟨named rfl, (readNumber_text hb.dy).plain⟩
    · refine ⟨named rfl, ?_⟩
      intro d hd
      simp only [List.append_assoc, List.mem_append, List.mem_singleton] at hd
      rcases hd with hd | rfl | hd | rfl | hd | rfl | hd
      · exact (readNumber_text hb.xmin).plain d hd
      · decide
      · exact (readNumber_text hb.ymin).plain d hd
      · decide
      · exact (readNumber_text hb.dx).plain d hd
      · decide
      · exact (readNumber_text hb.dy).plain d hd
    · exact ⟨named rfl, by unfold Plain; decide⟩
  have k5 := document_element (name := t!"svg") (as := topAttributes text g) (blank := t!" ")
    (named rfl) p2 (by decide) k4
  have e : svgText text g color = '<' :: t!"svg" ++ (spellAttributes (topAttributes text g) ++ t!" ") ++
      '>' :: ('<' :: t!"g" ++ (spellAttributes [(t!"transform", flip text g)] ++ []) ++ '>' :: innerText text color.foreground g ++
        '<' :: '/' :: t!"g" ++ ['>']) ++ '<' :: '/' :: t!"svg" ++ ['>'] := by
    simp only [svgText, dumpSvg, hne, Bool.false_eq_true, if_false]
    have : t!"matrix(1,0,0,-1,0," ++ text (g.bounds.2.2.2 + g.bounds.2.1) ++ t!")" = flip text g := rfl
    rw [this, k2]
    simp only [topAttributes, spellAttributes, List.flatten_cons, List.flatten_nil, List.append_assoc, List.cons_append,
      List.nil_append, List.append_nil]
  rw [e]
  exact document_read k5

/-! ### The drawing -/

theorem valueOf_cons (name : String) (n v : Text) (as : List Attribute) :
    valueOf name ((n, v) :: as) = if n = name.toList then some v else valueOf name as := by
  unfold valueOf
  by_cases h : n = name.toList <;> simp [h]

theorem read_hex (c : Color) : readColour c.toHex = some c := by
  have key : ∀ n : Fin 16, hexWorth (hexDigit n.1) = some n.1 := by decide
  have k1 : ∀ n : Fin 256, hexWorth (hexDigit (n.1 / 16)) = some (n.1 / 16) := fun n => key ⟨n.1 / 16, by omega⟩
  have k2 : ∀ n : Fin 256, hexWorth (hexDigit (n.1 % 16)) = some (n.1 % 16) := fun n => key ⟨n.1 % 16, by omega⟩
  have k3 : ∀ n : Fin 256, Fin.ofNat 256 (16 * (n.1 / 16) + n.1 % 16) = n := by
    intro n
    ext
    simp only [Fin.ofNat]
    omega
  simp only [Color.toHex, hex2, List.cons_append, List.nil_append, readColour, k1, k2, k3]

theorem number_one : readNumber t!"1" = some 1 := by
  have : number t!"1" = some 1 := by decide +kernel
  simp [readNumber, this]
theorem number_zero : readNumber t!"0" = some 0 := by
  have : number t!"0" = some 0 := by decide +kernel
  simp [readNumber, this]
theorem number_minus_one : readNumber t!"-1" = some (-1) := by
  have : number t!"-1" = some (-1) := by decide +kernel
  simp [readNumber, this]
theorem number_opacity : readNumber t!"0.6" = some (6 / 10) := by
  have : number t!"0.6" = some (6 / 10) := by decide +kernel
  simp [readNumber, this]

/-- The filled path of a polygon. -/
noncomputable def fillOf (place : Vec ℝ → Vec ℝ) (c : Color) (P : Poly) : Fill :=
  ⟨place, P.exterior :: P.interiors, c, 6 / 10, ⟨0, 0, 0, 0⟩, 0⟩

theorem read_path (place : Vec ℝ → Vec ℝ) (h0 : Prints text 0) (c : Color) {P : Poly} (h : Legible text P) :
    readPath place (pathAttributes text c.toHex P) = some (fillOf place c P) := by
  have e1 : valueOf "fill-rule" (pathAttributes text c.toHex P) = some t!"evenodd" := by
    rw [pathAttributes, valueOf_cons, if_pos (by decide)]
  have e2 : valueOf "fill" (pathAttributes text c.toHex P) = some c.toHex := by
    rw [pathAttributes, valueOf_cons, if_neg (by decide), valueOf_cons, if_pos (by decide)]
  have e3 : valueOf "stroke" (pathAttributes text c.toHex P) = some t!"#00000000" := by
    rw [pathAttributes, valueOf_cons, if_neg (by decide), valueOf_cons, if_neg (by decide), valueOf_cons, if_pos (by decide)]
  have e4 : valueOf "stroke-width" (pathAttributes text c.toHex P) = some (text 0) := by
    rw [pathAttributes, valueOf_cons, if_neg (by decide), valueOf_cons, if_neg (by decide), valueOf_cons, if_neg (by decide),
      valueOf_cons, if_pos (by decide)]
  have e5 : valueOf "opacity" (pathAttributes text c.toHex P) = some t!"0.6" := by
    rw [pathAttributes, valueOf_cons, if_neg (by decide), valueOf_cons, if_neg (by decide), valueOf_cons, if_neg (by decide),
      valueOf_cons, if_neg (by decide), valueOf_cons, if_pos (by decide)]
  have e6 : valueOf "d" (pathAttributes text c.toHex P) = some (pathData text P) := by
    rw [pathAttributes, valueOf_cons, if_neg (by decide), valueOf_cons, if_neg (by decide), valueOf_cons, if_neg (by decide),
      valueOf_cons, if_neg (by decide), valueOf_cons, if_neg (by decide), valueOf_cons, if_pos (by decide)]
  have e7 : readColour t!"#00000000" = some ⟨0, 0, 0, 0⟩ := by decide
  have e8 : readLines (cut ' ' (pathData text P)) [] = some (P.exterior :: P.interiors) := read_data (by simp) h
  have e9 : t!"evenodd" = "evenodd".toList := by decide
  unfold Prints at h0
  simp only [readPath, e1, e2, e3, e4, e5, e6, Option.bind_some, read_hex, e7, e8, number_opacity, h0, e9, if_true, fillOf]

theorem read_paths (place : Vec ℝ → Vec ℝ) (h0 : Prints text 0) (c : Color) : ∀ {Ps : List Poly}, (∀ P ∈ Ps, Legible text P) →
    fillsOfAll place (Ps.map fun P => .element t!"path" (pathAttributes text c.toHex P) []) = some (Ps.map (fillOf place c))
  | [], _ => rfl
  | P :: Ps, h => by
    have ih := read_paths place h0 c fun Q hQ => h Q (List.mem_cons_of_mem _ hQ)
    simp only [List.map_cons, fillsOfAll, ih, fillsOf, read_path place h0 c (h P (by simp))]
    rw [if_neg (by decide), if_pos (by decide)]
    rfl

theorem read_inner (place : Vec ℝ → Vec ℝ) (h0 : Prints text 0) (c : Color) {g : Geometry} (h : ∀ P ∈ g.polygons, Legible text P) :
    fillsOfAll place (inner text c g) = some (g.polygons.map (fillOf place c)) := by
  cases g with
  | polygon P => exact read_paths place h0 c (Ps := [P]) h
  | several Ps =>
    have := read_paths place h0 c (Ps := Ps) h
    simp only [inner, fillsOfAll, fillsOf, this, valueOf, List.find?_nil, Option.map_none]
    rw [if_pos (by decide)]
    simp [Geometry.polygons]

/-- The transformation turns the drawing upside down. -/
theorem read_flip {g : Geometry} (h : Prints text (g.bounds.2.2.2 + g.bounds.2.1)) :
    readMatrix (flip text g) = some fun p => ⟨1 * p.x + 0 * p.y + 0, 0 * p.x + -1 * p.y + (g.bounds.2.2.2 + g.bounds.2.1)⟩ := by
  have hs := readNumber_text h
  have h1 : ("matrix(".toList).isPrefixOf (flip text g) = true := by
    rw [List.isPrefixOf_iff_prefix]
    refine ⟨t!"1,0,0,-1,0," ++ text (g.bounds.2.2.2 + g.bounds.2.1) ++ t!")", ?_⟩
    have : "matrix(".toList = t!"matrix(" := by decide
    rw [this]
    simp [flip]
  have h2 : (flip text g).getLast? = some ')' := by rw [flip, List.getLast?_append]; rfl
  have h3 : ((flip text g).drop 7).dropLast = t!"1" ++ ',' :: (t!"0" ++ ',' :: (t!"0" ++ ',' :: (t!"-1" ++ ',' :: (t!"0" ++ ',' ::
      text (g.bounds.2.2.2 + g.bounds.2.1))))) := by
    have : (flip text g).drop 7 = (t!"1" ++ ',' :: (t!"0" ++ ',' :: (t!"0" ++ ',' :: (t!"-1" ++ ',' :: (t!"0" ++ ',' ::
      text (g.bounds.2.2.2 + g.bounds.2.1)))))) ++ t!")" := by simp [flip]
    rw [this, List.dropLast_concat]
  unfold Prints at h
  rw [readMatrix, if_pos ⟨h1, h2⟩, h3, cut_append _ (by decide), cut_append _ (by decide), cut_append _ (by decide),
    cut_append _ (by decide), cut_append _ (by decide),
    cut_self (hs.ne (by decide) (by decide) (by decide) (by decide) (by decide))]
  simp only [List.map_cons, List.map_nil, number_one, number_zero, number_minus_one, h]

/-- The place of a point in the document. -/
noncomputable def placed (g : Geometry) (p : Vec ℝ) : Vec ℝ := ⟨p.x, g.bounds.2.2.2 + g.bounds.2.1 - p.y⟩

/-- What is read from the text. -/
theorem read_svg {g : Geometry} {color : Style} (hne : g.isEmpty = false) (hb : LegibleBounds text g)
    (h : ∀ P ∈ g.polygons, Legible text P) :
    readDrawing (svgText text g color) = some ⟨g.bounds.2.2.1 - g.bounds.1, g.bounds.2.2.2 - g.bounds.2.1, g.bounds.1, g.bounds.2.1,
      g.bounds.2.2.1 - g.bounds.1, g.bounds.2.2.2 - g.bounds.2.1, g.polygons.map (fillOf (placed g) color.foreground)⟩ := by
  rw [readDrawing, read_document hne hb h]
  have e1 : valueOf "xmlns" (topAttributes text g) = some "http://www.w3.org/2000/svg".toList := by
    rw [topAttributes, valueOf_cons, if_pos (by decide)]; decide
  have e2 : valueOf "width" (topAttributes text g) = some (text (g.bounds.2.2.1 - g.bounds.1)) := by
    rw [topAttributes, valueOf_cons, if_neg (by decide), valueOf_cons, if_neg (by decide), valueOf_cons, if_pos (by decide)]
  have e3 : valueOf "height" (topAttributes text g) = some (text (g.bounds.2.2.2 - g.bounds.2.1)) := by
    rw [topAttributes, valueOf_cons, if_neg (by decide), valueOf_cons, if_neg (by decide), valueOf_cons, if_neg (by decide),
      valueOf_cons, if_pos (by decide)]
  have e4 : valueOf "viewBox" (topAttributes text g) = some (text g.bounds.1 ++ t!" " ++ text g.bounds.2.1 ++ t!" " ++
      text (g.bounds.2.2.1 - g.bounds.1) ++ t!" " ++ text (g.bounds.2.2.2 - g.bounds.2.1)) := by
    rw [topAttributes, valueOf_cons, if_neg (by decide), valueOf_cons, if_neg (by decide), valueOf_cons, if_neg (by decide),
      valueOf_cons, if_neg (by decide), valueOf_cons, if_pos (by decide)]
  have e5 : valueOf "preserveAspectRatio" (topAttributes text g) = some "xMidYMid meet".toList := by
    rw [topAttributes, valueOf_cons, if_neg (by decide), valueOf_cons, if_neg (by decide), valueOf_cons, if_neg (by decide),
      valueOf_cons, if_neg (by decide), valueOf_cons, if_neg (by decide), valueOf_cons, if_pos (by decide)]
    decide
  have e6 : cut ' ' (text g.bounds.1 ++ t!" " ++ text g.bounds.2.1 ++ t!" " ++ text (g.bounds.2.2.1 - g.bounds.1) ++ t!" " ++
      text (g.bounds.2.2.2 - g.bounds.2.1)) = [text g.bounds.1, text g.bounds.2.1, text (g.bounds.2.2.1 - g.bounds.1),
      text (g.bounds.2.2.2 - g.bounds.2.1)] := by
    simp only [List.append_assoc, List.cons_append, List.nil_append]
    rw [cut_append _ ((readNumber_text hb.xmin).ne (by decide) (by decide) (by decide) (by decide) (by decide)),
      cut_append _ ((readNumber_text hb.ymin).ne (by decide) (by decide) (by decide) (by decide) (by decide)),
      cut_append _ ((readNumber_text hb.dx).ne (by decide) (by decide) (by decide) (by decide) (by decide)),
      cut_self ((readNumber_text hb.dy).ne (by decide) (by decide) (by decide) (by decide) (by decide))]
  have e7 : fillsOfAll id [Xml.element t!"g" [(t!"transform", flip text g)] (inner text color.foreground g)] =
      some (g.polygons.map (fillOf (placed g) color.foreground)) := by
    have hp : (id ∘ fun p : Vec ℝ => (⟨1 * p.x + 0 * p.y + 0, 0 * p.x + -1 * p.y + (g.bounds.2.2.2 + g.bounds.2.1)⟩ : Vec ℝ)) =
        placed g := by
      funext p
      simp only [placed, Function.comp, id]
      ext <;> simp
      ring
    simp only [fillsOfAll, fillsOf]
    rw [if_pos (by decide), valueOf_cons, if_pos (by decide)]
    simp only [read_flip hb.sum, hp, read_inner (placed g) hb.zero color.foreground h, List.append_nil]
  have f1 := hb.xmin; have f2 := hb.ymin; have f3 := hb.dx; have f4 := hb.dy
  unfold Prints at f1 f2 f3 f4
  simp only [Option.bind_some, svgDrawing]
  rw [if_pos ⟨by decide, e1, e5⟩]
  simp only [e2, e3, e4, e6, e7, Option.bind_some, Option.map_some, List.map_cons, List.map_nil, f1, f2, f3, f4]

/-! ### Rings -/

theorem between {a b y : ℝ} (x x' : ℝ) (h : y < a ↔ ¬ y < b) : ∃ t, 0 ≤ t ∧ t ≤ 1 ∧
    x + (y - a) * (x' - x) / (b - a) = (1 - t) * x + t * x' := by
  have hne : b - a ≠ 0 := by
    intro e
    have : a = b := by linarith
    subst this
    by_cases hy : y < a
    · exact absurd hy (h.1 hy)
    · exact hy (h.2 hy)
  refine ⟨(y - a) / (b - a), ?_, ?_, by field_simp; ring⟩
  · by_cases hy : y < a
    · have := h.1 hy
      exact div_nonneg_of_nonpos (by linarith) (by linarith)
    · have : y < b := by by_contra hb; exact hy (h.2 hb)
      exact div_nonneg (by linarith) (by linarith)
  · by_cases hy : y < a
    · have := h.1 hy
      rw [div_le_one_of_neg (by rcases lt_or_gt_of_ne hne with h | h <;> linarith)]
      linarith
    · have : y < b := by by_contra hb; exact hy (h.2 hb)
      rw [div_le_one (by rcases lt_or_gt_of_ne hne with h | h <;> linarith)]
      linarith

/-- Going around, the height of a point is passed an even number of times. -/
theorem changes_even (f : Vec ℝ → Bool) : ∀ (l : List (Vec ℝ)) (a z : Vec ℝ),
    (Even (((a :: l).zip (l ++ [z])).countP fun e => f e.1 != f e.2) ↔ f a = f z)
  | [], a, z => by
    cases h1 : f a <;> cases h2 : f z <;> simp [h1, h2]
  | b :: l, a, z => by
    have ih := changes_even f l b z
    rw [List.cons_append, List.zip_cons_cons, List.countP_cons]
    cases h1 : f a <;> cases h2 : f b <;> cases h3 : f z <;> rw [h2, h3] at ih <;>
      simp [Nat.even_add_one, -Nat.not_even_iff_odd, ih]

open Classical in
theorem sides_changes (r : List (Vec ℝ)) (y : ℝ) : Even ((sides r).countP fun e => (y < e.1.y ↔ ¬ y < e.2.y)) := by
  have hc : (fun e : Vec ℝ × Vec ℝ => decide (y < e.1.y ↔ ¬ y < e.2.y)) =
      fun e => (fun p : Vec ℝ => decide (y < p.y)) e.1 != (fun p : Vec ℝ => decide (y < p.y)) e.2 := by
    funext e
    by_cases h1 : y < e.1.y <;> by_cases h2 : y < e.2.y <;> simp only [h1, h2] <;> decide
  rw [hc]
  cases r with
  | nil => simp [sides]
  | cons a l =>
    simp only [sides, List.tail_cons, List.head?_cons, Option.toList_some]
    exact (changes_even (fun p : Vec ℝ => decide (y < p.y)) l a a).2 rfl

theorem sides_mem {r : List (Vec ℝ)} {e : Vec ℝ × Vec ℝ} (h : e ∈ sides r) : e.1 ∈ r ∧ e.2 ∈ r := by
  obtain ⟨a, b⟩ := e
  have := List.of_mem_zip h
  refine ⟨this.1, ?_⟩
  rcases List.mem_append.1 this.2 with h | h
  · exact List.mem_of_mem_tail h
  · cases r with
    | nil => cases h
    | cons x r => simp at h; simp [h]

/-- A point within a line has corners to the right, to the left, above and not above. -/
theorem within_bounds {r : List (Vec ℝ)} {p : Vec ℝ} (h : WithinLine r p) :
    (∃ a ∈ r, p.x < a.x) ∧ (∃ a ∈ r, a.x ≤ p.x) ∧ (∃ a ∈ r, p.y < a.y) ∧ (∃ a ∈ r, a.y ≤ p.y) := by
  classical
  unfold WithinLine crossings at h
  obtain ⟨e, he, hc⟩ : ∃ e ∈ sides r, Crosses p e := by
    by_contra hn
    push Not at hn
    rw [List.countP_eq_zero.2 (by simpa using hn)] at h
    exact absurd h (by decide)
  obtain ⟨m1, m2⟩ := sides_mem he
  obtain ⟨t, t0, t1, ht⟩ := between e.1.x e.2.x hc.1
  refine ⟨?_, ?_, ?_, ?_⟩
  · have := hc.2
    rw [ht] at this
    by_contra hn
    push Not at hn
    have a1 := hn _ m1
    have a2 := hn _ m2
    nlinarith
  · by_contra hn
    push Not at hn
    have same : (sides r).countP (fun e => Crosses p e) = (sides r).countP fun e => (p.y < e.1.y ↔ ¬ p.y < e.2.y) := by
      apply List.countP_congr
      intro f hf
      obtain ⟨n1, n2⟩ := sides_mem hf
      rw [decide_eq_true_eq, decide_eq_true_eq, Crosses]
      refine ⟨fun h => h.1, fun h => ⟨h, ?_⟩⟩
      obtain ⟨t, t0, t1, ht⟩ := between f.1.x f.2.x h
      rw [ht]
      have a1 := hn _ n1
      have a2 := hn _ n2
      rcases eq_or_lt_of_le t0 with rfl | t0
      · simpa using a1
      · nlinarith
    rw [same] at h
    exact (Nat.not_odd_iff_even.2 (sides_changes r p.y)) h
  · by_cases hy : p.y < e.1.y
    · exact ⟨_, m1, hy⟩
    · exact ⟨_, m2, by by_contra hb; exact hy (hc.1.2 hb)⟩
  · by_cases hy : p.y < e.1.y
    · exact ⟨_, m2, not_lt.1 (hc.1.1 hy)⟩
    · exact ⟨_, m1, not_lt.1 hy⟩

/-- The even-odd rule for a ring with holes. -/
theorem evenOdd_polygon {P : Poly} {p : Vec ℝ} (h1 : ∀ hole ∈ P.interiors, WithinLine hole p → WithinLine P.exterior p)
    (h2 : P.interiors.Pairwise fun a b => ¬ (WithinLine a p ∧ WithinLine b p)) :
    EvenOdd (P.exterior :: P.interiors) p ↔ InPolygon P p := by
  have key : ∀ holes : List Ring, holes.Pairwise (fun a b => ¬ (WithinLine a p ∧ WithinLine b p)) →
      (Odd ((holes.map (fun l => crossings l p)).sum) ↔ ∃ hole ∈ holes, WithinLine hole p) := by
    intro holes
    induction holes with
    | nil => intro _; simp
    | cons r rs ih =>
      intro hp
      rw [List.pairwise_cons] at hp
      have ih := ih hp.2
      simp only [List.map_cons, List.sum_cons, List.exists_mem_cons_iff]
      by_cases hr : WithinLine r p
      · have none : ¬ ∃ hole ∈ rs, WithinLine hole p := by
          rintro ⟨s, hs, hw⟩
          exact hp.1 s hs ⟨hr, hw⟩
        simp only [hr, true_or, iff_true]
        exact Odd.add_even hr (Nat.not_odd_iff_even.1 (fun h => none (ih.1 h)))
      · simp only [hr, false_or]
        rw [← ih, Nat.odd_add, iff_comm]
        have : ¬ Odd (crossings r p) := hr
        simp only [this, false_iff, Nat.not_even_iff_odd]
  have hk := key _ h2
  unfold EvenOdd InPolygon
  simp only [List.map_cons, List.sum_cons]
  by_cases hh : ∃ hole ∈ P.interiors, WithinLine hole p
  · obtain ⟨hole, hm, hw⟩ := hh
    have ho : Odd (crossings P.exterior p) := h1 hole hm hw
    have hs := hk.2 ⟨hole, hm, hw⟩
    refine ⟨fun h => absurd h (Nat.not_odd_iff_even.2 (ho.add_odd hs)), fun h => absurd hw (h.2 hole hm)⟩
  · have hs : Even ((P.interiors.map (fun l => crossings l p)).sum) := Nat.not_odd_iff_even.1 (fun h => hh (hk.1 h))
    push Not at hh
    rw [Nat.odd_add]
    simp only [hs, iff_true]
    exact ⟨fun h => ⟨h, hh⟩, fun h => h.1⟩

theorem foldl_min_le : ∀ (l : List ℝ) (a : ℝ), l.foldl min a ≤ a ∧ (∀ x ∈ l, l.foldl min a ≤ x) ∧ (l.foldl min a = a ∨ l.foldl min a ∈ l)
  | [], a => by simp
  | b :: l, a => by
    obtain ⟨h1, h2, h3⟩ := foldl_min_le l (min a b)
    simp only [List.foldl_cons]
    refine ⟨h1.trans (min_le_left _ _), ?_, ?_⟩
    · intro x hx
      rcases List.mem_cons.1 hx with rfl | hx
      · exact h1.trans (min_le_right _ _)
      · exact h2 x hx
    · rcases h3 with h3 | h3
      · rw [h3]
        rcases min_choice a b with h | h <;> simp [h]
      · exact .inr (List.mem_cons_of_mem _ h3)

theorem foldl_max_ge : ∀ (l : List ℝ) (a : ℝ), a ≤ l.foldl max a ∧ (∀ x ∈ l, x ≤ l.foldl max a) ∧ (l.foldl max a = a ∨ l.foldl max a ∈ l)
  | [], a => by simp
  | b :: l, a => by
    obtain ⟨h1, h2, h3⟩ := foldl_max_ge l (max a b)
    simp only [List.foldl_cons]
    refine ⟨(le_max_left _ _).trans h1, ?_, ?_⟩
    · intro x hx
      rcases List.mem_cons.1 hx with rfl | hx
      · exact (le_max_right _ _).trans h1
      · exact h2 x hx
    · rcases h3 with h3 | h3
      · rw [h3]
        rcases max_choice a b with h | h <;> simp [h]
      · exact .inr (List.mem_cons_of_mem _ h3)

theorem least_isLeast {l : List ℝ} (h : l ≠ []) : IsLeast {x | x ∈ l} (least l) := by
  cases l with
  | nil => exact absurd rfl h
  | cons a l =>
    obtain ⟨h1, h2, h3⟩ := foldl_min_le l a
    refine ⟨?_, ?_⟩
    · rcases h3 with h3 | h3 <;> simp [least, h3]
    · intro x hx
      rcases List.mem_cons.1 hx with rfl | hx
      · exact h1
      · exact h2 x hx

theorem greatest_isGreatest {l : List ℝ} (h : l ≠ []) : IsGreatest {x | x ∈ l} (greatest l) := by
  cases l with
  | nil => exact absurd rfl h
  | cons a l =>
    obtain ⟨h1, h2, h3⟩ := foldl_max_ge l a
    refine ⟨?_, ?_⟩
    · rcases h3 with h3 | h3 <;> simp [greatest, h3]
    · intro x hx
      rcases List.mem_cons.1 hx with rfl | hx
      · exact h1
      · exact h2 x hx

theorem frames_bounds {g : Geometry} (h : g.corners ≠ []) :
    Frames g g.bounds.1 g.bounds.2.1 g.bounds.2.2.1 g.bounds.2.2.2 := by
  have e : ∀ f : Vec ℝ → ℝ, {x | x ∈ g.corners.map f} = {x | ∃ P ∈ g.polygons, ∃ p ∈ P.exterior, f p = x} := by
    intro f
    ext x
    simp [Geometry.corners]
    constructor
    · rintro ⟨p, ⟨P, hP, hp⟩, rfl⟩; exact ⟨P, hP, p, hp, rfl⟩
    · rintro ⟨P, hP, p, hp, rfl⟩; exact ⟨p, ⟨P, hP, hp⟩, rfl⟩
  have hx : g.corners.map Vec.x ≠ [] := by simpa using h
  have hy : g.corners.map Vec.y ≠ [] := by simpa using h
  exact ⟨e Vec.x ▸ least_isLeast hx, e Vec.y ▸ least_isLeast hy, e Vec.x ▸ greatest_isGreatest hx, e Vec.y ▸ greatest_isGreatest hy⟩

theorem frames_unique {g : Geometry} {a b c d a' b' c' d' : ℝ} (h : Frames g a b c d) (h' : Frames g a' b' c' d') :
    a = a' ∧ b = b' ∧ c = c' ∧ d = d' :=
  ⟨h.left.unique h'.left, h.bottom.unique h'.bottom, h.right.unique h'.right, h.top.unique h'.top⟩

theorem in_frame {g : Geometry} {xmin ymin xmax ymax : ℝ} (hf : Frames g xmin ymin xmax ymax) {p : Vec ℝ} (h : InGeometry g p) :
    xmin ≤ p.x ∧ p.x < xmax ∧ ymin ≤ p.y ∧ p.y < ymax := by
  obtain ⟨P, hP, h1, -⟩ := h
  obtain ⟨⟨a, ha, a1⟩, ⟨b, hb, b1⟩, ⟨c, hc, c1⟩, ⟨d, hd, d1⟩⟩ := within_bounds h1
  exact ⟨(hf.left.2 ⟨P, hP, b, hb, rfl⟩).trans b1, a1.trans_le (hf.right.2 ⟨P, hP, a, ha, rfl⟩),
    (hf.bottom.2 ⟨P, hP, d, hd, rfl⟩).trans d1, c1.trans_le (hf.top.2 ⟨P, hP, c, hc, rfl⟩)⟩

/-! ### The theorems -/

open Classical in
theorem filter_one {α β : Type} (Q : α → Prop) (f : α → β) (c : β) : ∀ l : List α, l.Pairwise (fun a b => ¬ (Q a ∧ Q b)) →
    (∀ a ∈ l, f a = c) → (l.filter (fun a => Q a)).map f = if ∃ a ∈ l, Q a then [c] else []
  | [], _, _ => by simp
  | a :: l, hp, hf => by
    rw [List.pairwise_cons] at hp
    have ih := filter_one Q f c l hp.2 (fun b hb => hf b (by simp [hb]))
    by_cases ha : Q a
    · have none : ¬ ∃ b ∈ l, Q b := fun ⟨b, hb, hq⟩ => hp.1 b hb ⟨ha, hq⟩
      have : l.filter (fun a => Q a) = [] := by
        rw [List.filter_eq_nil_iff]
        intro b hb
        simpa using fun hq => none ⟨b, hb, hq⟩
      rw [if_neg none] at ih
      simp [ha, hf a (by simp)]
      intro b hb hq
      exact none ⟨b, hb, hq⟩
    · simp only [List.exists_mem_cons_iff, ha, false_or, ← ih]
      rw [List.filter_cons_of_neg (by simpa using ha)]

/-- What is written is the text. -/
theorem written {Byte : Type} {encode : Text → List Byte} (he : ∀ a b, encode (a ++ b) = encode a ++ encode b)
    (destination : Destination) (hd : destination ≠ .openFile) (g : Geometry) (color : Style) :
    saveSvg text encode destination g color = some (encode (svgText text g color)) := by
  have h0 : encode [] = [] := by
    have := he [] []
    rw [List.append_nil] at this
    exact List.self_eq_append_left.1 this
  have key : ∀ l : List Text, l.flatMap encode = encode l.flatten := by
    intro l
    induction l with
    | nil => simp [h0]
    | cons t l ih => simp [he, ih]
  cases destination <;> first | exact absurd rfl hd | (simp only [saveSvg, key]; rfl)

/-- **C77.** What a saved SVG shows.  For every geometry that is not empty, whatever encoding works character by character
(such as UTF-8), and numbers printed so that they can be read: the text is a drawing (of the subset of SVG read by
`readDrawing`).  It is as wide and as high as the geometry, in units of one millimetre.  At the place that is `q.x` from
the left and `q.y` from the top, the foreground colour (with opacity 0.6) is painted, once, if the point at the same place
of the geometry, seen with `y` upwards, belongs to it, and nothing otherwise.  No point of the geometry is outside of the
drawing, and outlines are not visible.
Missing: the opacity, which is 0.6 also for opaque colours (see `c77_false_opacity`); open files and encodings with a mark at
the beginning (see `c77_false_open_file` and `c77_false_encoding`). -/
theorem c77_shown_partial {Byte : Type} (encode : Text → List Byte) (he : ∀ a b, encode (a ++ b) = encode a ++ encode b)
    (destination : Destination) (hd : destination ≠ .openFile) (g : Geometry) (color : Style) (hp : Proper g)
    (hne : ∃ p, InGeometry g p) (xmin ymin xmax ymax : ℝ) (hf : Frames g xmin ymin xmax ymax)
    (hn : ∀ x, Printed g xmin ymin xmax ymax x → readNumber (text x) = some x) :
    ∃ t d, saveSvg text encode destination g color = some (encode t) ∧ readDrawing t = some d ∧
      d.width = xmax - xmin ∧ d.height = ymax - ymin ∧
      (∀ q, InGeometry g ⟨xmin + q.x, ymax - q.y⟩ → d.paint q = [(color.foreground, 6 / 10)]) ∧
      (∀ q, ¬ InGeometry g ⟨xmin + q.x, ymax - q.y⟩ → d.paint q = []) ∧
      (∀ p, InGeometry g p → 0 ≤ p.x - xmin ∧ p.x - xmin ≤ d.width ∧ 0 ≤ ymax - p.y ∧ ymax - p.y ≤ d.height) ∧
      ∀ f ∈ d.fills, f.NoOutline := by
  obtain ⟨p0, hp0⟩ := hne
  have hcorner : g.corners ≠ [] := by
    obtain ⟨P, hP, h1, -⟩ := hp0
    obtain ⟨⟨a, ha, -⟩, -⟩ := within_bounds h1
    intro h
    have : a ∈ g.corners := List.mem_flatMap.2 ⟨P, hP, ha⟩
    rw [h] at this
    cases this
  obtain ⟨b1, b2, b3, b4⟩ := frames_unique (frames_bounds hcorner) hf
  have hempty : g.isEmpty = false := by
    obtain ⟨P, hP, -⟩ := hp0
    rw [Geometry.isEmpty, List.isEmpty_eq_false_iff]
    exact List.ne_nil_of_mem hP
  have hb : LegibleBounds text g := by
    constructor
    · exact hn _ (.inl rfl)
    · rw [b1]; exact hn _ (.inr (.inl rfl))
    · rw [b2]; exact hn _ (.inr (.inr (.inl rfl)))
    · rw [b1, b3]; exact hn _ (.inr (.inr (.inr (.inl rfl))))
    · rw [b2, b4]; exact hn _ (.inr (.inr (.inr (.inr (.inl rfl)))))
    · rw [b2, b4]; exact hn _ (.inr (.inr (.inr (.inr (.inr (.inl rfl))))))
  have hl : ∀ P ∈ g.polygons, Legible text P := fun P hP r hr => ⟨(hp.closed P hP r hr).1, fun p hpr =>
    ⟨hn _ (.inr (.inr (.inr (.inr (.inr (.inr ⟨P, hP, r, hr, p, hpr, .inl rfl⟩)))))),
     hn _ (.inr (.inr (.inr (.inr (.inr (.inr ⟨P, hP, r, hr, p, hpr, .inr rfl⟩))))))⟩⟩
  have hread := read_svg (color := color) hempty hb hl
  rw [b1, b2, b3, b4] at hread
  have hfr := in_frame hf hp0
  have hdx : 0 < xmax - xmin := by linarith [hfr.1, hfr.2.1]
  have hdy : 0 < ymax - ymin := by linarith [hfr.2.2.1, hfr.2.2.2]
  refine ⟨_, _, written he destination hd g color, hread, rfl, rfl, ?_⟩
  classical
  have hpaint : ∀ q, (Drawing.paint ⟨xmax - xmin, ymax - ymin, xmin, ymin, xmax - xmin, ymax - ymin,
      g.polygons.map (fillOf (placed g) color.foreground)⟩ q) =
      if InGeometry g ⟨xmin + q.x, ymax - q.y⟩ then [(color.foreground, 6 / 10)] else [] := by
    intro q
    have hseen : Drawing.seenAt ⟨xmax - xmin, ymax - ymin, xmin, ymin, xmax - xmin, ymax - ymin,
        g.polygons.map (fillOf (placed g) color.foreground)⟩ q = ⟨xmin + q.x, ymin + q.y⟩ := by
      simp [Drawing.seenAt, div_self hdx.ne', div_self hdy.ne']
    unfold Drawing.paint
    rw [hseen, List.filter_map, List.map_map]
    have hq : ∀ P ∈ g.polygons, ((∃ p, (fillOf (placed g) color.foreground P).place p = ⟨xmin + q.x, ymin + q.y⟩ ∧
        EvenOdd (fillOf (placed g) color.foreground P).lines p) ↔ InPolygon P ⟨xmin + q.x, ymax - q.y⟩) := by
      intro P hP
      have he : ∀ p, EvenOdd (fillOf (placed g) color.foreground P).lines p ↔ InPolygon P p := fun p =>
        evenOdd_polygon (fun hole hh => hp.holes P hP hole hh p) ((hp.apart P hP).imp fun h => h p)
      constructor
      · rintro ⟨p, h1, h2⟩
        rw [he] at h2
        have hx := congrArg Vec.x h1
        have hy := congrArg Vec.y h1
        simp only [fillOf, placed, b2, b4] at hx hy
        have : p = ⟨xmin + q.x, ymax - q.y⟩ := by ext <;> simp <;> linarith
        rwa [this] at h2
      · intro h
        refine ⟨⟨xmin + q.x, ymax - q.y⟩, ?_, (he _).2 h⟩
        simp only [fillOf, placed, b2, b4]
        ext <;> simp
    rw [List.filter_congr (q := fun P => InPolygon P ⟨xmin + q.x, ymax - q.y⟩) (by
      intro P hP
      simp only [Function.comp]
      exact decide_eq_decide.2 (hq P hP))]
    rw [filter_one (fun P => InPolygon P ⟨xmin + q.x, ymax - q.y⟩)
      ((fun f => (f.colour, f.opacity)) ∘ fillOf (placed g) color.foreground) (color.foreground, 6 / 10) _
      (hp.disjoint.imp fun h => h _) (fun _ _ => rfl)]
    by_cases hg : InGeometry g ⟨xmin + q.x, ymax - q.y⟩
    · rw [if_pos hg]; exact if_pos hg
    · rw [if_neg hg]; exact if_neg hg
  refine ⟨fun q hq => by rw [hpaint, if_pos hq], fun q hq => by rw [hpaint, if_neg hq], ?_, ?_⟩
  · intro p hpg
    have := in_frame hf hpg
    exact ⟨by linarith [this.1], by show _ ≤ xmax - xmin; linarith [this.2.1], by linarith [this.2.2.2],
      by show _ ≤ ymax - ymin; linarith [this.2.2.1]⟩
  · intro f hfm
    obtain ⟨P, -, rfl⟩ := List.mem_map.1 hfm
    exact ⟨rfl, rfl⟩

/-- **C77** (nothing to show). A result without any point is written as an empty document. -/
theorem c77_empty {Byte : Type} (encode : Text → List Byte) (he : ∀ a b, encode (a ++ b) = encode a ++ encode b)
    (destination : Destination) (hd : destination ≠ .openFile) (color : Style) :
    ∃ t attributes, saveSvg text encode destination (.several []) color = some (encode t) ∧
      readXml t = some (.element "svg".toList attributes []) := by
  refine ⟨_, [(t!"xmlns", t!"http://www.w3.org/2000/svg"), (t!"xmlns:xlink", t!"http://www.w3.org/1999/xlink")],
    written he destination hd _ color, ?_⟩
  · have := document_read (document_empty (name := t!"svg") (blank := t!" ")
      (as := [(t!"xmlns", t!"http://www.w3.org/2000/svg"), (t!"xmlns:xlink", t!"http://www.w3.org/1999/xlink")])
      (named rfl) (by
        intro a ha
        simp only [List.mem_cons, List.not_mem_nil, or_false] at ha
        rcases ha with rfl | rfl
        · exact ⟨named rfl, by unfold Plain; decide⟩
        · exact ⟨named rfl, by unfold Plain; decide⟩) (by decide))
    have e : "svg".toList = t!"svg" := by decide
    rw [e, ← this]
    rfl

/-- **C77** (from the file to the drawing). Whatever file compiles and is rendered: if the geometry library gives the union
of the shapes as polygons `g`, the colour at a place of the drawing tells whether the last object of the main layer that
contains the point is dark.  (The points of the outlines are those where the two descriptions of the union may differ.) -/
theorem c77_file_partial {Byte : Type} (encode : Text → List Byte) (he : ∀ a b, encode (a ++ b) = encode a ++ encode b)
    (destination : Destination) (hd : destination ≠ .openFile) (g : Geometry) (color : Style) (hp : Proper g)
    (hne : ∃ p, InGeometry g p) (xmin ymin xmax ymax : ℝ) (hf : Frames g xmin ymin xmax ymax)
    (hn : ∀ x, Printed g xmin ymin xmax ymax x → readNumber (text x) = some x)
    (env : Compiler.Env) (ignore : Bool) (file : List Visitor.Cmd) (prog : List (Rvmc.Command Compiler.LayerId))
    (hc : Compiler.compile env ignore file = .ok prog) (G : Render.Geos) (count : ℝ → ℤ) (fuel : ℕ) (fail : Bool)
    (e : Vm.Eager (List (Set (Vec ℝ)))) (hr : Vm.run (Render.shapely G count fuel) fail .main prog = .ok (some e)) :
    ∃ t d c layers objects, saveSvg text encode destination g color = some (encode t) ∧ readDrawing t = some d ∧
      Spec.compiled env (executed (!ignore) file) = .ok c ∧
      (∀ l ∈ layers, c.buffers.get? l.id = some l.cmds) ∧ (layers.map Spec.Layer.id).Nodup ∧
      Shows (Props.Painting.shapelyOutline G count fuel) layers Compiler.LayerId.main objects ∧
      ∀ q, (InGeometry g ⟨xmin + q.x, ymax - q.y⟩ ↔ (⟨xmin + q.x, ymax - q.y⟩ : Vec ℝ) ∈ Render.shapelyResult e) →
        (d.paint q = [(color.foreground, 6 / 10)] ↔ Covered objects ⟨xmin + q.x, ymax - q.y⟩) ∧
        (d.paint q = [] ↔ ¬ Covered objects ⟨xmin + q.x, ymax - q.y⟩) := by
  obtain ⟨t, d, h1, h2, -, -, h3, h4, -, -⟩ := c77_shown_partial encode he destination hd g color hp hne xmin ymin xmax ymax hf hn
  obtain ⟨c, layers, objects, k1, k2, k3, k4, k5⟩ := Props.Image.c64_image env ignore file prog hc G count fuel fail e hr
  refine ⟨t, d, c, layers, objects, h1, h2, k1, k2, k3, k4, fun q hq => ?_⟩
  rw [← k5, ← hq]
  by_cases hg : InGeometry g ⟨xmin + q.x, ymax - q.y⟩
  · rw [h3 q hg]; simp [hg]
  · rw [h4 q hg]; simp [hg]

/-! ### A square with a hole -/

/-- A rectangle. -/
def ring (x0 y0 x1 y1 : ℝ) : Ring := [⟨x0, y0⟩, ⟨x1, y0⟩, ⟨x1, y1⟩, ⟨x0, y1⟩, ⟨x0, y0⟩]

theorem within_ring {x0 y0 x1 y1 : ℝ} (hx : x0 < x1) (hy : y0 < y1) (p : Vec ℝ) :
    WithinLine (ring x0 y0 x1 y1) p ↔ x0 ≤ p.x ∧ p.x < x1 ∧ y0 ≤ p.y ∧ p.y < y1 := by
  classical
  have h1 : ∀ a b c : ℝ, ¬ Crosses p (⟨a, c⟩, ⟨b, c⟩) := by
    intro a b c h
    by_cases hc : p.y < c
    · exact h.1.1 hc hc
    · exact hc (h.1.2 hc)
  have h2 : Crosses p (⟨x1, y0⟩, ⟨x1, y1⟩) ↔ p.x < x1 ∧ y0 ≤ p.y ∧ p.y < y1 := by
    simp only [Crosses, sub_self, mul_zero, zero_div, add_zero]
    constructor
    · rintro ⟨h, h'⟩
      by_cases hc : p.y < y0
      · exact absurd (hc.trans hy) (h.1 hc)
      · exact ⟨h', not_lt.1 hc, by by_contra hb; exact hc (h.2 hb)⟩
    · rintro ⟨a, b, c⟩
      exact ⟨⟨fun h => absurd h (not_lt.2 b), fun h => absurd c h⟩, a⟩
  have h3 : Crosses p (⟨x0, y1⟩, ⟨x0, y0⟩) ↔ p.x < x0 ∧ y0 ≤ p.y ∧ p.y < y1 := by
    simp only [Crosses, sub_self, mul_zero, zero_div, add_zero]
    constructor
    · rintro ⟨h, h'⟩
      by_cases hc : p.y < y1
      · exact ⟨h', not_lt.1 (h.1 hc), hc⟩
      · exact absurd (h.2 fun h0 => hc (h0.trans hy)) hc
    · rintro ⟨a, b, c⟩
      exact ⟨⟨fun _ => not_lt.2 b, fun _ => c⟩, a⟩
  have hs : sides (ring x0 y0 x1 y1) = [(⟨x0, y0⟩, ⟨x1, y0⟩), (⟨x1, y0⟩, ⟨x1, y1⟩), (⟨x1, y1⟩, ⟨x0, y1⟩),
    (⟨x0, y1⟩, ⟨x0, y0⟩), (⟨x0, y0⟩, ⟨x0, y0⟩)] := rfl
  simp only [WithinLine, crossings, hs, List.countP_cons, List.countP_nil, h1, h2, h3, decide_eq_true_eq]
  by_cases a : p.x < x0
  · have b : p.x < x1 := a.trans hx
    have c : ¬ x0 ≤ p.x := not_le.2 a
    by_cases hh : y0 ≤ p.y ∧ p.y < y1
    · simp only [a, b, hh.1, hh.2, c, and_self, if_true, if_false, false_and, iff_false]
      decide
    · simp only [a, b, hh, c, and_false, if_false, false_and, iff_false]
      decide
  · by_cases b : p.x < x1
    · by_cases hh : y0 ≤ p.y ∧ p.y < y1
      · simp [a, b, hh.1, hh.2, not_lt.1 a]
      · simp only [a, b, hh, not_lt.1 a, and_false, if_false, false_and, true_and, iff_false]
        decide
    · simp [a, b]

/-- A square with a square hole. -/
def frame : Geometry := .polygon ⟨ring 0 0 4 4, [ring 1 1 3 3]⟩

theorem frame_proper : Proper frame := by
  have hP : ∀ P ∈ frame.polygons, P = ⟨ring 0 0 4 4, [ring 1 1 3 3]⟩ := by simp [frame, Geometry.polygons]
  constructor
  · intro P h r hr
    rw [hP P h] at hr
    simp only [List.mem_cons, List.not_mem_nil, or_false] at hr
    rcases hr with rfl | rfl <;> exact ⟨by simp [ring], rfl⟩
  · intro P h hole hh p hw
    rw [hP P h] at hh ⊢
    simp only [List.mem_singleton] at hh
    subst hh
    rw [within_ring (by norm_num) (by norm_num)] at hw ⊢
    exact ⟨by linarith [hw.1], by linarith [hw.2.1], by linarith [hw.2.2.1], by linarith [hw.2.2.2]⟩
  · intro P h
    rw [hP P h]
    simp
  · simp [frame, Geometry.polygons]

theorem frame_frames : Frames frame 0 0 4 4 := by
  have hm : ∀ p : Vec ℝ, p ∈ ring 0 0 4 4 → 0 ≤ p.x ∧ 0 ≤ p.y ∧ p.x ≤ 4 ∧ p.y ≤ 4 := by
    intro p hp
    simp only [ring, List.mem_cons, List.not_mem_nil, or_false] at hp
    rcases hp with rfl | rfl | rfl | rfl | rfl <;> norm_num
  have hP : ∀ P ∈ frame.polygons, P.exterior = ring 0 0 4 4 := by simp [frame, Geometry.polygons]
  have hi : (⟨ring 0 0 4 4, [ring 1 1 3 3]⟩ : Poly) ∈ frame.polygons := by simp [frame, Geometry.polygons]
  refine ⟨⟨⟨_, hi, ⟨0, 0⟩, by simp [ring], rfl⟩, ?_⟩, ⟨⟨_, hi, ⟨0, 0⟩, by simp [ring], rfl⟩, ?_⟩,
    ⟨⟨_, hi, ⟨4, 4⟩, by simp [ring], rfl⟩, ?_⟩, ⟨⟨_, hi, ⟨4, 4⟩, by simp [ring], rfl⟩, ?_⟩⟩
  all_goals
    rintro x ⟨P, h, p, hp, rfl⟩
    rw [hP P h] at hp
    have := hm p hp
  · exact this.1
  · exact this.2.1
  · exact this.2.2.1
  · exact this.2.2.2

open Classical in
/-- Numbers as Python prints them. -/
noncomputable def sampleText (x : ℝ) : Text :=
  if x = 0 then t!"0.0" else if x = 1 then t!"1.0" else if x = 3 then t!"3.0" else t!"4.0"

theorem sample_reads (x : ℝ) (h : x = 0 ∨ x = 1 ∨ x = 3 ∨ x = 4) : readNumber (sampleText x) = some x := by
  have n0 : number t!"0.0" = some 0 := by decide +kernel
  have n1 : number t!"1.0" = some 1 := by decide +kernel
  have n3 : number t!"3.0" = some 3 := by decide +kernel
  have n4 : number t!"4.0" = some 4 := by decide +kernel
  rcases h with rfl | rfl | rfl | rfl <;> norm_num [sampleText, readNumber, n0, n1, n3, n4]

theorem frame_printed (x : ℝ) (h : Printed frame 0 0 4 4 x) : readNumber (sampleText x) = some x := by
  apply sample_reads
  rcases h with rfl | rfl | rfl | rfl | rfl | rfl | ⟨P, hP, r, hr, p, hp, h⟩
  all_goals try norm_num
  simp only [frame, Geometry.polygons, List.mem_singleton] at hP
  subst hP
  simp only [List.mem_cons, List.not_mem_nil, or_false] at hr
  rcases hr with rfl | rfl
  all_goals
    simp only [ring, List.mem_cons, List.not_mem_nil, or_false] at hp
    rcases hp with rfl | rfl | rfl | rfl | rfl <;> rcases h with rfl | rfl <;> norm_num

theorem frame_in (p : Vec ℝ) : InGeometry frame p ↔ (0 ≤ p.x ∧ p.x < 4 ∧ 0 ≤ p.y ∧ p.y < 4) ∧
    ¬ (1 ≤ p.x ∧ p.x < 3 ∧ 1 ≤ p.y ∧ p.y < 3) := by
  simp [InGeometry, frame, Geometry.polygons, InPolygon, within_ring]

/-- The sample meets the hypotheses: the frame is shown, with its hole. -/
example (color : Style) : ∃ t d, saveSvg sampleText (fun t => t) .bytesIO frame color = some t ∧ readDrawing t = some d ∧
    d.width = 4 ∧ d.paint ⟨1 / 2, 2⟩ = [(color.foreground, 6 / 10)] ∧ d.paint ⟨2, 2⟩ = [] ∧ d.paint ⟨5, 1⟩ = [] := by
  obtain ⟨t, d, h1, h2, h3, -, h5, h6, -⟩ := c77_shown_partial (text := sampleText) (fun t => t) (fun _ _ => rfl) .bytesIO
    (by decide) frame color frame_proper ⟨⟨1 / 2, 1 / 2⟩, by rw [frame_in]; norm_num⟩ 0 0 4 4 frame_frames frame_printed
  refine ⟨t, d, h1, h2, by rw [h3]; norm_num, h5 _ ?_, h6 _ ?_, h6 _ ?_⟩ <;> rw [frame_in] <;> norm_num

/-- **C77, false of the code** (colours). An opaque foreground colour is not painted opaque: of every geometry with a point,
saved in any way, the drawing that is read shows the colour with an opacity less than 1. -/
theorem c77_false_opacity {Byte : Type} (encode : Text → List Byte) (he : ∀ a b, encode (a ++ b) = encode a ++ encode b)
    (destination : Destination) (hd : destination ≠ .openFile) (g : Geometry) (color : Style) (hp : Proper g)
    (p : Vec ℝ) (hg : InGeometry g p) (xmin ymin xmax ymax : ℝ) (hf : Frames g xmin ymin xmax ymax)
    (hn : ∀ x, Printed g xmin ymin xmax ymax x → readNumber (text x) = some x) :
    ∃ t d q c o, saveSvg text encode destination g color = some (encode t) ∧ readDrawing t = some d ∧
      d.paint q = [(c, o)] ∧ o < 1 := by
  obtain ⟨t, d, h1, h2, -, -, h3, -⟩ := c77_shown_partial encode he destination hd g color hp ⟨p, hg⟩ xmin ymin xmax ymax hf hn
  refine ⟨t, d, ⟨p.x - xmin, ymax - p.y⟩, _, _, h1, h2, h3 _ ?_, by norm_num⟩
  have : (⟨xmin + (p.x - xmin), ymax - (ymax - p.y)⟩ : Vec ℝ) = p := by ext <;> simp
  rw [this]
  exact hg

/-- **C77, in part** (`save`). With every spelling of `svg` the same is saved, and nothing with any other format.
Missing: as in `c77_shown_partial`. -/
theorem c77_save_partial {Byte : Type} (fold : Text → Text) (hs : fold t!"svg" = t!"svg") (encode : Text → List Byte)
    (he : ∀ a b, encode (a ++ b) = encode a ++ encode b)
    (destination : Destination) (hd : destination ≠ .openFile) (format : Text) (g : Geometry) (color : Style) (hp : Proper g)
    (hne : ∃ p, InGeometry g p) (xmin ymin xmax ymax : ℝ) (hf : Frames g xmin ymin xmax ymax)
    (hn : ∀ x, Printed g xmin ymin xmax ymax x → readNumber (text x) = some x) :
    (fold format ≠ t!"svg" → save text fold encode destination format g color = none) ∧
    (fold format = t!"svg" → ∃ t d, save text fold encode destination format g color = some (encode t) ∧ readDrawing t = some d ∧
      d.width = xmax - xmin ∧ d.height = ymax - ymin ∧
      (∀ q, InGeometry g ⟨xmin + q.x, ymax - q.y⟩ → d.paint q = [(color.foreground, 6 / 10)]) ∧
      (∀ q, ¬ InGeometry g ⟨xmin + q.x, ymax - q.y⟩ → d.paint q = []) ∧
      (∀ p, InGeometry g p → 0 ≤ p.x - xmin ∧ p.x - xmin ≤ d.width ∧ 0 ≤ ymax - p.y ∧ ymax - p.y ≤ d.height) ∧
      ∀ f ∈ d.fills, f.NoOutline) := by
  constructor
  · intro h
    rw [save, hs, if_neg h]
  · intro h
    rw [save, hs, if_pos h]
    exact c77_shown_partial encode he destination hd g color hp hne xmin ymin xmax ymax hf hn

/-- The sample meets the hypotheses, with letters made small as the spelling. -/
example (color : Style) : ∃ t d, save sampleText (·.map Char.toLower) (fun t => t) .bytesIO t!"SvG" frame color = some t ∧
    readDrawing t = some d ∧ d.width = 4 := by
  obtain ⟨-, h⟩ := c77_save_partial (text := sampleText) (·.map Char.toLower) (by decide) (fun t => t) (fun _ _ => rfl) .bytesIO
    (by decide) t!"SvG" frame color frame_proper ⟨⟨1 / 2, 1 / 2⟩, by rw [frame_in]; norm_num⟩ 0 0 4 4 frame_frames frame_printed
  obtain ⟨t, d, h1, h2, h3, -⟩ := h (by decide)
  exact ⟨t, d, h1, h2, by rw [h3]; norm_num⟩

/-- **C77, false of the code** (open files). A file opened by the caller is refused, although the documentation promises that
files are written to directly. -/
theorem c77_false_open_file {Byte : Type} (encode : Text → List Byte) (g : Geometry) (color : Style) :
    saveSvg text encode .openFile g color = none ∧ (saveSvg text encode .bytesIO g color).isSome := ⟨rfl, rfl⟩

/-- UTF-16 as Python encodes it: a mark, then two bytes for each character (of the basic plane), the lower one first. -/
def utf16 (t : Text) : List ℕ := 255 :: 254 :: t.flatMap fun c => [c.toNat % 256, c.toNat / 256]

theorem utf16_injective : ∀ {a b : Text}, utf16 a = utf16 b → a = b := by
  have key : ∀ a b : Text, (a.flatMap fun c => [c.toNat % 256, c.toNat / 256]) = (b.flatMap fun c => [c.toNat % 256, c.toNat / 256]) →
      a = b := by
    intro a
    induction a with
    | nil =>
      intro b h
      cases b with
      | nil => rfl
      | cons d b => simp at h
    | cons c a ih =>
      intro b h
      cases b with
      | nil => simp at h
      | cons d b =>
        simp only [List.flatMap_cons, List.cons_append, List.nil_append, List.cons.injEq] at h
        obtain ⟨h1, h2, h3⟩ := h
        have hc : c.toNat = d.toNat := by omega
        have : c = d := Char.toNat_inj.1 hc
        rw [this, ih b h3]
  intro a b h
  simp only [utf16, List.cons.injEq, true_and] at h
  exact key a b h

/-- **C77, false of the code** (encodings). Every piece of the text is encoded on its own.  With UTF-16, each piece begins with
a byte order mark: what is written is not the encoding of a document. -/
theorem c77_false_encoding (color : Style) : ∃ bytes, saveSvg text utf16 .path (.several []) color = some bytes ∧
    ∀ t, utf16 t = bytes → readXml t = none := by
  refine ⟨_, rfl, fun t ht => ?_⟩
  have e : t = t!"<svg xmlns=\"http://www.w3.org/2000/svg\" xmlns:xlink=\"http://www.w3.org/1999/xlink\" " ++ Char.ofNat 65279 :: t!"/>" :=
    by
    apply utf16_injective
    rw [ht]
    show List.flatMap utf16 [t!"<svg xmlns=\"http://www.w3.org/2000/svg\" xmlns:xlink=\"http://www.w3.org/1999/xlink\" ", t!"/>"] = _
    decide +kernel
  rw [e]
  unfold readXml
  have : readElement (t!"<svg xmlns=\"http://www.w3.org/2000/svg\" xmlns:xlink=\"http://www.w3.org/1999/xlink\" " ++ Char.ofNat 65279 :: t!"/>").length
    (t!"<svg xmlns=\"http://www.w3.org/2000/svg\" xmlns:xlink=\"http://www.w3.org/1999/xlink\" " ++ Char.ofNat 65279 :: t!"/>") = none := by
    rfl
  rw [this]

/-- **C77, false of the code** (the encoding asked for). The image returned by `GerberFile.render_with_shapely` ignores the
encoding: UTF-8 is written although UTF-16 is asked for. -/
theorem c77_false_keyword (color : Style) (utf8 : Text → List ℕ) (h8 : ∀ t : Text, (∀ c ∈ t, c.toNat < 128) → utf8 t = t.map Char.toNat) :
    imageSaveSvg text utf8 (some utf16) .path (.several []) color ≠ saveSvg text utf16 .path (.several []) color := by
  intro h
  have e : saveSvg text utf8 .path (.several []) color = some (utf8 t!"<svg xmlns=\"http://www.w3.org/2000/svg\" xmlns:xlink=\"http://www.w3.org/1999/xlink\" " ++
      (utf8 t!"/>" ++ [])) := rfl
  rw [imageSaveSvg, e, h8 _ (by decide), h8 _ (by decide)] at h
  have e2 : saveSvg text utf16 .path (.several []) color =
      some ([t!"<svg xmlns=\"http://www.w3.org/2000/svg\" xmlns:xlink=\"http://www.w3.org/1999/xlink\" ", t!"/>"].flatMap utf16) := rfl
  rw [e2] at h
  revert h
  decide +kernel

end Verif.Props.Svg
