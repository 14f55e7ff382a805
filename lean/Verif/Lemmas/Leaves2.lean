import Verif.Lemmas.Leaves

/-!
# Reading back single printed extended commands
-/

namespace Verif.Grammar

open Verif.Text Verif.Fmt Verif.Peg Verif.Syntax Verif.Spec Verif.Formatter
open Verif.Math hiding P

/-- Result of a choice of words. -/
def ofOneOf : Option (Text × Text) → Res Text
  | some p => .ok p.1 p.2
  | none => .fail

theorem oneOf_cons {ws : List Text} {c : Char} {s : Text} (h : isBlank c = false) :
    oneOf ws (c :: s) = ofOneOf (oneOfIn ws (c :: s)) := by
  unfold oneOf; rw [skip_of_head h]; cases oneOfIn ws (c :: s) <;> rfl

theorem double_stop {fd : ℚ → Text} {q : ℚ} (h : Reads fd q) {c : Char} {r : Text} (hc : isDigit c = false)
    (hc' : (c == '.') = false) : double (fd q ++ c :: r) = .ok q (c :: r) :=
  double_ok h (numEnd_cons hc (by simpa using hc'))

/-- Both number formats write numbers the grammar reads back. -/
def NumsOk (o : Opts) (n : Node) : Prop := ∀ q ∈ numbers n, Reads o.fd q ∧ Reads strFloat q

/-! ## Load commands -/

theorem load_ok {o : Opts} {rd : Text → Option Text} {n : Node} (h : Shape rd n) (hn : NumsOk o n) (r : Text)
    (hk : (∃ m, n = .lm m) ∨ (∃ m, n = .ln m) ∨ (∃ m, n = .lp m) ∨ (∃ m, n = .lr m) ∨ (∃ m, n = .ls m)) :
    load (leaf o n ++ r) = .ok n (o.lf ++ r) := by
  rcases hk with ⟨m, rfl⟩ | ⟨m, rfl⟩ | ⟨m, rfl⟩ | ⟨m, rfl⟩ | ⟨m, rfl⟩
  · cases m <;> pg [load, ln, lp, lr, ls, lm, leaf, ext, mirroringValue, oneOf_cons, oneOfIn, ofOneOf, convert, member]
  · pg [load, ln, lp, lr, ls, lm, leaf, ext, string_ok h]
  · cases m <;> pg [load, ln, lp, lr, ls, lm, leaf, ext, polarityValue, oneOf_cons, oneOfIn, ofOneOf, convert, member]
  · have := (hn m (by simp [numbers])).1
    pg [load, ln, lp, lr, ls, lm, leaf, ext, double_stop this]
  · have := (hn m (by simp [numbers])).1
    pg [load, ln, lp, lr, ls, lm, leaf, ext, double_stop this]

/-! ## Properties -/

theorem digit_ok {a : Nat} (h : a < 10) (r : Text) : digit (natStr a ++ r) = .ok a r := by
  have : a = 0 ∨ a = 1 ∨ a = 2 ∨ a = 3 ∨ a = 4 ∨ a = 5 ∨ a = 6 ∨ a = 7 ∨ a = 8 ∨ a = 9 := by omega
  have e : ∃ c, natStr a = [c] ∧ isDigit c = true ∧ isBlank c = false ∧ digitVal c = a := by
    rcases this with rfl | rfl | rfl | rfl | rfl | rfl | rfl | rfl | rfl | rfl
    · exact ⟨'0', by decide +kernel⟩
    · exact ⟨'1', by decide +kernel⟩
    · exact ⟨'2', by decide +kernel⟩
    · exact ⟨'3', by decide +kernel⟩
    · exact ⟨'4', by decide +kernel⟩
    · exact ⟨'5', by decide +kernel⟩
    · exact ⟨'6', by decide +kernel⟩
    · exact ⟨'7', by decide +kernel⟩
    · exact ⟨'8', by decide +kernel⟩
    · exact ⟨'9', by decide +kernel⟩
  obtain ⟨c, h1, h2, h3, h4⟩ := e
  simp [digit, h1, h2, h4, skip_of_head h3]

/-- Text of an integer rotation. -/
def IrOk (o : Opts) : Node → Prop
  | .ir n => (∃ c t, o.fdInt n = c :: t ∧ isBlank c = false) ∧
      ∀ rest, NumEnd rest → pDouble (o.fdInt n ++ rest) = some ((n : ℚ), rest)
  | _ => True

theorem prop_ok {o : Opts} {rd : Text → Option Text} {n : Node} (h : Shape rd n) (hn : NumsOk o n) (hi : IrOk o n)
    (r : Text) (hk : (∃ m, n = .as_ m) ∨ (∃ z m a b c d, n = .fs z m a b c d) ∨ (∃ m, n = .in_ m) ∨ (∃ m, n = .ip m) ∨
      (∃ m, n = .ir m) ∨ (∃ a b, n = .mi a b) ∨ (∃ m, n = .mo m) ∨ (∃ a b, n = .of_ a b) ∨ (∃ a b, n = .sf a b)) :
    properties (leaf o n ++ r) = .ok n (o.lf ++ r) := by
  rcases hk with ⟨m, rfl⟩ | ⟨z, m, a, b, c, d, rfl⟩ | ⟨m, rfl⟩ | ⟨m, rfl⟩ | ⟨m, rfl⟩ | ⟨a, b, rfl⟩ | ⟨m, rfl⟩ |
    ⟨a, b, rfl⟩ | ⟨a, b, rfl⟩
  · cases m <;> pg [properties, fs, mo, ip, ir, of_, as_, leaf, ext, axisValue, oneOf_cons, oneOfIn, ofOneOf, convert, member]
  · obtain ⟨ha, hb, hc, hd⟩ := h
    cases z <;> cases m <;>
      pg [properties, fs, leaf, ext, zerosValue, notationValue, oneOf_cons, oneOfIn, ofOneOf, convert, member, digit_ok ha, digit_ok hb,
        digit_ok hc, digit_ok hd]
  · pg [properties, fs, mo, ip, ir, of_, as_, mi, in_, leaf, ext, string_ok h]
  · cases m <;> pg [properties, fs, mo, ip, leaf, ext, imageValue, oneOf_cons, oneOfIn, ofOneOf, convert, member]
  · obtain ⟨⟨c, t, h1, h2⟩, h3⟩ := hi
    have key : double (o.fdInt m ++ '*' :: '%' :: (o.lf ++ r)) = .ok (m : ℚ) ('*' :: '%' :: (o.lf ++ r)) := by
      have : skip (o.fdInt m ++ '*' :: '%' :: (o.lf ++ r)) = o.fdInt m ++ '*' :: '%' :: (o.lf ++ r) := by
        rw [h1]; exact skip_of_head h2
      simp [double, this, h3 _ (numEnd_cons (c := '*') (r := '%' :: (o.lf ++ r)) (by decide) (by decide))]
    pg [properties, fs, mo, ip, ir, leaf, ext, key]
  · cases a <;> cases b <;> pg [properties, fs, mo, ip, ir, of_, as_, mi, boolean, leaf, ext, oneOf_cons, oneOfIn, ofOneOf]
  · cases m <;> pg [properties, fs, mo, leaf, ext, unitValue, oneOf_cons, oneOfIn, ofOneOf, convert, member]
  · cases a with
    | none =>
      cases b with
      | none => pg [properties, fs, mo, ip, ir, of_, leaf, ext, optNum]
      | some b =>
        have := (hn b (by simp [numbers])).2
        pg [properties, fs, mo, ip, ir, of_, leaf, ext, optNum, double_stop this]
    | some a =>
      have ha := (hn a (by simp [numbers])).2
      cases b with
      | none => pg [properties, fs, mo, ip, ir, of_, leaf, ext, optNum, double_stop ha]
      | some b =>
        have := (hn b (by simp [numbers])).2
        pg [properties, fs, mo, ip, ir, of_, leaf, ext, optNum, double_stop ha, double_stop this]
  · have ha := (hn a (by simp [numbers])).1
    have hb := (hn b (by simp [numbers])).1
    pg [properties, fs, mo, ip, ir, of_, as_, mi, in_, sf, leaf, ext, double_stop ha, double_stop hb]

/-! ## Attributes -/

theorem fieldsText_head (fs : List Text) (r : Text) :
    ∃ c t, fieldsText fs ++ '*' :: r = c :: t ∧ isFieldChar c = false ∧ isBlank c = false ∧ isNameChar c = false ∧
      (c = ',' ∨ c = '*') ∧ (fs = [] → c = '*' ∧ t = r) ∧ (fs ≠ [] → c = ',') := by
  cases fs with
  | nil => exact ⟨'*', r, rfl, by decide, by decide, by decide, by simp, by simp, by simp⟩
  | cons f fs => exact ⟨',', f ++ fieldsText fs ++ '*' :: r, by simp [fieldsText], by decide, by decide, by decide, by simp,
      by simp, by simp⟩

theorem field_then {f : Text} (h : FieldOk f) (fs : List Text) (r : Text) :
    field (f ++ (fieldsText fs ++ '*' :: r)) = .ok f (fieldsText fs ++ '*' :: r) := by
  obtain ⟨c, t, e, h1, h2, _⟩ := fieldsText_head fs r
  rw [e]; exact field_ok h h1 h2

theorem field_star {f : Text} (h : FieldOk f) (r : Text) : field (f ++ '*' :: r) = .ok f ('*' :: r) :=
  field_ok h (by decide) (by decide)

theorem field_comma {f : Text} (h : FieldOk f) (r : Text) : field (f ++ ',' :: r) = .ok f (',' :: r) :=
  field_ok h (by decide) (by decide)

theorem fields_fuel {fs : List Text} (h : FieldsOk fs) (r : Text) :
    ∀ n, fs.length ≤ n → manyFuel (cs field) n (fieldsText fs ++ '*' :: r) = .ok fs ('*' :: r) := by
  induction fs with
  | nil =>
    intro n _
    exact manyFuel_stop (by pg [fieldsText]) n
  | cons f fs ih =>
    intro n hn
    cases n with
    | zero => simp at hn
    | succ n =>
      have hf := field_then (h f (by simp)) fs r
      refine manyFuel_step (r := fieldsText fs ++ '*' :: r) ?_ (ih (fun g hg => h g (by simp [hg])) n (by simpa using hn))
      pg [fieldsText, hf]

theorem fieldsText_length (fs : List Text) : fs.length ≤ (fieldsText fs).length := by
  induction fs with
  | nil => simp
  | cons f fs ih => simp [fieldsText]; omega

theorem fields_ok {fs : List Text} (h : FieldsOk fs) (r : Text) :
    fields (fieldsText fs ++ '*' :: r) = .ok fs ('*' :: r) :=
  fields_fuel h r _ (by have := fieldsText_length fs; simp; omega)

theorem isUserStart_blank {c : Char} (h : isUserStart c = true) : isBlank c = false := by
  cases hb : isBlank c with
  | false => rfl
  | true =>
    simp [isBlank] at hb
    rcases hb with ((rfl | rfl) | rfl) | rfl <;> simp [isUserStart] at h

theorem isNameStart_blank {c : Char} (h : isNameStart c = true) : isBlank c = false := by
  simp only [isNameStart, Bool.or_eq_true, beq_iff_eq] at h
  rcases h with rfl | h
  · decide
  · exact isUserStart_blank h

theorem userName_fields {n : Text} (h : NameOk isUserStart n) (fs : List Text) (r : Text) :
    userName (n ++ (fieldsText fs ++ '*' :: r)) = .ok n (fieldsText fs ++ '*' :: r) := by
  obtain ⟨c, t, e, _, _, h3, _⟩ := fieldsText_head fs r
  rw [e]; exact nameRe_ok h (fun _ => isUserStart_blank) h3

theorem userName_dot {t : Text} : userName ('.' :: t) = .fail := by
  simp [userName, nameRe, skip_of_head (show isBlank '.' = false by decide), isUserStart]

theorem td_ok {o : Opts} {rd : Text → Option Text} {n : Option Text} (h : OptOk StrOk n) (r : Text) :
    attributes rd (leaf o (.td n) ++ r) = .ok (.td n) (o.lf ++ r) := by
  cases n with
  | none => pg [attributes, ta, taUser, taFunction, taDrill, taFlash, td, leaf, ext, string_star]
  | some n => pg [attributes, ta, taUser, taFunction, taDrill, taFlash, td, leaf, ext, string_ok (h n rfl)]

theorem convert_fail {α β : Type} {f : α → Option β} {p : P α} {s : Text} (h : p s = .fail) : convert f p s = .fail :=
  andThen_fail h

/-- Commands of the TA group. -/
theorem attr_ta {rd : Text → Option Text} {t r : Text} {n : Node} (h : ta t = .ok n r) :
    attributes rd t = .ok n r := by simp [attributes, firstOf, orElse, h]

theorem attr_tf {rd : Text → Option Text} {t r : Text} {n : Node} (h : tf rd ('%' :: 'T' :: 'F' :: t) = .ok n r) :
    attributes rd ('%' :: 'T' :: 'F' :: t) = .ok n r := by
  have h1 : ta ('%' :: 'T' :: 'F' :: t) = .fail := by
    apply firstOf_fail
    simp only [List.mem_cons, List.not_mem_nil, or_false, forall_eq_or_imp, forall_eq]
    exact ⟨ext_fail (by decide) (by decide), ext_fail (by decide) (by decide), ext_fail (by decide) (by decide),
      ext_fail (by decide) (by decide)⟩
  have h2 : td ('%' :: 'T' :: 'F' :: t) = .fail := ext_fail (by decide) (by decide)
  simp [attributes, firstOf, orElse, h, h1, h2]

theorem attr_to {rd : Text → Option Text} {t r : Text} {n : Node} (h : to_ ('%' :: 'T' :: 'O' :: t) = .ok n r) :
    attributes rd ('%' :: 'T' :: 'O' :: t) = .ok n r := by
  have e {α : Type} (x : Char) (hx : ['T', 'O'] ≠ ['T', x]) (p : P α) :
      extended (lit ['T', x] ≫ p) ('%' :: 'T' :: 'O' :: t) = .fail := ext_fail (by decide) hx
  have h1 : ta ('%' :: 'T' :: 'O' :: t) = .fail := by
    apply firstOf_fail
    simp only [List.mem_cons, List.not_mem_nil, or_false, forall_eq_or_imp, forall_eq]
    exact ⟨e 'A' (by decide) _, e 'A' (by decide) _, e 'A' (by decide) _, e 'A' (by decide) _⟩
  have h2 : td ('%' :: 'T' :: 'O' :: t) = .fail := e 'D' (by decide) _
  have h3 : tf rd ('%' :: 'T' :: 'O' :: t) = .fail := by
    apply firstOf_fail
    simp only [List.mem_cons, List.not_mem_nil, or_false, forall_eq_or_imp, forall_eq]
    have f := fun {α : Type} (p : P α) => e 'F' (by decide) p
    exact ⟨f _, andThen_fail (f _), andThen_fail (f _), andThen_fail (f _), f _, convert_fail (f _), f _, f _,
      andThen_fail (f _)⟩
  simp [attributes, firstOf, orElse, h, h1, h2, h3]

end Verif.Grammar
