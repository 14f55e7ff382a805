import Verif.Lemmas.Leaves2

/-!
# Reading back single printed attributes and aperture definitions
-/

namespace Verif.Grammar

open Verif.Text Verif.Fmt Verif.Peg Verif.Syntax Verif.Spec Verif.Formatter
open Verif.Math hiding P

/-! ## Aperture attributes -/

theorem taUser_ok {o : Opts} {rd : Text → Option Text} {n : Text} {fs : List Text} (h : Shape rd (.taUser n fs)) (r : Text) :
    attributes rd (leaf o (.taUser n fs) ++ r) = .ok (.taUser n fs) (o.lf ++ r) := by
  apply attr_ta
  pg [ta, taUser, leaf, ext, userName_fields h.1, fields_ok h.2]

theorem strip_append' (w r : Text) : strip w (w ++ r) = some r := by
  induction w with
  | nil => rfl
  | cons a w ih => simp [strip, ih]

/-- No word before `f` in the table is a beginning of `f` and a delimiter. -/
theorem aper_first : ∀ f ∈ aperFunctions, ∀ c ∈ [',', '*'], oneOfIn aperFunctions (f ++ [c]) = some (f, [c]) := by
  decide +kernel

theorem strip_longer {w s t : Text} {u : Text} (h : strip w s = some u) : strip w (s ++ t) = some (u ++ t) := by
  induction w generalizing s with
  | nil => simp [strip] at h ⊢; exact h
  | cons a w ih =>
    cases s with
    | nil => simp [strip] at h
    | cons b s =>
      simp only [strip, List.cons_append] at h ⊢
      split at h
      · rename_i e; rw [if_pos e]; exact ih h
      · cases h

/-- A word without delimiters that is not a beginning of a text up to its first delimiter is not a beginning of it. -/
theorem strip_delim {w s t : Text} {c : Char} (hw : c ∉ w) (h : strip w (s ++ [c]) = none) :
    strip w (s ++ c :: t) = none := by
  induction w generalizing s with
  | nil => simp [strip] at h
  | cons a w ih =>
    cases s with
    | nil =>
      simp only [List.nil_append, strip]
      rw [if_neg]
      rintro rfl; simp at hw
    | cons b s =>
      simp only [List.cons_append, strip] at h ⊢
      split
      · rename_i e; rw [if_pos e] at h; exact ih (by simp at hw; exact hw.2) h
      · rfl

theorem oneOfIn_delim {ws : List Text} {c : Char} (hw : ∀ w ∈ ws, c ∉ w) {f s t : Text}
    (h : oneOfIn ws (s ++ [c]) = some (f, [c])) : oneOfIn ws (s ++ c :: t) = some (f, c :: t) := by
  induction ws with
  | nil => simp [oneOfIn] at h
  | cons w ws ih =>
    simp only [oneOfIn] at h ⊢
    cases hs : strip w (s ++ [c]) with
    | some u =>
      rw [hs] at h
      simp at h
      have := strip_longer (t := t) hs
      rw [h.2] at this
      simp at this
      rw [this, h.1]
    | none =>
      rw [hs] at h
      rw [strip_delim (hw w (by simp)) hs]
      exact ih (fun v hv => hw v (by simp [hv])) h

theorem aper_nodelim : ∀ w ∈ aperFunctions, ∀ c ∈ [',', '*'], c ∉ w := by decide +kernel

theorem aper_head : ∀ w ∈ aperFunctions, ∃ c t, w = c :: t ∧ isBlank c = false := by
  intro w hw
  have : ∀ w ∈ aperFunctions, w.head?.any (fun c => !isBlank c) = true := by decide +kernel
  cases w with
  | nil => exact absurd hw (by decide +kernel)
  | cons c t => exact ⟨c, t, rfl, by simpa using this _ hw⟩

theorem oneOf_aper {f : Text} (h : f ∈ aperFunctions) (fs : List Text) (r : Text) :
    oneOf aperFunctions (f ++ (fieldsText fs ++ '*' :: r)) = .ok f (fieldsText fs ++ '*' :: r) := by
  obtain ⟨c, t, e, _, _, _, hc, _⟩ := fieldsText_head fs r
  have hc' : c ∈ [',', '*'] := by simpa using hc
  have h1 := oneOfIn_delim (t := t) (fun w hw => aper_nodelim w hw c hc') (aper_first f h c hc')
  rw [e]
  obtain ⟨a, u, rfl, hb⟩ := aper_head f h
  rw [List.cons_append, oneOf_cons hb, ← List.cons_append, h1]
  rfl

theorem oneOfIn_all {ws : List Text} {s : Text} (h : ∀ w ∈ ws, strip w s = none) : oneOfIn ws s = none := by
  induction ws with
  | nil => rfl
  | cons w ws ih => simp [oneOfIn, h w (by simp), ih (fun v hv => h v (by simp [hv]))]

theorem strip_field {w a : Text} (h : strip w a = none) {c : Char} {t : Text} (hw : c ∉ w) : strip w (a ++ c :: t) = none := by
  induction w generalizing a with
  | nil => simp [strip] at h
  | cons x w ih =>
    cases a with
    | nil => simp only [List.nil_append, strip]; rw [if_neg]; rintro rfl; simp at hw
    | cons b a =>
      simp only [List.cons_append, strip] at h ⊢
      split
      · rename_i e; rw [if_pos e] at h; exact ih h (by simp at hw; exact hw.2)
      · rfl

theorem oneOf_noaper {a : Text} (ha : FieldOk a) (h : ∀ w ∈ aperFunctions, strip w a = none) (fs : List Text) (r : Text) :
    oneOf aperFunctions (a ++ (fieldsText fs ++ '*' :: r)) = .fail := by
  obtain ⟨c, t, e, _, hcb, _, hc, _⟩ := fieldsText_head fs r
  have hc' : c ∈ [',', '*'] := by simpa using hc
  rw [e]
  have hs : skip (a ++ c :: t) = a ++ c :: t := by
    cases a with
    | nil => exact skip_of_head hcb
    | cons x a => exact skip_of_head (ha.2.1 x a rfl)
  simp only [oneOf, hs, oneOfIn_all (fun w hw => strip_field (h w hw) (aper_nodelim w hw c hc'))]

theorem taFunction_ok {o : Opts} {rd : Text → Option Text} {f : Option Text} {fs : List Text}
    (h : Shape rd (.taFunction f fs)) (r : Text) :
    attributes rd (leaf o (.taFunction f fs) ++ r) = .ok (.taFunction f fs) (o.lf ++ r) := by
  obtain ⟨hf, hfs, hno⟩ := h
  apply attr_ta
  cases f with
  | some f => pg [ta, taUser, taFunction, leaf, ext, userName_dot, oneOf_aper (hf f rfl), fields_ok hfs]
  | none =>
    cases fs with
    | nil =>
      have := fields_ok hfs ('%' :: (o.lf ++ r))
      simp only [fieldsText, List.nil_append] at this
      pg [ta, taUser, taFunction, leaf, ext, userName_dot, fieldsText, this]
    | cons a t =>
      have h1 := oneOf_noaper (hfs a (by simp)) (hno rfl a t rfl) t ('%' :: (o.lf ++ r))
      have := fields_ok hfs ('%' :: (o.lf ++ r))
      simp only [fieldsText, List.append_assoc, List.cons_append] at this
      pg [ta, taUser, taFunction, leaf, ext, userName_dot, fieldsText, h1, this]

theorem taDrill_ok {o : Opts} {rd : Text → Option Text} {p m : Option ℚ} (h : Shape rd (.taDrill p m))
    (hn : NumsOk o (.taDrill p m)) (r : Text) :
    attributes rd (leaf o (.taDrill p m) ++ r) = .ok (.taDrill p m) (o.lf ++ r) := by
  apply attr_ta
  cases p with
  | none =>
    have := h rfl
    subst this
    pg [ta, taUser, taFunction, taDrill, leaf, ext, userName_dot, optNum]
  | some p =>
    have hp := (hn p (by simp [numbers])).1
    cases m with
    | none => pg [ta, taUser, taFunction, taDrill, leaf, ext, userName_dot, optNum, double_stop hp]
    | some m =>
      have hm := (hn m (by simp [numbers])).1
      pg [ta, taUser, taFunction, taDrill, leaf, ext, userName_dot, optNum, double_stop hp, double_stop hm]

theorem taFlash_ok {o : Opts} {rd : Text → Option Text} {s m q : Text} {f z : Option Text} {l : List Text}
    (h : Shape rd (.taFlash s m q f z l)) (r : Text) :
    attributes rd (leaf o (.taFlash s m q f z l) ++ r) = .ok (.taFlash s m q f z l) (o.lf ++ r) := by
  obtain ⟨hs, hm, hr, ⟨f, rfl, hf⟩, ⟨z, rfl, hz⟩, hl⟩ := h
  apply attr_ta
  have e : leaf o (.taFlash s m q (some f) (some z) l) ++ r =
      '%' :: 'T' :: 'A' :: (t!".FlashText" ++ ',' :: (s ++ ',' :: (m ++ ',' :: (q ++ ',' :: (f ++ ',' :: (z ++
        (fieldsText l ++ '*' :: '%' :: (o.lf ++ r)))))))) := by
    simp [leaf, ext, commaOpt]
  rw [e]
  have h1 := field_comma hs (m ++ ',' :: (q ++ ',' :: (f ++ ',' :: (z ++ (fieldsText l ++ '*' :: '%' :: (o.lf ++ r))))))
  have h2 := field_comma hf (z ++ (fieldsText l ++ '*' :: '%' :: (o.lf ++ r)))
  have h3 := field_then hz l ('%' :: (o.lf ++ r))
  have h4 := fields_ok hl ('%' :: (o.lf ++ r))
  simp only [List.mem_cons, List.not_mem_nil, or_false] at hm hr
  rcases hm with rfl | rfl <;> rcases hr with rfl | rfl <;>
    simp only [List.cons_append, List.nil_append] at h1 ⊢ <;>
    pg [ta, taUser, taFunction, taDrill, taFlash, userName_dot, h1, h2, h3, h4, oneOf_cons, oneOfIn, ofOneOf]

/-! ## File attributes -/

theorem tfUser_ok {o : Opts} {rd : Text → Option Text} {n : Text} {fs : List Text} (h : Shape rd (.tfUser n fs)) (r : Text) :
    attributes rd (leaf o (.tfUser n fs) ++ r) = .ok (.tfUser n fs) (o.lf ++ r) := by
  have : tf rd (leaf o (.tfUser n fs) ++ r) = .ok (.tfUser n fs) (o.lf ++ r) := by
    pg [tf, tfUser, leaf, ext, userName_fields h.1, fields_ok h.2]
  exact attr_tf this

theorem parts_field : ∀ p ∈ parts, FieldOk p := by
  intro p hp
  simp only [parts, List.mem_cons, List.not_mem_nil, or_false] at hp
  rcases hp with rfl | rfl | rfl | rfl | rfl <;>
    exact ⟨by decide, (by intro c t h; simp at h; rw [← h.1]; decide), by decide⟩

theorem fieldOk_of {f : Text} (h : f.all isFieldChar = true) (h' : f.head?.all (fun c => !isBlank c) = true)
    (ht : '\t' ∉ f) : FieldOk f := by
  refine ⟨by simpa using h, ?_, ht⟩
  rintro c t rfl
  simpa using h'

theorem functions_field : ∀ p ∈ fileFunctions, FieldOk p := by
  intro p hp
  have : ∀ p ∈ fileFunctions, p.all isFieldChar = true ∧ p.head?.all (fun c => !isBlank c) = true ∧ '\t' ∉ p := by
    decide +kernel
  exact fieldOk_of (this p hp).1 (this p hp).2.1 (this p hp).2.2

theorem mounts_field : ∀ p ∈ mounts, FieldOk p := by
  intro p hp
  have : ∀ p ∈ mounts, p.all isFieldChar = true ∧ p.head?.all (fun c => !isBlank c) = true ∧ '\t' ∉ p := by
    decide +kernel
  exact fieldOk_of (this p hp).1 (this p hp).2.1 (this p hp).2.2

theorem tfPart_ok {o : Opts} {rd : Text → Option Text} {p : Text} {fs : List Text} (h : Shape rd (.tfPart p fs)) (r : Text) :
    attributes rd (leaf o (.tfPart p fs) ++ r) = .ok (.tfPart p fs) (o.lf ++ r) := by
  have : tf rd (leaf o (.tfPart p fs) ++ r) = .ok (.tfPart p fs) (o.lf ++ r) := by
    pg [tf, tfUser, userName_dot, tfPart, leaf, ext, field_then (parts_field p h.1), fields_ok h.2, h.1]
  exact attr_tf this

theorem tfFunction_ok {o : Opts} {rd : Text → Option Text} {p : Text} {fs : List Text} (h : Shape rd (.tfFunction p fs))
    (r : Text) : attributes rd (leaf o (.tfFunction p fs) ++ r) = .ok (.tfFunction p fs) (o.lf ++ r) := by
  have : tf rd (leaf o (.tfFunction p fs) ++ r) = .ok (.tfFunction p fs) (o.lf ++ r) := by
    pg [tf, tfUser, userName_dot, tfPart, tfFunction, leaf, ext, field_then (functions_field p h.1), fields_ok h.2, h.1]
  exact attr_tf this

theorem tfPolarity_ok {o : Opts} {rd : Text → Option Text} {p : Text} (h : Shape rd (.tfPolarity p)) (r : Text) :
    attributes rd (leaf o (.tfPolarity p) ++ r) = .ok (.tfPolarity p) (o.lf ++ r) := by
  have hf : FieldOk p := by
    have h' : p ∈ [t!"Positive", t!"Negative"] := h
    simp only [List.mem_cons, List.not_mem_nil, or_false] at h'
    rcases h' with rfl | rfl <;> exact fieldOk_of (by decide) (by decide) (by decide)
  have h' : p = t!"Positive" ∨ p = t!"Negative" := by
    have h' : p ∈ [t!"Positive", t!"Negative"] := h
    simpa using h'
  have : tf rd (leaf o (.tfPolarity p) ++ r) = .ok (.tfPolarity p) (o.lf ++ r) := by
    pg [tf, tfUser, userName_dot, tfPart, tfFunction, tfPolarity, leaf, ext, field_star hf, h']
  exact attr_tf this

theorem tfSame_ok {o : Opts} {rd : Text → Option Text} {i : Option Text} (h : Shape rd (.tfSame i)) (r : Text) :
    attributes rd (leaf o (.tfSame i) ++ r) = .ok (.tfSame i) (o.lf ++ r) := by
  have : tf rd (leaf o (.tfSame i) ++ r) = .ok (.tfSame i) (o.lf ++ r) := by
    cases i with
    | none => pg [tf, tfUser, userName_dot, tfPart, tfFunction, tfPolarity, tfSame, leaf, ext]
    | some i => pg [tf, tfUser, userName_dot, tfPart, tfFunction, tfPolarity, tfSame, leaf, ext, field_star (h i rfl)]
  exact attr_tf this

theorem tfDate_ok {o : Opts} {rd : Text → Option Text} {d : Text} (h : Shape rd (.tfDate d)) (r : Text) :
    attributes rd (leaf o (.tfDate d) ++ r) = .ok (.tfDate d) (o.lf ++ r) := by
  have : tf rd (leaf o (.tfDate d) ++ r) = .ok (.tfDate d) (o.lf ++ r) := by
    pg [tf, tfUser, userName_dot, tfPart, tfFunction, tfPolarity, tfSame, tfDate, convert, leaf, ext, field_star h.2, h.1]
  exact attr_tf this

theorem tfMd5_ok {o : Opts} {rd : Text → Option Text} {d : Text} (h : Shape rd (.tfMd5 d)) (r : Text) :
    attributes rd (leaf o (.tfMd5 d) ++ r) = .ok (.tfMd5 d) (o.lf ++ r) := by
  have : tf rd (leaf o (.tfMd5 d) ++ r) = .ok (.tfMd5 d) (o.lf ++ r) := by
    pg [tf, tfUser, userName_dot, tfPart, tfFunction, tfPolarity, tfSame, tfDate, tfSoftware, tfProject, tfMd5, convert, leaf,
      ext, field_star h.2, h.1]
  exact attr_tf this

theorem upTo3_ok {a b c : Text} (ha : FieldOk a) (hb : FieldOk b) (hc : FieldOk c) (r : Text) :
    upTo3 (',' :: (a ++ ',' :: (b ++ ',' :: (c ++ '*' :: r)))) = .ok (some a, some b, some c) ('*' :: r) := by
  pg [upTo3, field_comma ha, field_comma hb, field_star hc]

theorem tfSoftware_ok {o : Opts} {rd : Text → Option Text} {a b c : Text}
    (h : Shape rd (.tfSoftware (some a) (some b) (some c))) (r : Text) :
    attributes rd (leaf o (.tfSoftware (some a) (some b) (some c)) ++ r) =
      .ok (.tfSoftware (some a) (some b) (some c)) (o.lf ++ r) := by
  have hu := upTo3_ok (h.1 a rfl) (h.2.1 b rfl) (h.2.2 c rfl) ('%' :: (o.lf ++ r))
  have : tf rd (leaf o (.tfSoftware (some a) (some b) (some c)) ++ r) =
      .ok (.tfSoftware (some a) (some b) (some c)) (o.lf ++ r) := by
    pg [tf, tfUser, userName_dot, tfPart, tfFunction, tfPolarity, tfSame, tfDate, tfSoftware, convert, leaf, ext, commaOpt, hu]
  exact attr_tf this

theorem tfProject_ok {o : Opts} {rd : Text → Option Text} {a b c : Text}
    (h : Shape rd (.tfProject (some a) (some b) (some c))) (r : Text) :
    attributes rd (leaf o (.tfProject (some a) (some b) (some c)) ++ r) =
      .ok (.tfProject (some a) (some b) (some c)) (o.lf ++ r) := by
  have hu := upTo3_ok (h.1 a rfl) (h.2.1 b rfl) (h.2.2 c rfl) ('%' :: (o.lf ++ r))
  have : tf rd (leaf o (.tfProject (some a) (some b) (some c)) ++ r) =
      .ok (.tfProject (some a) (some b) (some c)) (o.lf ++ r) := by
    pg [tf, tfUser, userName_dot, tfPart, tfFunction, tfPolarity, tfSame, tfDate, tfSoftware, tfProject, convert, leaf, ext,
      commaOpt, hu]
  exact attr_tf this

/-! ## Object attributes -/

theorem toUser_ok {o : Opts} {rd : Text → Option Text} {n : Text} {fs : List Text} (h : Shape rd (.toUser n fs)) (r : Text) :
    attributes rd (leaf o (.toUser n fs) ++ r) = .ok (.toUser n fs) (o.lf ++ r) := by
  have : to_ (leaf o (.toUser n fs) ++ r) = .ok (.toUser n fs) (o.lf ++ r) := by
    pg [to_, toUser, leaf, ext, userName_fields h.1, fields_ok h.2]
  exact attr_to this

theorem toN_ok {o : Opts} {rd : Text → Option Text} {fs : List Text} (h : Shape rd (.toN fs)) (r : Text) :
    attributes rd (leaf o (.toN fs) ++ r) = .ok (.toN fs) (o.lf ++ r) := by
  have : to_ (leaf o (.toN fs) ++ r) = .ok (.toN fs) (o.lf ++ r) := by
    pg [to_, toUser, userName_dot, toN, leaf, ext, fields_ok h]
  exact attr_to this

theorem toP_ok {o : Opts} {rd : Text → Option Text} {a b : Text} {f : Option Text} (h : Shape rd (.toP a b f)) (r : Text) :
    attributes rd (leaf o (.toP a b f) ++ r) = .ok (.toP a b f) (o.lf ++ r) := by
  have : to_ (leaf o (.toP a b f) ++ r) = .ok (.toP a b f) (o.lf ++ r) := by
    cases f with
    | none => pg [to_, toUser, userName_dot, toN, toP, leaf, ext, field_comma h.1, field_star h.2.1]
    | some f => pg [to_, toUser, userName_dot, toN, toP, leaf, ext, field_comma h.1, field_comma h.2.1, field_star (h.2.2 f rfl)]
  exact attr_to this

theorem toText_ok {o : Opts} {rd : Text → Option Text} {k : ToKind} {v : Text} (h : Shape rd (.toText k v)) (r : Text) :
    attributes rd (leaf o (.toText k v) ++ r) = .ok (.toText k v) (o.lf ++ r) := by
  have hv : FieldOk v := h
  have : to_ (leaf o (.toText k v) ++ r) = .ok (.toText k v) (o.lf ++ r) := by
    cases k <;> pg [to_, toUser, userName_dot, toN, toP, toText, toRot, toMount, toHeight, convert, toLiteral, toName, leaf, ext,
      field_star hv]
  cases k <;> exact attr_to this

theorem reads_field {fd : ℚ → Text} {q : ℚ} (h : Reads fd q) : FieldOk (fd q) := by
  obtain ⟨⟨c, t, h1, h2, _⟩, h3, _⟩ := h
  refine ⟨fun c hc => (h3 c hc).1, ?_, fun hc => (h3 _ hc).2 rfl⟩
  intro c' t' e
  rw [h1] at e; simp at e; rw [← e.1]; exact h2

theorem reads_floatText {fd : ℚ → Text} {q : ℚ} (h : Reads fd q) : floatText (fd q) = some q := by
  have := h.2.2 [] (by intro c t h; simp at h)
  rw [List.append_nil] at this
  simp [floatText, this]

theorem toRot_ok {o : Opts} {rd : Text → Option Text} {q : ℚ} (hn : NumsOk o (.toRot q)) (r : Text) :
    attributes rd (leaf o (.toRot q) ++ r) = .ok (.toRot q) (o.lf ++ r) := by
  have hq := (hn q (by simp [numbers])).1
  have : to_ (leaf o (.toRot q) ++ r) = .ok (.toRot q) (o.lf ++ r) := by
    pg [to_, toUser, userName_dot, toN, toP, toText, toRot, convert, toLiteral, leaf, ext, field_star (reads_field hq),
      reads_floatText hq]
  exact attr_to this

theorem toHeight_ok {o : Opts} {rd : Text → Option Text} {q : ℚ} (hn : NumsOk o (.toHeight q)) (r : Text) :
    attributes rd (leaf o (.toHeight q) ++ r) = .ok (.toHeight q) (o.lf ++ r) := by
  have hq := (hn q (by simp [numbers])).1
  have : to_ (leaf o (.toHeight q) ++ r) = .ok (.toHeight q) (o.lf ++ r) := by
    pg [to_, toUser, userName_dot, toN, toP, toText, toRot, toMount, toHeight, convert, toLiteral, leaf, ext,
      field_star (reads_field hq), reads_floatText hq]
  exact attr_to this

theorem toMount_ok {o : Opts} {rd : Text → Option Text} {m : Text} (h : Shape rd (.toMount m)) (r : Text) :
    attributes rd (leaf o (.toMount m) ++ r) = .ok (.toMount m) (o.lf ++ r) := by
  have hm : m ∈ mounts := h
  have : to_ (leaf o (.toMount m) ++ r) = .ok (.toMount m) (o.lf ++ r) := by
    pg [to_, toUser, userName_dot, toN, toP, toText, toRot, toMount, convert, toLiteral, leaf, ext,
      field_star (mounts_field m hm), hm]
  exact attr_to this

theorem toSup_ok {o : Opts} {rd : Text → Option Text} {a b : Text} {fs : List Text} (h : Shape rd (.toSup a b fs)) (r : Text) :
    attributes rd (leaf o (.toSup a b fs) ++ r) = .ok (.toSup a b fs) (o.lf ++ r) := by
  have : to_ (leaf o (.toSup a b fs) ++ r) = .ok (.toSup a b fs) (o.lf ++ r) := by
    pg [to_, toUser, userName_dot, toN, toP, toText, toRot, toMount, toHeight, toSup, convert, toLiteral, leaf, ext,
      field_comma h.1, field_then h.2.1, fields_ok h.2.2]
  exact attr_to this

end Verif.Grammar
