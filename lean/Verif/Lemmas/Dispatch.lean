import Verif.Lemmas.Nodes

/-!
# Which alternative of the grammar a command reaches
-/

namespace Verif.Grammar

open Verif.Text Verif.Fmt Verif.Peg Verif.Syntax Verif.Spec
open Verif.Math hiding P

/-- Unfold sequences of parser elements on texts with known characters. -/
macro "pg" "[" xs:Lean.Parser.Tactic.simpLemma,* "]" : tactic =>
  `(tactic| simp (decide := true) [Peg.before, Peg.andThen, Peg.mapP, Peg.ret, Peg.raise, Peg.firstOf, Peg.orElse,
      Peg.opt, extended, command, asterisk, comma, cs, lit_cons, clit_cons, strip, stripCaseless, ofStrip, isBlank, isDigit,
      isFieldChar, isNameChar,
      $xs,*])

theorem ext_fail {α : Type} {x y a b : Char} {p : P α} {t : Text} (ha : isBlank a = false) (h : [a, b] ≠ [x, y]) :
    extended (lit [x, y] ≫ p) ('%' :: a :: b :: t) = .fail := by
  have h' : x = a → ¬ y = b := by rintro rfl rfl; exact h rfl
  by_cases h1 : x = a
  · subst h1
    simp [extended, Peg.before, Peg.andThen, lit_cons, ha, strip, ofStrip, h' rfl, show isBlank '%' = false from rfl]
  · simp [extended, Peg.before, Peg.andThen, lit_cons, ha, strip, ofStrip, h1, show isBlank '%' = false from rfl]

theorem ext_nonpercent {α : Type} {p : P α} {c : Char} {t : Text} (hb : isBlank c = false) (h : c ≠ '%') :
    extended p (c :: t) = .fail := by
  simp [extended, Peg.before, Peg.andThen, lit_cons, hb, strip, ofStrip, h.symm]

/-- Two-letter codes of the load commands. -/
def loadWords : List Text := [t!"LN", t!"LP", t!"LR", t!"LS", t!"LM"]
/-- Two-letter codes of the attributes. -/
def attrWords : List Text := [t!"TA", t!"TD", t!"TF", t!"TO"]
/-- Two-letter codes of the properties. -/
def propWords : List Text := [t!"FS", t!"MO", t!"IP", t!"IR", t!"OF", t!"AS", t!"MI", t!"IN", t!"SF"]

theorem andThen_fail {α β : Type} {p : P α} {f : α → P β} {s : Text} (h : p s = .fail) : (p ~> f) s = .fail := by
  simp [Peg.andThen, h]

theorem firstOf_fail {α : Type} {ps : List (P α)} {s : Text} (h : ∀ p ∈ ps, p s = .fail) : firstOf ps s = .fail := by
  induction ps with
  | nil => rfl
  | cons p ps ih => simp [firstOf, orElse, h p (by simp), ih (fun q hq => h q (by simp [hq]))]

theorem load_fail {a b : Char} {t : Text} (ha : isBlank a = false) (h : [a, b] ∉ loadWords) :
    load ('%' :: a :: b :: t) = .fail := by
  simp only [loadWords, List.mem_cons, List.not_mem_nil, or_false, not_or] at h
  obtain ⟨h1, h2, h3, h4, h5⟩ := h
  apply firstOf_fail
  simp only [List.mem_cons, List.not_mem_nil, or_false, forall_eq_or_imp, forall_eq]
  exact ⟨ext_fail ha h1, ext_fail ha h2, ext_fail ha h3, ext_fail ha h4, ext_fail ha h5⟩

theorem properties_fail {a b : Char} {t : Text} (ha : isBlank a = false) (h : [a, b] ∉ propWords) :
    properties ('%' :: a :: b :: t) = .fail := by
  simp only [propWords, List.mem_cons, List.not_mem_nil, or_false, not_or] at h
  obtain ⟨h1, h2, h3, h4, h5, h6, h7, h8, h9⟩ := h
  apply firstOf_fail
  simp only [List.mem_cons, List.not_mem_nil, or_false, forall_eq_or_imp, forall_eq]
  exact ⟨ext_fail ha h1, ext_fail ha h2, ext_fail ha h3, andThen_fail (ext_fail ha h4), ext_fail ha h5, ext_fail ha h6,
    ext_fail ha h7, ext_fail ha h8, ext_fail ha h9⟩

theorem addAperture_fail {a b : Char} {t : Text} (ha : isBlank a = false) (h : [a, b] ≠ t!"AD") :
    addAperture ('%' :: a :: b :: t) = .fail := by
  apply firstOf_fail
  simp only [List.mem_cons, List.not_mem_nil, or_false, forall_eq_or_imp, forall_eq]
  exact ⟨ext_fail ha h, ext_fail ha h, ext_fail ha h, andThen_fail (ext_fail ha h), ext_fail ha h⟩

theorem attributes_fail {rd : Text → Option Text} {a b : Char} {t : Text} (ha : isBlank a = false)
    (h : [a, b] ∉ attrWords) : attributes rd ('%' :: a :: b :: t) = .fail := by
  simp only [attrWords, List.mem_cons, List.not_mem_nil, or_false, not_or] at h
  obtain ⟨h1, h2, h3, h4⟩ := h
  apply firstOf_fail
  simp only [List.mem_cons, List.not_mem_nil, or_false, forall_eq_or_imp, forall_eq]
  refine ⟨?_, ext_fail ha h2, ?_, ?_⟩
  · apply firstOf_fail
    simp only [List.mem_cons, List.not_mem_nil, or_false, forall_eq_or_imp, forall_eq]
    exact ⟨ext_fail ha h1, ext_fail ha h1, ext_fail ha h1, ext_fail ha h1⟩
  · apply firstOf_fail
    simp only [List.mem_cons, List.not_mem_nil, or_false, forall_eq_or_imp, forall_eq]
    exact ⟨ext_fail ha h3, andThen_fail (ext_fail ha h3), andThen_fail (ext_fail ha h3), andThen_fail (ext_fail ha h3),
      ext_fail ha h3, andThen_fail (ext_fail ha h3), ext_fail ha h3, ext_fail ha h3, andThen_fail (ext_fail ha h3)⟩
  · apply firstOf_fail
    simp only [List.mem_cons, List.not_mem_nil, or_false, forall_eq_or_imp, forall_eq]
    refine ⟨ext_fail ha h4, ext_fail ha h4, ext_fail ha h4, ext_fail ha h4, andThen_fail (ext_fail ha h4), ext_fail ha h4,
      ext_fail ha h4, ext_fail ha h4, andThen_fail (ext_fail ha h4), ext_fail ha h4, ext_fail ha h4, ext_fail ha h4,
      andThen_fail (ext_fail ha h4), ext_fail ha h4, ext_fail ha h4, ext_fail ha h4⟩

theorem macro_fail {a b : Char} {t : Text} (ha : isBlank a = false) (h : [a, b] ≠ t!"AM") :
    macro_ ('%' :: a :: b :: t) = .fail := by
  have h' : 'A' = a → ¬ 'M' = b := by rintro rfl rfl; exact h rfl
  by_cases h1 : 'A' = a
  · subst h1
    simp [macro_, Peg.before, Peg.andThen, lit_cons, ha, strip, ofStrip, h' rfl, show isBlank '%' = false from rfl]
  · simp [macro_, Peg.before, Peg.andThen, lit_cons, ha, strip, ofStrip, h1, show isBlank '%' = false from rfl]

theorem apertureBlock_fail {rd : Text → Option Text} {n : Nat} {a b : Char} {t : Text} (ha : isBlank a = false)
    (h : [a, b] ≠ t!"AB") : apertureBlock rd n ('%' :: a :: b :: t) = .fail := by
  cases n with
  | zero => rfl
  | succ n => exact andThen_fail (ext_fail ha h)

theorem stepRepeat_fail {rd : Text → Option Text} {n : Nat} {a b : Char} {t : Text} (ha : isBlank a = false)
    (h : [a, b] ≠ t!"SR") : stepRepeat rd n ('%' :: a :: b :: t) = .fail := andThen_fail (ext_fail ha h)

/-! ## Commands that begin with `%` are not D, G or M codes -/

theorem codeRe_fail {l : Char} {w : Text} {c : Char} {t : Text} (hb : isBlank c = false) (h : c ≠ l) :
    codeRe l w (c :: t) = .fail := by simp [codeRe, skip_of_head hb, h]

theorem apertureId_fail {c : Char} {t : Text} (hb : isBlank c = false) (h : c ≠ 'D') :
    apertureId (c :: t) = .fail := by simp [apertureId, skip_of_head hb, h]

/-- First characters of D codes. -/
def dHeads : List Char := ['D', 'X', 'Y', 'I', 'J']

theorem coordinate_fail {l : Char} {c : Char} {t : Text} (hb : isBlank c = false) (h : c.toUpper ≠ l.toUpper) :
    coordinate l (c :: t) = .fail := by
  simp [coordinate, Peg.before, Peg.andThen, clit_cons hb, stripCaseless, h.symm, ofStrip]

theorem dCodes_fail {s : Bool} {c : Char} {t : Text} (hc : c ∈ ['%', 'G', 'M']) : dCodes s (c :: t) = .fail := by
  simp only [List.mem_cons, List.not_mem_nil, or_false] at hc
  rcases hc with rfl | rfl | rfl
  all_goals
    pg [dCodes, dnn, d01, d02, d03, apertureId_fail, coordinate_fail, codeRe_fail]

theorem gCodes_fail {c : Char} {t : Text} (hb : isBlank c = false) (h : c ≠ 'G') : gCodes (c :: t) = .fail := by
  apply firstOf_fail
  intro p hp
  simp only [List.mem_append, List.mem_map, List.mem_singleton] at hp
  rcases hp with (rfl | ⟨x, _, rfl⟩) | ⟨x, _, rfl⟩
  · exact andThen_fail (andThen_fail (andThen_fail (codeRe_fail hb h)))
  · exact andThen_fail (andThen_fail (andThen_fail (codeRe_fail hb h)))
  · exact andThen_fail (codeRe_fail hb h)

theorem mZeros_fail {c : Char} {t : Text} (hb : isBlank c = false) (h : c ≠ 'M') : mZeros (c :: t) = .fail := by
  simp only [mZeros, skip_of_head hb]
  split
  · rename_i heq; simp at heq; exact absurd heq.1 h
  · rfl

theorem mCodes_fail {c : Char} {t : Text} (hb : isBlank c = false) (h : c ≠ 'M') : mCodes (c :: t) = .fail := by
  apply firstOf_fail
  simp only [List.mem_cons, List.not_mem_nil, or_false, forall_eq_or_imp, forall_eq]
  exact ⟨andThen_fail (andThen_fail (codeRe_fail hb h)), andThen_fail (andThen_fail (codeRe_fail hb h)),
    andThen_fail (andThen_fail (mZeros_fail hb h))⟩

theorem one_fail {p : P Node} {s : Text} (h : p s = .fail) : one p s = .fail := andThen_fail h

theorem one_ok {p : P Node} {s r : Text} {n : Node} (h : p s = .ok n r) : one p s = .ok [n] r := by
  simp [one, mapP, Peg.andThen, h, Peg.ret]

theorem orElse_fail {α : Type} {p q : P α} {s : Text} (h : p s = .fail) : orElse p q s = q s := by simp [orElse, h]

theorem orElse_ok {α : Type} {p q : P α} {s r : Text} {a : α} (h : p s = .ok a r) : orElse p q s = .ok a r := by
  simp [orElse, h]

theorem fd_percent (t : Text) : one (dCodes true) ('%' :: t) = .fail := one_fail (dCodes_fail (by simp))
theorem fg_percent (t : Text) : gCodes ('%' :: t) = .fail := gCodes_fail (by decide) (by decide)

/-! ## Dispatch at the top of a file -/

section root

variable {rd : Text → Option Text} {k : Nat} {a b : Char} {t r : Text} {n : Node}

theorem aperture_fail (ha : isBlank a = false) (h : [a, b] ∉ [t!"AB", t!"AM", t!"SR", t!"AD"]) :
    aperture rd k ('%' :: a :: b :: t) = .fail := by
  simp only [List.mem_cons, List.not_mem_nil, or_false, not_or] at h
  apply firstOf_fail
  simp only [List.mem_cons, List.not_mem_nil, or_false, forall_eq_or_imp, forall_eq]
  exact ⟨apertureBlock_fail ha h.1, macro_fail ha h.2.1, stepRepeat_fail ha h.2.2.1, addAperture_fail ha h.2.2.2⟩

theorem root_load (h : load ('%' :: a :: b :: t) = .ok n r) : rootItem rd k ('%' :: a :: b :: t) = .ok [n] r := by
  simp only [rootItem, firstOf]
  rw [orElse_fail (fd_percent _), orElse_fail (fg_percent _), orElse_ok (one_ok h)]

theorem words_load : ∀ w ∈ loadWords, w ∉ attrWords ∧ w ∉ propWords ∧ w ∉ [t!"AB", t!"AM", t!"SR", t!"AD"] := by decide
theorem words_attr : ∀ w ∈ attrWords, w ∉ loadWords ∧ w ∉ propWords ∧ w ∉ [t!"AB", t!"AM", t!"SR", t!"AD"] := by decide
theorem words_prop : ∀ w ∈ propWords, w ∉ loadWords ∧ w ∉ attrWords ∧ w ∉ [t!"AB", t!"AM", t!"SR", t!"AD"] := by decide

theorem root_attr (ha : isBlank a = false) (hw : [a, b] ∈ attrWords)
    (h : attributes rd ('%' :: a :: b :: t) = .ok n r) : rootItem rd k ('%' :: a :: b :: t) = .ok [n] r := by
  obtain ⟨h1, h2, h3⟩ := words_attr _ hw
  simp only [rootItem, firstOf]
  rw [orElse_fail (fd_percent _), orElse_fail (fg_percent _), orElse_fail (one_fail (load_fail ha h1)),
    orElse_fail (one_fail (aperture_fail ha h3)), orElse_ok (one_ok h)]

theorem root_prop (ha : isBlank a = false) (hw : [a, b] ∈ propWords)
    (h : properties ('%' :: a :: b :: t) = .ok n r) : rootItem rd k ('%' :: a :: b :: t) = .ok [n] r := by
  obtain ⟨h1, h2, h3⟩ := words_prop _ hw
  simp only [rootItem, firstOf]
  rw [orElse_fail (fd_percent _), orElse_fail (fg_percent _), orElse_fail (one_fail (load_fail ha h1)),
    orElse_fail (one_fail (aperture_fail ha h3)), orElse_fail (one_fail (attributes_fail ha h2)), orElse_ok (one_ok h)]

theorem root_ad (h : addAperture ('%' :: 'A' :: 'D' :: t) = .ok n r) :
    rootItem rd k ('%' :: 'A' :: 'D' :: t) = .ok [n] r := by
  have : aperture rd k ('%' :: 'A' :: 'D' :: t) = .ok n r := by
    simp only [aperture, firstOf]
    rw [orElse_fail (apertureBlock_fail (by decide) (by decide)), orElse_fail (macro_fail (by decide) (by decide)),
      orElse_fail (stepRepeat_fail (by decide) (by decide)), orElse_ok h]
  simp only [rootItem, firstOf]
  rw [orElse_fail (fd_percent _), orElse_fail (fg_percent _), orElse_fail (one_fail (load_fail (by decide) (by decide))),
    orElse_ok (one_ok this)]

theorem root_am (h : macro_ ('%' :: 'A' :: 'M' :: t) = .ok n r) :
    rootItem rd k ('%' :: 'A' :: 'M' :: t) = .ok [n] r := by
  have : aperture rd k ('%' :: 'A' :: 'M' :: t) = .ok n r := by
    simp only [aperture, firstOf]
    rw [orElse_fail (apertureBlock_fail (by decide) (by decide)), orElse_ok h]
  simp only [rootItem, firstOf]
  rw [orElse_fail (fd_percent _), orElse_fail (fg_percent _), orElse_fail (one_fail (load_fail (by decide) (by decide))),
    orElse_ok (one_ok this)]

theorem root_ab (h : apertureBlock rd k ('%' :: 'A' :: 'B' :: t) = .ok n r) :
    rootItem rd k ('%' :: 'A' :: 'B' :: t) = .ok [n] r := by
  have : aperture rd k ('%' :: 'A' :: 'B' :: t) = .ok n r := by
    simp only [aperture, firstOf]
    rw [orElse_ok h]
  simp only [rootItem, firstOf]
  rw [orElse_fail (fd_percent _), orElse_fail (fg_percent _), orElse_fail (one_fail (load_fail (by decide) (by decide))),
    orElse_ok (one_ok this)]

theorem root_sr (h : stepRepeat rd k ('%' :: 'S' :: 'R' :: t) = .ok n r) :
    rootItem rd k ('%' :: 'S' :: 'R' :: t) = .ok [n] r := by
  have : aperture rd k ('%' :: 'S' :: 'R' :: t) = .ok n r := by
    simp only [aperture, firstOf]
    rw [orElse_fail (apertureBlock_fail (by decide) (by decide)), orElse_fail (macro_fail (by decide) (by decide)),
      orElse_ok h]
  simp only [rootItem, firstOf]
  rw [orElse_fail (fd_percent _), orElse_fail (fg_percent _), orElse_fail (one_fail (load_fail (by decide) (by decide))),
    orElse_ok (one_ok this)]

theorem root_d (h : dCodes true t = .ok n r) : rootItem rd k t = .ok [n] r := by
  simp only [rootItem, firstOf]
  rw [orElse_ok (one_ok h)]

theorem root_g {ns : List Node} (h : gCodes ('G' :: t) = .ok ns r) : rootItem rd k ('G' :: t) = .ok ns r := by
  simp only [rootItem, firstOf]
  rw [orElse_fail (one_fail (dCodes_fail (by simp))), orElse_ok h]

theorem firstOf_ext_fail {ps : List (P Node)} {c : Char} {t : Text} (h : ∀ p ∈ ps, p (c :: t) = .fail) :
    one (firstOf ps) (c :: t) = .fail := one_fail (firstOf_fail h)

theorem load_np (hb : isBlank a = false) (h : a ≠ '%') : load (a :: t) = .fail := by
  apply firstOf_fail
  simp only [List.mem_cons, List.not_mem_nil, or_false, forall_eq_or_imp, forall_eq]
  exact ⟨ext_nonpercent hb h, ext_nonpercent hb h, ext_nonpercent hb h, ext_nonpercent hb h, ext_nonpercent hb h⟩

theorem properties_np (hb : isBlank a = false) (h : a ≠ '%') : properties (a :: t) = .fail := by
  apply firstOf_fail
  simp only [List.mem_cons, List.not_mem_nil, or_false, forall_eq_or_imp, forall_eq]
  exact ⟨ext_nonpercent hb h, ext_nonpercent hb h, ext_nonpercent hb h, andThen_fail (ext_nonpercent hb h),
    ext_nonpercent hb h, ext_nonpercent hb h, ext_nonpercent hb h, ext_nonpercent hb h, ext_nonpercent hb h⟩

theorem addAperture_np (hb : isBlank a = false) (h : a ≠ '%') : addAperture (a :: t) = .fail := by
  apply firstOf_fail
  simp only [List.mem_cons, List.not_mem_nil, or_false, forall_eq_or_imp, forall_eq]
  exact ⟨ext_nonpercent hb h, ext_nonpercent hb h, ext_nonpercent hb h, andThen_fail (ext_nonpercent hb h),
    ext_nonpercent hb h⟩

theorem attributes_np (hb : isBlank a = false) (h : a ≠ '%') : attributes rd (a :: t) = .fail := by
  apply firstOf_fail
  simp only [List.mem_cons, List.not_mem_nil, or_false, forall_eq_or_imp, forall_eq]
  have e {α : Type} (p : P α) : extended p (a :: t) = .fail := ext_nonpercent hb h
  refine ⟨?_, e _, ?_, ?_⟩
  · apply firstOf_fail
    simp only [List.mem_cons, List.not_mem_nil, or_false, forall_eq_or_imp, forall_eq]
    exact ⟨e _, e _, e _, e _⟩
  · apply firstOf_fail
    simp only [List.mem_cons, List.not_mem_nil, or_false, forall_eq_or_imp, forall_eq]
    exact ⟨e _, andThen_fail (e _), andThen_fail (e _), andThen_fail (e _), e _, andThen_fail (e _), e _, e _,
      andThen_fail (e _)⟩
  · apply firstOf_fail
    simp only [List.mem_cons, List.not_mem_nil, or_false, forall_eq_or_imp, forall_eq]
    exact ⟨e _, e _, e _, e _, andThen_fail (e _), e _, e _, e _, andThen_fail (e _), e _, e _, e _,
      andThen_fail (e _), e _, e _, e _⟩

theorem macro_np (hb : isBlank a = false) (h : a ≠ '%') : macro_ (a :: t) = .fail := by
  simp [macro_, Peg.before, Peg.andThen, lit_cons, hb, strip, ofStrip, h.symm]

theorem apertureBlock_np (hb : isBlank a = false) (h : a ≠ '%') : apertureBlock rd k (a :: t) = .fail := by
  cases k with
  | zero => rfl
  | succ n => exact andThen_fail (ext_nonpercent hb h)

theorem stepRepeat_np (hb : isBlank a = false) (h : a ≠ '%') : stepRepeat rd k (a :: t) = .fail :=
  andThen_fail (ext_nonpercent hb h)

theorem aperture_np (hb : isBlank a = false) (h : a ≠ '%') : aperture rd k (a :: t) = .fail := by
  apply firstOf_fail
  simp only [List.mem_cons, List.not_mem_nil, or_false, forall_eq_or_imp, forall_eq]
  exact ⟨apertureBlock_np hb h, macro_np hb h, stepRepeat_np hb h, addAperture_np hb h⟩

theorem root_m (h : mCodes ('M' :: t) = .ok n r) : rootItem rd k ('M' :: t) = .ok [n] r := by
  have hb : isBlank 'M' = false := by decide
  have hp : 'M' ≠ '%' := by decide
  simp only [rootItem, firstOf]
  rw [orElse_fail (one_fail (dCodes_fail (by simp))), orElse_fail (gCodes_fail hb (by decide)),
    orElse_fail (one_fail (load_np hb hp)), orElse_fail (one_fail (aperture_np hb hp)),
    orElse_fail (one_fail (attributes_np hb hp)), orElse_fail (one_fail (properties_np hb hp)), orElse_ok (one_ok h)]

/-! ## Dispatch inside of a block -/

variable {ab : P Node}

theorem body_load (h : load ('%' :: a :: b :: t) = .ok n r) : bodyItem rd ab ('%' :: a :: b :: t) = .ok [n] r := by
  simp only [bodyItem, firstOf]
  rw [orElse_fail (fd_percent _), orElse_fail (fg_percent _), orElse_ok (one_ok h)]

theorem body_prop (ha : isBlank a = false) (hw : [a, b] ∈ propWords)
    (h : properties ('%' :: a :: b :: t) = .ok n r) : bodyItem rd ab ('%' :: a :: b :: t) = .ok [n] r := by
  obtain ⟨h1, h2, h3⟩ := words_prop _ hw
  simp only [bodyItem, firstOf]
  rw [orElse_fail (fd_percent _), orElse_fail (fg_percent _), orElse_fail (one_fail (load_fail ha h1)),
    orElse_ok (one_ok h)]

theorem body_attr (ha : isBlank a = false) (hw : [a, b] ∈ attrWords)
    (h : attributes rd ('%' :: a :: b :: t) = .ok n r) : bodyItem rd ab ('%' :: a :: b :: t) = .ok [n] r := by
  obtain ⟨h1, h2, h3⟩ := words_attr _ hw
  simp only [bodyItem, firstOf]
  rw [orElse_fail (fd_percent _), orElse_fail (fg_percent _), orElse_fail (one_fail (load_fail ha h1)),
    orElse_fail (one_fail (properties_fail ha h2)), orElse_ok (one_ok h)]

theorem body_upto (ha : isBlank a = false) (h1 : [a, b] ∉ loadWords) (h2 : [a, b] ∉ propWords)
    (h3 : [a, b] ∉ attrWords) : bodyItem rd ab ('%' :: a :: b :: t) =
      firstOf [one addAperture, fun _ => .fail, one ab, one macro_, one mCodes] ('%' :: a :: b :: t) := by
  simp only [bodyItem, firstOf]
  rw [orElse_fail (fd_percent _), orElse_fail (fg_percent _), orElse_fail (one_fail (load_fail ha h1)),
    orElse_fail (one_fail (properties_fail ha h2)), orElse_fail (one_fail (attributes_fail ha h3))]

theorem body_ad (h : addAperture ('%' :: 'A' :: 'D' :: t) = .ok n r) :
    bodyItem rd ab ('%' :: 'A' :: 'D' :: t) = .ok [n] r := by
  rw [body_upto (by decide) (by decide) (by decide) (by decide)]
  simp only [firstOf]
  rw [orElse_ok (one_ok h)]

theorem body_ab (h : ab ('%' :: 'A' :: 'B' :: t) = .ok n r) : bodyItem rd ab ('%' :: 'A' :: 'B' :: t) = .ok [n] r := by
  rw [body_upto (by decide) (by decide) (by decide) (by decide)]
  simp only [firstOf]
  rw [orElse_fail (one_fail (addAperture_fail (by decide) (by decide))), orElse_fail rfl, orElse_ok (one_ok h)]

theorem body_am (hab : ab ('%' :: 'A' :: 'M' :: t) = .fail) (h : macro_ ('%' :: 'A' :: 'M' :: t) = .ok n r) :
    bodyItem rd ab ('%' :: 'A' :: 'M' :: t) = .ok [n] r := by
  rw [body_upto (by decide) (by decide) (by decide) (by decide)]
  simp only [firstOf]
  rw [orElse_fail (one_fail (addAperture_fail (by decide) (by decide))), orElse_fail rfl, orElse_fail (one_fail hab),
    orElse_ok (one_ok h)]

theorem body_stop_ab (hab : ab ('%' :: 'A' :: 'B' :: t) = .fail) : bodyItem rd ab ('%' :: 'A' :: 'B' :: t) = .fail := by
  rw [body_upto (by decide) (by decide) (by decide) (by decide)]
  simp only [firstOf]
  rw [orElse_fail (one_fail (addAperture_fail (by decide) (by decide))), orElse_fail rfl, orElse_fail (one_fail hab),
    orElse_fail (one_fail (macro_fail (by decide) (by decide))),
    orElse_fail (one_fail (mCodes_fail (by decide) (by decide)))]

theorem body_stop_sr (hab : ab ('%' :: 'S' :: 'R' :: t) = .fail) : bodyItem rd ab ('%' :: 'S' :: 'R' :: t) = .fail := by
  rw [body_upto (by decide) (by decide) (by decide) (by decide)]
  simp only [firstOf]
  rw [orElse_fail (one_fail (addAperture_fail (by decide) (by decide))), orElse_fail rfl, orElse_fail (one_fail hab),
    orElse_fail (one_fail (macro_fail (by decide) (by decide))),
    orElse_fail (one_fail (mCodes_fail (by decide) (by decide)))]

theorem body_d (h : dCodes true t = .ok n r) : bodyItem rd ab t = .ok [n] r := by
  simp only [bodyItem, firstOf]
  rw [orElse_ok (one_ok h)]

theorem body_g {ns : List Node} (h : gCodes ('G' :: t) = .ok ns r) : bodyItem rd ab ('G' :: t) = .ok ns r := by
  simp only [bodyItem, firstOf]
  rw [orElse_fail (one_fail (dCodes_fail (by simp))), orElse_ok h]

theorem body_m (hab : ab ('M' :: t) = .fail) (h : mCodes ('M' :: t) = .ok n r) :
    bodyItem rd ab ('M' :: t) = .ok [n] r := by
  have hb : isBlank 'M' = false := by decide
  have hp : 'M' ≠ '%' := by decide
  simp only [bodyItem, firstOf]
  rw [orElse_fail (one_fail (dCodes_fail (by simp))), orElse_fail (gCodes_fail hb (by decide)),
    orElse_fail (one_fail (load_np hb hp)), orElse_fail (one_fail (properties_np hb hp)),
    orElse_fail (one_fail (attributes_np hb hp)), orElse_fail (one_fail (addAperture_np hb hp)), orElse_fail rfl,
    orElse_fail (one_fail hab), orElse_fail (one_fail (macro_np hb hp)), orElse_ok (one_ok h)]

end root

/-! ## Leading blanks do not matter -/

theorem skips_extended {α : Type} (p : P α) : Skips (extended p) := (skips_lit _).before _
theorem skips_asterisk : Skips asterisk := skips_lit _
theorem skips_coordinate (l : Char) : Skips (coordinate l) := (skips_clit _).before _

theorem skips_dCodes (s : Bool) : Skips (dCodes s) := by
  apply Skips.firstOf
  have star {α : Type} (a : α) : Skips (asterisk ≫ ret a) := skips_asterisk.before _
  have d01' : Skips (d01 s) := by
    intro t
    have hX := skips_coordinate 'X' t
    have hY := skips_coordinate 'Y' t
    have hI := skips_coordinate 'I' t
    have hJ := skips_coordinate 'J' t
    have hD := skips_codeRe 'D' ['1'] t
    have hA := skips_asterisk t
    simp only [d01, command, Peg.andThen, Peg.opt, Peg.before, Peg.ret]
    rw [← hX]
    cases coordinate 'X' t with
    | ok _ _ => rfl
    | raised => rfl
    | fail =>
      simp only
      rw [← hY]
      cases coordinate 'Y' t with
      | ok _ _ => rfl
      | raised => rfl
      | fail =>
        simp only
        rw [← hI]
        cases coordinate 'I' t with
        | ok _ _ => rfl
        | raised => rfl
        | fail =>
          simp only
          rw [← hJ]
          cases coordinate 'J' t with
          | ok _ _ => rfl
          | raised => rfl
          | fail =>
            simp only
            rw [← hD]
            cases codeRe 'D' ['1'] t with
            | ok _ _ => rfl
            | raised => rfl
            | fail => simp only; rw [← hA]
  have d23 (l : Text) (f : Option Text → Option Text → Node) :
      Skips (command (opt (coordinate 'X') ~> fun x => opt (coordinate 'Y') ~> fun y => codeRe 'D' l ≫ ret (f x y))) := by
    intro t
    have hX := skips_coordinate 'X' t
    have hY := skips_coordinate 'Y' t
    have hD := skips_codeRe 'D' l t
    simp only [command, Peg.andThen, Peg.opt, Peg.before, Peg.ret]
    rw [← hX]
    cases coordinate 'X' t with
    | ok _ _ => rfl
    | raised => rfl
    | fail =>
      simp only
      rw [← hY]
      cases coordinate 'Y' t with
      | ok _ _ => rfl
      | raised => rfl
      | fail =>
        simp only
        rw [← hD]
  intro p hp
  simp only [List.mem_cons, List.not_mem_nil, or_false] at hp
  rcases hp with rfl | rfl | rfl | rfl
  · exact (skips_apertureId.mapP _).andThen _
  · exact d01'
  · exact d23 ['2'] (fun x y => .d02 x y s)
  · exact d23 ['3'] (fun x y => .d03 x y s)

theorem skips_one {p : P Node} (h : Skips p) : Skips (one p) := h.mapP _

theorem skips_gCodes : Skips gCodes := by
  apply Skips.firstOf
  intro p hp
  simp only [List.mem_append, List.mem_map, List.mem_singleton] at hp
  rcases hp with (rfl | ⟨c, _, rfl⟩) | ⟨c, _, rfl⟩
  · exact skips_one (((skips_codeRe _ _).before _).andThen _)
  · exact skips_one (((skips_codeRe _ _).before _).andThen _)
  · exact (skips_codeRe _ _).before _

theorem skips_load : Skips load := by
  apply Skips.firstOf
  simp only [List.mem_cons, List.not_mem_nil, or_false, forall_eq_or_imp, forall_eq]
  exact ⟨skips_extended _, skips_extended _, skips_extended _, skips_extended _, skips_extended _⟩

theorem skips_properties : Skips properties := by
  apply Skips.firstOf
  simp only [List.mem_cons, List.not_mem_nil, or_false, forall_eq_or_imp, forall_eq]
  exact ⟨skips_extended _, skips_extended _, skips_extended _, (skips_extended _).andThen _, skips_extended _,
    skips_extended _, skips_extended _, skips_extended _, skips_extended _⟩

theorem skips_addAperture : Skips addAperture := by
  apply Skips.firstOf
  simp only [List.mem_cons, List.not_mem_nil, or_false, forall_eq_or_imp, forall_eq]
  exact ⟨skips_extended _, skips_extended _, skips_extended _, (skips_extended _).andThen _, skips_extended _⟩

theorem skips_attributes (rd : Text → Option Text) : Skips (attributes rd) := by
  have e {α : Type} (p : P α) : Skips (extended p) := skips_extended p
  apply Skips.firstOf
  simp only [List.mem_cons, List.not_mem_nil, or_false, forall_eq_or_imp, forall_eq]
  refine ⟨?_, e _, ?_, ?_⟩
  · apply Skips.firstOf
    simp only [List.mem_cons, List.not_mem_nil, or_false, forall_eq_or_imp, forall_eq]
    exact ⟨e _, e _, e _, e _⟩
  · apply Skips.firstOf
    simp only [List.mem_cons, List.not_mem_nil, or_false, forall_eq_or_imp, forall_eq]
    exact ⟨e _, (e _).andThen _, (e _).andThen _, (e _).andThen _, e _, (e _).andThen _, e _, e _, (e _).andThen _⟩
  · apply Skips.firstOf
    simp only [List.mem_cons, List.not_mem_nil, or_false, forall_eq_or_imp, forall_eq]
    exact ⟨e _, e _, e _, e _, (e _).andThen _, e _, e _, e _, (e _).andThen _, e _, e _, e _, (e _).andThen _, e _,
      e _, e _⟩

theorem skips_macro : Skips macro_ := (skips_lit _).before _

theorem skips_mCodes : Skips mCodes := by
  apply Skips.firstOf
  simp only [List.mem_cons, List.not_mem_nil, or_false, forall_eq_or_imp, forall_eq]
  exact ⟨((skips_codeRe _ _).before _).andThen _, ((skips_codeRe _ _).before _).andThen _, (skips_mZeros.before _).andThen _⟩

theorem skips_apertureBlock (rd : Text → Option Text) (k : Nat) : Skips (apertureBlock rd k) := by
  cases k with
  | zero => exact skips_fail
  | succ k => exact (skips_extended _).andThen _

theorem skips_bodyItem (rd : Text → Option Text) {ab : P Node} (h : Skips ab) : Skips (bodyItem rd ab) := by
  apply Skips.firstOf
  simp only [List.mem_cons, List.not_mem_nil, or_false, forall_eq_or_imp, forall_eq]
  exact ⟨skips_one (skips_dCodes _), skips_gCodes, skips_one skips_load, skips_one skips_properties,
    skips_one (skips_attributes rd), skips_one skips_addAperture, skips_fail, skips_one h, skips_one skips_macro,
    skips_one skips_mCodes⟩

theorem skips_rootItem (rd : Text → Option Text) (k : Nat) : Skips (rootItem rd k) := by
  have ap : Skips (aperture rd k) := by
    apply Skips.firstOf
    simp only [List.mem_cons, List.not_mem_nil, or_false, forall_eq_or_imp, forall_eq]
    exact ⟨skips_apertureBlock rd k, skips_macro, (skips_extended _).andThen _, skips_addAperture⟩
  apply Skips.firstOf
  simp only [List.mem_cons, List.not_mem_nil, or_false, forall_eq_or_imp, forall_eq]
  exact ⟨skips_one (skips_dCodes _), skips_gCodes, skips_one skips_load, skips_one ap,
    skips_one (skips_attributes rd), skips_one skips_properties, skips_one skips_mCodes⟩

end Verif.Grammar
