import Verif.Lemmas.Leaves3

/-!
# Reading back printed aperture definitions and macros
-/

namespace Verif.Grammar

open Verif.Text Verif.Fmt Verif.Peg Verif.Syntax Verif.Spec Verif.Formatter
open Verif.Math hiding P

/-! ## Aperture definitions -/

/-- An identifier before a character that is not a digit. -/
theorem id_stop {i : Text} (h : IdOk i) {c : Char} {r : Text} (hc : isDigit c = false) :
    apertureId (i ++ c :: r) = .ok i (c :: r) := apertureId_ok h hc

theorem adc_ok {o : Opts} {rd : Text → Option Text} {i : Text} {d : ℚ} {h : Option ℚ} (hs : Shape rd (.adc i d h))
    (hn : NumsOk o (.adc i d h)) (r : Text) :
    addAperture (leaf o (.adc i d h) ++ r) = .ok (.adc i d h) (o.lf ++ r) := by
  have hd := (hn d (by simp [numbers])).1
  cases h with
  | none => pg [addAperture, adc, leaf, ext, optNum, xDouble, id_stop hs, double_stop hd]
  | some h =>
    have hh := (hn h (by simp [numbers])).1
    pg [addAperture, adc, leaf, ext, optNum, xDouble, id_stop hs, double_stop hd, double_stop hh]

theorem adr_ok {o : Opts} {rd : Text → Option Text} {i : Text} {w d : ℚ} {h : Option ℚ} (hs : Shape rd (.adr i w d h))
    (hn : NumsOk o (.adr i w d h)) (r : Text) :
    addAperture (leaf o (.adr i w d h) ++ r) = .ok (.adr i w d h) (o.lf ++ r) := by
  have hw := (hn w (by simp [numbers])).1
  have hd := (hn d (by simp [numbers])).1
  cases h with
  | none => pg [addAperture, adc, adr, leaf, ext, optNum, xDouble, id_stop hs, double_stop hw, double_stop hd]
  | some h =>
    have hh := (hn h (by simp [numbers])).1
    pg [addAperture, adc, adr, leaf, ext, optNum, xDouble, id_stop hs, double_stop hw, double_stop hd, double_stop hh]

theorem ado_ok {o : Opts} {rd : Text → Option Text} {i : Text} {w d : ℚ} {h : Option ℚ} (hs : Shape rd (.ado i w d h))
    (hn : NumsOk o (.ado i w d h)) (r : Text) :
    addAperture (leaf o (.ado i w d h) ++ r) = .ok (.ado i w d h) (o.lf ++ r) := by
  have hw := (hn w (by simp [numbers])).1
  have hd := (hn d (by simp [numbers])).1
  cases h with
  | none => pg [addAperture, adc, adr, ado, leaf, ext, optNum, xDouble, id_stop hs, double_stop hw, double_stop hd]
  | some h =>
    have hh := (hn h (by simp [numbers])).1
    pg [addAperture, adc, adr, ado, leaf, ext, optNum, xDouble, id_stop hs, double_stop hw, double_stop hd, double_stop hh]

theorem int_stop (n : ℤ) {c : Char} {r : Text} (hc : isDigit c = false) (hc' : (c == '.') = false) :
    double (intStr n ++ c :: r) = .ok (n : ℚ) (c :: r) := by
  have h1 := pUnsigned_int (all_natStr n.natAbs) (natStr_ne_nil n.natAbs)
    (numEnd_cons (c := c) (r := r) hc (by simpa using hc'))
  have h2 := pDouble_signed (neg := n < 0) (natStr_head n.natAbs) h1
  have h3 : skip (intStr n ++ c :: r) = intStr n ++ c :: r := by
    obtain ⟨d, t, e, hd⟩ := natStr_head n.natAbs
    unfold intStr
    by_cases hn : n < 0
    · rw [if_pos hn]; exact skip_of_head (show isBlank '-' = false by decide)
    · rw [if_neg hn, e]; exact skip_of_head (isDigit_facts hd).1
  have h4 : (if n < 0 then -(floatOf false (natStr n.natAbs) []) else floatOf false (natStr n.natAbs) []) = (n : ℚ) := by
    simp only [floatOf, natVal_natStr]
    have : ((n.natAbs : ℕ) : ℚ) = |(n : ℚ)| := by rw [Nat.cast_natAbs]; push_cast; rfl
    simp only [this, natVal]
    split
    · rename_i hn
      have : (n : ℚ) < 0 := by exact_mod_cast hn
      rw [abs_of_neg this]; simp
    · rename_i hn
      have : (0 : ℚ) ≤ n := by exact_mod_cast not_lt.1 hn
      rw [abs_of_nonneg this]; simp
  simp only [double, h3]
  rw [show intStr n ++ c :: r = (if n < 0 then ['-'] else []) ++ natStr n.natAbs ++ c :: r from rfl, h2, h4]

theorem adp_ok {o : Opts} {rd : Text → Option Text} {i : Text} {d : ℚ} {v : ℤ} {q h : Option ℚ}
    (hs : Shape rd (.adp i d v q h)) (hn : NumsOk o (.adp i d v q h)) (r : Text) :
    addAperture (leaf o (.adp i d v q h) ++ r) = .ok (.adp i d v q h) (o.lf ++ r) := by
  obtain ⟨hs, hrh⟩ := hs
  have hd := (hn d (by simp [numbers])).1
  cases q with
  | none =>
    have := hrh rfl
    subst this
    pg [addAperture, adc, adr, ado, adp, leaf, ext, optNum, xDouble, id_stop hs, double_stop hd, int_stop]
  | some q =>
    have hq := (hn q (by simp [numbers])).1
    cases h with
    | none => pg [addAperture, adc, adr, ado, adp, leaf, ext, optNum, xDouble, id_stop hs, double_stop hd, int_stop,
        double_stop hq]
    | some h =>
      have hh := (hn h (by simp [numbers])).1
      pg [addAperture, adc, adr, ado, adp, leaf, ext, optNum, xDouble, id_stop hs, double_stop hd, int_stop,
        double_stop hq, double_stop hh]

/-- The parameters after the first one. -/
def xText (ps : List ℚ) : Text := (ps.map (fun q => 'X' :: strFloat q)).flatten

theorem xText_head (ps : List ℚ) (r : Text) :
    ∃ c t, xText ps ++ '*' :: r = c :: t ∧ isDigit c = false ∧ (c == '.') = false ∧ (c = 'X' ∨ c = '*') := by
  cases ps with
  | nil => exact ⟨'*', r, rfl, by decide, by decide, by decide⟩
  | cons p ps => exact ⟨'X', strFloat p ++ xText ps ++ '*' :: r, by simp [xText], by decide, by decide, by decide⟩

theorem double_x {q : ℚ} (h : Reads strFloat q) (ps : List ℚ) (r : Text) :
    double (strFloat q ++ (xText ps ++ '*' :: r)) = .ok q (xText ps ++ '*' :: r) := by
  obtain ⟨c, t, e, h1, h2, _⟩ := xText_head ps r
  rw [e]; exact double_stop h h1 h2

theorem xText_fuel {ps : List ℚ} (h : ∀ q ∈ ps, Reads strFloat q) (r : Text) :
    ∀ n, ps.length ≤ n → manyFuel xDouble n (xText ps ++ '*' :: r) = .ok ps ('*' :: r) := by
  induction ps with
  | nil =>
    intro n _
    exact manyFuel_stop (by pg [xText, xDouble]) n
  | cons p ps ih =>
    intro n hn
    cases n with
    | zero => simp at hn
    | succ n =>
      have hf := double_x (h p (by simp)) ps r
      refine manyFuel_step (r := xText ps ++ '*' :: r) ?_ (ih (fun g hg => h g (by simp [hg])) n (by simpa using hn))
      have e : xText (p :: ps) ++ '*' :: r = 'X' :: (strFloat p ++ (xText ps ++ '*' :: r)) := by simp [xText]
      rw [e]
      pg [xDouble, hf]

theorem xText_length (ps : List ℚ) : ps.length ≤ (xText ps).length := by
  induction ps with
  | nil => simp
  | cons p ps ih => simp [xText] at ih ⊢; omega

theorem xText_many {ps : List ℚ} (h : ∀ q ∈ ps, Reads strFloat q) (r : Text) :
    many xDouble (xText ps ++ '*' :: r) = .ok ps ('*' :: r) :=
  xText_fuel h r _ (by have := xText_length ps; simp; omega)

theorem isNameStart_digit {c : Char} (h : isNameStart c = true) : isDigit c = false := by
  cases hd : isDigit c with
  | false => rfl
  | true =>
    simp only [isDigit, decide_eq_true_eq] at hd
    simp [isNameStart, isUserStart, Char.le_def, UInt32.le_iff_toNat_le] at h
    have hc : c.toNat = c.val.toNat := rfl
    rcases h with rfl | (((rfl | h) | h) | rfl)
    · simp at hd
    · simp at hd
    · omega
    · omega
    · simp at hd

theorem comma_name : isNameChar ',' = false := by decide
theorem star_name : isNameChar '*' = false := by decide

theorem lit_name {n : Text} (h : NameOk isNameStart n) {k x : Char} {r : Text} (hk : ¬ (n = [k] ∧ x = ',')) :
    lit [k, ','] (n ++ x :: r) = .fail := by
  obtain ⟨c, t, rfl, hc, ht⟩ := h
  have hb := isNameStart_blank hc
  rw [List.cons_append, lit_cons hb]
  by_cases hck : k = c
  · subst hck
    cases t with
    | nil =>
      have : ',' ≠ x := by rintro rfl; exact hk ⟨rfl, rfl⟩
      simp [strip, this, ofStrip]
    | cons d t =>
      have : ',' ≠ d := by
        rintro rfl
        simp at ht
        exact absurd ht.1 (by decide)
      simp [strip, this, ofStrip]
  · simp [strip, hck, ofStrip]

theorem id_name {i n : Text} (hi : IdOk i) (hn : NameOk isNameStart n) (r : Text) :
    apertureId (i ++ (n ++ r)) = .ok i (n ++ r) := by
  obtain ⟨c, t, rfl, hc, ht⟩ := hn
  exact apertureId_ok hi (isNameStart_digit hc)

theorem adMacro_ok {o : Opts} {rd : Text → Option Text} {i n : Text} {ps : Option (List ℚ)}
    (hs : Shape rd (.adMacro i n ps)) (hn : NumsOk o (.adMacro i n ps)) (hsh : ¬ Shadowed n ps) (r : Text) :
    addAperture (leaf o (.adMacro i n ps) ++ r) = .ok (.adMacro i n ps) (o.lf ++ r) := by
  obtain ⟨hi, hnm, hne⟩ := hs
  have name_ok {x : Char} {t : Text} (hx : isNameChar x = false) : name (n ++ x :: t) = .ok n (x :: t) :=
    nameRe_ok hnm (fun _ => isNameStart_blank) hx
  cases ps with
  | none =>
    have e : leaf o (.adMacro i n none) ++ r = '%' :: 'A' :: 'D' :: (i ++ (n ++ '*' :: '%' :: (o.lf ++ r))) := by
      simp [leaf, ext, macroParams]
    have nk {k : Char} : ¬ (n = [k] ∧ '*' = ',') := by simp
    rw [e]
    pg [addAperture, adc, adr, ado, adp, adMacro, id_name hi hnm, lit_name hnm nk, name_ok star_name]
  | some l =>
    cases l with
    | nil => exact absurd rfl hne
    | cons p ps =>
      have hp := (hn p (by simp [numbers])).2
      have hps : ∀ q ∈ ps, Reads strFloat q := fun q hq => (hn q (by simp [numbers, hq])).2
      have e : leaf o (.adMacro i n (some (p :: ps))) ++ r =
          '%' :: 'A' :: 'D' :: (i ++ (n ++ ',' :: (strFloat p ++ (xText ps ++ '*' :: '%' :: (o.lf ++ r))))) := by
        simp [leaf, ext, macroParams, xText]
      have hm : adMacro ('%' :: 'A' :: 'D' :: (i ++ (n ++ ',' :: (strFloat p ++ (xText ps ++ '*' :: '%' :: (o.lf ++ r)))))) =
          .ok (.adMacro i n (some (p :: ps))) (o.lf ++ r) := by
        pg [adMacro, id_name hi hnm, name_ok comma_name, double_x hp, xText_many hps]
      have hr : ¬ Shadowed n (some (p :: ps)) := hsh
      simp only [Shadowed, Option.some.injEq, exists_eq_left', List.length_cons, not_or, not_and] at hr
      obtain ⟨h1, h2, h3⟩ := hr
      have c1 : adc ('%' :: 'A' :: 'D' :: (i ++ (n ++ ',' :: (strFloat p ++ (xText ps ++ '*' :: '%' :: (o.lf ++ r)))))) = .fail := by
        by_cases hk : n = ['C']
        · have := h1 hk
          match ps, this, hps with
          | [_], h, _ => simp at h
          | a :: b :: ps, _, hps =>
            have ha := hps a (by simp)
            subst hk
            have hx : xText (a :: b :: ps) = 'X' :: (strFloat a ++ 'X' :: (strFloat b ++ xText ps)) := by simp [xText]
            rw [hx]
            pg [adc, id_stop hi, xDouble, double_stop hp, double_stop ha]
        · pg [adc, id_name hi hnm, lit_name hnm (k := 'C') (x := ',') (by simp [hk])]
      have rect (k : Char) (hk' : k = 'R' ∨ k = 'O') {α : Type} (f : Text → ℚ → ℚ → Option ℚ → α) :
          (extended (lit t!"AD" ≫ apertureId ~> fun i => lit [k, ','] ≫ double ~> fun w => xDouble ~> fun h =>
            opt xDouble ~> fun o => ret (f i w h o)))
          ('%' :: 'A' :: 'D' :: (i ++ (n ++ ',' :: (strFloat p ++ (xText ps ++ '*' :: '%' :: (o.lf ++ r)))))) = .fail := by
        by_cases hk : n = [k]
        · have := h2 (by rcases hk' with rfl | rfl <;> simp [hk])
          have hkb : isBlank k = false ∧ isDigit k = false := by rcases hk' with rfl | rfl <;> decide
          subst hk
          match ps, this, hps with
          | [], _, hps => pg [xText, id_stop hi hkb.2, lit_cons hkb.1, xDouble, double_stop hp]
          | [_], h, _ => simp at h
          | [_, _], h, _ => simp at h
          | a :: b :: c :: ps, _, hps =>
            have ha := hps a (by simp)
            have hb := hps b (by simp)
            have hx : xText (a :: b :: c :: ps) =
              'X' :: (strFloat a ++ 'X' :: (strFloat b ++ 'X' :: (strFloat c ++ xText ps))) := by simp [xText]
            rw [hx]
            pg [id_stop hi hkb.2, lit_cons hkb.1, xDouble, double_stop hp, double_stop ha, double_stop hb]
        · pg [id_name hi hnm, lit_name hnm (k := k) (x := ',') (by simp [hk])]
      have c2 : adr ('%' :: 'A' :: 'D' :: (i ++ (n ++ ',' :: (strFloat p ++ (xText ps ++ '*' :: '%' :: (o.lf ++ r)))))) = .fail :=
        rect 'R' (.inl rfl) _
      have c3 : ado ('%' :: 'A' :: 'D' :: (i ++ (n ++ ',' :: (strFloat p ++ (xText ps ++ '*' :: '%' :: (o.lf ++ r)))))) = .fail :=
        rect 'O' (.inr rfl) _
      have c4 : adp ('%' :: 'A' :: 'D' :: (i ++ (n ++ ',' :: (strFloat p ++ (xText ps ++ '*' :: '%' :: (o.lf ++ r)))))) = .fail := by
        by_cases hk : n = ['P']
        · have := h3 hk
          match ps, this, hps with
          | [], _, hps =>
            subst hk
            pg [adp, xText, id_stop hi, xDouble, double_stop hp]
          | [_], h, _ => simp at h
          | [_, _], h, _ => simp at h
          | [_, _, _], h, _ => simp at h
          | a :: b :: c :: d :: ps, _, hps =>
            have ha := hps a (by simp)
            have hb := hps b (by simp)
            have hc := hps c (by simp)
            subst hk
            have hx : xText (a :: b :: c :: d :: ps) = 'X' :: (strFloat a ++ 'X' :: (strFloat b ++ 'X' ::
              (strFloat c ++ 'X' :: (strFloat d ++ xText ps)))) := by simp [xText]
            rw [hx]
            pg [adp, id_stop hi, xDouble, double_stop hp, double_stop ha, double_stop hb, double_stop hc]
        · pg [adp, id_name hi hnm, lit_name hnm (k := 'P') (x := ',') (by simp [hk])]
      rw [e]
      simp only [addAperture, firstOf]
      rw [orElse_fail c1, orElse_fail c2, orElse_fail c3, orElse_fail c4, orElse_ok hm]

end Verif.Grammar
