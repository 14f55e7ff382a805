import Verif.Lemmas.Dispatch

/-!
# Reading back single printed commands
-/

namespace Verif.Grammar

open Verif.Text Verif.Fmt Verif.Peg Verif.Syntax Verif.Spec Verif.Formatter
open Verif.Math hiding P

/-! ## D and G codes -/

theorem codeRe_ok {l : Char} {w : Text} {c : Char} {r t : Text} (hb : isBlank l = false)
    (h : strip w (lstrip0 (c :: r)) = some t) : codeRe l w (l :: c :: r) = .ok () t := by
  simp [codeRe, skip_of_head hb, h]

theorem coordinate_ok {l : Char} {t : Text} (hb : isBlank l = false) (h : IntOk t) {c : Char} {r : Text}
    (hc : isDigit c = false) : coordinate l (l :: (t ++ c :: r)) = .ok t (c :: r) := by
  simp [coordinate, Peg.before, Peg.andThen, clit_cons hb, stripCaseless, ofStrip, integer_ok h hc]

theorem int_head {t : Text} (h : IntOk t) : ∃ c u, t = c :: u ∧ isBlank c = false := by
  obtain ⟨ds, hne, hd, h⟩ := h
  rcases h with rfl | ⟨x, hx, rfl⟩
  · cases t with
    | nil => exact absurd rfl hne
    | cons a t => simp at hd; exact ⟨a, t, rfl, (isDigit_facts hd.1).1⟩
  · exact ⟨x, ds, rfl, (sign_facts hx).1⟩

/-- Reading an optional coordinate: what follows begins with another letter. -/
theorem opt_coordinate {l : Char} {x : Option Text} (hx : OptOk IntOk x) (hb : isBlank l = false) {c : Char} {r : Text}
    (hc : isDigit c = false) (hcb : isBlank c = false) (hcl : c.toUpper ≠ l.toUpper) :
    opt (coordinate l) (optText l x ++ c :: r) = .ok x (c :: r) := by
  cases x with
  | none => simp [optText, Peg.opt, coordinate_fail hcb hcl]
  | some t => simp [optText, Peg.opt, coordinate_ok hb (hx t rfl) hc]

theorem optText_cons (l : Char) (x : Option Text) (c : Char) (r : Text) (hc : c ∈ dHeads) (hl : l ∈ dHeads) :
    ∃ c' r', optText l x ++ c :: r = c' :: r' ∧ (c' = l ∨ c' = c) ∧ c' ∈ dHeads := by
  cases x with
  | none => exact ⟨c, r, rfl, .inr rfl, hc⟩
  | some t => exact ⟨l, t ++ c :: r, rfl, .inl rfl, hl⟩

theorem apertureId_short {ds : Text} (hd : ds.all isDigit = true) (hl : (lstrip0 ds).length < 2) {c : Char} {r : Text}
    (hc : isDigit c = false) : apertureId ('D' :: (ds ++ c :: r)) = .fail := by
  have := digits_append (r := c :: r) hd (by intro x t hx; simp at hx; rw [← hx.1]; exact hc)
  simp only [apertureId, skip_of_head (show isBlank 'D' = false by decide), this]
  simp; omega

/-- The text of a D01, D02 or D03 command. -/
def dText (x y i j : Option Text) (n : Char) (r : Text) : Text :=
  optText 'X' x ++ (optText 'Y' y ++ (optText 'I' i ++ (optText 'J' j ++ 'D' :: '0' :: n :: '*' :: r)))

theorem dText_dnn {s : Bool} {x y i j : Option Text} {n : Char} {r : Text} (hn : n ∈ ['1', '2', '3']) :
    dnn s (dText x y i j n r) = .fail := by
  have hn' : isDigit n = true ∧ (lstrip0 ['0', n]).length < 2 := by
    simp only [List.mem_cons, List.not_mem_nil, or_false] at hn
    rcases hn with rfl | rfl | rfl <;> decide
  have key : apertureId (dText x y i j n r) = .fail := by
    unfold dText
    cases x with
    | some t => exact apertureId_fail (by decide) (by decide)
    | none =>
      cases y with
      | some t => exact apertureId_fail (by decide) (by decide)
      | none =>
        cases i with
        | some t => exact apertureId_fail (by decide) (by decide)
        | none =>
          cases j with
          | some t => exact apertureId_fail (by decide) (by decide)
          | none =>
            exact apertureId_short (ds := ['0', n]) (c := '*') (r := r) (by simp [hn'.1]; decide) hn'.2 (by decide)
  simp [dnn, command, mapP, Peg.andThen, key]

theorem d01_ok {s : Bool} {x y i j : Option Text} (hx : OptOk IntOk x) (hy : OptOk IntOk y) (hi : OptOk IntOk i)
    (hj : OptOk IntOk j) {r : Text} : dCodes s (dText x y i j '1' r) = .ok (.d01 x y i j s) r := by
  have h0 := dText_dnn (s := s) (x := x) (y := y) (i := i) (j := j) (r := r) (show '1' ∈ ['1', '2', '3'] by simp)
  have : d01 s (dText x y i j '1' r) = .ok (.d01 x y i j s) r := by
    unfold dText
    obtain ⟨c1, r1, e1, m1, d1⟩ := optText_cons 'J' j 'D' ('0' :: '1' :: '*' :: r) (by decide) (by decide)
    have p1 := opt_coordinate (r := '0' :: '1' :: '*' :: r) hj (l := 'J') (c := 'D') (by decide) (by decide) (by decide)
      (by decide)
    obtain ⟨c2, r2, e2, m2, d2⟩ := optText_cons 'I' i c1 r1 d1 (by decide)
    have f1 : isDigit c1 = false ∧ isBlank c1 = false ∧ c1.toUpper ≠ 'I'.toUpper := by
      rcases m1 with rfl | rfl <;> decide
    have p2 := opt_coordinate (r := r1) hi (l := 'I') (c := c1) (by decide) f1.1 f1.2.1 f1.2.2
    obtain ⟨c3, r3, e3, m3, d3⟩ := optText_cons 'Y' y c2 r2 d2 (by decide)
    have f2 : isDigit c2 = false ∧ isBlank c2 = false ∧ c2.toUpper ≠ 'Y'.toUpper := by
      rcases m2 with rfl | rfl
      · decide
      · rcases m1 with rfl | rfl <;> decide
    have p3 := opt_coordinate (r := r2) hy (l := 'Y') (c := c2) (by decide) f2.1 f2.2.1 f2.2.2
    have f3 : isDigit c3 = false ∧ isBlank c3 = false ∧ c3.toUpper ≠ 'X'.toUpper := by
      rcases m3 with rfl | rfl
      · decide
      · rcases m2 with rfl | rfl
        · decide
        · rcases m1 with rfl | rfl <;> decide
    have p4 := opt_coordinate (r := r3) hx (l := 'X') (c := c3) (by decide) f3.1 f3.2.1 f3.2.2
    have p5 : codeRe 'D' ['1'] ('D' :: '0' :: '1' :: '*' :: r) = .ok () ('*' :: r) := codeRe_ok (by decide) (by
      simp [lstrip0, strip])
    rw [e1, e2, e3]
    simp only [d01, command, Peg.andThen, p4]
    rw [← e3, p3]
    simp only
    rw [← e2, p2]
    simp only
    rw [← e1, p1]
    simp [Peg.before, Peg.andThen, Peg.opt, p5, Peg.ret, asterisk, lit_cons, strip, ofStrip,
      show isBlank '*' = false from rfl]
  simp only [dCodes, firstOf]
  rw [orElse_fail h0, orElse_ok this]

theorem codeRe_short {w : Char} {n : Char} (hw : w ≠ n) (hn : n ≠ '0') {r : Text} :
    codeRe 'D' [w] ('D' :: '0' :: n :: r) = .fail := by
  have : lstrip0 ('0' :: n :: r) = n :: r := by simp [lstrip0, hn]
  simp [codeRe, skip_of_head (show isBlank 'D' = false by decide), this, strip, hw]

/-- Reading the coordinates of a D02 or D03 command. -/
theorem d23_read {x y : Option Text} (hx : OptOk IntOk x) (hy : OptOk IntOk y) {n : Char} {r : Text} :
    opt (coordinate 'X') (dText x y none none n r) = .ok x (optText 'Y' y ++ 'D' :: '0' :: n :: '*' :: r) ∧
    opt (coordinate 'Y') (optText 'Y' y ++ 'D' :: '0' :: n :: '*' :: r) = .ok y ('D' :: '0' :: n :: '*' :: r) := by
  obtain ⟨c2, r2, e2, m2, d2⟩ := optText_cons 'Y' y 'D' ('0' :: n :: '*' :: r) (by decide) (by decide)
  have p1 := opt_coordinate (r := '0' :: n :: '*' :: r) hy (l := 'Y') (c := 'D') (by decide) (by decide) (by decide)
      (by decide)
  refine ⟨?_, p1⟩
  have f2 : isDigit c2 = false ∧ isBlank c2 = false ∧ c2.toUpper ≠ 'X'.toUpper := by
    rcases m2 with rfl | rfl <;> decide
  unfold dText
  simp only [optText, List.nil_append]
  simp only [optText] at e2
  rw [e2]
  exact opt_coordinate hx (by decide) f2.1 f2.2.1 f2.2.2

theorem opt_none {α : Type} {p : P α} {s : Text} (h : p s = .fail) : opt p s = .ok none s := by simp [Peg.opt, h]

theorem d01_not {s : Bool} {x y : Option Text} (hx : OptOk IntOk x) (hy : OptOk IntOk y) {n : Char} {r : Text}
    (hn : n ∈ ['2', '3']) : d01 s (dText x y none none n r) = .fail := by
  obtain ⟨p1, p2⟩ := d23_read hx hy (n := n) (r := r)
  have hn' : n ≠ '1' ∧ n ≠ '0' := by
    simp only [List.mem_cons, List.not_mem_nil, or_false] at hn
    rcases hn with rfl | rfl <;> decide
  have p3 : codeRe 'D' ['1'] ('D' :: '0' :: n :: '*' :: r) = .fail := codeRe_short hn'.1.symm hn'.2
  have p4 := opt_none (coordinate_fail (l := 'I') (c := 'D') (t := '0' :: n :: '*' :: r) (by decide) (by decide))
  have p5 := opt_none (coordinate_fail (l := 'J') (c := 'D') (t := '0' :: n :: '*' :: r) (by decide) (by decide))
  simp [d01, command, Peg.andThen, Peg.before, p1, p2, p4, p5, opt_none p3, Peg.ret, asterisk, lit_cons, strip, ofStrip,
      show isBlank 'D' = false from rfl]

theorem d02_ok {s : Bool} {x y : Option Text} (hx : OptOk IntOk x) (hy : OptOk IntOk y) {r : Text} :
    dCodes s (dText x y none none '2' r) = .ok (.d02 x y s) r := by
  obtain ⟨p1, p2⟩ := d23_read hx hy (n := '2') (r := r)
  have p3 : codeRe 'D' ['2'] ('D' :: '0' :: '2' :: '*' :: r) = .ok () ('*' :: r) := codeRe_ok (by decide) (by
      simp [lstrip0, strip])
  have : d02 s (dText x y none none '2' r) = .ok (.d02 x y s) r := by
    simp [d02, command, Peg.andThen, Peg.before, p1, p2, p3, Peg.ret, asterisk, lit_cons, strip, ofStrip,
      show isBlank '*' = false from rfl]
  simp only [dCodes, firstOf]
  rw [orElse_fail (dText_dnn (by simp)), orElse_fail (d01_not hx hy (by simp)), orElse_ok this]

theorem d03_ok {s : Bool} {x y : Option Text} (hx : OptOk IntOk x) (hy : OptOk IntOk y) {r : Text} :
    dCodes s (dText x y none none '3' r) = .ok (.d03 x y s) r := by
  obtain ⟨p1, p2⟩ := d23_read hx hy (n := '3') (r := r)
  have p3 : codeRe 'D' ['3'] ('D' :: '0' :: '3' :: '*' :: r) = .ok () ('*' :: r) := codeRe_ok (by decide) (by
      simp [lstrip0, strip])
  have p4 : codeRe 'D' ['2'] ('D' :: '0' :: '3' :: '*' :: r) = .fail := codeRe_short (by decide) (by decide)
  have h2 : d02 s (dText x y none none '3' r) = .fail := by
    simp [d02, command, Peg.andThen, Peg.before, p1, p2, p4]
  have : d03 s (dText x y none none '3' r) = .ok (.d03 x y s) r := by
    simp [d03, command, Peg.andThen, Peg.before, p1, p2, p3, Peg.ret, asterisk, lit_cons, strip, ofStrip,
      show isBlank '*' = false from rfl]
  simp only [dCodes, firstOf]
  rw [orElse_fail (dText_dnn (by simp)), orElse_fail (d01_not hx hy (by simp)), orElse_fail h2, orElse_ok this]

theorem dnn_ok {s : Bool} {i : Text} (hi : IdOk i) {r : Text} : dCodes s (i ++ '*' :: r) = .ok (.dnn i s) r := by
  have : dnn s (i ++ '*' :: r) = .ok (.dnn i s) r := by
    simp [dnn, command, mapP, Peg.before, Peg.andThen, apertureId_ok hi (c := '*') (r := r) (by decide), Peg.ret, asterisk,
      lit_cons, strip, ofStrip, show isBlank '*' = false from rfl]
  simp only [dCodes, firstOf]
  rw [orElse_ok this]

/-- Every printed D code is read back. -/
theorem d_ok {o : Opts} {rd : Text → Option Text} {n : Node} (hd : isD n = true) (h : Shape rd n) (r : Text) :
    dCodes (standalone n) (leaf o n ++ r) = .ok n (o.lf ++ r) := by
  cases n <;> simp only [isD, Bool.false_eq_true] at hd
  · simpa [leaf, cmd, standalone] using dnn_ok (r := o.lf ++ r) h
  · simpa [leaf, cmd, standalone, dText] using d01_ok (r := o.lf ++ r) h.1 h.2.1 h.2.2.1 h.2.2.2
  · simpa [leaf, cmd, standalone, dText, optText] using d02_ok (r := o.lf ++ r) h.1 h.2
  · simpa [leaf, cmd, standalone, dText, optText] using d03_ok (r := o.lf ++ r) h.1 h.2

/-- A printed D code begins with one of five letters. -/
theorem d_head {o : Opts} {rd : Text → Option Text} {n : Node} (hd : isD n = true) (h : Shape rd n) (r : Text) :
    ∃ c t, leaf o n ++ r = c :: t ∧ c ∈ dHeads := by
  cases n <;> simp only [isD, Bool.false_eq_true] at hd
  · obtain ⟨ds, rfl, _⟩ := h
    exact ⟨'D', _, rfl, by decide⟩
  · rename_i x y i j s
    simp only [leaf, cmd]
    cases x <;> cases y <;> cases i <;> cases j <;> simp [optText, dHeads]
  · rename_i x y s
    simp only [leaf, cmd]
    cases x <;> cases y <;> simp [optText, dHeads]
  · rename_i x y s
    simp only [leaf, cmd]
    cases x <;> cases y <;> simp [optText, dHeads]

theorem lstrip0_cons {c : Char} {r : Text} (h : c ≠ '0') : lstrip0 (c :: r) = c :: r := by simp [lstrip0, h]
theorem lstrip0_zero {r : Text} : lstrip0 ('0' :: r) = lstrip0 r := by simp [lstrip0]

theorem g_text (c : GCode) : ∃ a b, gName c = ['G', a, b] := by cases c <;> exact ⟨_, _, rfl⟩

theorem codeRe_cons {l : Char} {w r : Text} (hb : isBlank l = false) :
    codeRe l w (l :: r) = ofStrip (strip w (lstrip0 r)) := by
  simp only [codeRe, skip_of_head hb, if_true]
  cases strip w (lstrip0 r) <;> rfl

theorem firstOf_mid {α β : Type} {f : α → P β} {l : List α} {ps : List (P β)} {s r : Text} {b : β} {c : α} (hc : c ∈ l)
    (hf : ∀ c', c' ≠ c → f c' s = .fail) (h : f c s = .ok b r) : firstOf (l.map f ++ ps) s = .ok b r := by
  induction l with
  | nil => simp at hc
  | cons a l ih =>
    simp only [List.map_cons, List.cons_append, firstOf]
    by_cases hac : a = c
    · subst hac; exact orElse_ok h
    · rw [orElse_fail (hf a hac)]
      exact ih (by simpa [Ne.symm hac] using hc)

theorem firstOf_skip {β : Type} {ps qs : List (P β)} {s : Text} (hf : ∀ p ∈ ps, p s = .fail) :
    firstOf (ps ++ qs) s = firstOf qs s := by
  induction ps with
  | nil => rfl
  | cons a l ih =>
    simp only [List.cons_append, firstOf]
    rw [orElse_fail (hf a (by simp))]
    exact ih (fun p hp => hf p (by simp [hp]))

theorem mem_gOrder (c : GCode) : c ∈ gOrder := by cases c <;> decide

/-- What the rule for another code leaves of a printed G code. -/
theorem codeRe_other (c c' : GCode) (x : Char) (t : Text) (hx : isDigit x = false) :
    codeRe 'G' (gDigits c') (gName c ++ x :: t) =
      if c = c' then .ok () (x :: t) else
        if (c' = .g03 ∧ (c = .g36 ∨ c = .g37)) then .ok () (((gName c).drop 2) ++ x :: t) else .fail := by
  have hd : ∀ d : Char, isDigit d = true → d ≠ x ∧ x ≠ d := by
    intro d hd; exact ⟨by rintro rfl; simp [hd] at hx, by rintro rfl; simp [hd] at hx⟩
  have h0 := hd '0' (by decide)
  have h1 := hd '1' (by decide)
  have h4 := hd '4' (by decide)
  have h5 := hd '5' (by decide)
  have h6 := hd '6' (by decide)
  have h7 := hd '7' (by decide)
  cases c <;> cases c' <;>
    simp [gName, gDigits, codeRe_cons (show isBlank 'G' = false by decide), lstrip0_zero, lstrip0_cons, strip, ofStrip, h0, h1,
      h4, h5, h6, h7]

theorem g04_not {c : GCode} {x : Char} {t : Text} : one g04 (gName c ++ x :: t) = .fail := by
  apply one_fail
  refine andThen_fail (andThen_fail ?_)
  cases c <;>
    simp [gName, codeRe_cons (show isBlank 'G' = false by decide), lstrip0_zero, lstrip0_cons, strip, ofStrip]

theorem asterisk_fail {x : Char} {t : Text} (hb : isBlank x = false) (h : x ≠ '*') : asterisk (x :: t) = .fail := by
  simp [asterisk, lit_cons hb, strip, ofStrip, h.symm]

theorem asterisk_ok {t : Text} : asterisk ('*' :: t) = .ok () t := by
  simp [asterisk, lit_cons (show isBlank '*' = false by decide), strip, ofStrip]

theorem g_standalone_ok {c : GCode} {r : Text} : gCodes (gName c ++ '*' :: r) = .ok [.g c true] r := by
  unfold gCodes
  rw [List.append_assoc, firstOf_skip (by simpa using g04_not)]
  apply firstOf_mid (mem_gOrder c)
  · intro c' hc'
    apply one_fail
    simp only [gStandalone, command, Peg.before, Peg.andThen, codeRe_other c c' '*' r (by decide), Peg.ret, if_neg hc'.symm]
    by_cases h : c' = .g03 ∧ (c = .g36 ∨ c = .g37)
    · rcases h.2 with rfl | rfl <;> simp [h.1, gName, asterisk_fail, show isBlank '6' = false from rfl,
          show isBlank '7' = false from rfl]
    · simp [h]
  · apply one_ok
    simp [gStandalone, command, Peg.before, Peg.andThen, codeRe_other c c '*' r (by decide), Peg.ret, asterisk_ok]

theorem g_pair_ok {c : GCode} {d : Node} {x : Char} {t r : Text} (hx : x ∈ dHeads)
    (h : dCodes false (x :: t) = .ok d r) : gCodes (gName c ++ x :: t) = .ok [.g c false, d] r := by
  have hx' : isDigit x = false ∧ isBlank x = false ∧ x ≠ '*' := by
    simp only [dHeads, List.mem_cons, List.not_mem_nil, or_false] at hx
    rcases hx with rfl | rfl | rfl | rfl | rfl <;> decide
  unfold gCodes
  rw [List.append_assoc, firstOf_skip (by simpa using g04_not), firstOf_skip, ← List.append_nil (List.map _ _)]
  · apply firstOf_mid (mem_gOrder c)
    · intro c' hc'
      simp only [gNonStandalone, Peg.before, Peg.andThen, codeRe_other c c' x t hx'.1, if_neg hc'.symm]
      by_cases h : c' = .g03 ∧ (c = .g36 ∨ c = .g37)
      · rcases h.2 with rfl | rfl <;> simp [h.1, gName, followedBy, skip_of_head (show isBlank '6' = false from rfl),
            skip_of_head (show isBlank '7' = false from rfl)]
      · simp [h]
    · have : followedBy ['D', 'X', 'Y', 'I', 'J'] (x :: t) = .ok () (x :: t) := by
        simp only [followedBy, skip_of_head hx'.2.1]
        exact if_pos hx
      simp [gNonStandalone, Peg.before, Peg.andThen, codeRe_other c c x t hx'.1, this, Peg.mapP, h, Peg.ret]
  · intro p hp
    obtain ⟨c', _, rfl⟩ := List.mem_map.1 hp
    apply one_fail
    simp only [gStandalone, command, Peg.before, Peg.andThen, codeRe_other c c' x t hx'.1, Peg.ret]
    by_cases hc : c = c'
    · simp [hc, asterisk_fail hx'.2.1 hx'.2.2]
    · rw [if_neg hc]
      by_cases h : c' = .g03 ∧ (c = .g36 ∨ c = .g37)
      · rcases h.2 with rfl | rfl <;> simp [h.1, gName, asterisk_fail, show isBlank '6' = false from rfl,
            show isBlank '7' = false from rfl]
      · simp [h]

theorem g04_ok {s : Option Text} (hs : OptOk StrOk s) {r : Text} :
    gCodes (t!"G04" ++ s.getD [] ++ '*' :: r) = .ok [.g04 s] r := by
  have : g04 (t!"G04" ++ s.getD [] ++ '*' :: r) = .ok (.g04 s) r := by
    cases s with
    | none => pg [g04, codeRe_cons, lstrip0_cons, lstrip0_zero, string_star]
    | some s => pg [g04, codeRe_cons, lstrip0_cons, lstrip0_zero, string_ok (hs s rfl)]
  unfold gCodes
  rw [List.append_assoc, List.singleton_append, firstOf, orElse_ok (one_ok this)]

theorem m_ok (r : Text) : mCodes (t!"M00" ++ '*' :: r) = .ok .m00 r ∧ mCodes (t!"M01" ++ '*' :: r) = .ok .m01 r ∧
    mCodes (t!"M02" ++ '*' :: r) = .ok .m02 r := by
  refine ⟨?_, ?_, ?_⟩ <;>
    pg [mCodes, codeRe_cons, mZeros, skip_of_head (show isBlank 'M' = false from rfl), lstrip0_cons, lstrip0_zero]

end Verif.Grammar
