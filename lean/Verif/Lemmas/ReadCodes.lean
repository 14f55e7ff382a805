import Verif.Lemmas.ReadCommands

/-!
# Spellings of codes and macros are read as these codes and macros
-/

namespace Verif.Reading

open Verif.Text Verif.Fmt Verif.Peg Verif.Syntax Verif.Grammar Verif.Spec
open Verif.Math hiding P

variable (date : Text → Option Text)

/-! ## D codes -/

theorem coordinate_blank {b s : Text} (l : Char) (hb : Blank b) : coordinate l (b ++ s) = coordinate l s := (skips_coordinate l).blank hb s

theorem read_dnn (i : Text) (own : Bool) : All (commandText date (.dnn i own)) fun w => ∀ r, dCodes own (w ++ r) = .ok (.dnn i own) r := by
  parts
  spell
  intro r
  run [dCodes, dnn]

theorem read_d01 (x y i j : Option Text) (own : Bool) :
    All (commandText date (.d01 x y i j own)) fun w => ∀ r, dCodes own (w ++ r) = .ok (.d01 x y i j own) r := by
  cases x <;> cases y <;> cases i <;> cases j <;> parts <;> spell <;>
    refine all_add.2 ⟨?_, ?_⟩ <;> (try refine all_code '1' [] (by decide) (by decide) (by decide) fun _ _ _ => ?_) <;> spell <;>
    intro r <;> run [dCodes, dnn, d01, coordinate]

theorem read_d02 (x y : Option Text) (own : Bool) :
    All (commandText date (.d02 x y own)) fun w => ∀ r, dCodes own (w ++ r) = .ok (.d02 x y own) r := by
  cases x <;> cases y <;> parts <;> spell <;>
    refine all_code '2' [] (by decide) (by decide) (by decide) fun _ _ _ => ?_ <;> spell <;>
    intro r <;> run [dCodes, dnn, d01, d02, coordinate]

theorem read_d03 (x y : Option Text) (own : Bool) :
    All (commandText date (.d03 x y own)) fun w => ∀ r, dCodes own (w ++ r) = .ok (.d03 x y own) r := by
  cases x <;> cases y <;> parts <;> spell <;>
    refine all_code '3' [] (by decide) (by decide) (by decide) fun _ _ _ => ?_ <;> spell <;>
    intro r <;> run [dCodes, dnn, d01, d02, d03, coordinate]

/-! ## G codes -/

theorem gDigits_cons (c : GCode) : ∃ d N, gDigits c = d :: N ∧ Digits (d :: N) ∧ d ≠ '0' ∧ numeral (d :: N) = gNumber c := by
  cases c <;> exact ⟨_, _, rfl, by decide, by decide, by decide⟩

theorem all_g {c : GCode} {Q : Text → Prop} (h : ∀ b z, Blank b → Q (b ++ 'G' :: (List.replicate z '0' ++ gDigits c))) :
    All (code 'G' (gNumber c)) Q := by
  obtain ⟨d, N, e, h1, h2, h3⟩ := gDigits_cons c
  rw [e] at h
  exact all_code d N h1 h2 h3 h

theorem read_g (c : GCode) : All (commandText date (.g c true)) fun w => ∀ r, gCodes (w ++ r) = .ok [.g c true] r := by
  parts
  refine all_mul.2 (all_g fun _ _ _ => ?_)
  spell
  intro r
  cases c <;> run [gCodes, g04, gOrder, gStandalone, one, gDigits]

theorem followedBy_text {cs : List Char} {b s : Text} {c : Char} (hb : Blank b) (hc : isBlank c = false) (h : c ∈ cs) :
    followedBy cs (b ++ c :: s) = .ok () (b ++ c :: s) := by
  simp [followedBy, skip_blank hb, skip_of_head hc, h]

theorem read_together (c : GCode) {d : Node} {u r : Text} (hu : BeginsWith t!"DXYIJ" u) (hd : dCodes false (u ++ r) = .ok d r) :
    All (code 'G' (gNumber c)) fun w => gCodes (w ++ (u ++ r)) = .ok [.g c false, d] r := by
  refine all_g fun _ _ _ => ?_
  obtain ⟨b, x, t, hb, hx, rfl⟩ := hu
  have hxb : isBlank x = false ∧ x ≠ '*' ∧ isDigit x = false := by
    clear hd
    revert x; decide
  obtain ⟨h1, h2, h3⟩ := hxb
  have h4 (y : Char) (hy : isDigit y = true) : y ≠ x := by
    rintro rfl
    rw [h3] at hy; cases hy
  have h5 := h4 '0' rfl
  have h6 := h4 '1' rfl
  have h7 := h4 '4' rfl
  have h8 := h4 '5' rfl
  have h9 := h4 '6' rfl
  have h10 := h4 '7' rfl
  have h11 := h2.symm
  have hf := followedBy_text (s := t ++ r) hb h1 hx
  simp only [List.append_assoc, List.cons_append] at hd ⊢
  cases c <;> run [gCodes, g04, gOrder, gStandalone, gNonStandalone, one, gDigits]

theorem read_g04 : All (commandText date (.g04 none)) fun w => ∀ r, gCodes (w ++ r) = .ok [.g04 none] r := by
  parts
  refine all_mul.2 (all_code '4' [] (by decide) (by decide) (by decide) fun _ _ _ => ?_)
  spell
  intro r
  run [gCodes, g04, one]

theorem read_comment (t : Text) : All (commandText date (.g04 (some t))) fun w => ∀ r, gCodes (w ++ r) = .ok [.g04 (some t)] r := by
  parts
  refine all_mul.2 (all_tok.2 ?_)
  rintro b hb _ ⟨zs, hz, rfl⟩
  spell
  intro r
  rw [List.eq_replicate_of_mem hz]
  run [gCodes, g04, one]

/-! ## M codes -/

theorem read_m00 : All (commandText date .m00) fun w => ∀ r, mCodes (w ++ r) = .ok .m00 r := by
  parts
  spell
  intro r
  run [mCodes]

theorem read_m01 : All (commandText date .m01) fun w => ∀ r, mCodes (w ++ r) = .ok .m01 r := by
  parts
  refine all_mul.2 (all_code '1' [] (by decide) (by decide) (by decide) fun _ _ _ => ?_)
  spell
  intro r
  run [mCodes]

theorem read_m02 : All (commandText date .m02) fun w => ∀ r, mCodes (w ++ r) = .ok .m02 r := by
  parts
  refine all_mul.2 (all_code '2' [] (by decide) (by decide) (by decide) fun _ _ _ => ?_)
  spell
  intro r
  run [mCodes]

/-! ## Macros -/

theorem all_var {v : Text} {Q : Text → Prop}
    (h : ∀ b, Blank b → (∀ r, DigitsEnd r → variable_ (v ++ r) = .ok v r) → Q (b ++ v)) : All (exprText (.var v)) Q := by
  rw [exprText]
  refine all_tok.2 ?_
  rintro b hb _ ⟨rfl, ds, hd, hne, rfl⟩
  refine h b hb fun r hr => ?_
  have := digits_end hd hr
  have he : ds.isEmpty = false := by cases ds <;> simp at hne ⊢
  simp [variable_, pVar, skip_of_head (show isBlank '$' = false by decide), this, he]

theorem read_assign (v : Text) (e : Expr) : All (primText (.assign v e)) fun w => ∀ r, primitive (w ++ r) = .ok (.assign v e) r := by
  parts
  refine all_mul.2 (all_mul.2 (all_mul.2 (all_var fun _ _ _ => ?_)))
  spell
  intro r
  run [primitive, assignment]

theorem primitive_skip {s : Text} {c : Char} {b : Text} (hb : Blank b) (hc : isBlank c = false) (h : c ≠ '$') :
    primitive (b ++ c :: s) = firstOf [code0, code1, code2, code4, code5, code6, code7, code20, code21, code22] (c :: s) := by
  have hs : Skips primitive := by
    apply Skips.firstOf
    have e {p : P Prim} {w : Text} {q : P Prim} (h : p = command (lit w ≫ q)) : Skips p := by
      rw [h]; exact ((skips_lit w).before _).andThen _
    simp only [List.mem_cons, List.not_mem_nil, or_false, forall_eq_or_imp, forall_eq]
    refine ⟨?_, e rfl, e rfl, e rfl, e rfl, e rfl, e rfl, e rfl, e rfl, e rfl, e rfl⟩
    refine Skips.andThen (Skips.andThen ?_ _) _
    intro t; simp [variable_, skip_skip]
  rw [hs.blank hb]
  have : assignment (c :: s) = .fail := andThen_fail (andThen_fail (variable_cons hc h))
  unfold primitive
  rw [firstOf, orElse_fail this]

end Verif.Reading
