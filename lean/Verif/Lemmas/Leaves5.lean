import Verif.Lemmas.Leaves4

/-!
# Reading back printed macros
-/

namespace Verif.Grammar

open Verif.Text Verif.Fmt Verif.Peg Verif.Syntax Verif.Spec Verif.Formatter
open Verif.Math hiding P

/-- All texts the formatter uses for layout are blanks. -/
structure Layout (o : Opts) : Prop where
  macroBody : Blank o.macroBody
  macroParam : Blank o.macroParam
  abIndent : Blank o.abIndent
  srIndent : Blank o.srIndent
  d01 : Blank o.d01Indent
  d02 : Blank o.d02Indent
  d03 : Blank o.d03Indent
  lf : Blank o.lf
  polarity : Blank o.polarityLine
  explicit : o.explicit = false

/-- The expression is printed so that it can be read back. -/
def ExprOk (o : Opts) (e : Expr) : Prop := WF 6 e ∧ Consts (Readable o.fd) e

/-- The text begins with a comma or an asterisk. -/
def Delim (x : Text) : Prop := ∃ c t, x = c :: t ∧ (c = ',' ∨ c = '*')

theorem delim_arg (o : Opts) (e : Expr) (x : Text) : Delim (arg o e ++ x) := ⟨',', _, rfl, .inl rfl⟩
theorem delim_star (x : Text) : Delim ('*' :: x) := ⟨'*', x, rfl, .inr rfl⟩
theorem delim_comma (x : Text) : Delim (',' :: x) := ⟨',', x, rfl, .inl rfl⟩

theorem blank_nil : Blank [] := by intro c hc; simp at hc

theorem paramLf_blank {o : Opts} (h : Layout o) : Blank (paramLf o) := by
  unfold paramLf
  split
  · exact blank_append (blank_append h.lf h.macroParam) h.macroBody
  · exact blank_nil

theorem primLf_blank {o : Opts} (h : Layout o) : Blank (primLf o) := by
  unfold primLf
  split
  · exact blank_nil
  · exact blank_append h.lf h.macroBody

theorem cs_expr {o : Opts} (h : Layout o) {e : Expr} (he : ExprOk o e) {w x : Text} (hw : Blank w) (hx : Delim x) :
    cs expr (',' :: (w ++ (print o.fd o.explicit e ++ x))) = .ok e x := by
  obtain ⟨c, t, rfl, hc⟩ := hx
  have := expr_ok he.1 he.2 hw (r := t) hc
  rw [h.explicit]
  simp [cs, comma, Peg.before, Peg.andThen, lit_cons (show isBlank ',' = false by decide), strip, ofStrip, this]

theorem cs_arg {o : Opts} (h : Layout o) {e : Expr} (he : ExprOk o e) {x : Text} (hx : Delim x) :
    cs expr (arg o e ++ x) = .ok e x := by
  have := cs_expr h he (paramLf_blank h) hx
  simpa [arg] using this

theorem cs_star {α : Type} {p : P α} {x : Text} : cs p ('*' :: x) = .fail := by pg []

theorem cs_digit {α : Type} {p : P α} {c : Char} {x : Text} (hb : isBlank c = false) (h : c ≠ ',') : cs p (c :: x) = .fail := by
  simp [cs, comma, Peg.before, Peg.andThen, lit_cons hb, strip, ofStrip, h.symm]

theorem delim_points (o : Opts) (ps : List (Expr × Expr)) {x : Text} (hx : Delim x) : Delim (pointsText o ps ++ x) := by
  cases ps with
  | nil => exact hx
  | cons p ps => exact ⟨',', _, rfl, .inl rfl⟩

theorem point_ok {o : Opts} (h : Layout o) {p : Expr × Expr} (h1 : ExprOk o p.1) (h2 : ExprOk o p.2) {x : Text}
    (hx : Delim x) :
    point (',' :: paramLf o ++ print o.fd o.explicit p.1 ++ ',' :: print o.fd o.explicit p.2 ++ x) = .ok p x := by
  have a := cs_expr h h1 (paramLf_blank h) (delim_comma (print o.fd o.explicit p.2 ++ x))
  have b := cs_expr h h2 blank_nil hx
  simp only [List.nil_append] at b
  simp [point, Peg.andThen, a, b, Peg.ret]

theorem points_fuel {o : Opts} (h : Layout o) {ps : List (Expr × Expr)} {x : Text} (hx : Delim x)
    (hp : ∀ p ∈ ps, ExprOk o p.1 ∧ ExprOk o p.2) (hs : point x = .fail) :
    ∀ n, ps.length ≤ n → manyFuel point n (pointsText o ps ++ x) = .ok ps x := by
  induction ps with
  | nil => intro n _; exact manyFuel_stop hs n
  | cons p ps ih =>
    intro n hn
    cases n with
    | zero => simp at hn
    | succ n =>
      refine manyFuel_step (r := pointsText o ps ++ x) ?_ (ih (fun q hq => hp q (by simp [hq])) n (by simpa using hn))
      have := point_ok h (hp p (by simp)).1 (hp p (by simp)).2 (delim_points o ps hx)
      rw [← this]
      simp [pointsText]

theorem points_length (o : Opts) (ps : List (Expr × Expr)) : ps.length ≤ (pointsText o ps).length := by
  induction ps with
  | nil => simp
  | cons p ps ih => simp [pointsText]; omega

theorem many1_points {o : Opts} (h : Layout o) {ps : List (Expr × Expr)} (hne : ps ≠ []) {x : Text} (hx : Delim x)
    (hp : ∀ p ∈ ps, ExprOk o p.1 ∧ ExprOk o p.2) (hs : point x = .fail) :
    many1 point (pointsText o ps ++ x) = .ok ps x := by
  cases ps with
  | nil => exact absurd rfl hne
  | cons p ps =>
    have h1 := point_ok h (hp p (by simp)).1 (hp p (by simp)).2 (delim_points o ps hx)
    have h2 := points_fuel (ps := ps) h hx (fun q hq => hp q (by simp [hq])) hs (pointsText o ps ++ x).length
      (by have := points_length o ps; simp; omega)
    have e : pointsText o (p :: ps) ++ x = ',' :: paramLf o ++ print o.fd o.explicit p.1 ++ ',' ::
      print o.fd o.explicit p.2 ++ (pointsText o ps ++ x) := by simp [pointsText]
    rw [e]
    simp only [many1, Peg.andThen, h1, many, h2, Peg.ret]

theorem variable_ok {ds : Text} (hne : ds ≠ []) (hd : ds.all isDigit = true) {c : Char} {r : Text} (hc : isDigit c = false) :
    variable_ ('$' :: (ds ++ c :: r)) = .ok ('$' :: ds) (c :: r) := by
  have := digits_append (r := c :: r) hd (by intro x t hx; simp at hx; rw [← hx.1]; exact hc)
  simp [variable_, pVar, skip_of_head (show isBlank '$' = false by decide), this, hne]

theorem variable_fail {c : Char} {r : Text} (hb : isBlank c = false) (h : c ≠ '$') : variable_ (c :: r) = .fail := by
  have : pVar (skip (c :: r)) = none := by
    rw [skip_of_head hb]
    unfold pVar
    rw [skip_of_head hb]
    split
    · rename_i heq; simp at heq; exact absurd heq.1 h
    · rfl
  simp [variable_, this]

theorem skips_primitive : Skips primitive := by
  have v : Skips variable_ := by intro s; simp [variable_, skip_skip]
  apply Skips.firstOf
  simp only [List.mem_cons, List.not_mem_nil, or_false, forall_eq_or_imp, forall_eq]
  have l {α β : Type} (w : Text) (p : P α) (f : α → P β) : Skips ((lit w ≫ p) ~> f) := ((skips_lit w).before p).andThen f
  exact ⟨(v.andThen _).andThen _, l _ _ _, l _ _ _, l _ _ _, l _ _ _, l _ _ _, l _ _ _, l _ _ _, l _ _ _, l _ _ _, l _ _ _⟩

theorem primitive_stop (r : Text) : primitive ('%' :: r) = .fail := by
  pg [primitive, assignment, variable_fail, code0, code1, code2, code4, code5, code6, code7, code20, code21, code22]

/-- A printed node of a macro body without the blanks before it. -/
theorem prim_core {o : Opts} (h : Layout o) {p : Prim} (hs : PrimShape p) (he : ∀ e ∈ primExprs p, ExprOk o e) (r : Text) :
    ∃ t, prim o p = primLf o ++ t ∧ primitive (t ++ r) = .ok p r := by
  cases p with
  | assign v e =>
    obtain ⟨ds, rfl, hne, hd⟩ := hs
    refine ⟨_, by simp only [prim, List.append_assoc, List.cons_append]; rfl, ?_⟩
    have a := variable_ok (c := '=') (r := print o.fd o.explicit e ++ '*' :: r) hne hd (by decide)
    have b := expr_ok (he e (by simp [primExprs])).1 (he e (by simp [primExprs])).2 blank_nil (c := '*') (r := r) (.inr rfl)
    simp only [List.nil_append] at b
    rw [h.explicit] at a ⊢
    pg [primitive, assignment, a, b]
  | code0 s =>
    refine ⟨_, by simp only [prim, List.append_assoc, List.cons_append]; rfl, ?_⟩
    pg [primitive, assignment, variable_fail, code0, string_ok hs]
  | code1 a b c d q =>
    have ha := he a (by simp [primExprs])
    have hb := he b (by simp [primExprs])
    have hc := he c (by simp [primExprs])
    have hd := he d (by simp [primExprs])
    refine ⟨_, by simp only [prim, List.append_assoc, List.cons_append]; rfl, ?_⟩
    cases q with
    | none =>
      simp (decide := true) [Peg.firstOf, Peg.orElse, command, Peg.before, Peg.andThen, Peg.ret, Peg.opt, primitive, assignment,
        variable_fail, code0, code1, lit_cons, strip, ofStrip, isBlank, cs_arg h ha, cs_arg h hb, cs_arg h hc, cs_arg h hd,
        delim_arg, delim_star, cs_star, asterisk_ok]
    | some q =>
      have hq := he q (by simp [primExprs])
      simp (decide := true) [Peg.firstOf, Peg.orElse, command, Peg.before, Peg.andThen, Peg.ret, Peg.opt, primitive, assignment,
        variable_fail, code0, code1, lit_cons, strip, ofStrip, isBlank, cs_arg h ha, cs_arg h hb, cs_arg h hc, cs_arg h hd,
        cs_arg h hq, delim_arg, delim_star, cs_star, asterisk_ok]
  | code2 a b c d e f q =>
    have ha := he a (by simp [primExprs])
    have hb := he b (by simp [primExprs])
    have hc := he c (by simp [primExprs])
    have hd := he d (by simp [primExprs])
    have hee := he e (by simp [primExprs])
    have hf := he f (by simp [primExprs])
    have hq := he q (by simp [primExprs])
    refine ⟨_, by simp only [prim, List.append_assoc, List.cons_append]; rfl, ?_⟩
    simp (decide := true) [Peg.firstOf, Peg.orElse, command, Peg.before, Peg.andThen, Peg.ret, Peg.opt, primitive, assignment,
      variable_fail, code0, code1, code2, code4, code5, code6, code7, code20, code21, code22, lit_cons, strip, ofStrip, isBlank,
      cs_arg h ha, cs_arg h hb, cs_arg h hc, cs_arg h hd, cs_arg h hee, cs_arg h hf, cs_arg h hq,
      delim_arg, delim_star, cs_star, cs_digit, asterisk_ok]
  | code4 a b c d ps q =>
    have ha := he a (by simp [primExprs])
    have hb := he b (by simp [primExprs])
    have hc := he c (by simp [primExprs])
    have hd := he d (by simp [primExprs])
    have hq := he q (by simp [primExprs])
    have hps : ∀ p ∈ ps, ExprOk o p.1 ∧ ExprOk o p.2 := by
      intro p hp
      refine ⟨he p.1 ?_, he p.2 ?_⟩
      · simp only [primExprs, List.mem_append, List.mem_flatten, List.mem_map]
        exact .inl (.inr ⟨[p.1, p.2], ⟨p, hp, rfl⟩, by simp⟩)
      · simp only [primExprs, List.mem_append, List.mem_flatten, List.mem_map]
        exact .inl (.inr ⟨[p.1, p.2], ⟨p, hp, rfl⟩, by simp⟩)
    have hstop : point (arg o q ++ '*' :: r) = .fail := by
      simp [point, Peg.andThen, cs_arg h hq (delim_star r), cs_star]
    have hm := many1_points h hs (delim_arg o q ('*' :: r)) hps hstop
    refine ⟨_, by simp only [prim, List.append_assoc, List.cons_append]; rfl, ?_⟩
    simp (decide := true) [Peg.firstOf, Peg.orElse, command, Peg.before, Peg.andThen, Peg.ret, Peg.opt, primitive, assignment,
      variable_fail, code0, code1, code2, code4, lit_cons, strip, ofStrip, isBlank,
      cs_arg h ha, cs_arg h hb, cs_arg h hc, cs_arg h hd, cs_arg h hq, hm,
      delim_arg, delim_star, delim_points, cs_star, cs_digit, asterisk_ok]
  | code5 a b c d e q =>
    have ha := he a (by simp [primExprs])
    have hb := he b (by simp [primExprs])
    have hc := he c (by simp [primExprs])
    have hd := he d (by simp [primExprs])
    have hee := he e (by simp [primExprs])
    have hq := he q (by simp [primExprs])
    refine ⟨_, by simp only [prim, List.append_assoc, List.cons_append]; rfl, ?_⟩
    simp (decide := true) [Peg.firstOf, Peg.orElse, command, Peg.before, Peg.andThen, Peg.ret, Peg.opt, primitive, assignment,
      variable_fail, code0, code1, code2, code4, code5, code6, code7, code20, code21, code22, lit_cons, strip, ofStrip, isBlank,
      cs_arg h ha, cs_arg h hb, cs_arg h hc, cs_arg h hd, cs_arg h hee, cs_arg h hq,
      delim_arg, delim_star, cs_star, cs_digit, asterisk_ok]
  | code6 a b c d e f g i q =>
    have ha := he a (by simp [primExprs])
    have hb := he b (by simp [primExprs])
    have hc := he c (by simp [primExprs])
    have hd := he d (by simp [primExprs])
    have hee := he e (by simp [primExprs])
    have hf := he f (by simp [primExprs])
    have hg := he g (by simp [primExprs])
    have hi := he i (by simp [primExprs])
    have hq := he q (by simp [primExprs])
    refine ⟨_, by simp only [prim, List.append_assoc, List.cons_append]; rfl, ?_⟩
    simp (decide := true) [Peg.firstOf, Peg.orElse, command, Peg.before, Peg.andThen, Peg.ret, Peg.opt, primitive, assignment,
      variable_fail, code0, code1, code2, code4, code5, code6, code7, code20, code21, code22, lit_cons, strip, ofStrip, isBlank,
      cs_arg h ha, cs_arg h hb, cs_arg h hc, cs_arg h hd, cs_arg h hee, cs_arg h hf, cs_arg h hg, cs_arg h hi, cs_arg h hq,
      delim_arg, delim_star, cs_star, cs_digit, asterisk_ok]
  | code7 a b c d e q =>
    have ha := he a (by simp [primExprs])
    have hb := he b (by simp [primExprs])
    have hc := he c (by simp [primExprs])
    have hd := he d (by simp [primExprs])
    have hee := he e (by simp [primExprs])
    have hq := he q (by simp [primExprs])
    refine ⟨_, by simp only [prim, List.append_assoc, List.cons_append]; rfl, ?_⟩
    simp (decide := true) [Peg.firstOf, Peg.orElse, command, Peg.before, Peg.andThen, Peg.ret, Peg.opt, primitive, assignment,
      variable_fail, code0, code1, code2, code4, code5, code6, code7, code20, code21, code22, lit_cons, strip, ofStrip, isBlank,
      cs_arg h ha, cs_arg h hb, cs_arg h hc, cs_arg h hd, cs_arg h hee, cs_arg h hq,
      delim_arg, delim_star, cs_star, cs_digit, asterisk_ok]
  | code20 a b c d e f q =>
    have ha := he a (by simp [primExprs])
    have hb := he b (by simp [primExprs])
    have hc := he c (by simp [primExprs])
    have hd := he d (by simp [primExprs])
    have hee := he e (by simp [primExprs])
    have hf := he f (by simp [primExprs])
    have hq := he q (by simp [primExprs])
    refine ⟨_, by simp only [prim, List.append_assoc, List.cons_append]; rfl, ?_⟩
    simp (decide := true) [Peg.firstOf, Peg.orElse, command, Peg.before, Peg.andThen, Peg.ret, Peg.opt, primitive, assignment,
      variable_fail, code0, code1, code2, code4, code5, code6, code7, code20, code21, code22, lit_cons, strip, ofStrip, isBlank,
      cs_arg h ha, cs_arg h hb, cs_arg h hc, cs_arg h hd, cs_arg h hee, cs_arg h hf, cs_arg h hq,
      delim_arg, delim_star, cs_star, cs_digit, asterisk_ok]
  | code21 a b c d e q =>
    have ha := he a (by simp [primExprs])
    have hb := he b (by simp [primExprs])
    have hc := he c (by simp [primExprs])
    have hd := he d (by simp [primExprs])
    have hee := he e (by simp [primExprs])
    have hq := he q (by simp [primExprs])
    refine ⟨_, by simp only [prim, List.append_assoc, List.cons_append]; rfl, ?_⟩
    simp (decide := true) [Peg.firstOf, Peg.orElse, command, Peg.before, Peg.andThen, Peg.ret, Peg.opt, primitive, assignment,
      variable_fail, code0, code1, code2, code4, code5, code6, code7, code20, code21, code22, lit_cons, strip, ofStrip, isBlank,
      cs_arg h ha, cs_arg h hb, cs_arg h hc, cs_arg h hd, cs_arg h hee, cs_arg h hq,
      delim_arg, delim_star, cs_star, cs_digit, asterisk_ok]
  | code22 a b c d e q =>
    have ha := he a (by simp [primExprs])
    have hb := he b (by simp [primExprs])
    have hc := he c (by simp [primExprs])
    have hd := he d (by simp [primExprs])
    have hee := he e (by simp [primExprs])
    have hq := he q (by simp [primExprs])
    refine ⟨_, by simp only [prim, List.append_assoc, List.cons_append]; rfl, ?_⟩
    simp (decide := true) [Peg.firstOf, Peg.orElse, command, Peg.before, Peg.andThen, Peg.ret, Peg.opt, primitive, assignment,
      variable_fail, code0, code1, code2, code4, code5, code6, code7, code20, code21, code22, lit_cons, strip, ofStrip, isBlank,
      cs_arg h ha, cs_arg h hb, cs_arg h hc, cs_arg h hd, cs_arg h hee, cs_arg h hq,
      delim_arg, delim_star, cs_star, cs_digit, asterisk_ok]

theorem prims_fuel {o : Opts} (h : Layout o) {base : Text} (hb : Blank base) {ps : List Prim} (hs : ∀ p ∈ ps, PrimShape p)
    (he : ∀ p ∈ ps, ∀ e ∈ primExprs p, ExprOk o e) {x : Text} (hx : primitive x = .fail) :
    ∀ n, ps.length ≤ n → manyFuel primitive n (prims o base ps ++ x) = .ok ps x := by
  induction ps with
  | nil => intro n _; exact manyFuel_stop hx n
  | cons p ps ih =>
    intro n hn
    cases n with
    | zero => simp at hn
    | succ n =>
      obtain ⟨t, e, ht⟩ := prim_core h (hs p (by simp)) (he p (by simp)) (prims o base ps ++ x)
      refine manyFuel_step (r := prims o base ps ++ x) ?_
        (ih (fun q hq => hs q (by simp [hq])) (fun q hq => he q (by simp [hq])) n (by simpa using hn))
      have e' : prims o base (p :: ps) ++ x = base ++ (primLf o ++ (t ++ (prims o base ps ++ x))) := by simp [prims, e]
      rw [e', skips_primitive.blank hb, skips_primitive.blank (primLf_blank h), ht]

theorem prim_length (o : Opts) (p : Prim) : 1 ≤ (prim o p).length := by
  cases p <;> simp [prim] <;> omega

theorem prims_length (o : Opts) (base : Text) (ps : List Prim) : ps.length ≤ (prims o base ps).length := by
  induction ps with
  | nil => simp
  | cons p ps ih => have := prim_length o p; simp [prims]; omega

theorem macro_ok {o : Opts} (h : Layout o) {base : Text} (hb : Blank base) {n : Text} {ps : List Prim}
    (hn : NameOk isNameStart n) (hs : ∀ p ∈ ps, PrimShape p) (he : ∀ p ∈ ps, ∀ e ∈ primExprs p, ExprOk o e) {w : Text}
    (hw : Blank w) (r : Text) :
    macro_ ('%' :: 'A' :: 'M' :: (n ++ '*' :: (prims o base ps ++ (w ++ '%' :: r)))) = .ok (.am n ps) r := by
  have hx : primitive (w ++ '%' :: r) = .fail := by rw [skips_primitive.blank hw, primitive_stop]
  have hm := prims_fuel h hb hs he hx (prims o base ps ++ (w ++ '%' :: r)).length
    (by have := prims_length o base ps; simp; omega)
  have hl : lit ['%'] (w ++ '%' :: r) = .ok () r := by
    rw [(skips_lit _).blank hw]; pg []
  have hnm : name (n ++ '*' :: (prims o base ps ++ (w ++ '%' :: r))) =
      .ok n ('*' :: (prims o base ps ++ (w ++ '%' :: r))) := nameRe_ok hn (fun _ => isNameStart_blank) star_name
  have hm' : many primitive (prims o base ps ++ (w ++ '%' :: r)) = .ok ps (w ++ '%' :: r) := hm
  pg [macro_, hnm, hm', hl]

end Verif.Grammar
