import Verif.Lemmas.Nodes
import Verif.Model.Formatter

/-!
# Tabs: texts without them are not changed before they are read, and none are printed
-/

namespace Verif.Grammar

open Verif.Text Verif.Fmt Verif.Peg Verif.Syntax Verif.Spec Verif.Formatter
open Verif.Math hiding P

theorem expandFrom_id (col : Nat) (s : Text) (h : '\t' ∉ s) : expandFrom col s = s := by
  induction s generalizing col with
  | nil => rfl
  | cons c s ih =>
    simp only [List.mem_cons, not_or] at h
    simp only [expandFrom, if_neg (Ne.symm h.1), ih _ h.2, ite_self]

theorem expandFrom_noTab (col : Nat) (s : Text) : '\t' ∉ expandFrom col s := by
  induction s generalizing col with
  | nil => simp [expandFrom]
  | cons c s ih =>
    unfold expandFrom
    split
    · simp only [List.mem_append, List.mem_replicate, not_or]
      exact ⟨by simp, ih _⟩
    · rename_i hc
      split
      · simp only [List.mem_cons, not_or]
        exact ⟨Ne.symm hc, ih _⟩
      · simp only [List.mem_cons, not_or]
        exact ⟨Ne.symm hc, ih _⟩

theorem expandTabs_noTab (s : Text) : '\t' ∉ expandTabs s := expandFrom_noTab 0 s

theorem expandTabs_id {s : Text} (h : '\t' ∉ s) : expandTabs s = s := expandFrom_id 0 s h

theorem expandFrom_blank (col : Nat) (s : Text) : Blank (expandFrom col s) ↔ Blank s := by
  induction s generalizing col with
  | nil => simp [expandFrom]
  | cons c s ih =>
    have key (d : Char) (t : Text) : Blank (d :: t) ↔ (d = ' ' ∨ d = '\n' ∨ d = '\t' ∨ d = '\r') ∧ Blank t := by
      simp [Blank]
    unfold expandFrom
    split
    · rename_i hc
      rw [key, ← ih (col + (8 - col % 8))]
      simp only [Blank, List.mem_append, List.mem_replicate]
      constructor
      · exact fun h => ⟨.inr (.inr (.inl hc)), fun c hc => h c (.inr hc)⟩
      · rintro ⟨-, h⟩ c (hc | hc)
        · exact .inl hc.2
        · exact h c hc
    · split <;> rw [key, key, ih]

theorem expandTabs_blank (s : Text) : Blank (expandTabs s) ↔ Blank s := expandFrom_blank 0 s

theorem parseCode_id (rd : Text → Option Text) {s : Text} (h : '\t' ∉ s) : parseCode rd s = parseFile rd s := by
  rw [parseCode, expandTabs_id h]

/-! ## Numbers -/

theorem digit_noTab {s : Text} (h : s.all isDigit = true) : '\t' ∉ s :=
  fun hc => by have := List.all_eq_true.1 h _ hc; simp [isDigit] at this

theorem natStr_noTab (n : Nat) : '\t' ∉ natStr n := by
  fun_induction natStr n with
  | case1 n h => 
    have : n = 0 ∨ n = 1 ∨ n = 2 ∨ n = 3 ∨ n = 4 ∨ n = 5 ∨ n = 6 ∨ n = 7 ∨ n = 8 ∨ n = 9 := by omega
    rcases this with rfl | rfl | rfl | rfl | rfl | rfl | rfl | rfl | rfl | rfl <;> decide
  | case2 n h ih =>
    simp only [List.mem_append, not_or]
    refine ⟨ih, ?_⟩
    have : n % 10 = 0 ∨ n % 10 = 1 ∨ n % 10 = 2 ∨ n % 10 = 3 ∨ n % 10 = 4 ∨ n % 10 = 5 ∨ n % 10 = 6 ∨ n % 10 = 7 ∨
      n % 10 = 8 ∨ n % 10 = 9 := by omega
    rcases this with h | h | h | h | h | h | h | h | h | h <;> rw [h] <;> decide

theorem rjust_noTab {w : Nat} {s : Text} (h : '\t' ∉ s) : '\t' ∉ rjust0 w s := by
  simp [rjust0, h]

theorem rstrip_noTab {f : Char → Bool} {s : Text} (h : '\t' ∉ s) : '\t' ∉ (s.reverse.dropWhile f).reverse := by
  simp only [List.mem_reverse]
  exact fun hc => h (List.mem_reverse.1 ((List.dropWhile_suffix f).mem hc))

theorem sign_noTab (c : Prop) [Decidable c] : '\t' ∉ (if c then ['-'] else [] : Text) := by split <;> simp

theorem strFloat_noTab (q : ℚ) : '\t' ∉ strFloat q := by
  unfold strFloat
  simp only [List.mem_append, not_or]
  refine ⟨sign_noTab _, ?_⟩
  unfold strNonneg
  simp only
  split
  · decide
  · split
    · simp only [List.mem_append, List.mem_cons, not_or]
      refine ⟨natStr_noTab _, by decide, ?_⟩
      split
      · decide
      · exact rjust_noTab (natStr_noTab _)
    · have := rstrip_noTab (f := (· == '0')) (natStr_noTab (scaled (decPlaces |q|) |q|))
      simp only [List.mem_append, List.mem_cons, not_or]
      refine ⟨⟨fun hc => this (List.mem_of_mem_take hc), ?_⟩, by decide, ?_, rjust_noTab (natStr_noTab _)⟩
      · split
        · simp
        · simp only [List.mem_cons, not_or]
          exact ⟨by decide, fun hc => this (List.mem_of_mem_drop hc)⟩
      · split <;> decide

theorem fmtDouble_noTab (p : Option Nat) (t : Bool) (q : ℚ) : '\t' ∉ fmtDouble p t q := by
  have hf (d : Nat) : '\t' ∉ fixed d q := by
    unfold fixed
    split
    · simp only [List.mem_append, not_or]
      exact ⟨sign_noTab _, natStr_noTab _⟩
    · simp only [fixedParts, List.mem_append, List.mem_cons, not_or]
      exact ⟨⟨sign_noTab _, natStr_noTab _⟩, by decide, rjust_noTab (natStr_noTab _)⟩
  cases p with
  | none => exact strFloat_noTab q
  | some d =>
    simp only [fmtDouble]
    split
    · exact rstrip_noTab (rstrip_noTab (hf d))
    · exact hf d

theorem fd_noTab (o : Opts) (q : ℚ) : '\t' ∉ o.fd q := fmtDouble_noTab _ _ _

theorem intStr_noTab (n : ℤ) : '\t' ∉ intStr n := by
  simp only [intStr, List.mem_append, not_or]
  exact ⟨sign_noTab _, natStr_noTab _⟩

theorem fdInt_noTab (o : Opts) (n : ℤ) : '\t' ∉ o.fdInt n := by
  unfold Opts.fdInt
  split
  · exact intStr_noTab n
  · exact fmtDouble_noTab _ _ _

/-! ## Expressions -/

theorem op_noTab (op : Op) : op.char ≠ '\t' := by cases op <;> decide

theorem print_noTab (o : Opts) (ex : Bool) {l : Nat} {e : Expr} (h : WF l e) : '\t' ∉ print o.fd ex e := by
  have tail (op : Op) (t : List Expr) (ht : ∀ e ∈ t, '\t' ∉ print o.fd ex e) : '\t' ∉ printTail o.fd ex op t := by
    induction t with
    | nil => simp [printTail]
    | cons e t ih =>
      simp only [printTail, List.mem_append, List.mem_cons, not_or]
      exact ⟨⟨Ne.symm (op_noTab op), ht e (by simp)⟩, ih fun e he => ht e (by simp [he])⟩
  induction h with
  | const => simpa [print] using fd_noTab o _
  | var _ h => simp only [print, List.mem_cons, not_or]; exact ⟨by decide, digit_noTab h⟩
  | paren _ ih => simp only [print, List.mem_append, not_or]; exact ⟨⟨by split <;> decide, ih⟩, by split <;> decide⟩
  | neg _ ih => simp only [print, List.mem_cons, not_or]; exact ⟨by decide, ih⟩
  | pos _ ih => simp only [print, List.mem_cons, not_or]; exact ⟨by decide, ih⟩
  | bin _ _ _ _ ih iht =>
    simp only [print, List.mem_append, not_or]
    exact ⟨⟨⟨by split <;> decide, ih⟩, tail _ _ iht⟩, by split <;> decide⟩
  | up _ _ ih => exact ih

/-! ## Commands -/

/-- The layout has no tabs. -/
structure NoTabs (o : Opts) : Prop where
  macroBody : '\t' ∉ o.macroBody
  macroParam : '\t' ∉ o.macroParam
  abIndent : '\t' ∉ o.abIndent
  srIndent : '\t' ∉ o.srIndent
  d01 : '\t' ∉ o.d01Indent
  d02 : '\t' ∉ o.d02Indent
  d03 : '\t' ∉ o.d03Indent
  lf : '\t' ∉ o.lf
  polarity : '\t' ∉ o.polarityLine

theorem ext_noTab {o : Opts} (ho : NoTabs o) {t : Text} (h : '\t' ∉ t) : '\t' ∉ ext o t := by
  simp [ext, h, ho.lf]

theorem cmd_noTab {o : Opts} (ho : NoTabs o) {t : Text} (h : '\t' ∉ t) : '\t' ∉ cmd o t := by
  simp [cmd, h, ho.lf]

theorem optNum_noTab {c : Char} (hc : '\t' ≠ c) {fd : ℚ → Text} (h : ∀ q, '\t' ∉ fd q) (q : Option ℚ) :
    '\t' ∉ optNum c fd q := by cases q <;> simp [optNum, h, hc]

theorem optText_noTab {c : Char} (hc : '\t' ≠ c) {t : Option Text} (h : OptOk ('\t' ∉ ·) t) : '\t' ∉ optText c t := by
  cases t with
  | none => simp [optText]
  | some t => simp [optText, hc, h t rfl]

theorem fieldsText_noTab {fs : List Text} (h : FieldsOk fs) : '\t' ∉ fieldsText fs := by
  induction fs with
  | nil => simp [fieldsText]
  | cons f fs ih => simp [fieldsText, (h f (by simp)).2.2, ih fun g hg => h g (by simp [hg])]

theorem id_noTab {i : Text} (h : IdOk i) : '\t' ∉ i := by
  obtain ⟨ds, rfl, h, _⟩ := h
  simp [digit_noTab h]

theorem int_noTab {i : Text} (h : IntOk i) : '\t' ∉ i := by
  obtain ⟨ds, _, hd, rfl | ⟨c, hc, rfl⟩⟩ := h
  · exact digit_noTab hd
  · simp only [List.mem_cons, not_or]
    refine ⟨?_, digit_noTab hd⟩
    rintro rfl
    simp [isSign] at hc

theorem name_noTab {f : Char → Bool} (hf : f '\t' = false) {n : Text} (h : NameOk f n) : '\t' ∉ n := by
  obtain ⟨c, t, rfl, h1, h2⟩ := h
  simp only [List.mem_cons, not_or]
  refine ⟨?_, fun hc => ?_⟩
  · rintro rfl; simp [hf] at h1
  · have := List.all_eq_true.1 h2 _ hc
    simp [isNameChar, isDigit] at this

theorem optInt_noTab {i : Option Text} (h : OptOk IntOk i) : OptOk ('\t' ∉ ·) i := fun a ha => int_noTab (h a ha)

theorem mem_noTab {ws : List Text} (hw : ∀ w ∈ ws, '\t' ∉ w) {t : Text} (h : t ∈ ws) : '\t' ∉ t := hw t h

theorem commaMap_noTab {Q : Text → Prop} (hQ : ∀ t, Q t → '\t' ∉ t) {t : Option Text} (h : OptOk Q t) :
    '\t' ∉ (t.map (',' :: ·)).getD [] := by
  cases t with
  | none => simp
  | some t => simp [hQ t (h t rfl)]

theorem commaOpt_noTab {t : Option Text} (h : OptOk FieldOk t) : '\t' ∉ commaOpt t := by
  cases t with
  | none => simp [commaOpt]
  | some t => simp [commaOpt, (h t rfl).2.2]

theorem opt_noTab {t : Option Text} (h : OptOk StrOk t) : '\t' ∉ t.getD [] := by
  cases t with
  | none => simp
  | some t => exact (h t rfl).2.2

theorem macroParams_noTab (ps : Option (List ℚ)) : '\t' ∉ macroParams ps := by
  rcases ps with _ | _ | ⟨p, ps⟩
  · simp [macroParams]
  · simp [macroParams]
  · simp only [macroParams, List.cons_append, List.mem_cons, List.mem_append, List.mem_flatten, List.mem_map, not_or,
      not_exists, not_and]
    refine ⟨by decide, strFloat_noTab p, ?_⟩
    rintro _ ⟨q, hq, rfl⟩
    simp [strFloat_noTab]

theorem toName_noTab (k : ToKind) : '\t' ∉ toName k := by cases k <;> decide

theorem gName_noTab (c : GCode) : '\t' ∉ gName c := by cases c <;> decide

theorem leaf_noTab {o : Opts} (ho : NoTabs o) {rd : Text → Option Text} {n : Node} (h : Shape rd n) : '\t' ∉ leaf o n := by
  have hfd := fd_noTab o
  have oN (c : Char) (hc : '\t' ≠ c) (q : Option ℚ) := optNum_noTab hc hfd q
  have fld (t : Text) (h : FieldOk t) : '\t' ∉ t := h.2.2
  cases n <;> simp only [leaf, Shape] at h ⊢
  case ab => simp
  case sr => simp
  case am => simp
  case adc => exact ext_noTab ho (by simp [id_noTab h, hfd, oN])
  case adr => exact ext_noTab ho (by simp [id_noTab h, hfd, oN])
  case ado => exact ext_noTab ho (by simp [id_noTab h, hfd, oN])
  case adp => exact ext_noTab ho (by simp [id_noTab h.1, hfd, oN, intStr_noTab])
  case adMacro => exact ext_noTab ho (by simp [id_noTab h.1, name_noTab (by decide) h.2.1, macroParams_noTab])
  case taUser => exact ext_noTab ho (by simp [name_noTab (by decide) h.1, fieldsText_noTab h.2])
  case taFunction =>
    have := commaMap_noTab (fun t => mem_noTab (ws := aperFunctions) (by decide +kernel)) h.1
    exact ext_noTab ho (by simp [this, fieldsText_noTab h.2.1])
  case taDrill => exact ext_noTab ho (by simp [oN])
  case taFlash s m r f z cs =>
    obtain ⟨h1, h2, h3, ⟨f, rfl, h4⟩, ⟨z, rfl, h5⟩, h6⟩ := h
    have := mem_noTab (by decide) h2
    have := mem_noTab (by decide) h3
    refine ext_noTab ho ?_
    split <;> simp [*, fld _ h1, fld _ h4, fld _ h5, fieldsText_noTab h6, commaOpt]
  case td => exact ext_noTab ho (by simp [opt_noTab h])
  case tfUser => exact ext_noTab ho (by simp [name_noTab (by decide) h.1, fieldsText_noTab h.2])
  case tfPart => exact ext_noTab ho (by simp [mem_noTab (by decide) h.1, fieldsText_noTab h.2])
  case tfFunction => exact ext_noTab ho (by simp [mem_noTab (by decide +kernel) h.1, fieldsText_noTab h.2])
  case tfPolarity => exact ext_noTab ho (by simp [mem_noTab (by decide) h])
  case tfSame => exact ext_noTab ho (by simp [commaMap_noTab fld h])
  case tfDate => exact ext_noTab ho (by simp [fld _ h.2])
  case tfSoftware => exact ext_noTab ho (by simp [commaOpt_noTab h.1, commaOpt_noTab h.2.1, commaOpt_noTab h.2.2])
  case tfProject => exact ext_noTab ho (by simp [commaOpt_noTab h.1, commaOpt_noTab h.2.1, commaOpt_noTab h.2.2])
  case tfMd5 => exact ext_noTab ho (by simp [fld _ h.2])
  case toUser => exact ext_noTab ho (by simp [name_noTab (by decide) h.1, fieldsText_noTab h.2])
  case toN => exact ext_noTab ho (by simp [fieldsText_noTab h])
  case toP => exact ext_noTab ho (by simp [fld _ h.1, fld _ h.2.1, commaMap_noTab fld h.2.2])
  case toText => exact ext_noTab ho (by simp [toName_noTab, fld _ h])
  case toRot => exact ext_noTab ho (by simp [hfd])
  case toHeight => exact ext_noTab ho (by simp [hfd])
  case toMount => exact ext_noTab ho (by simp [mem_noTab (by decide +kernel) h])
  case toSup => exact ext_noTab ho (by simp [fld _ h.1, fld _ h.2.1, fieldsText_noTab h.2.2])
  case dnn => exact cmd_noTab ho (id_noTab h)
  case d01 =>
    exact cmd_noTab ho (by simp [optText_noTab _ (optInt_noTab h.1), optText_noTab _ (optInt_noTab h.2.1),
      optText_noTab _ (optInt_noTab h.2.2.1), optText_noTab _ (optInt_noTab h.2.2.2)])
  case d02 => exact cmd_noTab ho (by simp [optText_noTab _ (optInt_noTab h.1), optText_noTab _ (optInt_noTab h.2)])
  case d03 => exact cmd_noTab ho (by simp [optText_noTab _ (optInt_noTab h.1), optText_noTab _ (optInt_noTab h.2)])
  case g =>
    unfold gText
    split
    · simp
    · split
      · exact cmd_noTab ho (gName_noTab _)
      · exact gName_noTab _
  case g04 => exact cmd_noTab ho (by simp [opt_noTab h])
  case lm m => exact ext_noTab ho (by cases m <;> decide)
  case ln => exact ext_noTab ho (by simp [h.2.2])
  case lp m => exact ext_noTab ho (by cases m <;> decide)
  case lr => exact ext_noTab ho (by simp [hfd])
  case ls => exact ext_noTab ho (by simp [hfd])
  case m00 => exact cmd_noTab ho (by decide)
  case m01 => exact cmd_noTab ho (by decide)
  case m02 => exact cmd_noTab ho (by decide)
  case as_ m => exact ext_noTab ho (by cases m <;> decide)
  case fs z m _ _ _ _ => exact ext_noTab ho (by cases z <;> cases m <;> simp [natStr_noTab, zerosValue, notationValue])
  case in_ => exact ext_noTab ho (by simp [h.2.2])
  case ip m => exact ext_noTab ho (by cases m <;> decide)
  case ir => exact ext_noTab ho (by simp [fdInt_noTab])
  case mi a b => exact ext_noTab ho (by cases a <;> cases b <;> decide)
  case mo m => exact ext_noTab ho (by cases m <;> decide)
  case of_ =>
    exact ext_noTab ho (by simp [optNum_noTab (c := 'A') (by decide) strFloat_noTab, optNum_noTab (c := 'B') (by decide) strFloat_noTab])
  case sf => exact ext_noTab ho (by simp [hfd])

theorem indent_noTab {o : Opts} (ho : NoTabs o) {base : Text} (hb : '\t' ∉ base) (n : Node) : '\t' ∉ indent o base n := by
  cases n <;> simp only [indent] <;> first | exact hb | skip
  case dnn => split <;> simp [hb]
  case d01 => split <;> simp [hb, ho.d01]
  case d02 => split <;> simp [hb, ho.d02]
  case d03 => split <;> simp [hb, ho.d03]
  case lp => simp [hb, ho.polarity]

/-! ## Macros -/

theorem primLf_noTab {o : Opts} (ho : NoTabs o) : '\t' ∉ primLf o := by
  unfold primLf; split <;> simp [ho.lf, ho.macroBody]

theorem paramLf_noTab {o : Opts} (ho : NoTabs o) : '\t' ∉ paramLf o := by
  unfold paramLf; split <;> simp [ho.lf, ho.macroBody, ho.macroParam]

theorem prim_noTab {o : Opts} (ho : NoTabs o) {p : Prim} (hp : PrimShape p) (he : ∀ e ∈ primExprs p, WF 6 e) :
    '\t' ∉ prim o p := by
  have hl := primLf_noTab ho
  have ha : ∀ e ∈ primExprs p, '\t' ∉ arg o e := fun e h => by
    simp [arg, paramLf_noTab ho, print_noTab o o.explicit (he e h)]
  have pts (ps : List (Expr × Expr)) (h : ∀ q ∈ ps, WF 6 q.1 ∧ WF 6 q.2) : '\t' ∉ pointsText o ps := by
    induction ps with
    | nil => simp [pointsText]
    | cons q ps ih =>
      simp [pointsText, paramLf_noTab ho, print_noTab o o.explicit (h q (by simp)).1, print_noTab o o.explicit (h q (by simp)).2,
        ih fun q hq => h q (by simp [hq])]
  cases p <;> simp only [prim, primExprs] at ha he ⊢
  case assign v e =>
    obtain ⟨ds, rfl, _, hd⟩ := hp
    simp [hl, digit_noTab hd, print_noTab o o.explicit (he e (by simp))]
  case code0 => simp [hl, hp.2.2]
  case code1 a b c d r =>
    cases r <;> simp at ha <;> simp [hl, ha]
  case code4 a b c d ps r =>
    have := pts ps fun q hq => ⟨he _ (by simp; exact .inr (.inr (.inr (.inr (.inl ⟨_, _, hq, .inl rfl⟩))))), he _ (by simp; exact .inr (.inr (.inr (.inr (.inl ⟨_, _, hq, .inr rfl⟩)))))⟩
    simp at ha
    simp [hl, ha, this]
  all_goals
    simp at ha
    simp [hl, ha]

theorem prims_noTab {o : Opts} (ho : NoTabs o) {base : Text} (hb : '\t' ∉ base) {ps : List Prim}
    (hp : ∀ p ∈ ps, PrimShape p) (he : ∀ p ∈ ps, ∀ e ∈ primExprs p, WF 6 e) : '\t' ∉ prims o base ps := by
  induction ps with
  | nil => simp [prims]
  | cons p ps ih =>
    simp [prims, hb, prim_noTab ho (hp p (by simp)) (he p (by simp)),
      ih (fun q hq => hp q (by simp [hq])) (fun q hq => he q (by simp [hq]))]

/-! ## Files -/

theorem decrease_noTab {b d : Text} (hb : '\t' ∉ b) : '\t' ∉ decrease b d := by
  unfold decrease
  split
  · exact fun hc => hb (List.mem_of_mem_take hc)
  · exact hb

theorem srOpen_noTab {o : Opts} (ho : NoTabs o) {x y i j : Option Text} (hx : OptOk NumOk x) (hy : OptOk NumOk y)
    (hi : OptOk NumOk i) (hj : OptOk NumOk j) : '\t' ∉ srOpenText o x y i j := by
  have n (t : Option Text) (h : OptOk NumOk t) : '\t' ∉ t.getD t!"None" := by
    cases t with
    | none => decide
    | some t => exact (h t rfl).2.2
  refine ext_noTab ho ?_
  simp only [List.mem_append, not_or]
  refine ⟨⟨⟨⟨by decide, ?_⟩, ?_⟩, ?_⟩, ?_⟩
  · split <;> simp [n x hx]
  · split <;> simp [n y hy]
  · split <;> simp [n i hi]
  · split <;> simp [n j hj]

theorem node_noTab {o : Opts} (ho : NoTabs o) {rd : Text → Option Text} {n : Node} (h : Shape rd n) (hb : isBlock n = false)
    {base : Text} (h0 : '\t' ∉ base) : '\t' ∉ (node o base n).1 ∧ '\t' ∉ (node o base n).2 := by
  cases n
  case am n ps =>
    have hn := name_noTab (by decide) h.1
    have hp := prims_noTab ho h0 h.2.1 h.2.2
    refine ⟨?_, h0⟩
    simp only [node, List.mem_append, List.mem_cons, not_or]
    refine ⟨⟨⟨⟨⟨⟨h0, by decide⟩, hn⟩, by decide, hp⟩, h0⟩, ?_⟩, by decide, ho.lf⟩
    split <;> simp [ho.lf]
  case ab => cases hb
  case sr => cases hb
  all_goals exact ⟨by
    simp only [node, List.mem_append, not_or]
    exact ⟨indent_noTab ho h0 _, leaf_noTab ho h⟩, h0⟩

theorem nodes_noTab {o : Opts} (ho : NoTabs o) {rd : Text → Option Text} {L : Node → Prop} (hL : ∀ n, L n → Shape rd n)
    {top : Bool} {ns : List Node} (h : WFs L top ns) {base : Text} (hb : '\t' ∉ base) :
    '\t' ∉ (nodes o base ns).1 ∧ '\t' ∉ (nodes o base ns).2 := by
  have app {b : Text} {n : Node} {ns : List Node} (h1 : '\t' ∉ (node o b n).1)
      (h2 : '\t' ∉ (nodes o (node o b n).2 ns).1 ∧ '\t' ∉ (nodes o (node o b n).2 ns).2) :
      '\t' ∉ (nodes o b (n :: ns)).1 ∧ '\t' ∉ (nodes o b (n :: ns)).2 := by
    simp only [nodes, List.mem_append, not_or]
    exact ⟨⟨h1, h2.1⟩, h2.2⟩
  induction h generalizing base with
  | nil => simp [nodes, hb]
  | leaf h1 h2 _ _ ih =>
    have := node_noTab ho (hL _ h1) h2 hb
    exact app this.1 (ih this.2)
  | @pair _ c d _ h1 h2 h3 _ _ ih =>
    have h4 : isBlock d = false := by cases d <;> simp [isD] at h3 <;> rfl
    have := node_noTab ho (hL _ h1) rfl hb
    have h5 := node_noTab ho (hL _ h2) h4 this.2
    exact app this.1 (app h5.1 (ih h5.2))
  | ab h1 _ _ ih1 ih2 =>
    have h2 := ih1 (base := base ++ o.abIndent) (by simp [hb, ho.abIndent])
    have hi := id_noTab (hL _ h1)
    have h3 := decrease_noTab (d := o.abIndent) h2.2
    refine app ?_ (ih2 h3)
    simp only [node, List.mem_append, not_or]
    exact ⟨⟨⟨⟨hb, ext_noTab ho (by simp [hi])⟩, h2.1⟩, h3⟩, ext_noTab ho (by decide)⟩
  | sr h1 _ _ ih1 ih2 =>
    have h2 := ih1 (base := base ++ o.srIndent) (by simp [hb, ho.srIndent])
    obtain ⟨a, b, c, d⟩ := hL _ h1
    have h3 := decrease_noTab (d := o.srIndent) h2.2
    refine app ?_ (ih2 h3)
    simp only [node, List.mem_append, not_or]
    exact ⟨⟨⟨⟨hb, srOpen_noTab ho a b c d⟩, h2.1⟩, h3⟩, ext_noTab ho (by decide)⟩

theorem formats_noTab {o : Opts} (ho : NoTabs o) {rd : Text → Option Text} {L : Node → Prop} (hL : ∀ n, L n → Shape rd n)
    {top : Bool} {ns : List Node} (h : WFs L top ns) : '\t' ∉ formats o ns :=
  (nodes_noTab ho hL h (base := []) (by simp)).1

end Verif.Grammar
