import Verif.Lemmas.WrittenCommands

/-!
# What parser elements read is spelled as prescribed: the remaining commands, blocks and files
-/

namespace Verif.Written

open Verif.Text Verif.Fmt Verif.Peg Verif.Syntax Verif.Grammar Verif.Spec
open Verif.Math hiding P

variable {date : Text → Option Text}

/-! ## Load commands, properties and M codes -/

theorem member_value {α : Type} {v : α → Text} {all : List α} {t : Text} {a : α} (h : member v all t = some a) : v a = t := by
  have := List.find?_some h
  simpa using this

theorem choice_word {ws : List Text} {w : Text} {s r : Text} (h : oneOf ws s = .ok w r) : Cut (word w) s r :=
  (oneOf_cut h).mono fun _ hw => hw.2

theorem ln_spells : Spells date ln := by
  intro s n r h
  obtain ⟨t, v, u, h, ha, hl⟩ := attr_ok h
  simp only [before_iff, mapP_iff] at h
  obtain ⟨_, _, h1, _, h2, rfl⟩ := h
  exact ⟨trivial, hl _ _ _ (lit_cut h1) (textEnd_cut h2 ha)⟩

theorem in_spells : Spells date in_ := by
  intro s n r h
  obtain ⟨t, v, u, h, ha, hl⟩ := attr_ok h
  simp only [before_iff, mapP_iff] at h
  obtain ⟨_, _, h1, _, h2, rfl⟩ := h
  exact ⟨trivial, hl _ _ _ (lit_cut h1) (textEnd_cut h2 ha)⟩

theorem lr_spells : Spells date lr := by
  intro s n r h
  obtain ⟨t, u, h, hl⟩ := extended_ok h
  apart h
  exact ⟨trivial, hl _ (by together)⟩

theorem ls_spells : Spells date ls := by
  intro s n r h
  obtain ⟨t, u, h, hl⟩ := extended_ok h
  apart h
  exact ⟨trivial, hl _ (by together)⟩

theorem lp_spells : Spells date lp := by
  intro s n r h
  obtain ⟨t, u, h, hl⟩ := extended_ok h
  simp only [before_iff, mapP_iff, convert_iff] at h
  obtain ⟨_, _, h1, a, ⟨w, h2, h3⟩, rfl⟩ := h
  have := choice_word h2
  rw [← member_value h3] at this
  exact ⟨trivial, hl _ (by cases a <;> exact (lit_cut h1).mul this)⟩

theorem lm_spells : Spells date lm := by
  intro s n r h
  obtain ⟨t, u, h, hl⟩ := extended_ok h
  simp only [before_iff, mapP_iff, convert_iff] at h
  obtain ⟨_, _, h1, a, ⟨w, h2, h3⟩, rfl⟩ := h
  have := choice_word h2
  rw [← member_value h3] at this
  exact ⟨trivial, hl _ (by cases a <;> exact (lit_cut h1).mul this)⟩

theorem load_spells : Spells date load := by
  refine spells_firstOf ?_
  simp only [List.mem_cons, List.not_mem_nil, or_false, forall_eq_or_imp, forall_eq]
  exact ⟨ln_spells, lp_spells, lr_spells, ls_spells, lm_spells⟩

theorem fs_spells : Spells date Grammar.fs := by
  intro s n r h
  obtain ⟨t, u, h, hl⟩ := extended_ok h
  simp only [andThen_iff, before_iff, ret_iff, convert_iff] at h
  obtain ⟨_, _, h1, z, _, ⟨w, h2, h3⟩, m, _, ⟨v, h4, h5⟩, _, _, h6, a, _, h7, b, _, h8, _, _, h9, c, _, h10, d, _, h11, rfl, rfl⟩ := h
  have g2 := choice_word h2
  have g4 := choice_word h4
  rw [← member_value h3] at g2
  rw [← member_value h5] at g4
  refine ⟨trivial, hl _ ?_⟩
  have e1 : zerosValue z = (match z with | .skipLeading => t!"L" | .skipTrailing => t!"T" | .skipLeadingImplied => t!"") := by
    cases z <;> rfl
  have e2 : notationValue m = (match m with | .absolute => t!"A" | .incremental => t!"I") := by cases m <;> rfl
  rw [e1] at g2
  rw [e2] at g4
  together

theorem mo_spells : Spells date mo := by
  intro s n r h
  obtain ⟨t, u, h, hl⟩ := extended_ok h
  simp only [before_iff, mapP_iff, convert_iff] at h
  obtain ⟨_, _, h1, a, ⟨w, h2, h3⟩, rfl⟩ := h
  have := choice_word h2
  rw [← member_value h3] at this
  exact ⟨trivial, hl _ (by cases a <;> exact (lit_cut h1).mul this)⟩

theorem ip_spells : Spells date ip := by
  intro s n r h
  obtain ⟨t, u, h, hl⟩ := extended_ok h
  simp only [before_iff, mapP_iff, convert_iff] at h
  obtain ⟨_, _, h1, a, ⟨w, h2, h3⟩, rfl⟩ := h
  have := choice_word h2
  rw [← member_value h3] at this
  exact ⟨trivial, hl _ (by cases a <;> exact (lit_cut h1).mul this)⟩

theorem as_spells : Spells date as_ := by
  intro s n r h
  obtain ⟨t, u, h, hl⟩ := extended_ok h
  simp only [before_iff, mapP_iff, convert_iff] at h
  obtain ⟨_, _, h1, a, ⟨w, h2, h3⟩, rfl⟩ := h
  have := choice_word h2
  rw [← member_value h3] at this
  exact ⟨trivial, hl _ (by cases a <;> exact (lit_cut h1).mul this)⟩

theorem ir_spells : Spells date ir := by
  intro s n r h
  obtain ⟨p, t, h, h2⟩ := andThen_iff.1 h
  split_ifs at h2 with hv
  · obtain ⟨rfl, rfl⟩ := ret_iff.1 h2
    obtain ⟨t, u, h, hl⟩ := extended_ok h
    simp only [before_iff] at h
    obtain ⟨_, _, h1, h2⟩ := h
    refine ⟨trivial, hl _ ?_⟩
    rw [(Rat.den_eq_one_iff p).1 hv]
    together
  · cases h2

theorem of_spells : Spells date of_ := by
  intro s n r h
  obtain ⟨t, u, h, hl⟩ := extended_ok h
  simp only [andThen_iff, before_iff, ret_iff] at h
  obtain ⟨_, _, h1, a, _, h2, b, _, h3, rfl, rfl⟩ := h
  exact ⟨trivial, hl _ (((lit_cut h1).mul (opt_cut (fun _ _ _ h => letter_cut h) h2)).mul (opt_cut (fun _ _ _ h => letter_cut h) h3))⟩

theorem missing_cut {α : Type} {p : P α} {f : α → Language Char} {o : Option α} {d : α} {s r : Text}
    (hp : ∀ a s r, p s = .ok a r → Cut (f a) s r) (h : opt p s = .ok o r) : Cut (orMissing d f (o.getD d)) s r := by
  cases o with
  | none =>
    obtain ⟨rfl, -⟩ := opt_none h
    exact (Cut.one _).mono fun w hw => .inr ⟨rfl, (Language.mem_one w).1 hw⟩
  | some v => exact (hp _ _ _ (opt_some h)).mono fun w hw => .inl hw

theorem sf_spells : Spells date sf := by
  intro s n r h
  obtain ⟨t, u, h, hl⟩ := extended_ok h
  simp only [andThen_iff, before_iff, ret_iff] at h
  obtain ⟨_, _, h1, a, _, h2, b, _, h3, rfl, rfl⟩ := h
  exact ⟨trivial, hl _ (((lit_cut h1).mul (missing_cut (fun _ _ _ h => letter_cut h) h2)).mul
    (missing_cut (fun _ _ _ h => letter_cut h) h3))⟩

theorem bit_cut {c : Char} {b : Bool} {s r : Text} (h : (lit [c] ≫ boolean) s = .ok b r) : Cut (word [c] * bitText b) s r := by
  simp only [before_iff, boolean, mapP_iff] at h
  obtain ⟨_, _, h1, w, h2, rfl⟩ := h
  refine (lit_cut h1).mul ((oneOf_cut h2).mono ?_)
  rintro x ⟨h3, h4⟩
  simp only [List.mem_cons, List.not_mem_nil, or_false] at h3
  obtain rfl | rfl := h3 <;> exact h4

theorem mi_spells : Spells date mi := by
  intro s n r h
  obtain ⟨t, u, h, hl⟩ := extended_ok h
  obtain ⟨_, _, h1, h⟩ := before_iff.1 h
  simp only [andThen_iff, ret_iff] at h
  obtain ⟨a, _, h2, b, _, h3, rfl, rfl⟩ := h
  exact ⟨trivial, hl _ (((lit_cut h1).mul (missing_cut (fun _ _ _ h => bit_cut h) h2)).mul
    (missing_cut (fun _ _ _ h => bit_cut h) h3))⟩

theorem properties_spells : Spells date properties := by
  refine spells_firstOf ?_
  simp only [List.mem_cons, List.not_mem_nil, or_false, forall_eq_or_imp, forall_eq]
  exact ⟨fs_spells, mo_spells, ip_spells, ir_spells, of_spells, as_spells, mi_spells, in_spells, sf_spells⟩

theorem mCodes_spells : Spells date mCodes := by
  refine spells_firstOf ?_
  simp only [List.mem_cons, List.not_mem_nil, or_false, forall_eq_or_imp, forall_eq]
  refine ⟨?_, ?_, ?_⟩ <;>
  · intro s n r h
    obtain ⟨t, h, hl⟩ := command_ok h
    simp only [before_iff, ret_iff] at h
    obtain ⟨_, _, h1, rfl, rfl⟩ := h
    exact ⟨trivial, hl _ (by together)⟩

/-! ## Macros -/

theorem listed_points (l : List (Expr × Expr)) : listed (fun a : Expr × Expr => params [a.1, a.2]) l =
    params (l.map fun p => [p.1, p.2]).flatten := by
  induction l with
  | nil => rfl
  | cons x l ih =>
    rw [listed, ih]
    simp only [List.map_cons, List.flatten_cons, params]
    rw [listed_append]

theorem primitive_cut {p : Prim} {s r : Text} (h : primitive s = .ok p r) : Cut (primText p) s r := by
  have hps := firstOf_some h
  simp only [List.mem_cons, List.not_mem_nil, or_false] at hps
  by_cases hz : code0 s = .ok p r
  · simp only [code0, command, andThen_iff, before_iff, mapP_iff, ret_iff] at hz
    obtain ⟨_, _, ⟨_, _, h1, _, h2, rfl⟩, _, _, h3, rfl, rfl⟩ := hz
    exact (lit_cut h1).mul (textEnd_cut h2 h3)
  obtain ⟨q, rfl | rfl | rfl | rfl | rfl | rfl | rfl | rfl | rfl | rfl | rfl, h⟩ := hps <;> obtain ⟨t, h, hl⟩ := command_ok h
  · apart h
    exact hl _ (by together)
  · rename_i h'
    exact absurd h' hz
  · simp only [andThen_iff, before_iff, ret_iff] at h
    obtain ⟨_, _, h0, a, _, h1, b, _, h2, c, _, h3, d, _, h4, o, _, h5, rfl, rfl⟩ := h
    refine hl _ ((lit_cut h0).mul ((csExpr_cut h1).mul ((csExpr_cut h2).mul ((csExpr_cut h3).mul ((csExpr_cut h4).mul ?_)))))
    cases o with
    | none => obtain ⟨rfl, -⟩ := opt_none h5; exact Cut.one _
    | some v => exact (csExpr_cut (opt_some h5)).mul (Cut.one _)
  · simp only [andThen_iff, before_iff, ret_iff] at h
    obtain ⟨_, _, h0, a, _, h1, b, _, h2, c, _, h3, d, _, h4, e, _, h5, f, _, h6, g, _, h7, rfl, rfl⟩ := h
    exact hl _ ((lit_cut h0).mul ((csExpr_cut h1).mul ((csExpr_cut h2).mul ((csExpr_cut h3).mul ((csExpr_cut h4).mul
      ((csExpr_cut h5).mul ((csExpr_cut h6).mul ((csExpr_cut h7).mul (Cut.one _)))))))))
  · simp only [andThen_iff, before_iff, ret_iff, many1] at h
    obtain ⟨_, _, h0, a, _, h1, b, _, h2, c, _, h3, d, _, h4, _, _, ⟨p, _, h5, ps, _, h6, rfl, rfl⟩, e, _, h7, rfl, rfl⟩ := h
    have hp : ∀ (a : Expr × Expr) (s r : Text), point s = .ok a r → Cut (params [a.1, a.2]) s r := by
      intro a s r h
      simp only [point, andThen_iff, ret_iff] at h
      obtain ⟨x, _, g1, y, _, g2, rfl, rfl⟩ := h
      exact (csExpr_cut g1).mul ((csExpr_cut g2).mul (Cut.one _))
    have g5 := hp _ _ _ h5
    have g6 := many_cut hp h6
    rw [listed_points] at g6
    refine (hl _ ((lit_cut h0).mul ?_)).given (by simp)
    have e1 : params ([a, b, c, d] ++ ((p :: ps).map fun p => [p.1, p.2]).flatten ++ [e]) =
        params [a, b, c, d] * (params [p.1, p.2] * params (ps.map fun p => [p.1, p.2]).flatten) * params [e] := by
      simp only [List.map_cons, List.flatten_cons, params]
      rw [listed_append, listed_append, listed_append]
    rw [e1]
    exact (((csExpr_cut h1).mul ((csExpr_cut h2).mul ((csExpr_cut h3).mul ((csExpr_cut h4).mul (Cut.one _))))).mul
      (g5.mul g6)).mul ((csExpr_cut h7).mul (Cut.one _))
  · simp only [andThen_iff, before_iff, ret_iff] at h
    obtain ⟨_, _, h0, a, _, h1, b, _, h2, c, _, h3, d, _, h4, e, _, h5, f, _, h6, rfl, rfl⟩ := h
    exact hl _ ((lit_cut h0).mul ((csExpr_cut h1).mul ((csExpr_cut h2).mul ((csExpr_cut h3).mul ((csExpr_cut h4).mul
      ((csExpr_cut h5).mul ((csExpr_cut h6).mul (Cut.one _))))))))
  · simp only [andThen_iff, before_iff, ret_iff] at h
    obtain ⟨_, _, h0, a, _, h1, b, _, h2, c, _, h3, d, _, h4, e, _, h5, f, _, h6, g, _, h7, i, _, h8, j, _, h9, rfl, rfl⟩ := h
    exact hl _ ((lit_cut h0).mul ((csExpr_cut h1).mul ((csExpr_cut h2).mul ((csExpr_cut h3).mul ((csExpr_cut h4).mul
      ((csExpr_cut h5).mul ((csExpr_cut h6).mul ((csExpr_cut h7).mul ((csExpr_cut h8).mul ((csExpr_cut h9).mul (Cut.one _)))))))))))
  · simp only [andThen_iff, before_iff, ret_iff] at h
    obtain ⟨_, _, h0, a, _, h1, b, _, h2, c, _, h3, d, _, h4, e, _, h5, f, _, h6, rfl, rfl⟩ := h
    exact hl _ ((lit_cut h0).mul ((csExpr_cut h1).mul ((csExpr_cut h2).mul ((csExpr_cut h3).mul ((csExpr_cut h4).mul
      ((csExpr_cut h5).mul ((csExpr_cut h6).mul (Cut.one _))))))))
  · simp only [andThen_iff, before_iff, ret_iff] at h
    obtain ⟨_, _, h0, a, _, h1, b, _, h2, c, _, h3, d, _, h4, e, _, h5, f, _, h6, g, _, h7, rfl, rfl⟩ := h
    exact hl _ ((lit_cut h0).mul ((csExpr_cut h1).mul ((csExpr_cut h2).mul ((csExpr_cut h3).mul ((csExpr_cut h4).mul
      ((csExpr_cut h5).mul ((csExpr_cut h6).mul ((csExpr_cut h7).mul (Cut.one _)))))))))
  · simp only [andThen_iff, before_iff, ret_iff] at h
    obtain ⟨_, _, h0, a, _, h1, b, _, h2, c, _, h3, d, _, h4, e, _, h5, f, _, h6, rfl, rfl⟩ := h
    exact hl _ ((lit_cut h0).mul ((csExpr_cut h1).mul ((csExpr_cut h2).mul ((csExpr_cut h3).mul ((csExpr_cut h4).mul
      ((csExpr_cut h5).mul ((csExpr_cut h6).mul (Cut.one _))))))))
  · simp only [andThen_iff, before_iff, ret_iff] at h
    obtain ⟨_, _, h0, a, _, h1, b, _, h2, c, _, h3, d, _, h4, e, _, h5, f, _, h6, rfl, rfl⟩ := h
    exact hl _ ((lit_cut h0).mul ((csExpr_cut h1).mul ((csExpr_cut h2).mul ((csExpr_cut h3).mul ((csExpr_cut h4).mul
      ((csExpr_cut h5).mul ((csExpr_cut h6).mul (Cut.one _))))))))

theorem macro_spells : Spells date macro_ := by
  intro s n r h
  simp only [macro_, andThen_iff, before_iff, ret_iff] at h
  obtain ⟨_, _, h1, _, _, h2, m, _, h3, _, _, h4, ps, _, h5, _, _, h6, rfl, rfl⟩ := h
  have h7 : Cut (listed primText ps) _ _ := many_cut (fun _ _ _ h => primitive_cut h) h5
  have h8 := asterisk_cut h4
  exact ⟨trivial, Cut.mul (Cut.mul (Cut.mul (Cut.mul (Cut.mul (lit_cut h1) (lit_cut h2)) (name_cut h3)) h8) h7) (lit_cut h6)⟩

/-! ## D and G codes -/

theorem dCodes_cut {b : Bool} {n : Node} {s r : Text} (h : dCodes b s = .ok n r) :
    (b = true → OnItsOwn n) ∧ (b = false → BehindG n) ∧ Cut (commandText date n) s r := by
  have hps := firstOf_some h
  simp only [List.mem_cons, List.not_mem_nil, or_false] at hps
  obtain ⟨q, rfl | rfl | rfl | rfl, h⟩ := hps <;> obtain ⟨t, h, hl⟩ := command_ok h
  · apart h
    exact ⟨_root_.id, _root_.id, hl _ (by together)⟩
  · simp only [andThen_iff, before_iff, ret_iff] at h
    obtain ⟨x, _, h1, y, _, h2, i, _, h3, j, _, h4, o, _, h5, rfl, rfl⟩ := h
    refine ⟨_root_.id, _root_.id, hl _ (Cut.mul (Cut.mul (Cut.mul (Cut.mul (axis_cut h1) (axis_cut h2)) (axis_cut h3)) (axis_cut h4)) ?_)⟩
    cases o with
    | none =>
      obtain ⟨rfl, -⟩ := opt_none h5
      exact (Cut.one _).mono fun w hw => (Language.mem_add _ _ _).2 (.inl hw)
    | some v =>
      exact (dot_cut (opt_some h5) (by decide) : Cut (code 'D' 1) _ _).mono fun w hw => (Language.mem_add _ _ _).2 (.inr hw)
  · apart h
    exact ⟨_root_.id, _root_.id, hl _ (by together)⟩
  · apart h
    exact ⟨_root_.id, _root_.id, hl _ (by together)⟩

theorem gCode_cut {c : GCode} {s r : Text} {u : Unit} (h : codeRe 'G' (gDigits c) s = .ok u r) : Cut (code 'G' (gNumber c)) s r := by
  cases c <;> exact dot_cut h (by decide)

theorem g04_spells : Spells date g04 := by
  intro s n r h
  simp only [g04, command, andThen_iff, before_iff, ret_iff, mapP_iff] at h
  obtain ⟨_, _, ⟨_, _, h1, o, h2, rfl⟩, _, _, h3, rfl, rfl⟩ := h
  refine ⟨trivial, ?_⟩
  cases o with
  | none =>
    obtain ⟨rfl, hf⟩ := opt_none h2
    have e := no_string hf h3
    have h3' : Cut {t!"*"} _ _ := ⟨t!"*", Set.mem_singleton _, e.symm⟩
    exact Cut.mul (dot_cut h1 (by decide)) h3'
  | some t => exact (comment_cut h1).mul (textEnd_cut (opt_some h2) h3)

/-! ## Lists of commands -/

/-- One item of a file and the commands it stands for. -/
def SpellsL (date : Text → Option Text) (top : Bool) (p : P (List Node)) : Prop :=
  ∀ s ns r, p s = .ok ns r → ∃ w, w ++ r = s ∧ ∀ ms u, Spelled date top ms u → Spelled date top (ns ++ ms) (w ++ u)

theorem spellsL_one {top : Bool} {p : P Node} (h : Spells date p) : SpellsL date top (one p) := by
  intro s ns r e
  obtain ⟨n, e', rfl⟩ := mapP_iff.1 e
  obtain ⟨h1, w, hw, h2⟩ := h _ _ _ e'
  exact ⟨w, h2, fun ms u hu => .command h1 hw hu⟩

theorem spellsL_firstOf {top : Bool} {ps : List (P (List Node))} (h : ∀ p ∈ ps, SpellsL date top p) : SpellsL date top (firstOf ps) := by
  intro s n r e
  obtain ⟨p, hp, e⟩ := firstOf_some e
  exact h p hp s n r e

theorem dCodes_spells : Spells date (dCodes true) := fun _ _ _ h => ⟨(dCodes_cut (date := date) h).1 rfl, (dCodes_cut h).2.2⟩

theorem begins_append {cs : List Char} {w r : Text} (h : BeginsWith cs (w ++ r)) (hw : ∃ b c t, Blank b ∧ ¬Blank [c] ∧ w = b ++ c :: t)
    (hc : ∀ c ∈ cs, ¬Blank [c]) : BeginsWith cs w := by
  obtain ⟨b, c, t, hb, hcs, e⟩ := h
  obtain ⟨b', c', t', hb', hc', rfl⟩ := hw
  have key : ∀ (b b' : Text) (c c' : Char) (t t' : Text), Blank b → Blank b' → ¬Blank [c] → ¬Blank [c'] →
      b' ++ c' :: t' = b ++ c :: t → b = b' ∧ c = c' := by
    intro b
    induction b with
    | nil =>
      intro b' c c' t t' _ hb' hc _ e
      cases b' with
      | nil => simp only [List.nil_append, List.cons.injEq] at e; exact ⟨rfl, e.1.symm⟩
      | cons x b' =>
        simp only [List.cons_append, List.nil_append, List.cons.injEq] at e
        exact absurd (fun y hy => by simp only [List.mem_singleton] at hy; subst hy; exact e.1 ▸ hb' x (by simp)) hc
    | cons x b ih =>
      intro b' c c' t t' hb hb' hc hc' e
      cases b' with
      | nil =>
        simp only [List.cons_append, List.nil_append, List.cons.injEq] at e
        exact absurd (fun y hy => by simp only [List.mem_singleton] at hy; subst hy; exact e.1 ▸ hb x (by simp)) hc'
      | cons y b' =>
        simp only [List.cons_append, List.cons.injEq] at e
        obtain ⟨rfl, rfl⟩ := ih b' c c' t t' (fun z hz => hb z (by simp [hz])) (fun z hz => hb' z (by simp [hz])) hc hc' e.2
        exact ⟨by rw [e.1], rfl⟩
  have e' : b' ++ c' :: (t' ++ r) = b ++ c :: t := by rw [← e]; simp
  obtain ⟨rfl, rfl⟩ := key b b' c c' t _ hb hb' (hc c hcs) hc' e'
  exact ⟨b, c, t', hb, hcs, rfl⟩

/-- Every spelling of a D code has a character that is no blank. -/
theorem starred_inked {l : Language Char} {w : Text} (h : w ∈ starred l) : ∃ b c t, Blank b ∧ ¬Blank [c] ∧ w = b ++ c :: t := by
  obtain ⟨x, -, y, ⟨b, v, -, hv, rfl⟩, rfl⟩ := Language.mem_mul.1 h
  have hv : v = t!"*" := hv
  subst hv
  obtain ⟨b', hb', e⟩ := Math.skip_split (x ++ (b ++ t!"*"))
  cases hs : skip (x ++ (b ++ t!"*")) with
  | nil =>
    exfalso
    rw [hs, List.append_nil] at e
    have := hb' '*' (by rw [← e]; simp)
    simp at this
  | cons c t =>
    rw [hs] at e
    refine ⟨b', c, t, hb', ?_, e⟩
    rw [blank_iff, skip_head hs]
    simp

theorem gCodes_spells {top : Bool} : SpellsL date top gCodes := by
  refine spellsL_firstOf ?_
  intro p hp
  simp only [List.mem_append, List.mem_cons, List.not_mem_nil, or_false, List.mem_map] at hp
  obtain (rfl | ⟨c, -, rfl⟩) | ⟨c, -, rfl⟩ := hp
  · exact spellsL_one g04_spells
  · refine spellsL_one ?_
    intro s n r h
    obtain ⟨t, h, hl⟩ := command_ok h
    simp only [before_iff, ret_iff] at h
    obtain ⟨_, _, h1, rfl, rfl⟩ := h
    exact ⟨rfl, hl _ (gCode_cut h1)⟩
  · intro s ns r h
    simp only [gNonStandalone, before_iff, mapP_iff] at h
    obtain ⟨_, _, h1, _, _, h2, d, h3, rfl⟩ := h
    obtain ⟨rfl, hb⟩ := followedBy_begins h2
    obtain ⟨-, hd, x, hx, rfl⟩ := dCodes_cut (date := date) h3
    obtain ⟨w, hw, rfl⟩ := gCode_cut h1
    refine ⟨w ++ x, by simp, fun ms u hu => .together hw (hd rfl) hx (begins_append hb ?_ ?_) hu⟩
    · cases d <;> first | exact (hd rfl).elim | exact starred_inked hx
    · simp [Blank]

theorem manyFuel_spelled {top : Bool} {p : P (List Node)} (hp : SpellsL date top p) : ∀ {n : Nat} {nss : List (List Node)} {s r : Text},
    manyFuel p n s = .ok nss r → ∃ w, w ++ r = s ∧ ∀ ms u, Spelled date top ms u → Spelled date top (nss.flatten ++ ms) (w ++ u)
  | 0, nss, s, r, h => by obtain ⟨rfl, rfl⟩ := ret_iff.1 h; exact ⟨[], rfl, fun ms u h => h⟩
  | n + 1, nss, s, r, h => by
    simp only [manyFuel] at h
    cases e : p s with
    | ok a t =>
      rw [e] at h
      obtain ⟨b, h1, rfl⟩ := mapP_iff.1 h
      obtain ⟨w, rfl, h2⟩ := hp _ _ _ e
      obtain ⟨v, rfl, h3⟩ := manyFuel_spelled hp h1
      refine ⟨w ++ v, by simp, fun ms u hu => ?_⟩
      have := h2 _ _ (h3 ms u hu)
      simpa using this
    | fail => rw [e] at h; simp only [Res.ok.injEq] at h; obtain ⟨rfl, rfl⟩ := h; exact ⟨[], rfl, fun ms u h => h⟩
    | raised => rw [e] at h; cases h

/-- What is read as the body of a block is spelled by its text. -/
theorem many_spelled {top : Bool} {p : P (List Node)} (hp : SpellsL date top p) {nss : List (List Node)} {s r : Text}
    (h : many p s = .ok nss r) : ∃ w, w ++ r = s ∧ Spelled date top nss.flatten w := by
  obtain ⟨w, e, hw⟩ := manyFuel_spelled hp h
  exact ⟨w, e, by simpa using hw [] [] .none⟩

theorem bodyItem_spells {top : Bool} {ab : P Node} (h : SpellsL date top (one ab)) : SpellsL date top (bodyItem date ab) := by
  refine spellsL_firstOf ?_
  simp only [List.mem_cons, List.not_mem_nil, or_false, forall_eq_or_imp, forall_eq]
  exact ⟨spellsL_one dCodes_spells, gCodes_spells, spellsL_one load_spells, spellsL_one properties_spells,
    spellsL_one attributes_spells, spellsL_one addAperture_spells, (fun s ns r h => by cases h), h, spellsL_one macro_spells,
    spellsL_one mCodes_spells⟩

theorem open_cut {i : Text} {s r : Text} (h : abOpen s = .ok i r) : Cut (percented (word t!"AB" * apertureCode i)) s r := by
  obtain ⟨t, u, h, hl⟩ := extended_ok h
  apart h
  exact hl _ (by together)

theorem close_cut {w : Text} {u : Unit} {s r : Text} (h : extended (lit w) s = .ok u r) : Cut (percented (word w)) s r := by
  obtain ⟨t, u, h, hl⟩ := extended_ok h
  exact hl _ (lit_cut h)

theorem block_spells {top : Bool} : ∀ k, SpellsL date top (one (apertureBlock date k))
  | 0 => by intro s ns r h; obtain ⟨n, h, -⟩ := mapP_iff.1 h; cases h
  | k + 1 => by
    intro s ns r h
    obtain ⟨n, h', rfl⟩ := mapP_iff.1 h
    simp only [apertureBlock, andThen_iff, before_iff, ret_iff] at h'
    obtain ⟨i, _, h1, nss, _, h2, _, _, h3, rfl, rfl⟩ := h'
    obtain ⟨a, ha, rfl⟩ := open_cut h1
    obtain ⟨b, rfl, hb⟩ := many_spelled (bodyItem_spells (block_spells (top := false) k)) h2
    obtain ⟨c, hc, rfl⟩ := close_cut h3
    refine ⟨a ++ b ++ c, by simp, fun ms u hu => ?_⟩
    have := Spelled.block ha hb hc hu
    simpa using this

theorem repeat_spells (k : Nat) : SpellsL date true (one (stepRepeat date k)) := by
  intro s ns r h
  obtain ⟨n, h', rfl⟩ := mapP_iff.1 h
  simp only [stepRepeat, andThen_iff, before_iff, ret_iff] at h'
  obtain ⟨⟨x, y, i, j⟩, _, h1, nss, _, h2, _, _, h3, rfl, rfl⟩ := h'
  obtain ⟨t, v, h1, hl⟩ := extended_ok h1
  obtain ⟨_, _, g0, h1⟩ := before_iff.1 h1
  simp only [andThen_iff, ret_iff, Prod.mk.injEq] at h1
  obtain ⟨_, _, g1, _, _, g2, _, _, g3, _, _, g4, ⟨rfl, rfl, rfl, rfl⟩, rfl⟩ := h1
  obtain ⟨a, ha, rfl⟩ := hl _ (((((lit_cut g0).mul (sizeText_cut g1)).mul (sizeText_cut g2)).mul (sizeText_cut g3)).mul (sizeText_cut g4))
  obtain ⟨b, rfl, hb⟩ := many_spelled (bodyItem_spells (block_spells (top := false) k)) h2
  obtain ⟨c, hc, rfl⟩ := close_cut h3
  refine ⟨a ++ b ++ c, by simp, fun ms u hu => ?_⟩
  have := Spelled.repeated ha hb hc hu
  simpa using this

theorem one_firstOf_spells {top : Bool} {ps : List (P Node)} (h : ∀ p ∈ ps, SpellsL date top (one p)) : SpellsL date top (one (firstOf ps)) := by
  intro s ns r e
  obtain ⟨n, e', rfl⟩ := mapP_iff.1 e
  obtain ⟨p, hp, e⟩ := firstOf_some e'
  exact h p hp s [n] r (mapP_iff.2 ⟨n, e, rfl⟩)

theorem rootItem_spells (k : Nat) : SpellsL date true (rootItem date k) := by
  refine spellsL_firstOf ?_
  simp only [List.mem_cons, List.not_mem_nil, or_false, forall_eq_or_imp, forall_eq]
  refine ⟨spellsL_one dCodes_spells, gCodes_spells, spellsL_one load_spells, one_firstOf_spells ?_,
    spellsL_one attributes_spells, spellsL_one properties_spells, spellsL_one mCodes_spells⟩
  simp only [List.mem_cons, List.not_mem_nil, or_false, forall_eq_or_imp, forall_eq]
  exact ⟨block_spells k, spellsL_one macro_spells, repeat_spells k, spellsL_one addAperture_spells⟩

/-- A file that is read is spelled by its text. -/
theorem parseFile_spelled {s : Text} {f : List Node} (h : parseFile date s = .file f) :
    ∃ w b, w ++ b = s ∧ Blank b ∧ Spelled date true f w := by
  simp only [parseFile] at h
  split at h
  · cases h
  · cases h
  · next ns r e =>
    split_ifs at h with hr
    simp only [Outcome.file.injEq] at h
    subst h
    simp only [many1, andThen_iff, ret_iff] at e
    obtain ⟨a, t, h1, as, _, h2, rfl, rfl⟩ := e
    obtain ⟨w, rfl, hw⟩ := rootItem_spells _ _ _ _ h1
    obtain ⟨v, rfl, hv⟩ := many_spelled (rootItem_spells _) h2
    obtain ⟨b, hb, e⟩ := Math.skip_split r
    rw [hr, List.append_nil] at e
    exact ⟨w ++ v, r, by simp, e ▸ hb, by simpa using hw _ _ hv⟩

end Verif.Written
