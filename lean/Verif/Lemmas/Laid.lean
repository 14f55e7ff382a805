import Verif.Lemmas.RoundTrip
import Verif.Lemmas.Tabs
import Verif.Lemmas.TabStops

/-!
# Reading back files whose blanks are not those of the formatter

The formatter may indent with tabs, and the parser replaces them by spaces, as many as the column asks for.  What is read is then a text
with the same commands and other blanks between them.
-/

namespace Verif.Grammar

open Verif.Text Verif.Fmt Verif.Peg Verif.Syntax Verif.Spec Verif.Formatter
open Verif.Math hiding P
open Verif.Spans (expandFrom_append endCol)

/-- The primitives of a macro with any blanks before each of them. -/
inductive PrimsLaid (o : Opts) : List Prim → Text → Prop
  | nil : PrimsLaid o [] []
  | cons {b t : Text} {p : Prim} {ps : List Prim} : Blank b → PrimsLaid o ps t → PrimsLaid o (p :: ps) (b ++ (prim o p ++ t))

/-- The commands with any blanks before each of them. -/
inductive Laid (o : Opts) : List Node → Text → Prop
  | nil : Laid o [] []
  | leaf {b t : Text} {n : Node} {ns : List Node} : isBlock n = false → isMacro n = false → standalone n = true → Blank b →
      Laid o ns t → Laid o (n :: ns) (b ++ (leaf o n ++ t))
  | pair {b b' t : Text} {c : GCode} {d : Node} {ns : List Node} : Blank b → Blank b' →
      (o.keep = true → removed o c = false → b' = []) → Laid o ns t →
      Laid o (.g c false :: d :: ns) (b ++ (gText o c false ++ (b' ++ (Formatter.leaf o d ++ t))))
  | am {b v w t : Text} {n : Text} {ps : List Prim} {ns : List Node} (o' : Opts) : Layout o' → o'.fd = o.fd → Blank b →
      PrimsLaid o' ps v → Blank w → Laid o ns t →
      Laid o (.am n ps :: ns) (b ++ (t!"%AM" ++ (n ++ '*' :: (v ++ (w ++ '%' :: (o.lf ++ t))))))
  | ab {b v b' t i : Text} {ns ms : List Node} : Blank b → Laid o ns v → Blank b' → Laid o ms t →
      Laid o (.ab i ns :: ms) (b ++ (ext o (t!"AB" ++ i) ++ (v ++ (b' ++ (ext o t!"AB" ++ t)))))
  | sr {b v b' t : Text} {x y i j : Option Text} {ns ms : List Node} : Blank b → Laid o ns v → Blank b' → Laid o ms t →
      Laid o (.sr x y i j ns :: ms) (b ++ (srOpenText o x y i j ++ (v ++ (b' ++ (ext o t!"SR" ++ t)))))

theorem laid_prims_fuel {o : Opts} (h : Layout o) {ps : List Prim} {v : Text} (hv : PrimsLaid o ps v)
    (hs : ∀ p ∈ ps, PrimShape p) (he : ∀ p ∈ ps, ∀ e ∈ primExprs p, ExprOk o e) {x : Text} (hx : primitive x = .fail) :
    ∀ n, ps.length ≤ n → manyFuel primitive n (v ++ x) = .ok ps x := by
  induction hv with
  | nil => intro n _; exact manyFuel_stop hx n
  | @cons b v p ps hb hv ih =>
    intro n hn
    cases n with
    | zero => simp at hn
    | succ n =>
      obtain ⟨t, e, ht⟩ := prim_core h (hs p (by simp)) (he p (by simp)) (v ++ x)
      refine manyFuel_step (r := v ++ x) ?_
        (ih (fun q hq => hs q (by simp [hq])) (fun q hq => he q (by simp [hq])) n (by simpa using hn))
      have e' : b ++ (prim o p ++ v) ++ x = b ++ (primLf o ++ (t ++ (v ++ x))) := by simp [e]
      rw [e', skips_primitive.blank hb, skips_primitive.blank (primLf_blank h), ht]

theorem laid_prims_length {o : Opts} {ps : List Prim} {v : Text} (h : PrimsLaid o ps v) : ps.length ≤ v.length := by
  induction h with
  | nil => simp
  | @cons b v p ps hb hv ih => have := prim_length o p; simp; omega

theorem laid_macro {o o' : Opts} (h : Layout o') (hfd : o'.fd = o.fd) {n : Text} {ps : List Prim} {v w : Text} (hv : PrimsLaid o' ps v)
    (hw : Blank w) {rd : Text → Option Text} (hn : NodeOk rd o (.am n ps)) (r : Text) :
    macro_ ('%' :: 'A' :: 'M' :: (n ++ '*' :: (v ++ (w ++ '%' :: r)))) = .ok (.am n ps) r := by
  obtain ⟨⟨h1, h2, h3⟩, -, -, -, h4⟩ := hn
  have he : ∀ p ∈ ps, ∀ e ∈ primExprs p, ExprOk o' e := by
    intro p hp e hpe
    refine ⟨h3 p hp e hpe, ?_⟩
    rw [hfd]
    apply h4 e
    simp only [exprs, List.mem_flatten, List.mem_map]
    exact ⟨_, ⟨p, hp, rfl⟩, hpe⟩
  have hx : primitive (w ++ '%' :: r) = .fail := by rw [skips_primitive.blank hw, primitive_stop]
  have hm := laid_prims_fuel h hv h2 he hx (v ++ (w ++ '%' :: r)).length
    (by have := laid_prims_length hv; simp; omega)
  have hl : lit ['%'] (w ++ '%' :: r) = .ok () r := by
    rw [(skips_lit _).blank hw]; pg []
  have hnm : name (n ++ '*' :: (v ++ (w ++ '%' :: r))) =
      .ok n ('*' :: (v ++ (w ++ '%' :: r))) := nameRe_ok h1 (fun _ => isNameStart_blank) star_name
  have hm' : many primitive (v ++ (w ++ '%' :: r)) = .ok ps (w ++ '%' :: r) := hm
  pg [macro_, hnm, hm', hl]

theorem gText_length (o : Opts) (c : GCode) : removed o c = false → 1 ≤ (gText o c false).length := by
  intro h
  rcases gText_cases o c false with ⟨h', _⟩ | ⟨-, -, e⟩ | ⟨-, -, -, e⟩
  · rw [h] at h'; cases h'
  · rw [e]; exact cmd_length _ _
  · obtain ⟨a, b, e'⟩ := g_text c
    rw [e, e']; simp

/-- There are at least as many characters as commands. -/
theorem laid_length {L : Node → Prop} {o : Opts} {top : Bool} {ns : List Node} (h : WFs L top ns) : ∀ {t : Text}, Laid o ns t →
    (normAll o false ns).length ≤ t.length := by
  induction h with
  | nil => intro t _; simp [normAll]
  | @leaf top n ns hn hb hst _ ih =>
    intro t ht
    by_cases hm : isMacro n = true
    · cases n <;> simp only [isMacro, Bool.false_eq_true] at hm
      cases ht with
      | leaf _ h => cases h
      | am o' _ _ _ _ _ ht =>
        have := ih ht
        simp only [normAll, norm, withFlag, joins, List.length_append, List.length_cons, List.length_nil]
        omega
    · simp only [Bool.not_eq_true] at hm
      cases ht with
      | pair => cases hst
      | am => cases hm
      | ab => cases hb
      | sr => cases hb
      | leaf _ _ _ hbl ht =>
        have := ih ht
        by_cases hg : isG n = true
        · obtain ⟨c, rfl⟩ : ∃ c, n = .g c true := by
            cases n <;> simp only [isG, Bool.false_eq_true] at hg
            simp only [standalone] at hst
            subst hst
            exact ⟨_, rfl⟩
          have hj : joins o (.g c true) = false := rfl
          simp only [normAll, norm_g, hj, leaf_g, List.length_append]
          rcases gText_cases o c true with ⟨h, e⟩ | ⟨h, -, e⟩ | ⟨h, h', -⟩
          · simp [h]; omega
          · have := cmd_length o (gName c)
            rw [e, h]
            simp; omega
          · cases h'
        · simp only [Bool.not_eq_true] at hg
          have := leaf_length (o := o) hb hm hg
          simp only [normAll, norm_leaf hb hg, joins_false hg, List.length_append, List.length_cons, List.length_nil]
          omega
  | @pair top c d ns hc hd hD hs _ ih =>
    obtain ⟨g1, g2, g3⟩ := isG_of_isD hD
    intro t ht
    cases ht with
    | leaf _ _ h => cases h
    | pair _ _ _ ht =>
      have := ih ht
      have h2 := leaf_length (o := o) g2 g3 g1
      have h3 := gText_length o c
      simp only [normAll, norm_g, norm_leaf g2 g1, joins_false g1, List.length_append, List.length_cons, List.length_nil]
      cases hr : removed o c with
      | true => simp; omega
      | false => have := h3 hr; simp; omega
  | @ab top i ns ms hn _ _ ihb ih =>
    intro t ht
    cases ht with
    | leaf h => cases h
    | ab _ hv _ ht =>
      have := ih ht
      have := ext_length o (t!"AB" ++ i)
      simp only [normAll, norm, joins, List.length_append, List.length_cons, List.length_nil]
      omega
  | @sr x y i j ns ms hn _ _ ihb ih =>
    intro t ht
    cases ht with
    | leaf h => cases h
    | sr _ hv _ ht =>
      have := ih ht
      have := ext_length o t!"SR"
      simp only [normAll, norm, joins, List.length_append, List.length_cons, List.length_nil]
      omega

theorem laid_tail {L : Node → Prop} {o : Opts} {top : Bool} {ns : List Node} (h : WFs L top ns) {t : Text} (ht : Laid o ns t)
    (rest : Text) : (normAll o false ns).length ≤ (t ++ rest).length := by
  have := laid_length h ht
  simp only [List.length_append]; omega

theorem laid_back {rd : Text → Option Text} {o : Opts} (hlf : Blank o.lf) {top : Bool} {ns : List Node}
    (h : WFs (NodeOk rd o) top ns) : ∀ {t : Text}, Laid o ns t → ∀ {it k}, Item rd it k top → t.length ≤ k →
      ∀ {w}, Blank w → ∀ {rest}, it rest = .fail → Reads' it (w ++ (t ++ rest)) rest (normAll o false ns) := by
  induction h with
  | nil =>
    intro t ht it k I _ w hw rest hr
    cases ht
    refine ⟨[], w, hw, ?_, rfl, by simp [normAll], by simp⟩
    intro fuel _
    simp only [List.nil_append]
    exact manyFuel_stop (by rw [I.skips.blank hw]; exact hr) fuel
  | @leaf top n ns hn hb hst hns ih =>
    intro t ht it k I hk w hw rest hr
    by_cases hm : isMacro n = true
    · cases n <;> simp only [isMacro, Bool.false_eq_true] at hm
      rename_i nm ps
      cases ht with
      | leaf _ h => cases h
      | @am b v w' t _ _ _ o' hl' hfd hbl hv hw' ht =>
        have e : normAll o false (.am nm ps :: ns) = [.am nm ps] ++ normAll o false ns := by
          simp [normAll, norm, withFlag, joins]
        rw [e]
        have hk' : t.length ≤ k := by
          simp only [List.length_append, List.length_cons] at hk; omega
        have hmac : it ((t!"%AM" ++ (nm ++ '*' :: (v ++ (w' ++ '%' :: o.lf)))) ++ (t ++ rest)) =
            .ok [.am nm ps] (o.lf ++ (t ++ rest)) := by
          have := laid_macro hl' hfd hv hw' hn (o.lf ++ (t ++ rest))
          simp only [List.append_assoc, List.cons_append, List.nil_append] at this ⊢
          exact I.disp.am this
        have := reads_step I.skips (blank_append hw hbl) hmac (by simp) (laid_tail hns ht _) (ih ht I hk' hlf hr)
        simpa using this
    · simp only [Bool.not_eq_true] at hm
      cases ht with
      | pair => cases hst
      | am => cases hm
      | ab => cases hb
      | sr => cases hb
      | @leaf b t _ _ _ _ _ hbl ht =>
        have hk' : t.length ≤ k := by
          simp only [List.length_append] at hk; omega
        by_cases hg : isG n = true
        · obtain ⟨c, rfl⟩ : ∃ c, n = .g c true := by
            cases n <;> simp only [isG, Bool.false_eq_true] at hg
            simp only [standalone] at hst
            subst hst
            exact ⟨_, rfl⟩
          rcases gText_cases o c true with ⟨h, e⟩ | ⟨h, -, e⟩ | ⟨h, h', -⟩
          · have e1 : normAll o false (.g c true :: ns) = normAll o false ns := by
              simp [normAll, norm, joins, h]
            rw [e1]
            have := ih ht I hk' (blank_append hw hbl) hr
            simpa [leaf, e] using this
          · have e1 : normAll o false (.g c true :: ns) = [.g c true] ++ normAll o false ns := by
              simp [normAll, norm, joins, h]
            rw [e1]
            have := reads_step I.skips (blank_append hw hbl) (g_item I.disp o c (t ++ rest))
              (by simp) (laid_tail hns ht _) (ih ht I hk' hlf hr)
            simpa [leaf, e] using this
          · cases h'
        · simp only [Bool.not_eq_true] at hg
          have e1 : normAll o false (n :: ns) = [n] ++ normAll o false ns := by
            simp [normAll, norm_leaf hb hg, joins_false hg, withFlag_standalone hst]
          rw [e1]
          have it_ok (r : Text) : it (leaf o n ++ r) = .ok [n] (o.lf ++ r) := by
            by_cases hd : isD n = true
            · have := d_ok (o := o) hd hn.1 r
              rw [hst] at this
              exact I.disp.d this
            · exact leaf_item I.disp hn hb hm (by simpa using hd) hg r
          have := reads_step I.skips (blank_append hw hbl) (it_ok (t ++ rest)) (by simp) (laid_tail hns ht _)
            (ih ht I hk' hlf hr)
          simpa using this
  | @pair top c d ns hc hd hD hs hns ih =>
    obtain ⟨g1, g2, g3⟩ := isG_of_isD hD
    intro t ht it k I hk w hw rest hr
    cases ht with
    | leaf _ _ h => cases h
    | @pair b b' t _ _ _ hbl hbl' hjoin ht =>
      have hk' : t.length ≤ k := by
        simp only [List.length_append] at hk; omega
      have ih' := ih ht I hk' hlf hr
      have dtrue (r : Text) : it (leaf o d ++ r) = .ok [withFlag true d] (o.lf ++ r) := I.disp.d (d_flag hD hd.1 true r)
      rcases gText_cases o c false with ⟨h, e⟩ | ⟨h, h', e⟩ | ⟨h, -, h', e⟩
      · have e1 : normAll o false (.g c false :: d :: ns) = [withFlag true d] ++ normAll o false ns := by
          simp [normAll, norm_g, joins_g, h, norm_leaf g2 g1, joins_false g1]
        rw [e1]
        have := reads_step I.skips (blank_append hw (blank_append hbl hbl'))
          (dtrue (t ++ rest)) (by simp) (laid_tail hns ht _) ih'
        simpa [e] using this
      · have hkeep : o.keep = false := by simpa using h'
        have e1 : normAll o false (.g c false :: d :: ns) = [.g c true] ++ ([withFlag true d] ++ normAll o false ns) := by
          simp [normAll, norm_g, joins_g, h, norm_leaf g2 g1, joins_false g1, hkeep]
        rw [e1]
        have h1 := reads_step I.skips (blank_append hlf hbl')
          (dtrue (t ++ rest)) (by simp) (laid_tail hns ht _) ih'
        have := reads_step I.skips (blank_append hw hbl)
          (g_item I.disp o c (b' ++ (leaf o d ++ (t ++ rest)))) (by simp) (m := [withFlag true d] ++ normAll o false ns)
          (by
            have := leaf_length (o := o) g2 g3 g1
            have := laid_tail hns ht rest
            simp only [List.length_append, List.length_cons, List.length_nil] at this ⊢
            omega) (by simpa using h1)
        simpa [e] using this
      · have e1 : normAll o false (.g c false :: d :: ns) = [.g c false, withFlag false d] ++ normAll o false ns := by
          simp [normAll, norm_g, joins_g, h, norm_leaf g2 g1, joins_false g1, h']
        rw [e1]
        obtain rfl := hjoin h' h
        have h1 : it ((gName c ++ leaf o d) ++ (t ++ rest)) = .ok [.g c false, withFlag false d]
            (o.lf ++ (t ++ rest)) := by
          rw [List.append_assoc]; exact pair_item I.disp c hD hd.1 _
        have := reads_step I.skips (blank_append hw hbl) h1 (by simp) (laid_tail hns ht _) ih'
        simpa [e] using this
  | @ab top i ns ms hn hns hms ihb ih =>
    intro t ht it k I hk w hw rest hr
    cases ht with
    | leaf h => cases h
    | @ab b v b' t _ _ _ hbl hv hbl' ht =>
      have e1 : normAll o false (.ab i ns :: ms) = [.ab i (normAll o false ns)] ++ normAll o false ms := by
        simp [normAll, norm, joins]
      rw [e1]
      have hk0 : 1 ≤ k ∧ v.length ≤ k - 1 ∧ t.length ≤ k := by
        have := ext_length o (t!"AB" ++ i)
        simp only [List.length_append] at hk this
        omega
      obtain ⟨k, rfl⟩ : ∃ m, k = m + 1 := ⟨k - 1, by omega⟩
      have stop : bodyItem rd (apertureBlock rd k) (b' ++ (ext o t!"AB" ++ (t ++ rest))) = .fail := by
        rw [(item_body rd k).skips.blank hbl', body_close_ab]
      have body := ihb hv (item_body rd k) hk0.2.1 hlf stop
      have hlay : Layout { lf := o.lf, explicit := false } := ⟨blank_nil, blank_nil, blank_nil, blank_nil, blank_nil, blank_nil,
        blank_nil, hlf, blank_nil, rfl⟩
      have h1 : it (ext o (t!"AB" ++ i) ++ (v ++ (b' ++ (ext o t!"AB" ++ (t ++ rest))))) =
          .ok [.ab i (normAll o false ns)] (o.lf ++ (t ++ rest)) := by
        apply I.ab
        have := ab_item (o := { lf := o.lf, explicit := false }) hlay hn.1 hbl' (laid_length hns hv) body
        exact this
      have := reads_step I.skips (blank_append hw hbl) (t := ext o (t!"AB" ++ i) ++ (v ++ (b' ++ ext o t!"AB"))) (x := t ++ rest)
        (by simpa using h1) (by simp) (laid_tail hms ht _) (ih ht I hk0.2.2 hlf hr)
      simpa using this
  | @sr x y i j ns ms hn hns hms ihb ih =>
    intro t ht it k I hk w hw rest hr
    cases ht with
    | leaf h => cases h
    | @sr b v b' t _ _ _ _ _ _ hbl hv hbl' ht =>
      have e1 : normAll o false (.sr x y i j ns :: ms) = [.sr x y i j (normAll o false ns)] ++ normAll o false ms := by
        simp [normAll, norm, joins]
      rw [e1]
      have hk0 : v.length ≤ k ∧ t.length ≤ k := by
        simp only [List.length_append] at hk
        omega
      have stop : bodyItem rd (apertureBlock rd k) (b' ++ (ext o t!"SR" ++ (t ++ rest))) = .fail := by
        rw [(item_body rd k).skips.blank hbl', body_close_sr]
      have body := ihb hv (item_body rd k) hk0.1 hlf stop
      have h1 : it (srOpenText o x y i j ++ (v ++ (b' ++ (ext o t!"SR" ++ (t ++ rest))))) =
          .ok [.sr x y i j (normAll o false ns)] (o.lf ++ (t ++ rest)) :=
        I.sr rfl (sr_item hn.1 hn.2.2.2.1 hbl' (laid_length hns hv) body)
      have := reads_step I.skips (blank_append hw hbl) (t := srOpenText o x y i j ++ (v ++ (b' ++ ext o t!"SR"))) (x := t ++ rest)
        (by simpa using h1) (by simp) (laid_tail hms ht _) (ih ht I hk0.2 hlf hr)
      simpa using this

theorem parse_laid {rd : Text → Option Text} {o : Opts} (hlf : Blank o.lf) {ns : List Node} (h : WFs (NodeOk rd o) true ns)
    {t : Text} (ht : Laid o ns t) (hne : normAll o false ns ≠ []) : parseFile rd t = .file (normAll o false ns) := by
  have := laid_back hlf h ht (item_root rd t.length true) (le_refl _) blank_nil (root_nil rd _)
  obtain ⟨items, w', hw', -, hf, h1, h2⟩ := this
  cases items with
  | nil => exact absurd (h1 rfl) hne
  | cons l items =>
    obtain ⟨r, hr, hr'⟩ := h2 l items rfl
    have hr2 := hr' r.length (le_refl _)
    have hs : skip (w' ++ []) = [] := by rw [skip_blank hw']; rfl
    simp only [List.nil_append, List.append_nil] at hr hs hr2
    simp only [parseFile, many1, Peg.andThen, hr, many, hr2, Peg.ret, hs, if_true, hf]

/-! ## Expanding what the formatter prints -/

/-- Lines end with a line break. -/
def Breaks (o : Opts) : Prop := o.lf = ['\n'] ∨ o.lf = ['\r', '\n']

theorem expand_lf {o : Opts} (h : Breaks o) (col : Nat) (x : Text) : expandFrom col (o.lf ++ x) = o.lf ++ expandFrom 0 x := by
  rcases h with h | h <;> rw [h] <;> simp [expandFrom]

theorem breaks_noTab {o : Opts} (h : Breaks o) : '\t' ∉ o.lf := by
  rcases h with h | h <;> rw [h] <;> decide

theorem breaks_blank {o : Opts} (h : Breaks o) : Blank o.lf := by
  rcases h with h | h <;> rw [h] <;> intro c hc <;> simp at hc <;> rcases hc with rfl | rfl <;> simp

theorem expand_text {s : Text} (h : '\t' ∉ s) (col : Nat) (x : Text) :
    expandFrom col (s ++ x) = s ++ expandFrom (endCol col s) x := by
  rw [expandFrom_append, expandFrom_id _ _ h]

/-- What the arguments of the primitives are printed with after their tabs are expanded. -/
def untab (o : Opts) : Opts :=
  { o with lf := [], macroBody := [], macroParam := o.lf ++ expandFrom 0 (o.macroParam ++ o.macroBody) }

theorem untab_fd (o : Opts) : (untab o).fd = o.fd := rfl

theorem untab_layout {o : Opts} (h : Layout o) : Layout (untab o) where
  macroBody := blank_nil
  macroParam := blank_append h.lf ((expandFrom_blank _ _).2 (blank_append h.macroParam h.macroBody))
  abIndent := h.abIndent
  srIndent := h.srIndent
  d01 := h.d01
  d02 := h.d02
  d03 := h.d03
  lf := blank_nil
  polarity := h.polarity
  explicit := h.explicit

theorem untab_primLf (o : Opts) : primLf (untab o) = [] := by
  unfold primLf untab
  split <;> rfl

theorem expand_paramLf {o : Opts} (h : Breaks o) (col : Nat) : expandFrom col (paramLf o) = paramLf (untab o) := by
  unfold paramLf untab
  simp only
  split
  · rw [List.append_assoc, expand_lf h]; simp
  · rfl

theorem expand_arg {o : Opts} (h : Breaks o) {e : Expr} (he : WF 6 e) (col : Nat) : expandFrom col (arg o e) = arg (untab o) e := by
  have e1 : arg o e = [','] ++ (paramLf o ++ print o.fd o.explicit e) := rfl
  rw [e1, expand_text (by decide), expandFrom_append, expand_paramLf h, expandFrom_id _ _ (print_noTab o o.explicit he)]
  rfl

theorem expand_points {o : Opts} (h : Breaks o) {ps : List (Expr × Expr)} (hw : ∀ q ∈ ps, WF 6 q.1 ∧ WF 6 q.2) (col : Nat) :
    expandFrom col (pointsText o ps) = pointsText (untab o) ps := by
  induction ps generalizing col with
  | nil => rfl
  | cons q ps ih =>
    obtain ⟨h1, h2⟩ := hw q (by simp)
    have e1 : pointsText o (q :: ps) = [','] ++ (paramLf o ++ ((print o.fd o.explicit q.1 ++ ',' :: print o.fd o.explicit q.2) ++
      pointsText o ps)) := by simp [pointsText]
    rw [e1, expand_text (by decide), expandFrom_append, expand_paramLf h, expand_text, ih fun q hq => hw q (by simp [hq])]
    · simp [pointsText, untab]; rfl
    · simp [print_noTab o o.explicit h1, print_noTab o o.explicit h2]

theorem expand_prim {o : Opts} (h : Breaks o) {p : Prim} (hp : PrimShape p) (he : ∀ e ∈ primExprs p, WF 6 e) :
    ∃ x, prim o p = primLf o ++ x ∧ ∀ col, expandFrom col x = prim (untab o) p := by
  have ha : ∀ e ∈ primExprs p, ∀ col, expandFrom col (arg o e) = arg (untab o) e := fun e h' => expand_arg h (he e h')
  have star (col : Nat) : expandFrom col ['*'] = ['*'] := expandFrom_id _ _ (by decide)
  cases p <;> simp only [prim, primExprs, List.append_assoc, untab_primLf, List.nil_append] at ha he ⊢ <;> refine ⟨_, rfl, fun col => ?_⟩
  case assign v e =>
    obtain ⟨ds, rfl, _, hd⟩ := hp
    exact expandFrom_id _ _ (by simp [digit_noTab hd, print_noTab o o.explicit (he e (by simp))])
  case code0 => exact expandFrom_id _ _ (by simp [hp.2.2])
  case code1 a b c d r => cases r <;> simp at ha <;> simp [expandFrom, expandFrom_append, ha]
  case code4 a b c d ps r =>
    have hw : ∀ q ∈ ps, WF 6 q.1 ∧ WF 6 q.2 := fun q hq =>
      ⟨he _ (by simp; exact .inr (.inr (.inr (.inr (.inl ⟨_, _, hq, .inl rfl⟩))))), he _ (by simp; exact .inr (.inr (.inr (.inr (.inl ⟨_, _, hq, .inr rfl⟩)))))⟩
    simp at ha
    simp [expandFrom, expandFrom_append, ha, expand_points h hw]
  all_goals
    simp at ha
    simp [expandFrom, expandFrom_append, ha]

theorem laid_prims {o : Opts} (hl : Layout o) (h : Breaks o) {base : Text} (hb : Blank base) {ps : List Prim}
    (hp : ∀ p ∈ ps, PrimShape p) (he : ∀ p ∈ ps, ∀ e ∈ primExprs p, WF 6 e) (col : Nat) :
    PrimsLaid (untab o) ps (expandFrom col (prims o base ps)) := by
  induction ps generalizing col with
  | nil => exact .nil
  | cons p ps ih =>
    obtain ⟨x, e, hx⟩ := expand_prim h (hp p (by simp)) (he p (by simp))
    have e1 : prims o base (p :: ps) = (base ++ primLf o) ++ (x ++ prims o base ps) := by simp [prims, e]
    rw [e1, expandFrom_append, expandFrom_append _ x, hx]
    exact .cons ((expandFrom_blank _ _).2 (blank_append hb (primLf_blank hl)))
      (ih (fun q hq => hp q (by simp [hq])) (fun q hq => he q (by simp [hq])) _)

theorem ext_noTab' {o : Opts} (ho : '\t' ∉ o.lf) {t : Text} (h : '\t' ∉ t) : '\t' ∉ ext o t := by
  simp [ext, h, ho]

/-- The options without indentations. -/
def unindented (o : Opts) : Opts :=
  { o with
    macroBody := [], macroParam := [], abIndent := [], srIndent := [], d01Indent := [], d02Indent := [], d03Indent := [],
    polarityLine := [] }

theorem unindented_noTabs {o : Opts} (ho : '\t' ∉ o.lf) : NoTabs (unindented o) where
  macroBody := List.not_mem_nil
  macroParam := List.not_mem_nil
  abIndent := List.not_mem_nil
  srIndent := List.not_mem_nil
  d01 := List.not_mem_nil
  d02 := List.not_mem_nil
  d03 := List.not_mem_nil
  lf := ho
  polarity := List.not_mem_nil

/-- What is printed for a command does not depend on the indentations. -/
theorem leaf_noTab' {o : Opts} (ho : '\t' ∉ o.lf) {rd : Text → Option Text} {n : Node} (h : Shape rd n) : '\t' ∉ leaf o n := by
  have := leaf_noTab (unindented_noTabs ho) h
  have e : leaf (unindented o) n = leaf o n := by cases n <;> rfl
  rwa [e] at this

theorem srOpen_noTab' {o : Opts} (ho : '\t' ∉ o.lf) {x y i j : Option Text} (hx : OptOk NumOk x) (hy : OptOk NumOk y)
    (hi : OptOk NumOk i) (hj : OptOk NumOk j) : '\t' ∉ srOpenText o x y i j :=
  srOpen_noTab (unindented_noTabs ho) hx hy hi hj

theorem laid_nodes {o : Opts} (hl : Layout o) (h : Breaks o) {rd : Text → Option Text} {L : Node → Prop}
    (hL : ∀ n, L n → Shape rd n) {top : Bool} {ns : List Node} (hw : WFs L top ns) : ∀ {base : Text}, Blank base →
      Blank (nodes o base ns).2 ∧ ∀ col, Laid o ns (expandFrom col (nodes o base ns).1) := by
  have hlf := breaks_noTab h
  have bl {col : Nat} {s : Text} (hs : Blank s) : Blank (expandFrom col s) := (expandFrom_blank _ _).2 hs
  induction hw with
  | nil => intro base hb; exact ⟨hb, fun col => .nil⟩
  | @leaf top n ns hn hb hst _ ih =>
    intro base hbase
    have ih' := ih hbase
    by_cases hm : isMacro n = true
    · cases n <;> simp only [isMacro, Bool.false_eq_true] at hm
      rename_i nm ps
      refine ⟨by simpa [nodes, node] using ih'.1, fun col => ?_⟩
      obtain ⟨s1, s2, s3⟩ := hL _ hn
      have e : (nodes o base (.am nm ps :: ns)).1 = base ++ ((t!"%AM" ++ (nm ++ ['*'])) ++ (prims o base ps ++
          ((base ++ (if o.macroEnd then o.lf else [])) ++ (('%' :: o.lf) ++ (nodes o base ns).1)))) := by
        simp [nodes, node]
      have hw : Blank (base ++ (if o.macroEnd then o.lf else [])) := by
        apply blank_append hbase
        split
        · exact hl.lf
        · exact blank_nil
      rw [e, expandFrom_append, expand_text (s := t!"%AM" ++ (nm ++ ['*'])) (by simp [name_noTab (by decide) s1]),
        expandFrom_append _ (prims o base ps), expandFrom_append _ (base ++ _), expand_text (s := '%' :: o.lf) (by simp [hlf])]
      have key (c1 c2 c3 : Nat) := Laid.am (o := o) (untab o) (n := nm) (untab_layout hl) rfl (bl (col := col) hbase)
        (laid_prims hl h hbase s2 s3 c1) (bl (col := c2) hw) (ih'.2 c3)
      simp only [List.append_assoc, List.cons_append, List.nil_append] at key ⊢
      exact key _ _ _
    · simp only [Bool.not_eq_true] at hm
      refine ⟨by simpa [nodes, node_leaf hb hm] using ih'.1, fun col => ?_⟩
      have e : (nodes o base (n :: ns)).1 = indent o base n ++ (leaf o n ++ (nodes o base ns).1) := by
        simp [nodes, node_leaf hb hm]
      rw [e, expandFrom_append, expand_text (leaf_noTab' hlf (hL _ hn))]
      exact .leaf hb hm hst (bl (indent_blank hl hbase n)) (ih'.2 _)
  | @pair top c d ns hc hd hD hs _ ih =>
    obtain ⟨g1, g2, g3⟩ := isG_of_isD hD
    intro base hbase
    have ih' := ih hbase
    refine ⟨by simpa [nodes, node_g, node_leaf g2 g3] using ih'.1, fun col => ?_⟩
    have e : (nodes o base (.g c false :: d :: ns)).1 = base ++ (gText o c false ++ (indent o base d ++ (leaf o d ++
        (nodes o base ns).1))) := by
      simp [nodes, node_g, node_leaf g2 g3, leaf_g, indent_g]
    have hg : '\t' ∉ gText o c false := leaf_noTab' hlf (hL _ hc)
    rw [e, expandFrom_append, expand_text hg, expandFrom_append _ (indent o base d), expand_text (leaf_noTab' hlf (hL _ hd))]
    refine .pair (bl hbase) (bl (indent_blank hl hbase d)) ?_ (ih'.2 _)
    intro hk _
    rw [indent_joined hD hs hk]
    rfl
  | @ab top i ns ms hn _ _ ihb ih =>
    intro base hbase
    have b1 := ihb (blank_append hbase hl.abIndent)
    have hd := decrease_blank (delta := o.abIndent) b1.1
    have ih' := ih hd
    refine ⟨by simpa [nodes, node] using ih'.1, fun col => ?_⟩
    have e : (nodes o base (.ab i ns :: ms)).1 = base ++ (ext o (t!"AB" ++ i) ++ ((nodes o (base ++ o.abIndent) ns).1 ++
        (decrease (nodes o (base ++ o.abIndent) ns).2 o.abIndent ++ (ext o t!"AB" ++
          (nodes o (decrease (nodes o (base ++ o.abIndent) ns).2 o.abIndent) ms).1)))) := by
      simp [nodes, node]
    have hi := id_noTab (hL _ hn)
    rw [e, expandFrom_append, expand_text (ext_noTab' hlf (by simp [hi])), expandFrom_append _ (nodes o (base ++ o.abIndent) ns).1,
      expandFrom_append _ (decrease _ _), expand_text (ext_noTab' hlf (by decide))]
    exact .ab (bl hbase) (b1.2 _) (bl hd) (ih'.2 _)
  | @sr x y i j ns ms hn _ _ ihb ih =>
    intro base hbase
    have b1 := ihb (blank_append hbase hl.srIndent)
    have hd := decrease_blank (delta := o.srIndent) b1.1
    have ih' := ih hd
    refine ⟨by simpa [nodes, node] using ih'.1, fun col => ?_⟩
    have e : (nodes o base (.sr x y i j ns :: ms)).1 = base ++ (srOpenText o x y i j ++ ((nodes o (base ++ o.srIndent) ns).1 ++
        (decrease (nodes o (base ++ o.srIndent) ns).2 o.srIndent ++ (ext o t!"SR" ++
          (nodes o (decrease (nodes o (base ++ o.srIndent) ns).2 o.srIndent) ms).1)))) := by
      simp [nodes, node]
    obtain ⟨a, b, c, d⟩ := hL _ hn
    rw [e, expandFrom_append, expand_text (srOpen_noTab' hlf a b c d), expandFrom_append _ (nodes o (base ++ o.srIndent) ns).1,
      expandFrom_append _ (decrease _ _), expand_text (ext_noTab' hlf (by decide))]
    exact .sr (bl hbase) (b1.2 _) (bl hd) (ih'.2 _)

theorem back_tabbed {rd : Text → Option Text} {o : Opts} (hl : Layout o) (h : NoTabs o ∨ Breaks o) {ns : List Node}
    (hw : WFs (NodeOk rd o) true ns) {it : P (List Node)} {k : Nat} (I : Item rd it k true) (hk : (expandTabs (formats o ns)).length ≤ k)
    {w : Text} (hb : Blank w) {rest : Text} (hr : it rest = .fail) :
    Reads' it (w ++ (expandTabs (formats o ns) ++ rest)) rest (normAll o false ns) := by
  rcases h with h | h
  · rw [expandTabs_id (formats_noTab h (fun _ h => h.1) hw)] at hk ⊢
    exact (back_ok hl hw I blank_nil).2 hk hb hr
  · exact laid_back hl.lf hw ((laid_nodes hl h (fun _ h => h.1) hw blank_nil).2 0) I hk hb hr

theorem length_tabbed {rd : Text → Option Text} {o : Opts} (hl : Layout o) (h : NoTabs o ∨ Breaks o) {ns : List Node}
    (hw : WFs (NodeOk rd o) true ns) : (normAll o false ns).length ≤ (expandTabs (formats o ns)).length := by
  rcases h with h | h
  · rw [expandTabs_id (formats_noTab h (fun _ h => h.1) hw)]
    exact nodes_length o ns [] false
  · exact laid_length hw ((laid_nodes hl h (fun _ h => h.1) hw blank_nil).2 0)

/-- What the formatter prints is read back, whatever blanks it indents with. -/
theorem parse_tabbed {rd : Text → Option Text} {o : Opts} (hl : Layout o) (h : NoTabs o ∨ Breaks o) {ns : List Node}
    (hw : WFs (NodeOk rd o) true ns) (hne : normAll o false ns ≠ []) :
    parseCode rd (formats o ns) = .file (normAll o false ns) := by
  rcases h with h | h
  · rw [parseCode_id rd (formats_noTab h (fun _ h => h.1) hw)]
    exact parse_formats hl hw hne
  · exact parse_laid hl.lf hw ((laid_nodes hl h (fun _ h => h.1) hw blank_nil).2 0) hne

end Verif.Grammar
