import Verif.Lemmas.Leaves6

/-!
# Reading back whole files
-/

namespace Verif.Grammar

open Verif.Text Verif.Fmt Verif.Peg Verif.Syntax Verif.Spec Verif.Formatter
open Verif.Math hiding P

/-! ## What is read back -/

/-- The G code is left out by the options. -/
def removed (o : Opts) (c : GCode) : Bool := (decide (c = .g54) && o.removeG54) || (decide (c = .g55) && o.removeG55)

/-- After printing this node the next one is on the same line without an asterisk between them. -/
def joins (o : Opts) : Node → Bool
  | .g c false => o.keep && !removed o c
  | _ => false

mutual
/-- The node that is read back, or nothing if the options leave it out; `j`: it follows a G code on the same line. -/
def norm (o : Opts) (j : Bool) : Node → List Node
  | .ab i ns => [.ab i (normAll o false ns)]
  | .sr x y i k ns => [.sr x y i k (normAll o false ns)]
  | .g c s => if removed o c then [] else [.g c (s || !o.keep)]
  | n => [withFlag (!j) n]
/-- The nodes that are read back. -/
def normAll (o : Opts) (j : Bool) : List Node → List Node
  | [] => []
  | n :: ns => norm o j n ++ normAll o (joins o n) ns
end

/-! ## Blocks -/

/-- `it` is the list of alternatives at the top of a file or in a block. -/
structure Item (rd : Text → Option Text) (it : P (List Node)) (k : Nat) (top : Bool) : Prop where
  disp : Dispatch rd it
  skips : Skips it
  ab : ∀ {t n r}, apertureBlock rd k ('%' :: 'A' :: 'B' :: t) = .ok n r → it ('%' :: 'A' :: 'B' :: t) = .ok [n] r
  sr : top = true → ∀ {t n r}, stepRepeat rd k ('%' :: 'S' :: 'R' :: t) = .ok n r → it ('%' :: 'S' :: 'R' :: t) = .ok [n] r

theorem item_root (rd : Text → Option Text) (k : Nat) (top : Bool) : Item rd (rootItem rd k) k top where
  disp := dispatch_root rd k
  skips := skips_rootItem rd k
  ab := root_ab
  sr := fun _ => root_sr

theorem item_body (rd : Text → Option Text) (k : Nat) : Item rd (bodyItem rd (apertureBlock rd k)) k false where
  disp := dispatch_body rd k
  skips := skips_bodyItem rd (skips_apertureBlock rd k)
  ab := body_ab
  sr := fun h => by cases h

theorem node_leaf {o : Opts} {base : Text} {n : Node} (hb : isBlock n = false) (hm : isMacro n = false) :
    node o base n = (indent o base n ++ leaf o n, base) := by
  cases n <;> simp only [isBlock, isMacro, Bool.true_eq_false] at hb hm <;> simp only [node]

theorem indent_blank {o : Opts} (h : Layout o) {base : Text} (hb : Blank base) (n : Node) : Blank (indent o base n) := by
  cases n <;> simp only [indent] <;> (try split) <;>
    first
    | exact hb
    | exact blank_nil
    | exact blank_append hb h.d01
    | exact blank_append hb h.d02
    | exact blank_append hb h.d03
    | exact blank_append h.polarity hb

theorem decrease_blank {base delta : Text} (h : Blank base) : Blank (decrease base delta) := by
  unfold decrease
  split
  · intro c hc; exact h c (List.mem_of_mem_take hc)
  · exact h

theorem abOpen_ok {o : Opts} {i : Text} (h : IdOk i) (r : Text) : abOpen (ext o (t!"AB" ++ i) ++ r) = .ok i (o.lf ++ r) := by
  pg [abOpen, ext, id_stop h]

theorem abClose_ok {o : Opts} (r : Text) : abClose (ext o t!"AB" ++ r) = .ok () (o.lf ++ r) := by
  pg [abClose, ext]

theorem srClose_ok {o : Opts} (r : Text) : srClose (ext o t!"SR" ++ r) = .ok () (o.lf ++ r) := by
  pg [srClose, ext]

theorem abOpen_close (o : Opts) (r : Text) : abOpen (ext o t!"AB" ++ r) = .fail := by
  pg [abOpen, ext, apertureId, skip_of_head (show isBlank '*' = false from rfl)]

theorem apertureBlock_close (o : Opts) (rd : Text → Option Text) (k : Nat) (r : Text) :
    apertureBlock rd k (ext o t!"AB" ++ r) = .fail := by
  cases k with
  | zero => rfl
  | succ k => exact andThen_fail (abOpen_close o r)

theorem apertureBlock_sr (rd : Text → Option Text) (k : Nat) (r : Text) :
    apertureBlock rd k ('%' :: 'S' :: 'R' :: r) = .fail := by
  cases k with
  | zero => rfl
  | succ k => exact andThen_fail (ext_fail (by decide) (by decide))

theorem body_close_ab (o : Opts) (rd : Text → Option Text) (k : Nat) (r : Text) :
    bodyItem rd (apertureBlock rd k) (ext o t!"AB" ++ r) = .fail :=
  body_stop_ab (apertureBlock_close o rd k r)

theorem body_close_sr (o : Opts) (rd : Text → Option Text) (k : Nat) (r : Text) :
    bodyItem rd (apertureBlock rd k) (ext o t!"SR" ++ r) = .fail :=
  body_stop_sr (apertureBlock_sr rd k _)

/-- `s` is read as items that form the list `m`, with a blank text before `rest` left over. -/
def Reads' (it : P (List Node)) (s rest : Text) (m : List Node) : Prop :=
  ∃ items w', Blank w' ∧ (∀ fuel, m.length ≤ fuel → manyFuel it fuel s = .ok items (w' ++ rest)) ∧ items.flatten = m ∧
    (items = [] → m = []) ∧ ∀ l items', items = l :: items' → ∃ r, it s = .ok l r ∧
      ∀ fuel, r.length ≤ fuel → manyFuel it fuel r = .ok items' (w' ++ rest)

theorem reads_step {it : P (List Node)} (hs : Skips it) {w t x v rest : Text} (hw : Blank w) {l m : List Node}
    (h : it (t ++ x) = .ok l (v ++ x)) (hl : l ≠ []) (hm : m.length ≤ x.length) (ih : Reads' it (v ++ x) rest m) :
    Reads' it (w ++ (t ++ x)) rest (l ++ m) := by
  obtain ⟨items, w', hw', hfuel, hf, h1, h2⟩ := ih
  have h0 : it (w ++ (t ++ x)) = .ok l (v ++ x) := by rw [hs.blank hw]; exact h
  have hl' : 1 ≤ l.length := List.length_pos_of_ne_nil hl
  refine ⟨l :: items, w', hw', ?_, by simp [hf], by simp, ?_⟩
  · intro fuel hfu
    cases fuel with
    | zero => simp at hfu; exact absurd hfu.1 hl
    | succ fuel => exact manyFuel_step h0 (hfuel fuel (by simp at hfu; omega))
  · intro l' items' e
    simp only [List.cons.injEq] at e
    obtain ⟨rfl, rfl⟩ := e
    exact ⟨v ++ x, h0, fun fuel hfu => hfuel fuel (by simp at hfu; omega)⟩

theorem withFlag_standalone {n : Node} (h : standalone n = true) : withFlag true n = n := by
  cases n <;> simp only [standalone] at h <;> simp only [withFlag, h]

theorem norm_leaf {o : Opts} {n : Node} {j : Bool} (hb : isBlock n = false) (hg : isG n = false) :
    norm o j n = [withFlag (!j) n] := by
  cases n <;> simp only [isBlock, isG, Bool.true_eq_false] at hb hg <;> simp only [norm]

theorem joins_false {o : Opts} {n : Node} (h : isG n = false) : joins o n = false := by
  cases n <;> simp only [isG, Bool.true_eq_false] at h <;> rfl

theorem isG_of_isD {n : Node} (h : isD n = true) : isG n = false ∧ isBlock n = false ∧ isMacro n = false := by
  cases n <;> simp only [isD, Bool.false_eq_true] at h <;> exact ⟨rfl, rfl, rfl⟩

theorem d_flag {o : Opts} {rd : Text → Option Text} {n : Node} (hd : isD n = true) (h : Shape rd n) (b : Bool) (r : Text) :
    dCodes b (leaf o n ++ r) = .ok (withFlag b n) (o.lf ++ r) := by
  have h1 : isD (withFlag b n) = true := by cases n <;> simp only [isD, Bool.false_eq_true] at hd <;> rfl
  have h2 : Shape rd (withFlag b n) := by cases n <;> simp only [isD, Bool.false_eq_true] at hd <;> exact h
  have h3 : standalone (withFlag b n) = b := by cases n <;> simp only [isD, Bool.false_eq_true] at hd <;> rfl
  have h4 : leaf o (withFlag b n) = leaf o n := by cases n <;> simp only [isD, Bool.false_eq_true] at hd <;> rfl
  have := d_ok (o := o) h1 h2 r
  rwa [h3, h4] at this

theorem withFlag_false {n : Node} (hd : isD n = true) (h : standalone n = false) : withFlag false n = n := by
  cases n <;> simp only [isD, Bool.false_eq_true] at hd <;> simp only [standalone] at h <;> simp only [withFlag, h]

theorem indent_joined {o : Opts} {base : Text} {n : Node} (hd : isD n = true) (h : standalone n = false) (hk : o.keep = true) :
    indent o base n = [] := by
  cases n <;> simp only [isD, Bool.false_eq_true] at hd <;> simp only [standalone] at h <;> simp [indent, h, hk]

theorem gText_cases (o : Opts) (c : GCode) (s : Bool) :
    (removed o c = true ∧ gText o c s = []) ∨ (removed o c = false ∧ (s = true ∨ o.keep = false) ∧ gText o c s = cmd o (gName c)) ∨
      (removed o c = false ∧ s = false ∧ o.keep = true ∧ gText o c s = gName c) := by
  unfold gText removed
  by_cases h : (c = .g54 ∧ o.removeG54 = true) ∨ (c = .g55 ∧ o.removeG55 = true)
  · left
    refine ⟨?_, by rw [if_pos h]⟩
    rcases h with ⟨rfl, h⟩ | ⟨rfl, h⟩ <;> simp [h]
  · right
    have h' : (decide (c = .g54) && o.removeG54 || decide (c = .g55) && o.removeG55) = false := by
      by_contra hc
      simp only [Bool.not_eq_false, Bool.or_eq_true, Bool.and_eq_true, decide_eq_true_eq] at hc
      exact h hc
    rw [if_neg h]
    cases s <;> cases hk : o.keep <;> simp_all

theorem g_item {rd : Text → Option Text} {it : P (List Node)} (D : Dispatch rd it) (o : Opts) (c : GCode) (r : Text) :
    it (cmd o (gName c) ++ r) = .ok [.g c true] (o.lf ++ r) := by
  have := g_standalone_ok (c := c) (r := o.lf ++ r)
  obtain ⟨a, b, e⟩ := g_text c
  simp only [cmd, List.append_assoc, List.cons_append, e] at this ⊢
  exact D.g this

theorem pair_item {rd : Text → Option Text} {it : P (List Node)} (D : Dispatch rd it) {o : Opts} (c : GCode) {n : Node}
    (hd : isD n = true) (h : Shape rd n) (r : Text) :
    it (gName c ++ (leaf o n ++ r)) = .ok [.g c false, withFlag false n] (o.lf ++ r) := by
  obtain ⟨x, t, e, hx⟩ := d_head (o := o) hd h r
  have h1 := d_flag (o := o) hd h false r
  rw [e] at h1 ⊢
  have := g_pair_ok (c := c) hx h1
  obtain ⟨a, b, e'⟩ := g_text c
  rw [e'] at this ⊢
  exact D.g this

theorem macro_item {rd : Text → Option Text} {it : P (List Node)} (D : Dispatch rd it) {o : Opts} (hl : Layout o) {base : Text}
    (hb : Blank base) {n : Text} {ps : List Prim} (h : NodeOk rd o (.am n ps)) (r : Text) :
    it (t!"%AM" ++ n ++ '*' :: prims o base ps ++ base ++ (if o.macroEnd then o.lf else []) ++ '%' :: o.lf ++ r) =
      .ok [.am n ps] (o.lf ++ r) := by
  obtain ⟨⟨h1, h2, h3⟩, -, -, -, h4⟩ := h
  have hw : Blank (base ++ (if o.macroEnd then o.lf else [])) := by
    apply blank_append hb
    split
    · exact hl.lf
    · exact blank_nil
  have he : ∀ p ∈ ps, ∀ e ∈ primExprs p, ExprOk o e := by
    intro p hp e hpe
    refine ⟨h3 p hp e hpe, h4 e ?_⟩
    simp only [exprs, List.mem_flatten, List.mem_map]
    exact ⟨_, ⟨p, hp, rfl⟩, hpe⟩
  have := macro_ok hl hb h1 h2 he hw (o.lf ++ r)
  simp only [List.append_assoc, List.cons_append, List.nil_append] at this ⊢
  exact D.am this

theorem skips_abClose : Skips abClose := skips_extended _
theorem skips_srClose : Skips srClose := skips_extended _

theorem ab_item {rd : Text → Option Text} {o : Opts} (hl : Layout o) {k : Nat} {i : Text} (hi : IdOk i) {base' body : Text}
    (hb : Blank base') {m : List Node} {r : Text}
    (hlen : m.length ≤ body.length)
    (h : Reads' (bodyItem rd (apertureBlock rd k)) (o.lf ++ (body ++ (base' ++ (ext o t!"AB" ++ r))))
      (base' ++ (ext o t!"AB" ++ r)) m) :
    apertureBlock rd (k + 1) (ext o (t!"AB" ++ i) ++ (body ++ (base' ++ (ext o t!"AB" ++ r)))) = .ok (.ab i m) (o.lf ++ r) := by
  obtain ⟨items, w', hw', hm', hf, -⟩ := h
  have hm := hm' (o.lf ++ (body ++ (base' ++ (ext o t!"AB" ++ r)))).length (by simp only [List.length_append]; omega)
  have hc : abClose (w' ++ (base' ++ (ext o t!"AB" ++ r))) = .ok () (o.lf ++ r) := by
    rw [skips_abClose.blank hw', skips_abClose.blank hb, abClose_ok]
  simp only [apertureBlock, Peg.andThen, abOpen_ok hi, many, hm, Peg.before, hc, Peg.ret, hf]

theorem sr_item {rd : Text → Option Text} {o : Opts} {k : Nat} {x y i j : Option Text} {ns : List Node}
    (hs : Shape rd (.sr x y i j ns)) (hr : Regular (.sr x y i j ns)) {base' body : Text}
    (hb : Blank base') {m : List Node} {r : Text}
    (hlen : m.length ≤ body.length)
    (h : Reads' (bodyItem rd (apertureBlock rd k)) (o.lf ++ (body ++ (base' ++ (ext o t!"SR" ++ r))))
      (base' ++ (ext o t!"SR" ++ r)) m) :
    stepRepeat rd k (srOpenText o x y i j ++ (body ++ (base' ++ (ext o t!"SR" ++ r)))) = .ok (.sr x y i j m) (o.lf ++ r) := by
  obtain ⟨items, w', hw', hm', hf, -⟩ := h
  have hm := hm' (o.lf ++ (body ++ (base' ++ (ext o t!"SR" ++ r)))).length (by simp only [List.length_append]; omega)
  have hc : srClose (w' ++ (base' ++ (ext o t!"SR" ++ r))) = .ok () (o.lf ++ r) := by
    rw [skips_srClose.blank hw', skips_srClose.blank hb, srClose_ok]
  simp only [stepRepeat, Peg.andThen, srOpen_ok hs hr, many, hm, Peg.before, hc, Peg.ret, hf]

theorem ext_length (o : Opts) (t : Text) : 1 ≤ (ext o t).length := by simp [ext]
theorem cmd_length (o : Opts) (t : Text) : 1 ≤ (cmd o t).length := by simp [cmd]; omega

theorem leaf_length {o : Opts} {n : Node} (hb : isBlock n = false) (hm : isMacro n = false) (hg : isG n = false) :
    1 ≤ (leaf o n).length := by
  cases n <;> simp only [isG, isBlock, isMacro, Bool.true_eq_false] at hg hb hm <;> simp only [leaf] <;>
    first
    | exact ext_length _ _
    | exact cmd_length _ _

theorem node_length (o : Opts) (base : Text) (j : Bool) (n : Node) : (norm o j n).length ≤ (node o base n).1.length := by
  by_cases hb : isBlock n = true
  · cases n <;> simp only [isBlock, Bool.false_eq_true] at hb
    · simp [norm, node, ext]; omega
    · simp [norm, node, ext]; omega
  · by_cases hm : isMacro n = true
    · cases n <;> simp only [isMacro, Bool.false_eq_true] at hm
      simp [norm, node]; omega
    · by_cases hg : isG n = true
      · cases n <;> simp only [isG, Bool.false_eq_true] at hg
        rename_i c s
        simp only [norm, node, leaf]
        rcases gText_cases o c s with ⟨h, e⟩ | ⟨h, -, e⟩ | ⟨h, -, -, e⟩ <;> rw [e, h] <;>
          obtain ⟨a, b, e'⟩ := g_text c <;> simp [cmd, e'] <;> omega
      · simp only [Bool.not_eq_true] at hb hm hg
        have := leaf_length (o := o) hb hm hg
        rw [node_leaf hb hm, norm_leaf hb hg]
        simp; omega

theorem nodes_length (o : Opts) (ns : List Node) : ∀ (base : Text) (j : Bool),
    (normAll o j ns).length ≤ (nodes o base ns).1.length := by
  induction ns with
  | nil => intro base j; simp [normAll]
  | cons n ns ih =>
    intro base j
    have h1 := node_length o base j n
    have h2 := ih (node o base n).2 (joins o n)
    simp only [normAll, nodes, List.length_append]
    omega

theorem tail_length (o : Opts) (ns : List Node) (base rest : Text) :
    (normAll o false ns).length ≤ ((nodes o base ns).1 ++ rest).length := by
  have := nodes_length o ns base false
  simp only [List.length_append]; omega

/-- What is to be shown about a list of nodes. -/
def Back (rd : Text → Option Text) (o : Opts) (top : Bool) (ns : List Node) : Prop :=
  ∀ {it k}, Item rd it k top → ∀ {base}, Blank base → Blank (nodes o base ns).2 ∧
    ((nodes o base ns).1.length ≤ k → ∀ {w}, Blank w → ∀ {rest}, it rest = .fail →
      Reads' it (w ++ ((nodes o base ns).1 ++ rest)) rest (normAll o false ns))

theorem back_nil (rd : Text → Option Text) (o : Opts) (top : Bool) : Back rd o top [] := by
  intro it k I base hb
  refine ⟨hb, ?_⟩
  intro _ w hw rest hr
  refine ⟨[], w, hw, ?_, rfl, by simp [normAll], by simp⟩
  intro fuel _
  simp only [nodes, List.nil_append]
  exact manyFuel_stop (by rw [I.skips.blank hw]; exact hr) fuel

theorem joins_g (o : Opts) (c : GCode) : joins o (.g c false) = (o.keep && !removed o c) := rfl
theorem leaf_g (o : Opts) (c : GCode) (s : Bool) : leaf o (.g c s) = gText o c s := rfl
theorem indent_g (o : Opts) (base : Text) (c : GCode) (s : Bool) : indent o base (.g c s) = base := rfl
theorem node_g (o : Opts) (base : Text) (c : GCode) (s : Bool) :
    node o base (.g c s) = (indent o base (.g c s) ++ leaf o (.g c s), base) := by simp only [node]
theorem norm_g (o : Opts) (j : Bool) (c : GCode) (s : Bool) :
    norm o j (.g c s) = if removed o c then [] else [.g c (s || !o.keep)] := by simp only [norm]

theorem back_ok {rd : Text → Option Text} {o : Opts} (hl : Layout o) {top : Bool} {ns : List Node}
    (h : WFs (NodeOk rd o) top ns) : Back rd o top ns := by
  induction h with
  | nil => exact back_nil rd o _
  | @leaf top n ns hn hb hst _ ih =>
    intro it k I base hbase
    by_cases hm : isMacro n = true
    · cases n <;> simp only [isMacro, Bool.false_eq_true] at hm
      rename_i nm ps
      have ih' := ih I hbase
      refine ⟨by simpa [nodes, node] using ih'.1, ?_⟩
      intro hk w hw rest hr
      have e : normAll o false (.am nm ps :: ns) = [.am nm ps] ++ normAll o false ns := by
        simp [normAll, norm, withFlag, joins]
      rw [e]
      have hk' : (nodes o base ns).1.length ≤ k := by
        simp only [nodes, node, List.length_append] at hk ⊢; omega
      have := reads_step I.skips (blank_append hw hbase)
        (macro_item I.disp hl hbase hn ((nodes o base ns).1 ++ rest))
        (by simp) (tail_length o _ _ _) (ih'.2 hk' hl.lf hr)
      simpa [nodes, node] using this
    · by_cases hg : isG n = true
      · cases n <;> simp only [isG, Bool.false_eq_true] at hg
        rename_i c s
        simp only [standalone] at hst
        subst hst
        have ih' := ih I hbase
        refine ⟨by simpa [nodes, node] using ih'.1, ?_⟩
        intro hk w hw rest hr
        have hk' : (nodes o base ns).1.length ≤ k := by
          simp only [nodes, node, List.length_append] at hk ⊢; omega
        rcases gText_cases o c true with ⟨h, e⟩ | ⟨h, -, e⟩ | ⟨h, h', -⟩
        · have e1 : normAll o false (.g c true :: ns) = normAll o false ns := by
            simp [normAll, norm, joins, h]
          rw [e1]
          have := ih'.2 hk' (blank_append hw hbase) hr
          simpa [nodes, node, leaf, e, indent] using this
        · have e1 : normAll o false (.g c true :: ns) = [.g c true] ++ normAll o false ns := by
            simp [normAll, norm, joins, h]
          rw [e1]
          have := reads_step I.skips (blank_append hw hbase)
            (g_item I.disp o c ((nodes o base ns).1 ++ rest))
            (by simp) (tail_length o _ _ _) (ih'.2 hk' hl.lf hr)
          simpa [nodes, node, leaf, e, indent] using this
        · cases h'
      · simp only [Bool.not_eq_true] at hm hg
        have ih' := ih I hbase
        refine ⟨by simpa [nodes, node_leaf hb hm] using ih'.1, ?_⟩
        intro hk w hw rest hr
        have hk' : (nodes o base ns).1.length ≤ k := by
          simp only [nodes, node_leaf hb hm, List.length_append] at hk ⊢; omega
        have e1 : normAll o false (n :: ns) = [n] ++ normAll o false ns := by
          simp [normAll, norm_leaf hb hg, joins_false hg, withFlag_standalone hst]
        rw [e1]
        have it_ok (r : Text) : it (leaf o n ++ r) = .ok [n] (o.lf ++ r) := by
          by_cases hd : isD n = true
          · have := d_ok (o := o) hd hn.1 r
            rw [hst] at this
            exact I.disp.d this
          · exact leaf_item I.disp hn hb hm (by simpa using hd) hg r
        have := reads_step I.skips (blank_append hw (indent_blank hl hbase n))
          (it_ok ((nodes o base ns).1 ++ rest)) (by simp) (tail_length o _ _ _) (ih'.2 hk' hl.lf hr)
        simpa [nodes, node_leaf hb hm] using this
  | @pair top c d ns hc hd hD hs _ ih =>
    obtain ⟨g1, g2, g3⟩ := isG_of_isD hD
    intro it k I base hbase
    have ih' := ih I hbase
    refine ⟨by simpa [nodes, node_g, node_leaf g2 g3] using ih'.1, ?_⟩
    intro hk w hw rest hr
    have hk' : (nodes o base ns).1.length ≤ k := by
      simp only [nodes, node_g, node_leaf g2 g3, List.length_append] at hk ⊢; omega
    have dtrue (r : Text) : it (leaf o d ++ r) = .ok [withFlag true d] (o.lf ++ r) := I.disp.d (d_flag hD hd.1 true r)
    rcases gText_cases o c false with ⟨h, e⟩ | ⟨h, h', e⟩ | ⟨h, -, h', e⟩
    · have e1 : normAll o false (.g c false :: d :: ns) = [withFlag true d] ++ normAll o false ns := by
        simp [normAll, norm_g, joins_g, h, norm_leaf g2 g1, joins_false g1]
      rw [e1]
      have := reads_step I.skips (blank_append hw (blank_append hbase (indent_blank hl hbase d)))
        (dtrue ((nodes o base ns).1 ++ rest)) (by simp) (tail_length o _ _ _) (ih'.2 hk' hl.lf hr)
      simpa [nodes, node_g, node_leaf g2 g3, leaf_g, e, indent_g] using this
    · have hkeep : o.keep = false := by simpa using h'
      have e1 : normAll o false (.g c false :: d :: ns) = [.g c true] ++ ([withFlag true d] ++ normAll o false ns) := by
        simp [normAll, norm_g, joins_g, h, norm_leaf g2 g1, joins_false g1, hkeep]
      rw [e1]
      have h1 := reads_step I.skips (blank_append hl.lf (indent_blank hl hbase d))
        (dtrue ((nodes o base ns).1 ++ rest)) (by simp) (tail_length o _ _ _) (ih'.2 hk' hl.lf hr)
      have := reads_step I.skips (blank_append hw hbase)
        (g_item I.disp o c (indent o base d ++ (leaf o d ++ ((nodes o base ns).1 ++ rest)))) (by simp) (m := [withFlag true d] ++ normAll o false ns)
        (by
          have := leaf_length (o := o) g2 g3 g1
          have := tail_length o ns base rest
          simp only [List.length_append, List.length_cons, List.length_nil] at this ⊢
          omega) (by simpa using h1)
      simpa [nodes, node_g, node_leaf g2 g3, leaf_g, e, indent_g] using this
    · have e1 : normAll o false (.g c false :: d :: ns) = [.g c false, withFlag false d] ++ normAll o false ns := by
        simp [normAll, norm_g, joins_g, h, norm_leaf g2 g1, joins_false g1, h']
      rw [e1]
      have h1 : it ((gName c ++ leaf o d) ++ ((nodes o base ns).1 ++ rest)) = .ok [.g c false, withFlag false d]
          (o.lf ++ ((nodes o base ns).1 ++ rest)) := by
        rw [List.append_assoc]; exact pair_item I.disp c hD hd.1 _
      have := reads_step I.skips (blank_append hw hbase) h1 (by simp) (tail_length o _ _ _) (ih'.2 hk' hl.lf hr)
      simpa [nodes, node_g, node_leaf g2 g3, leaf_g, e, indent_g, indent_joined hD hs h'] using this
  | @ab top i ns ms hn _ _ ihb ih =>
    intro it k I base hbase
    have b1 := ihb (item_body rd (k - 1)) (blank_append hbase hl.abIndent)
    have hd := decrease_blank (delta := o.abIndent) b1.1
    have ih' := ih I hd
    refine ⟨by simpa [nodes, node] using ih'.1, ?_⟩
    intro hk w hw rest hr
    have e1 : normAll o false (.ab i ns :: ms) = [.ab i (normAll o false ns)] ++ normAll o false ms := by
      simp [normAll, norm, joins]
    rw [e1]
    have hk0 : 1 ≤ k ∧ (nodes o (base ++ o.abIndent) ns).1.length ≤ k - 1 ∧
        (nodes o (decrease (nodes o (base ++ o.abIndent) ns).2 o.abIndent) ms).1.length ≤ k := by
      have := ext_length o (t!"AB" ++ i)
      simp only [nodes, node, List.length_append] at hk ⊢
      omega
    obtain ⟨k, rfl⟩ : ∃ m, k = m + 1 := ⟨k - 1, by omega⟩
    set rest' := (nodes o (decrease (nodes o (base ++ o.abIndent) ns).2 o.abIndent) ms).1 ++ rest with hrest
    have stop : bodyItem rd (apertureBlock rd k)
        (decrease (nodes o (base ++ o.abIndent) ns).2 o.abIndent ++ (ext o t!"AB" ++ rest')) = .fail := by
      rw [(item_body rd k).skips.blank hd, body_close_ab]
    have body := b1.2 hk0.2.1 hl.lf stop
    have h1 : it (ext o (t!"AB" ++ i) ++ ((nodes o (base ++ o.abIndent) ns).1 ++
        (decrease (nodes o (base ++ o.abIndent) ns).2 o.abIndent ++ (ext o t!"AB" ++ rest')))) =
        .ok [.ab i (normAll o false ns)] (o.lf ++ rest') := I.ab (ab_item hl hn.1 hd (nodes_length o ns _ false) body)
    have := reads_step I.skips (blank_append hw hbase) (t := ext o (t!"AB" ++ i) ++ ((nodes o (base ++ o.abIndent) ns).1 ++
        (decrease (nodes o (base ++ o.abIndent) ns).2 o.abIndent ++ ext o t!"AB"))) (x := rest')
      (by simpa using h1) (by simp) (tail_length o _ _ _) (ih'.2 hk0.2.2 hl.lf hr)
    simpa [nodes, node, hrest] using this
  | @sr x y i j ns ms hn _ _ ihb ih =>
    intro it k I base hbase
    have b1 := ihb (item_body rd k) (blank_append hbase hl.srIndent)
    have hd := decrease_blank (delta := o.srIndent) b1.1
    have ih' := ih I hd
    refine ⟨by simpa [nodes, node] using ih'.1, ?_⟩
    intro hk w hw rest hr
    have e1 : normAll o false (.sr x y i j ns :: ms) = [.sr x y i j (normAll o false ns)] ++ normAll o false ms := by
      simp [normAll, norm, joins]
    rw [e1]
    have hk0 : (nodes o (base ++ o.srIndent) ns).1.length ≤ k ∧
        (nodes o (decrease (nodes o (base ++ o.srIndent) ns).2 o.srIndent) ms).1.length ≤ k := by
      simp only [nodes, node, List.length_append] at hk ⊢
      omega
    set rest' := (nodes o (decrease (nodes o (base ++ o.srIndent) ns).2 o.srIndent) ms).1 ++ rest with hrest
    have stop : bodyItem rd (apertureBlock rd k)
        (decrease (nodes o (base ++ o.srIndent) ns).2 o.srIndent ++ (ext o t!"SR" ++ rest')) = .fail := by
      rw [(item_body rd k).skips.blank hd, body_close_sr]
    have body := b1.2 hk0.1 hl.lf stop
    have h1 : it (srOpenText o x y i j ++ ((nodes o (base ++ o.srIndent) ns).1 ++
        (decrease (nodes o (base ++ o.srIndent) ns).2 o.srIndent ++ (ext o t!"SR" ++ rest')))) =
        .ok [.sr x y i j (normAll o false ns)] (o.lf ++ rest') := I.sr rfl (sr_item hn.1 hn.2.2.2.1 hd (nodes_length o ns _ false) body)
    have := reads_step I.skips (blank_append hw hbase) (t := srOpenText o x y i j ++ ((nodes o (base ++ o.srIndent) ns).1 ++
        (decrease (nodes o (base ++ o.srIndent) ns).2 o.srIndent ++ ext o t!"SR"))) (x := rest')
      (by simpa using h1) (by simp) (tail_length o _ _ _) (ih'.2 hk0.2 hl.lf hr)
    simpa [nodes, node, hrest] using this

/-! ## Whole files -/

theorem root_nil (rd : Text → Option Text) (k : Nat) : rootItem rd k [] = .fail := by
  have e {α : Type} (p : P α) : extended p [] = .fail := by
    simp [extended, Peg.before, Peg.andThen, lit, strip, skip]
  have dF : dCodes true [] = .fail := by rfl
  have gF : gCodes [] = .fail := by rfl
  have mF : mCodes [] = .fail := by rfl
  have aF : aperture rd k [] = .fail := by
    apply firstOf_fail
    simp only [List.mem_cons, List.not_mem_nil, or_false, forall_eq_or_imp, forall_eq]
    refine ⟨?_, by rfl, andThen_fail (e _), by rfl⟩
    cases k with
    | zero => rfl
    | succ k => exact andThen_fail (e _)
  apply firstOf_fail
  simp only [List.mem_cons, List.not_mem_nil, or_false, forall_eq_or_imp, forall_eq]
  refine ⟨one_fail dF, gF, one_fail (by rfl), one_fail aF, one_fail ?_, one_fail (by rfl), one_fail mF⟩
  apply firstOf_fail
  simp only [List.mem_cons, List.not_mem_nil, or_false, forall_eq_or_imp, forall_eq]
  refine ⟨by rfl, by rfl, ?_, by rfl⟩
  apply firstOf_fail
  simp only [List.mem_cons, List.not_mem_nil, or_false, forall_eq_or_imp, forall_eq]
  exact ⟨rfl, rfl, rfl, rfl, rfl, rfl, rfl, rfl, rfl⟩

theorem parse_formats {rd : Text → Option Text} {o : Opts} (hl : Layout o) {ns : List Node}
    (h : WFs (NodeOk rd o) true ns) (hne : normAll o false ns ≠ []) :
    parseFile rd (formats o ns) = .file (normAll o false ns) := by
  have := (back_ok hl h (item_root rd (formats o ns).length true) blank_nil).2 (le_refl _) blank_nil (root_nil rd _)
  obtain ⟨items, w', hw', -, hf, h1, h2⟩ := this
  cases items with
  | nil => exact absurd (h1 rfl) hne
  | cons l items =>
    obtain ⟨r, hr, hr'⟩ := h2 l items rfl
    have hr2 := hr' r.length (le_refl _)
    have hs : skip (w' ++ []) = [] := by rw [skip_blank hw']; rfl
    simp only [List.nil_append, List.append_nil] at hr hs hr2
    have e : (nodes o [] ns).1 = formats o ns := rfl
    rw [e] at hr
    simp only [parseFile, many1, Peg.andThen, hr, many, hr2, Peg.ret, hs, if_true, hf]

/-- Whatever the parser reads, it gives a list with something in it. -/
def Some' (p : P (List Node)) : Prop := ∀ s a r, p s = .ok a r → a ≠ []

theorem Some'.firstOf {ps : List (P (List Node))} (h : ∀ p ∈ ps, Some' p) : Some' (firstOf ps) := by
  induction ps with
  | nil => intro s a r e; simp [Peg.firstOf] at e
  | cons p ps ih =>
    intro s a r e
    simp only [Peg.firstOf, Peg.orElse] at e
    cases hp : p s with
    | ok b r' => rw [hp] at e; simp only [Res.ok.injEq] at e; exact e.1 ▸ h p (by simp) _ _ _ hp
    | fail => rw [hp] at e; exact ih (fun q hq => h q (by simp [hq])) _ _ _ e
    | raised => rw [hp] at e; cases e

theorem Some'.after {α : Type} {p : P α} {f : α → P (List Node)} (h : ∀ a, Some' (f a)) : Some' (p ~> f) := by
  intro s a r e
  obtain ⟨b, r', _, e⟩ := andThen_ok e
  exact h _ _ _ _ e

theorem Some'.mapP {α : Type} {p : P α} {f : α → List Node} (h : ∀ a, f a ≠ []) : Some' (mapP f p) :=
  .after fun a s b r e => by simp only [Peg.ret, Res.ok.injEq] at e; exact e.1 ▸ h a

/-- The empty list of alternatives is never chosen. -/
theorem rootItem_nonempty (rd : Text → Option Text) (k : Nat) : Some' (rootItem rd k) := by
  have one' (p : P Node) : Some' (one p) := .mapP fun _ => by simp
  apply Some'.firstOf
  simp only [List.mem_cons, List.not_mem_nil, or_false, forall_eq_or_imp, forall_eq]
  refine ⟨one' _, ?_, one' _, one' _, one' _, one' _, one' _⟩
  apply Some'.firstOf
  intro p hp
  simp only [List.mem_append, List.mem_map, List.mem_singleton] at hp
  rcases hp with (rfl | ⟨c, _, rfl⟩) | ⟨c, _, rfl⟩
  · exact one' _
  · exact one' _
  · exact .after fun _ => .after fun _ => .mapP fun _ => by simp

theorem parseFile_nonempty {rd : Text → Option Text} {s : Text} {ns : List Node} (h : parseFile rd s = .file ns) : ns ≠ [] := by
  unfold parseFile at h
  cases hm : many1 (rootItem rd s.length) s with
  | fail => rw [hm] at h; cases h
  | raised => rw [hm] at h; cases h
  | ok nss r =>
    rw [hm] at h
    simp only at h
    split at h
    · simp only [Outcome.file.injEq] at h
      obtain ⟨l, r1, h1, e⟩ := andThen_ok hm
      obtain ⟨ls, r2, _, e⟩ := andThen_ok e
      simp only [Peg.ret, Res.ok.injEq] at e
      have := rootItem_nonempty rd _ _ _ _ h1
      rw [← h, ← e.1]
      simp [this]
    · cases h

end Verif.Grammar
