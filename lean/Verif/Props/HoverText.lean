import Verif.Lemmas.HoverText

/-!
# Hovers show the values of attributes and aperture definitions (C94)
-/

namespace Verif.Props.HoverText

open Verif.Peg Verif.Syntax Verif.Text Verif.Fmt Verif.HoverText Verif.Spec.HoverText
open Verif.Formatter (leaf build fieldsText ext intStr)
open Verif.Spec (Decimal PlainNumber)

/-! ## Attributes -/

/-- The names and the values of attributes in the specification are those that are written in Gerber (except for the name of
`.CLbN`, which the formatter writes as `.CLbn`). -/
theorem c94_written (n : Node) (name : Text) (values : List Text) (h : attributeOf n = some (name, values))
    (hn : ∀ v, n ≠ .toText .cLbN v) :
    leaf (build {}) n = t!"%TA" ++ name ++ fieldsText values ++ t!"*%\n" ∨
    leaf (build {}) n = t!"%TO" ++ name ++ fieldsText values ++ t!"*%\n" := by
  cases n
  case toText k v =>
    right
    cases k <;> simp only [attributeOf, Option.some.injEq, Prod.mk.injEq] at h <;> obtain ⟨rfl, rfl⟩ := h <;>
      first
      | exact absurd rfl (hn v)
      | simp [leaf, ext, build, fieldsText, Formatter.toName]
  case taFunction f fs =>
    cases f <;> simp only [attributeOf, Option.some.injEq, Prod.mk.injEq, reduceCtorEq] at h
    obtain ⟨rfl, rfl⟩ := h
    left; simp [leaf, ext, build, fieldsText]
  case taDrill p m =>
    cases p <;> cases m <;> simp only [attributeOf, Option.some.injEq, Prod.mk.injEq, reduceCtorEq] at h
    obtain ⟨rfl, rfl⟩ := h
    left; simp [leaf, ext, build, fieldsText, Formatter.optNum, Formatter.Opts.fd, fmtDouble]
  case taFlash s m r f z cs =>
    cases f <;> cases z <;> simp only [attributeOf, Option.some.injEq, Prod.mk.injEq, reduceCtorEq] at h
    obtain ⟨rfl, rfl⟩ := h
    left; cases cs <;> simp [leaf, ext, build, fieldsText, Formatter.commaOpt]
  case toP r m f =>
    cases f <;> simp only [attributeOf, Option.some.injEq, Prod.mk.injEq, reduceCtorEq] at h
    obtain ⟨rfl, rfl⟩ := h
    right; simp [leaf, ext, build, fieldsText]
  all_goals simp only [attributeOf, Option.some.injEq, Prod.mk.injEq, reduceCtorEq] at h
  all_goals obtain ⟨rfl, rfl⟩ := h
  all_goals
    first
    | (left; simp [leaf, ext, build, fieldsText, Formatter.Opts.fd, fmtDouble]; done)
    | (right; simp [leaf, ext, build, fieldsText, Formatter.Opts.fd, fmtDouble])

example : leaf (build {}) (.toSup t!"Mouser" t!"512" [t!"x"]) = t!"%TO.CSup,Mouser,512,x*%\n" := by decide +kernel

theorem showable_plus {v : Text} (h : Showable v) : Showable ('+' :: v) := by
  obtain ⟨-, h2, h3, -⟩ := h
  exact ⟨by simp, by simp [h2], by simp [h3], by simp⟩

theorem showable_angle {v : Text} (h : Showable v) : Showable (v ++ ['°']) := by
  obtain ⟨h1, h2, h3, h4⟩ := h
  refine ⟨by simp, by simp [h2], by simp [h3], ?_⟩
  cases v with
  | nil => exact absurd rfl h1
  | cons c v => simpa using h4

theorem shows_all (vs : List Text) : List.Forall₂ Shows vs vs := by
  induction vs with
  | nil => exact .nil
  | cons v vs ih => exact .cons (.inl rfl) ih

/-- An attribute whose name and values can be shown is shown with its name and then all of its values, in order and each in
its own code span; a few attributes have a label before the name.

Partial: not for `.FlashText`, `.C` and `.CMPN`, and only for values that can be shown. -/
theorem c94_attribute_partial (n : Node) (name : Text) (values : List Text) (h : attributeOf n = some (name, values))
    (hv : ∀ v ∈ name :: values, Showable v) (h1 : ∀ s m r f z cs, n ≠ .taFlash s m r f z cs)
    (h2 : ∀ v, n ≠ .toText .c v) (h3 : ∀ v, n ≠ .toText .cMpn v) :
    ∃ shown, List.Forall₂ Shows values shown ∧
      (spans (toMarkdown n) = name :: shown ∨ ∃ l ∈ labels, spans (toMarkdown n) = l :: name :: shown) := by
  have hname : Showable name := hv name (by simp)
  have hvals : ∀ v ∈ values, Showable v := fun v hm => hv v (by simp [hm])
  cases n
  case toText k v =>
    cases k <;> simp only [attributeOf, Option.some.injEq, Prod.mk.injEq] at h <;> obtain ⟨rfl, rfl⟩ := h
    case c => exact absurd rfl (h2 v)
    case cMpn => exact absurd rfl (h3 v)
    case cMfr =>
      refine ⟨[v], shows_all _, .inr ⟨t!"Supplier", by simp [labels], ?_⟩⟩
      exact spans_listed [([], t!"Supplier"), (t!" (", t!".CMfr")] t!"): " [v] (by simp [toMarkdown, heading, View.toName, built, code, commas])
        (by simp) (by simp) (by decide) (by simp) (by simp) hvals
    all_goals
      refine ⟨[v], shows_all _, .inl ?_⟩
      exact spans_listed [([], _)] t!": " [v] (by simp [toMarkdown, heading, View.toName, built, code, commas]) (by simp) (by simp)
        (by simpa using hname) (by simp) (by simp) hvals
  case taFunction f fs =>
    cases f with
    | none => simp [attributeOf] at h
    | some f =>
      simp only [attributeOf, Option.some.injEq, Prod.mk.injEq] at h
      obtain ⟨rfl, rfl⟩ := h
      refine ⟨f :: fs, shows_all _, .inl ?_⟩
      have e : toMarkdown (.taFunction (some f) fs) = built ([([], t!".AperFunction"), (t!": ", f)] ++ listed t!", (" fs)
          (if fs = [] then [] else t!")") := by
        rw [built_append]
        cases fs with
        | nil => simp [toMarkdown, built, listed, code]
        | cons g fs =>
          have := listed_built t!", (" (g :: fs) t!")"
          simp only [reduceCtorEq, if_false] at this ⊢
          rw [← this]
          simp [toMarkdown, built, code]
      rw [spans_eq _ _ e (by split <;> simp), List.map_append, listed_values]
      · rfl
      · intro s hs
        rcases List.mem_append.1 hs with hs | hs
        · simp only [List.mem_cons, List.not_mem_nil, or_false] at hs
          rcases hs with rfl | rfl
          · exact ⟨by simp, hname⟩
          · exact ⟨by simp, hvals f (by simp)⟩
        · exact (listed_good (by simp) (by simp) (fun v hm => hvals v (by simp [hm])) s hs).1
      · intro s hs
        rw [List.tail_append_of_ne_nil (by simp)] at hs
        rcases List.mem_append.1 hs with hs | hs
        · simp at hs; simp [hs]
        · exact (listed_good (by simp) (by simp) (fun v hm => hvals v (by simp [hm])) s hs).2
  case taDrill p m =>
    cases p <;> cases m <;> simp only [attributeOf, Option.some.injEq, Prod.mk.injEq, reduceCtorEq] at h
    rename_i p m
    obtain ⟨rfl, rfl⟩ := h
    refine ⟨['+' :: strFloat p, strFloat m], .cons (.inr (.inl rfl)) (.cons (.inl rfl) .nil), .inl ?_⟩
    refine spans_eq [([], t!".DrillTolerance"), (t!": ", '+' :: strFloat p), (t!" / -", strFloat m)] []
      (by simp [toMarkdown, built, code, orNone]) (by simp) ?_ (by simp)
    simp only [List.mem_cons, List.not_mem_nil, or_false, forall_eq_or_imp, forall_eq]
    exact ⟨⟨by simp, hname⟩, ⟨by simp, showable_plus (number_showable p)⟩, by simp, number_showable m⟩
  case taFlash s m r f z cs => exact absurd rfl (h1 s m r f z cs)
  case toP r m f =>
    cases f <;> simp only [attributeOf, Option.some.injEq, Prod.mk.injEq, reduceCtorEq] at h
    rename_i f
    obtain ⟨rfl, rfl⟩ := h
    refine ⟨_, shows_all _, .inr ⟨t!"Pin number", by simp [labels], ?_⟩⟩
    exact spans_listed [([], t!"Pin number"), (t!" (", t!".P")] t!"): " [r, m, f] (by simp [toMarkdown, built, code, commas, orNone])
      (by simp) (by simp) (by decide) (by simp) (by simp) hvals
  case toN fs =>
    simp only [attributeOf, Option.some.injEq, Prod.mk.injEq] at h
    obtain ⟨rfl, rfl⟩ := h
    refine ⟨_, shows_all _, .inr ⟨t!"CAD net name", by simp [labels], ?_⟩⟩
    exact spans_listed [([], t!"CAD net name"), (t!" (", t!".N")] t!"): " fs (by simp [toMarkdown, built, code])
      (by simp) (by simp) (by decide) (by simp) (by simp) hvals
  case toRot a =>
    simp only [attributeOf, Option.some.injEq, Prod.mk.injEq] at h
    obtain ⟨rfl, rfl⟩ := h
    refine ⟨[strFloat a ++ ['°']], .cons (.inr (.inr rfl)) .nil, .inl ?_⟩
    refine spans_listed [([], _)] t!": " [strFloat a ++ ['°']] (by simp [toMarkdown, built, code, commas]) (by simp) (by simp)
        (by simpa using hname) (by simp) (by simp) ?_
    simpa using showable_angle (number_showable a)
  case toSup a b fs =>
    simp only [attributeOf, Option.some.injEq, Prod.mk.injEq] at h
    obtain ⟨rfl, rfl⟩ := h
    refine ⟨_, shows_all _, .inl ?_⟩
    refine spans_listed [([], _)] t!": " (a :: b :: fs) ?_ (by simp) (by simp)
        (by simpa using hname) (by simp) (by simp) hvals
    cases fs <;> simp [toMarkdown, built, code, commas]
  all_goals simp only [attributeOf, Option.some.injEq, Prod.mk.injEq, reduceCtorEq] at h
  all_goals
    obtain ⟨rfl, rfl⟩ := h
    refine ⟨_, shows_all _, .inl ?_⟩
    exact spans_listed [([], _)] t!": " _ (by simp [toMarkdown, built, code, commas]) (by simp) (by simp)
        (by simpa using hname) (by simp) (by simp) hvals

/-- An attribute with a label. -/
example : spans (toMarkdown (.toP t!"U1" t!"3" (some t!"GND"))) = [t!"Pin number", t!".P", t!"U1", t!"3", t!"GND"] := by
  decide +kernel

/-- Of a text that is flashed, the text is shown; of a reference designator and of a part number, the value. -/
theorem c94_text_partial (v : Text) (hv : Showable v) (m r : Text) (f z : Option Text) (cs : List Text) :
    spans (toMarkdown (.taFlash v m r f z cs)) = [t!".FlashText", v] ∧
    (spans (toMarkdown (.toText .c v))).getLast? = some v ∧
    (spans (toMarkdown (.toText .cMpn v))).getLast? = some v := by
  have hu : unticked v = v := by
    unfold unticked
    conv_rhs => rw [← List.map_id v]
    refine List.map_congr_left fun c hc => ?_
    rw [if_neg (by rintro rfl; exact hv.2.1 hc)]; rfl
  refine ⟨?_, ?_, ?_⟩
  · exact spans_listed [([], t!".FlashText")] t!": " [v] (by simp [toMarkdown, built, code, commas, hu]) (by simp) (by simp)
      (by decide) (by simp) (by simp) (by simpa using hv)
  · rw [spans_listed [([], t!"Component reference designator(.C")] t!"): " [v] (by simp [toMarkdown, heading, View.toName, built, code, commas])
      (by simp) (by simp) (by decide) (by simp) (by simp) (by simpa using hv)]
    rfl
  · rw [spans_listed [([], t!".CMNP")] t!": " [v] (by simp [toMarkdown, heading, View.toName, built, code, commas])
      (by simp) (by simp) (by decide) (by simp) (by simp) (by simpa using hv)]
    rfl

example : Showable t!"R1" := by decide +kernel

/-- The name of a reference designator is in no code span of its own, and a part number is shown with a name that no
attribute has. -/
theorem c94_false_name : t!".C" ∉ spans (toMarkdown (.toText .c t!"R1")) ∧
    spans (toMarkdown (.toText .cMpn t!"512")) = [t!".CMNP", t!"512"] := by decide +kernel

/-- Texts that are flashed in different ways are shown in the same way. -/
theorem c94_false_flash : ∃ a b : Node, a ≠ b ∧ toMarkdown a = toMarkdown b ∧ (attributeOf a).isSome ∧ (attributeOf b).isSome :=
  ⟨.taFlash t!"L1" t!"C" t!"R" (some t!"F") (some t!"10") [], .taFlash t!"L1" t!"B" t!"M" (some t!"F") (some t!"10") [],
    by simp, rfl, rfl, rfl⟩

/-- A value with a backtick is shown as two, and empty values run together. -/
theorem c94_false_ticks :
    spans (toMarkdown (.toUser t!"a" [t!"x`y`z"])) = [t!"a", t!"x", t!"z"] ∧
    spans (toMarkdown (.toUser t!"a" [[], []])) = [t!"a", t!", "] := by decide +kernel

/-- A pin without a function is shown like a pin with the function `None`. -/
theorem c94_false_none (r n : Text) : toMarkdown (.toP r n none) = toMarkdown (.toP r n (some t!"None")) := rfl

/-! ## Lists of attributes -/

theorem lines_cut {a : Text} (ha : '\n' ∉ a) (b : Text) : lines (a ++ '\n' :: b) = a :: lines b := by
  induction a with
  | nil => simp [lines]
  | cons c a ih =>
    simp only [List.mem_cons, not_or] at ha
    simp only [List.cons_append, lines, if_neg (Ne.symm ha.1), ih ha.2]

theorem commas_lf (vs : List Text) (h : ∀ v ∈ vs, '\n' ∉ v) : '\n' ∉ commas (vs.map code) := by
  induction vs with
  | nil => simp [commas]
  | cons v vs ih =>
    have hv := h v (by simp)
    have ih := ih fun w hw => h w (by simp [hw])
    cases vs with
    | nil => simpa [commas, code] using hv
    | cons w vs =>
      simp only [List.map_cons, commas, List.mem_append, List.mem_cons, not_or, code, List.not_mem_nil] at ih ⊢
      exact ⟨⟨⟨by decide, hv⟩, by decide, by simp⟩, by decide, by decide, ih⟩

theorem markdown_lf {n : Node} (h : Plain n) : '\n' ∉ toMarkdown n := by
  obtain ⟨name, values, h, hv⟩ := h
  have hs (q : ℚ) : '\n' ∉ strFloat q := (number_showable q).2.2.1
  have hv : ∀ v ∈ name :: values, '\n' ∉ v := fun v hm => (hv v hm).2.2.1
  cases n
  case toText k v =>
    cases k <;> simp only [attributeOf, Option.some.injEq, Prod.mk.injEq] at h <;> obtain ⟨rfl, rfl⟩ := h <;>
      (have := hv v (by simp); simp [toMarkdown, heading, View.toName, code, this])
  case taFunction f fs =>
    cases f <;> simp only [attributeOf, Option.some.injEq, Prod.mk.injEq, reduceCtorEq] at h
    rename_i f
    obtain ⟨rfl, rfl⟩ := h
    have h1 := hv f (by simp)
    have h2 := commas_lf fs fun v hm => hv v (by simp [hm])
    cases fs with
    | nil => simp [toMarkdown, code, h1]
    | cons g fs => simp [toMarkdown, code, h1] at h2 ⊢; exact h2
  case taDrill p m =>
    cases p <;> cases m <;> simp only [attributeOf, Option.some.injEq, Prod.mk.injEq, reduceCtorEq] at h
    simp [toMarkdown, code, orNone, hs]
  case taFlash s m r f z cs =>
    cases f <;> cases z <;> simp only [attributeOf, Option.some.injEq, Prod.mk.injEq, reduceCtorEq] at h
    obtain ⟨rfl, rfl⟩ := h
    have h1 := hv s (by simp)
    have h2 : '\n' ∉ unticked s := by
      simp only [unticked, List.mem_map, not_exists, not_and]
      intro c hc
      split
      · decide
      · rintro rfl; exact h1 hc
    simp [toMarkdown, code, h2]
  case toP r m f =>
    cases f <;> simp only [attributeOf, Option.some.injEq, Prod.mk.injEq, reduceCtorEq] at h
    rename_i f
    obtain ⟨rfl, rfl⟩ := h
    have h1 := hv r (by simp)
    have h2 := hv m (by simp)
    have h3 := hv f (by simp)
    simp [toMarkdown, code, orNone, h1, h2, h3]
  case toSup a b fs =>
    simp only [attributeOf, Option.some.injEq, Prod.mk.injEq] at h
    obtain ⟨rfl, rfl⟩ := h
    have h1 := hv a (by simp)
    have h2 := hv b (by simp)
    have h3 := commas_lf fs fun v hm => hv v (by simp [hm])
    cases fs with
    | nil => simp [toMarkdown, code, h1, h2]
    | cons g fs => simp [toMarkdown, code, h1, h2] at h3 ⊢; exact h3
  case toMount m =>
    simp only [attributeOf, Option.some.injEq, Prod.mk.injEq] at h
    obtain ⟨rfl, rfl⟩ := h
    have h1 := hv m (by simp)
    simp [toMarkdown, code, h1]
  case toRot a => simp [toMarkdown, code, hs]
  case toHeight a => simp [toMarkdown, code, hs]
  all_goals simp only [attributeOf, Option.some.injEq, Prod.mk.injEq, reduceCtorEq] at h
  all_goals
    obtain ⟨rfl, rfl⟩ := h
    have h1 := hv _ (List.mem_cons_self ..)
    have h3 := commas_lf _ fun v hm => hv v (List.mem_cons_of_mem _ hm)
    simp [toMarkdown, code] at h1 h3 ⊢
    simp [*]

theorem listLines_attributes (attrs : List Node) (h : ∀ n ∈ attrs, Plain n) (rest : Text) :
    listLines (attributeLines attrs ++ rest) = attrs.map toMarkdown ++ listLines rest := by
  induction attrs with
  | nil => rfl
  | cons n ns ih =>
    have := markdown_lf (h n (by simp))
    have e : attributeLines (n :: ns) ++ rest = (t!"- " ++ toMarkdown n) ++ '\n' :: (attributeLines ns ++ rest) := by
      simp [attributeLines]
    rw [e, listLines, lines_cut (by simp [this])]
    have ih := ih fun m hm => h m (by simp [hm])
    unfold listLines at ih
    simp [ih, listLines]

/-- All of the attributes found are shown, one line each, below a heading. -/
theorem c94_section_partial (attrs : List Node) (h : ∀ n ∈ attrs, Plain n) (id : Text) (hid : '\n' ∉ id) :
    listLines (apertureAttributes id attrs) = attrs.map toMarkdown ∧
    listLines (objectAttributes attrs) = attrs.map toMarkdown := by
  by_cases h0 : attrs = []
  · subst h0; constructor <;> rfl
  · have h0' : attrs.isEmpty = false := by cases attrs <;> simp_all
    have cut (a b : Text) (ha : '\n' ∉ a) (hp : t!"- ".isPrefixOf a = false) : listLines (a ++ '\n' :: b) = listLines b := by
      rw [listLines, lines_cut ha, List.filter_cons, if_neg (by simp [hp])]; rfl
    constructor
    · have e : apertureAttributes id attrs = [] ++ '\n' :: (t!"---" ++ '\n' :: ((t!"### Aperture attributes (" ++ code id ++ t!")") ++
          '\n' :: (attributeLines attrs ++ t!"\n"))) := by
        simp [apertureAttributes, h0', sep]
      rw [e, cut _ _ (by simp) rfl, cut _ _ (by simp) rfl, cut _ _ (by simp [code, hid]) rfl, listLines_attributes attrs h]
      simp [listLines, lines]
    · have e : objectAttributes attrs = [] ++ '\n' :: (t!"---" ++ '\n' :: (t!"### Object attributes" ++
          '\n' :: (attributeLines attrs ++ t!"\n"))) := by
        simp [objectAttributes, h0', sep]
      rw [e, cut _ _ (by simp) rfl, cut _ _ (by simp) rfl, cut _ _ (by simp) rfl, listLines_attributes attrs h]
      simp [listLines, lines]

example : Plain (.taUser t!"Shade" [t!"dark", t!"7"]) := ⟨_, _, rfl, by decide +kernel⟩

/-! ## Definitions of apertures -/

/-- The line of a fact. -/
def line (f : Text × Text) : Text := t!" - " ++ f.1 ++ t!": " ++ code f.2 ++ t!" "

theorem fact_line {l v : Text} (hl : ':' ∉ l) (hv : '`' ∉ v) : fact (line (l, v)) = (l, v) := by
  have tw {x : Char} {a : Text} (ha : x ∉ a) (b : Text) : (a ++ x :: b).takeWhile (· ≠ x) = a := by
    rw [List.takeWhile_append_of_pos (by intro c hc; simpa using fun e : c = x => ha (e ▸ hc))]
    simp
  have dw {x : Char} {a : Text} (ha : x ∉ a) (b : Text) : (a ++ x :: b).dropWhile (· ≠ x) = x :: b := by
    rw [List.dropWhile_append_of_pos (by intro c hc; simpa using fun e : c = x => ha (e ▸ hc))]
    simp
  have e : (line (l, v)).drop 3 = l ++ ':' :: (' ' :: '`' :: (v ++ '`' :: t!" ")) := by simp [line, code]
  unfold fact
  simp only [e, tw hl, dw hl, List.drop_succ_cons, List.drop_zero, tw hv]

theorem lines_items (fs : List (Text × Text)) (h : ∀ f ∈ fs, '\n' ∉ line f) (a : Text) (ha : '\n' ∉ a) (r : Text) :
    lines (a ++ (fs.map fun f => '\n' :: line f).flatten ++ '\n' :: r) = a :: fs.map line ++ lines r := by
  induction fs generalizing a with
  | nil => simpa using lines_cut ha r
  | cons f fs ih =>
    have := ih (fun g hg => h g (by simp [hg])) (line f) (h f (by simp))
    have e : a ++ ((f :: fs).map fun f => '\n' :: line f).flatten ++ '\n' :: r =
        a ++ '\n' :: (line f ++ (fs.map fun f => '\n' :: line f).flatten ++ '\n' :: r) := by simp
    rw [e, lines_cut ha, this]
    rfl

/-- The labels and the texts of the facts. -/
def shownFacts : Node → List (Text × Text)
  | .adc _ d h => [(t!"standard template", t!"Circle"), (t!"diameter", strFloat d), (t!"hole_diameter", orNone strFloat h)]
  | .adr _ w h o => [(t!"standard template", t!"Rectangle"), (t!"width", strFloat w), (t!"height", strFloat h),
      (t!"hole_diameter", orNone strFloat o)]
  | .ado _ w h o => [(t!"standard template", t!"Obround"), (t!"width", strFloat w), (t!"height", strFloat h),
      (t!"hole_diameter", orNone strFloat o)]
  | .adp _ d v r h => [(t!"standard template", t!"Polygon"), (t!"outer diameter", strFloat d),
      (t!"vertex count", intStr v), (t!"rotation", strFloat (r.getD 0) ++ ['°']), (t!"hole_diameter", orNone strFloat h)]
  | .adMacro _ name ps => (t!"macro name", name) ::
      (ps.getD []).zipIdx.map fun p => (t!"parameter `$" ++ natStr (p.2 + 1) ++ t!"`", strFloat p.1)
  | _ => []

theorem paramItems_eq (ps : List ℚ) (i : ℕ) : paramItems (i + 1) ps =
    ((ps.zipIdx i).map fun p => '\n' :: line (t!"parameter `$" ++ natStr (p.2 + 1) ++ t!"`", strFloat p.1)).flatten := by
  induction ps generalizing i with
  | nil => rfl
  | cons p ps ih => simp [paramItems, ih (i + 1), item, line]

theorem definitionItems_eq (n : Node) : definitionItems n = ((shownFacts n).map fun f => '\n' :: line f).flatten := by
  cases n
  case adMacro i name ps =>
    have := paramItems_eq (ps.getD []) 0
    simp only [Nat.zero_add] at this
    simp only [definitionItems, shownFacts, this]
    simp [item, line, Function.comp_def]
  all_goals simp [definitionItems, shownFacts, item, line]

theorem orNone_odd {x : Char} (hx : Odd x) (hn : x ∉ t!"None") (o : Option ℚ) : x ∉ orNone strFloat o := by
  cases o with
  | none => exact hn
  | some q => exact strFloat_odd hx q

/-- The fact can be read from its line. -/
def Good (f : Text × Text) : Prop := ':' ∉ f.1 ∧ '`' ∉ f.2 ∧ '\n' ∉ line f

theorem shownFacts_good (n : Node) (hn : ∀ t ∈ namesOf n, '\n' ∉ t ∧ '`' ∉ t) :
    ∀ f ∈ shownFacts n, Good f := by
  have sf {x : Char} (hx : Odd x) (q : ℚ) := strFloat_odd hx q
  have lf : Odd '\n' := by decide
  have bt : Odd '`' := by decide
  have co : Odd ':' := by decide
  have key (a b : Text) (h1 : ':' ∉ a ∧ '\n' ∉ a) (h2 : '`' ∉ b ∧ '\n' ∉ b) :
      Good (a, b) := ⟨h1.1, h2.1, by simp [line, code, h1.2, h2.2]⟩
  have num (q : ℚ) : '`' ∉ strFloat q ∧ '\n' ∉ strFloat q := ⟨sf bt q, sf lf q⟩
  have opt (o : Option ℚ) : '`' ∉ orNone strFloat o ∧ '\n' ∉ orNone strFloat o :=
    ⟨orNone_odd bt (by decide) o, orNone_odd lf (by decide) o⟩
  cases n
  case adMacro i name ps =>
    intro f hf
    simp only [shownFacts, List.mem_cons, List.mem_map] at hf
    rcases hf with rfl | ⟨p, -, rfl⟩
    · have := hn name (by simp [namesOf])
      exact key _ _ (by decide) ⟨this.2, this.1⟩
    · have h1 := natStr_odd co (p.2 + 1)
      have h2 := natStr_odd lf (p.2 + 1)
      exact key _ _ ⟨by simp [h1], by simp [h2]⟩ (num p.1)
  case adp i d v r h =>
    simp only [shownFacts, List.mem_cons, List.not_mem_nil, or_false, forall_eq_or_imp, forall_eq]
    refine ⟨key _ _ (by decide) (by decide), key _ _ (by decide) (num _), key _ _ (by decide) ⟨intStr_odd bt v, intStr_odd lf v⟩,
      key _ _ (by decide) ⟨?_, ?_⟩, key _ _ (by decide) (opt _)⟩
    · have := (num (r.getD 0)).1; simp [this]
    · have := (num (r.getD 0)).2; simp [this]
  case adc i d h =>
    simp only [shownFacts, List.mem_cons, List.not_mem_nil, or_false, forall_eq_or_imp, forall_eq]
    exact ⟨key _ _ (by decide) (by decide), key _ _ (by decide) (num _), key _ _ (by decide) (opt _)⟩
  case adr i d h o =>
    simp only [shownFacts, List.mem_cons, List.not_mem_nil, or_false, forall_eq_or_imp, forall_eq]
    exact ⟨key _ _ (by decide) (by decide), key _ _ (by decide) (num _), key _ _ (by decide) (num _), key _ _ (by decide) (opt _)⟩
  case ado i d h o =>
    simp only [shownFacts, List.mem_cons, List.not_mem_nil, or_false, forall_eq_or_imp, forall_eq]
    exact ⟨key _ _ (by decide) (by decide), key _ _ (by decide) (num _), key _ _ (by decide) (num _), key _ _ (by decide) (opt _)⟩
  all_goals simp [shownFacts]

theorem leaf_line (n : Node) (hd : IsDefinition n) (hn : ∀ t ∈ namesOf n, '\n' ∉ t) :
    ∃ t : Text, leaf (build {}) n = ('%' :: t) ++ t!"\n" ∧ '\n' ∉ t := by
  have lf : Odd '\n' := by decide
  have num (q : ℚ) : '\n' ∉ (build {}).fd q := strFloat_odd lf q
  have opt (o : Option ℚ) : '\n' ∉ Formatter.optNum 'X' (build {}).fd o := by
    cases o <;> simp [Formatter.optNum, num]
  have iv (v : ℤ) := intStr_odd lf v
  have ex (t : Text) (h : '\n' ∉ t) : ∃ s : Text, ext (build {}) t = ('%' :: s) ++ t!"\n" ∧ '\n' ∉ s :=
    ⟨t ++ t!"*%", by simp [ext, build], by simp [h]⟩
  cases n
  case adMacro i name ps =>
    have h1 := hn i (by simp [namesOf])
    have h2 := hn name (by simp [namesOf])
    have h3 : '\n' ∉ Formatter.macroParams ps := by
      rcases ps with _ | _ | ⟨p, ps⟩
      · simp [Formatter.macroParams]
      · simp [Formatter.macroParams]
      · simp [Formatter.macroParams, strFloat_odd lf]
    exact ex _ (by simp [h1, h2, h3])
  case adc i d h => exact ex _ (by have := hn i (by simp [namesOf]); simp [this, num, opt])
  case adr i d h o => exact ex _ (by have := hn i (by simp [namesOf]); simp [this, num, opt])
  case ado i d h o => exact ex _ (by have := hn i (by simp [namesOf]); simp [this, num, opt])
  case adp i d v r h => exact ex _ (by have := hn i (by simp [namesOf]); simp [this, num, opt, iv])
  all_goals exact hd.elim

theorem rest_starts (attrs : List Node) (picture : Option Text) (reference id : Text) :
    ∃ r, apertureAttributes id attrs ++ visualization picture ++ sep ++ reference = '\n' :: (t!"---" ++ '\n' :: r) := by
  unfold apertureAttributes
  split
  · cases picture <;> exact ⟨_, rfl⟩
  · exact ⟨_, rfl⟩

theorem facts_shown (n : Node) (hd : IsDefinition n) (hn : ∀ t ∈ namesOf n, '\n' ∉ t ∧ '`' ∉ t) (attrs : List Node)
    (picture : Option Text) (reference : Text) : facts (onDefinition attrs picture reference n) = shownFacts n := by
  obtain ⟨t, ht, hlf⟩ := leaf_line n hd fun t h => (hn t h).1
  obtain ⟨r, hr⟩ := rest_starts attrs picture reference (apertureOf n)
  have good := shownFacts_good n hn
  have e : onDefinition attrs picture reference n = t!"```gerber" ++ '\n' :: (('%' :: t) ++ '\n' :: (t!"```" ++ '\n' ::
      ([] ++ ((shownFacts n).map fun f => '\n' :: line f).flatten ++ '\n' :: (t!"---" ++ '\n' :: r)))) := by
    rw [← hr, ← definitionItems_eq, onDefinition, codeBlock, ht]
    simp
  have hl : lines (onDefinition attrs picture reference n) = t!"```gerber" :: ('%' :: t) :: t!"```" :: [] ::
      ((shownFacts n).map line ++ t!"---" :: lines r) := by
    rw [e, lines_cut (by simp), lines_cut (by simp [hlf]), lines_cut (by simp), lines_items _ (fun f hf => (good f hf).2.2) _ (by simp),
      lines_cut (by simp)]
    rfl
  unfold facts
  rw [hl]
  simp only
  rw [List.dropWhile_cons_of_pos (by simp), List.dropWhile_cons_of_neg (by simp)]
  simp only [List.drop_succ_cons, List.drop_zero]
  rw [List.takeWhile_append_of_pos]
  · rw [List.takeWhile_cons_of_neg (by simp), List.append_nil, List.map_map]
    conv_rhs => rw [← List.map_id (shownFacts n)]
    exact List.map_congr_left fun f hf => fact_line (good f hf).1 (good f hf).2.1
  · intro l hl
    obtain ⟨f, -, rfl⟩ := List.mem_map.1 hl
    simp [line]

/-- The hover of an aperture definition lists exactly the facts about it, with their labels: numbers read back as they are in
the definition.

Partial: for numbers that are written without an exponent, and names without backticks and line ends. -/
theorem c94_definition_partial (n : Node) (hd : IsDefinition n) (hn : ∀ t ∈ namesOf n, '\n' ∉ t ∧ '`' ∉ t)
    (hq : ∀ q ∈ numbersOf n, Decimal |q| ∧ PlainNumber q) (attrs : List Node) (picture : Option Text) (reference : Text) :
    List.Forall₂ (fun f s => f.1 = s.1 ∧ Tells f.2 s.2) (factsOf n) (facts (onDefinition attrs picture reference n)) := by
  rw [facts_shown n hd hn]
  have num (q : ℚ) (h : Decimal |q| ∧ PlainNumber q) : pDouble (strFloat q) = some (q, []) := by
    have := Verif.Props.Expr.c39_default_exact_partial q h.1 (Grammar.plain_abs h.2) [] (by simp)
    simpa [fmtDouble] using this
  have opt (o : Option ℚ) (h : ∀ q ∈ o.toList, Decimal |q| ∧ PlainNumber q) : Tells (optional o) (orNone strFloat o) := by
    cases o with
    | none => rfl
    | some q => exact num q (h q (by simp))
  cases n
  case adMacro i name ps =>
    refine .cons ⟨rfl, rfl⟩ ?_
    rw [List.forall₂_map_left_iff, List.forall₂_map_right_iff]
    refine List.forall₂_same.2 fun p hp => ⟨rfl, num _ (hq _ ?_)⟩
    exact (List.mem_zipIdx' hp).2 ▸ List.getElem_mem _
  case adc i d h =>
    exact .cons ⟨rfl, rfl⟩ (.cons ⟨rfl, num _ (hq _ (by simp [numbersOf]))⟩ (.cons ⟨rfl, opt _ fun q hm => hq _ (by
      simp only [numbersOf]; simp [Option.mem_toList.1 hm])⟩ .nil))
  case adr i w h o =>
    exact .cons ⟨rfl, rfl⟩ (.cons ⟨rfl, num _ (hq _ (by simp [numbersOf]))⟩ (.cons ⟨rfl, num _ (hq _ (by simp [numbersOf]))⟩
      (.cons ⟨rfl, opt _ fun q hm => hq _ (by simp only [numbersOf]; simp [Option.mem_toList.1 hm])⟩ .nil)))
  case ado i w h o =>
    exact .cons ⟨rfl, rfl⟩ (.cons ⟨rfl, num _ (hq _ (by simp [numbersOf]))⟩ (.cons ⟨rfl, num _ (hq _ (by simp [numbersOf]))⟩
      (.cons ⟨rfl, opt _ fun q hm => hq _ (by simp only [numbersOf]; simp [Option.mem_toList.1 hm])⟩ .nil)))
  case adp i d v r h =>
    refine .cons ⟨rfl, rfl⟩ (.cons ⟨rfl, num _ (hq _ (by simp [numbersOf]))⟩ (.cons ⟨rfl, rfl⟩ (.cons ⟨rfl, ?_⟩
      (.cons ⟨rfl, opt _ fun q hm => hq _ (by simp only [numbersOf]; simp [Option.mem_toList.1 hm])⟩ .nil))))
    refine ⟨_, rfl, num _ ?_⟩
    cases r with
    | none => exact ⟨⟨0, 0, by simp⟩, .inl rfl⟩
    | some r => exact hq _ (by simp [numbersOf])
  all_goals exact hd.elim

example : IsDefinition (.adMacro t!"D10" t!"box" (some [5/10, 2])) ∧
    (∀ t ∈ namesOf (.adMacro t!"D10" t!"box" (some [5/10, 2])), '\n' ∉ t ∧ '`' ∉ t) ∧
    facts (onDefinition [.taUser t!"a" []] none t!"x" (.adMacro t!"D10" t!"box" (some [5/10, 2]))) =
      [(t!"macro name", t!"box"), (t!"parameter `$1`", t!"0.5"), (t!"parameter `$2`", t!"2.0")] := by
  refine ⟨trivial, by decide +kernel, by decide +kernel⟩

/-- The attributes of an aperture are not shown with its definition: the hover uses the state before it. -/
theorem c94_false_own : ∃ (before : List Hover.Located) (d : Hover.Located) (s after : Visitor.VState),
    d.cmd = .leaf (.ad t!"D10" (.circle 1 none)) ∧
    (Hover.hoverState (before ++ [d]) d.start).toOption = some s ∧
    (Visitor.visit s d.cmd).st = after ∧
    foundAttributes s t!"D10" = [] ∧ foundAttributes after t!"D10" = [(t!".AperFunction", t!",ViaPad")] := by
  refine ⟨[⟨0, 26, .leaf (.ta t!".AperFunction" t!",ViaPad")⟩], ⟨27, 40, .leaf (.ad t!"D10" (.circle 1 none))⟩, _, _, rfl, rfl, rfl, ?_, ?_⟩
  · decide +kernel
  · decide +kernel

end Verif.Props.HoverText
