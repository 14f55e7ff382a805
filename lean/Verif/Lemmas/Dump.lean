import Verif.Lemmas.BoardFile
import Verif.Lemmas.RewriteText
import Verif.Model.Dump
import Verif.Spec.Dump

/-!
# Lemmas about the text of a built board
-/

namespace Verif.Dump

open Verif.Text Verif.Fmt Verif.Peg Verif.Syntax Verif.Spec Verif.Formatter Verif.Grammar
open Verif.Visitor Verif.GerberBuilder Verif.GerberBuilder.Builder
open Verif.Math hiding P

/-! ## Negative constants are read back with a sign before the number -/

/-- The expression that is read back for a constant. -/
def signed : Expr → Expr
  | .const c => if c < 0 then .neg (.const (-c)) else .const c
  | e => e

theorem keeps_signed : Rewrite.Keeps signed := by
  intro ρ e
  cases e <;> try rfl
  rename_i c
  simp only [signed]
  split
  · simp only [eval, bind, Except.bind, pure, Except.pure, neg_neg]
  · rfl

theorem print_signed (e : Expr) : print (build {}).fd (build {}).explicit e = print (build {}).fd false (signed e) := by
  cases e <;> try rfl
  rename_i c
  simp only [signed]
  split
  · rename_i h
    have h' : ¬ (-c < 0) := by linarith
    change strFloat c = '-' :: strFloat (-c)
    simp only [strFloat, h, h', if_true, if_false, List.cons_append, List.nil_append, abs_neg]
  · rfl

theorem wf_signed {c : ℚ} (h : Written c) : WF 6 (signed (.const c)) := by
  simp only [signed]
  split
  · rename_i hc
    have : WF 0 (.const (-c)) := .const (by rw [← abs_of_neg hc]; exact h.1)
    exact WF.le (WF.neg (.up (by omega) this)) (by omega) (by omega)
  · rename_i hc
    have : WF 0 (.const c) := .const (by have := h.1; rwa [abs_of_nonneg (not_lt.1 hc)] at this)
    exact WF.le this (by omega) (by omega)

theorem constants_signed {c q : ℚ} (h : Written c) (hq : q ∈ constants (signed (.const c))) : PlainNumber q := by
  simp only [signed] at hq
  split at hq
  · simp only [constants, List.mem_singleton] at hq
    subst hq
    rcases h.2 with h | h
    · exact .inl (by rw [h]; simp)
    · exact .inr (by rwa [abs_neg])
  · simp only [constants, List.mem_singleton] at hq
    subst hq
    exact h.2

/-! ## Numbers -/

theorem written_nat {n : ℕ} (h : n < 10 ^ 16) : Written n := by
  refine ⟨⟨n, 0, by simp⟩, ?_⟩
  rcases Nat.eq_zero_or_pos n with rfl | hn
  · exact .inl (by simp)
  · refine .inr ?_
    have h1 : (1 : ℚ) ≤ n := by exact_mod_cast hn
    have h2 : (n : ℚ) < 10 ^ 16 := by exact_mod_cast h
    rw [abs_of_nonneg (by linarith)]
    refine ⟨?_, h2⟩
    norm_num
    linarith

theorem written_zero : Written 0 := by simpa using written_nat (n := 0) (by norm_num)
theorem written_one : Written 1 := by simpa using written_nat (n := 1) (by norm_num)

theorem int_ok {a : Coord.Axis} {v : ℚ} {t : List Char} (h : packed a v = .ok t) : IntOk t := by
  unfold packed at h
  split at h
  · rename_i t' ht
    injection h with h; subst h
    have key : ∀ d, 0 < d → Coord.packSkipLeading 4 d v = .ok t' → IntOk t' := by
      intro d hd ht
      rw [Coord.packSkipLeading_eq _ _ hd] at ht
      split_ifs at ht
      injection ht with ht; subst ht
      refine ⟨_, orZero_ne_nil _, all_orZero (all_lstrip0 (Coord.all_parts d (scaled d v) (scaled d v / 10 ^ d))), ?_⟩
      unfold Coord.packSign
      split
      · exact .inr ⟨'-', rfl, rfl⟩
      · exact .inl rfl
    cases a <;> exact key 6 (by omega) ht
  · simp at h

theorem id_ok {b : Builder} (h : Ids b) {p : Pad} (hp : p ∈ b.pads) : IdOk p.id := by
  obtain ⟨i, hi⟩ := List.mem_iff_getElem?.mp hp
  refine ⟨natStr (10 + i), h.pad i p hi, all_natStr _, ?_⟩
  by_contra hl
  have h1 := natVal_lt (all_lstrip0 (all_natStr (10 + i)))
  rw [natVal_lstrip0, natVal_natStr] at h1
  have : (10 : ℕ) ^ (lstrip0 (natStr (10 + i))).length ≤ 10 ^ 1 := Nat.pow_le_pow_right (by omega) (by omega)
  omega

theorem isNameChar_digit {c : Char} (h : isDigit c = true) : isNameChar c = true := by simp [isNameChar, h]

theorem name_ok {b : Builder} (h : Ids b) {m : Name × List Macro.Prim} (hm : m ∈ b.macros) : NameOk isNameStart m.1 := by
  obtain ⟨i, hi⟩ := List.mem_iff_getElem?.mp hm
  refine ⟨'M', natStr i, h.mac i m hi, rfl, ?_⟩
  rw [List.all_eq_true]
  intro c hc
  exact isNameChar_digit (List.all_eq_true.1 (all_natStr i) c hc)

/-! ## Attributes -/

theorem split_plain {f : Text} (h : ∀ c ∈ f, c ≠ ',') : split f = [f] := by
  induction f with
  | nil => rfl
  | cons c f ih =>
    have hc : c ≠ ',' := h c (by simp)
    simp only [split, if_neg hc, ih fun x hx => h x (by simp [hx])]

theorem split_comma {f : Text} (h : ∀ c ∈ f, c ≠ ',') (t : Text) : split (f ++ ',' :: t) = f :: split t := by
  induction f with
  | nil => simp [split]
  | cons c f ih =>
    have hc : c ≠ ',' := h c (by simp)
    simp only [List.cons_append, split, if_neg hc, ih fun x hx => h x (by simp [hx])]

theorem fields_of {fs : List Text} (h : ∀ f ∈ fs, ∀ c ∈ f, c ≠ ',') : fields (View.fieldsOf fs) = fs := by
  induction fs with
  | nil => rfl
  | cons f fs ih =>
    have hf : ∀ c ∈ f, c ≠ ',' := h f (by simp)
    have ih := ih fun g hg => h g (by simp [hg])
    change split (f ++ View.fieldsOf fs) = _
    cases fs with
    | nil => simp only [View.fieldsOf, List.append_nil, split_plain hf]
    | cons g gs =>
      have : View.fieldsOf (g :: gs) = ',' :: (g ++ View.fieldsOf gs) := rfl
      rw [this, split_comma hf]
      rw [this] at ih
      change split _ = _ at ih
      rw [ih]

theorem field_ok {f : Text} (h : PlainField f) : FieldOk f := by
  refine ⟨?_, ?_, fun hc => (h.1 _ hc).2.2.2 rfl⟩
  · intro c hc
    obtain ⟨a, b, e, _⟩ := h.1 c hc
    simp [isFieldChar, a, b, e]
  · intro c r e
    by_contra hb
    refine h.2 c r e ?_
    intro x hx
    simp only [List.mem_singleton] at hx
    subst hx
    simp only [isBlank] at hb
    by_contra hc
    simp only [not_or] at hc
    simp [hc.1, hc.2.1, hc.2.2.1, hc.2.2.2] at hb

theorem number_str {q : ℚ} (h : Written q) : number (strFloat q) = some q ∧ ∀ c ∈ strFloat q, c ≠ ',' := by
  obtain ⟨-, h2, h3⟩ := reads_str h.1 h.2
  refine ⟨?_, ?_⟩
  · have := h3 [] numEnd_nil
    rw [List.append_nil] at this
    simp [number, this]
  · intro c hc
    have := h2 c hc
    simp only [isFieldChar, Bool.and_eq_true, bne_iff_ne, ne_eq] at this
    exact this.1.2

/-- An attribute that is read back. -/
def AttrOk (n v : Name) : Prop :=
  (n = functionName ∧ ∃ f ∈ aperFunctions, v = View.fieldsOf [f]) ∨
  (n = toleranceName ∧ ∃ a b, Written a ∧ Written b ∧ v = View.fieldsOf [strFloat a, strFloat b]) ∨
  (UserName n ∧ ∃ fs, (∀ f ∈ fs, PlainField f) ∧ v = View.fieldsOf fs)

theorem functions_plain : ∀ f ∈ aperFunctions, ∀ c ∈ f, c ≠ ',' := by decide +kernel

/-! ## Commands -/

/-- Only constants that are written as ordinary decimals. -/
def ConstOk (e : Expr) : Prop := ∃ c, e = .const c ∧ Written c

/-- A node of a macro body that is read back. -/
def PrimOk (p : Macro.Prim) : Prop :=
  PrimShape (prim p) ∧ ∀ e ∈ primExprs (prim p), ConstOk e

/-- An aperture definition that is read back. -/
def DefOk : ApDef → Prop
  | .circle d h => Written d ∧ WrittenOpt h
  | .rect w h o => Written w ∧ Written h ∧ WrittenOpt o
  | .obround w h o => Written w ∧ Written h ∧ WrittenOpt o
  | .polygon d _ r h => Written d ∧ (∃ q, r = some q ∧ Written q) ∧ WrittenOpt h
  | .macro _ ps => ps = []

/-- A drawing command that is read back. -/
def OpOk : Leaf → Prop
  | .lr q => Written q
  | .ls q => Written q
  | .d01 x y i j => OptOk IntOk x ∧ OptOk IntOk y ∧ OptOk IntOk i ∧ OptOk IntOk j
  | .d02 x y => OptOk IntOk x ∧ OptOk IntOk y
  | .d03 x y => OptOk IntOk x ∧ OptOk IntOk y
  | _ => True

/-- The node can be printed and is read back. -/
def Good (rd : Text → Option Text) (n : Node) : Prop :=
  isBlock n = false ∧ standalone n = true ∧ NodeOk rd (build {}) (Rewrite.node signed n)

theorem good_of {rd : Text → Option Text} {n : Node} (h1 : isBlock n = false) (h2 : standalone n = true)
    (hr : Rewrite.node signed n = n) (hs : Shape rd n) (hq : ∀ q ∈ numbers n, Written q) (hreg : Regular n)
    (he : exprs n = []) : Good rd n := by
  refine ⟨h1, h2, ?_⟩
  rw [hr]
  refine node_ok (by simp) ⟨hs, fun q hq' => (hq q hq').1⟩ ⟨hreg, fun q hq' => ⟨(hq q hq').2, by simp⟩, ?_⟩
  rw [he]
  simp

theorem opt_mem {o : Option ℚ} (h : WrittenOpt o) {q : ℚ} (hq : q ∈ o.toList) : Written q :=
  h q (by cases o <;> simp_all)

theorem good_def {rd : Text → Option Text} {i : Name} {d : ApDef} (hi : IdOk i) (h : DefOk d)
    (hm : ∀ n ps, d = .macro n ps → NameOk isNameStart n) : Good rd (definition i d) := by
  cases d with
  | circle d h' =>
    refine good_of rfl rfl rfl hi ?_ trivial rfl
    intro q hq
    simp only [definition, numbers, List.mem_append, List.mem_singleton] at hq
    rcases hq with rfl | hq
    · exact h.1
    · exact opt_mem h.2 hq
  | rect w h' o =>
    refine good_of rfl rfl rfl hi ?_ trivial rfl
    intro q hq
    simp only [definition, numbers, List.mem_append, List.mem_cons, List.not_mem_nil, or_false] at hq
    rcases hq with (rfl | rfl) | hq
    · exact h.1
    · exact h.2.1
    · exact opt_mem h.2.2 hq
  | obround w h' o =>
    refine good_of rfl rfl rfl hi ?_ trivial rfl
    intro q hq
    simp only [definition, numbers, List.mem_append, List.mem_cons, List.not_mem_nil, or_false] at hq
    rcases hq with (rfl | rfl) | hq
    · exact h.1
    · exact h.2.1
    · exact opt_mem h.2.2 hq
  | polygon d n r h' =>
    obtain ⟨h1, ⟨r, rfl, h2⟩, h3⟩ := h
    refine good_of rfl rfl rfl ⟨hi, by simp⟩ ?_ trivial rfl
    intro q hq
    simp only [definition, numbers, List.mem_append, List.mem_singleton, Option.toList] at hq
    rcases hq with (rfl | rfl) | hq
    · exact h1
    · exact h2
    · exact opt_mem h3 (by simpa [Option.toList] using hq)
  | «macro» n ps =>
    obtain rfl : ps = [] := h
    refine good_of rfl rfl rfl ⟨hi, hm n [] rfl, by simp⟩ ?_ ?_ rfl
    · intro q hq
      simp [definition, numbers] at hq
    · simp [definition, Regular, Shadowed]

theorem attribute_function (f : Text) (hf : f ∈ aperFunctions) :
    attribute_ functionName (View.fieldsOf [f]) = .taFunction (some f) [] := by
  have hc : ∀ g ∈ [f], ∀ c ∈ g, c ≠ ',' := by
    intro g hg; simp only [List.mem_singleton] at hg; subst hg; exact functions_plain _ hf
  simp [attribute_, fields_of hc]

theorem attribute_tolerance {a b : ℚ} (ha : Written a) (hb : Written b) :
    attribute_ toleranceName (View.fieldsOf [strFloat a, strFloat b]) = .taDrill (some a) (some b) := by
  have hc : ∀ g ∈ [strFloat a, strFloat b], ∀ c ∈ g, c ≠ ',' := by
    intro g hg
    simp only [List.mem_cons, List.not_mem_nil, or_false] at hg
    rcases hg with rfl | rfl
    · exact (number_str ha).2
    · exact (number_str hb).2
  have hne : toleranceName ≠ functionName := by decide
  simp [attribute_, fields_of hc, hne, (number_str ha).1, (number_str hb).1]

theorem user_start {c : Char} (h : UserNameStart c) : isUserStart c = true := by
  simp only [isUserStart, Bool.or_eq_true, beq_iff_eq, Bool.and_eq_true, decide_eq_true_eq]
  unfold UserNameStart at h
  tauto

theorem name_char {c : Char} (h : NameChar c) : isNameChar c = true := by
  simp only [isNameChar, isDigit, Bool.or_eq_true, beq_iff_eq, Bool.and_eq_true, decide_eq_true_eq]
  unfold NameChar at h
  tauto

theorem attribute_user {n : Name} (hn : UserName n) {fs : List Text} (hf : ∀ f ∈ fs, PlainField f) :
    attribute_ n (View.fieldsOf fs) = .taUser n fs := by
  have hc : ∀ g ∈ fs, ∀ c ∈ g, c ≠ ',' := fun g hg c hc => ((hf g hg).1 c hc).2.2.1
  obtain ⟨c, t, rfl, h1, -⟩ := hn
  have hd : c ≠ '.' := by rintro rfl; have := user_start h1; revert this; decide
  have h1 : c :: t ≠ functionName := by intro h; unfold functionName at h; injection h with h; exact hd h
  have h2 : c :: t ≠ toleranceName := by intro h; unfold toleranceName at h; injection h with h; exact hd h
  simp only [attribute_, if_neg h1, if_neg h2, fields_of hc]

theorem good_attr {rd : Text → Option Text} {n v : Name} (h : AttrOk n v) : Good rd (attribute_ n v) := by
  rcases h with ⟨rfl, f, hf, rfl⟩ | ⟨rfl, a, b, ha, hb, rfl⟩ | ⟨hn, fs, hf, rfl⟩
  · rw [attribute_function f hf]
    refine good_of rfl rfl rfl ⟨?_, ?_, ?_⟩ ?_ trivial rfl
    · intro g hg; injection hg with hg; subst hg; exact hf
    · intro g hg; simp at hg
    · intro h; simp at h
    · intro q hq; simp [numbers] at hq
  · rw [attribute_tolerance ha hb]
    refine good_of rfl rfl rfl ?_ ?_ trivial rfl
    · intro h; simp at h
    · intro q hq
      simp only [numbers, Option.toList, List.mem_append, List.mem_singleton] at hq
      rcases hq with rfl | rfl
      · exact ha
      · exact hb
  · rw [attribute_user hn hf]
    refine good_of rfl rfl rfl ⟨?_, fun f h => field_ok (hf f h)⟩ ?_ trivial rfl
    · obtain ⟨c, t, rfl, h1, h2⟩ := hn
      exact ⟨c, t, rfl, user_start h1, List.all_eq_true.2 fun x hx => name_char (h2 x hx)⟩
    · intro q hq; simp [numbers] at hq

theorem good_am {rd : Text → Option Text} {n : Name} {ps : List Macro.Prim} (hn : NameOk isNameStart n)
    (hp : ∀ p ∈ ps, PrimOk p) : Good rd (node (.am n ps)) := by
  have hx : ∀ p ∈ ps.map prim, ∀ e ∈ primExprs p, ConstOk e := by
    intro p hp' e he
    obtain ⟨p₀, hp₀, rfl⟩ := List.mem_map.1 hp'
    exact (hp p₀ hp₀).2 e he
  refine ⟨rfl, rfl, ?_⟩
  have e : Rewrite.node signed (node (.am n ps)) = .am n ((ps.map prim).map (Rewrite.sprim signed)) := by
    simp only [node, Rewrite.node]
  rw [e]
  refine node_ok (by simp) ⟨⟨hn, ?_, ?_⟩, by simp [numbers]⟩ ⟨trivial, by simp [numbers], ?_⟩
  · intro p hp'
    obtain ⟨q, hq, rfl⟩ := List.mem_map.1 hp'
    obtain ⟨q₀, hq₀, rfl⟩ := List.mem_map.1 hq
    exact Rewrite.primShape_sprim (hp q₀ hq₀).1
  · intro p hp' e he
    obtain ⟨q, hq, rfl⟩ := List.mem_map.1 hp'
    obtain ⟨e', he', rfl⟩ := Rewrite.mem_sprim he
    obtain ⟨c, rfl, hc⟩ := hx q hq e' he'
    exact wf_signed hc
  · intro e he q hq
    simp only [exprs, List.mem_flatten, List.mem_map] at he
    obtain ⟨_, ⟨p, ⟨p', hp', rfl⟩, rfl⟩, he⟩ := he
    obtain ⟨e', he', rfl⟩ := Rewrite.mem_sprim he
    obtain ⟨c, rfl, hc⟩ := hx p' (List.mem_map.2 hp') e' he'
    exact ⟨constants_signed hc hq, by simp⟩

theorem good_op {rd : Text → Option Text} {b : Builder} (hi : Ids b) {l : Leaf} (h : Allowed b l) (ho : OpOk l) :
    Good rd (node l) := by
  obtain ⟨h1, h2⟩ := h
  cases l <;> simp only [drawing, Bool.false_eq_true] at h1
  case dnn i =>
    obtain ⟨q, hq, e⟩ := h2 i rfl
    exact good_of rfl rfl rfl (by rw [← e]; exact id_ok hi hq) (by simp [node, numbers]) trivial rfl
  case lr q => exact good_of rfl rfl rfl trivial (by intro q' hq'; simp only [node, numbers, List.mem_singleton] at hq'; rw [hq']; exact ho) trivial rfl
  case ls q => exact good_of rfl rfl rfl trivial (by intro q' hq'; simp only [node, numbers, List.mem_singleton] at hq'; rw [hq']; exact ho) trivial rfl
  case d01 => exact good_of rfl rfl rfl ho (by simp [node, numbers]) trivial rfl
  case d02 => exact good_of rfl rfl rfl ho (by simp [node, numbers]) trivial rfl
  case d03 => exact good_of rfl rfl rfl ho (by simp [node, numbers]) trivial rfl
  all_goals exact good_of rfl rfl rfl trivial (by simp [node, numbers]) trivial rfl

/-! ## The builder -/

variable {T : Macro.Prim → Prop}

/-- Everything in the builder can be written and read back; the nodes of macro bodies satisfy `T`. -/
structure Holds (T : Macro.Prim → Prop) (b : Builder) : Prop where
  pads : ∀ p ∈ b.pads, DefOk p.node ∧ ∀ a ∈ p.attributes, AttrOk a.1 a.2
  customs : ∀ c ∈ b.customs, ∀ p ∈ c.primitives, PrimOk p ∧ T p
  macros : ∀ m ∈ b.macros, ∀ p ∈ m.2, PrimOk p ∧ T p
  draws : ∀ d ∈ b.draws, ∀ l ∈ d.nodes, OpOk l

theorem Holds.init : Holds T {} :=
  ⟨fun _ h => by simp at h, fun _ h => by simp at h, fun _ h => by simp at h, fun _ h => by simp at h⟩

theorem Holds.keep {b b' : Builder} (h : Holds T b) (h1 : b'.pads = b.pads) (h2 : b'.customs = b.customs)
    (h3 : b'.macros = b.macros) (h4 : b'.draws = b.draws) : Holds T b' :=
  ⟨by rw [h1]; exact h.pads, by rw [h2]; exact h.customs, by rw [h3]; exact h.macros, by rw [h4]; exact h.draws⟩

theorem Holds.newPad {b : Builder} (h : Holds T b) {d : ApDef} (hd : DefOk d) : Holds T (b.newPad d).1 := by
  refine ⟨?_, h.customs, h.macros, h.draws⟩
  intro p hp
  rcases List.mem_append.mp hp with hp | hp
  · exact h.pads p hp
  · rw [List.mem_singleton] at hp
    subst hp
    exact ⟨hd, fun a ha => by simp [Pad.attributes] at ha⟩

theorem Holds.givePad {b : Builder} (h : Holds T b) {d : ApDef} (hd : DefOk d) : Holds T (b.givePad d) :=
  (h.newPad hd).keep rfl rfl rfl rfl

theorem Holds.traceAperture {b : Builder} (h : Holds T b) {w : ℚ} (hw : Written w) : Holds T (b.getTraceAperture w).1 := by
  unfold getTraceAperture
  cases ht : b.tracePads.get? w with
  | some pad => exact h
  | none => exact (h.newPad (d := .circle w none) ⟨hw, fun q hq => by simp at hq⟩).keep rfl rfl rfl rfl

theorem Holds.updatePad {b : Builder} (h : Holds T b) (pad : Nat) {f : Pad → Pad}
    (hf : ∀ p : Pad, (DefOk p.node ∧ ∀ a ∈ p.attributes, AttrOk a.1 a.2) → (DefOk (f p).node ∧ ∀ a ∈ (f p).attributes, AttrOk a.1 a.2)) :
    Holds T (b.updatePad pad f).1 := by
  unfold Builder.updatePad
  split
  · exact h
  rename_i k hk
  refine ⟨?_, h.customs, h.macros, h.draws⟩
  intro q hq
  obtain ⟨i, hi⟩ := List.mem_iff_getElem?.mp hq
  dsimp only at hi
  rw [List.getElem?_modify] at hi
  cases hp : b.pads[i]? with
  | none => rw [hp] at hi; simp at hi
  | some p =>
    rw [hp] at hi
    have := h.pads p (List.mem_of_getElem? hp)
    by_cases hik : k = i
    · simp [hik] at hi; rw [← hi]; exact hf p this
    · simp [hik] at hi; rw [← hi]; exact this

theorem updates_ok {b : Builder} (y : Style) (hr : Written y.rotation) (hk : Written y.scale) {l : Leaf}
    (hl : l ∈ (updates b y).2) : OpOk l := by
  unfold updates createStateUpdates at hl
  dsimp only at hl
  simp only [List.mem_append] at hl
  rcases hl with ((((hl | hl) | hl) | hl) | hl) | hl
  · unfold selectUpdate at hl
    dsimp only at hl
    split_ifs at hl
    · rw [List.mem_singleton] at hl; subst hl; trivial
    · simp at hl
  · unfold polarityUpdate at hl
    dsimp only at hl
    split_ifs at hl
    · rw [List.mem_singleton] at hl; subst hl; trivial
    · simp at hl
  · unfold rotationUpdate at hl
    dsimp only at hl
    split_ifs at hl
    · rw [List.mem_singleton] at hl; subst hl; exact hr
    · simp at hl
  · unfold mirroringUpdate at hl
    dsimp only at hl
    split_ifs at hl
    · rw [List.mem_singleton] at hl; subst hl; trivial
    · simp at hl
  · unfold scaleUpdate at hl
    dsimp only at hl
    split_ifs at hl
    · rw [List.mem_singleton] at hl; subst hl; exact hk
    · simp at hl
  · unfold modeUpdate at hl
    cases hm : y.mode with
    | none => rw [hm] at hl; simp at hl
    | some m =>
      rw [hm] at hl
      dsimp only at hl
      split_ifs at hl
      · rw [List.mem_singleton] at hl
        subst hl
        cases m <;> trivial
      · simp at hl

theorem opt_int {a : Coord.Axis} {v : ℚ} {t : List Char} (h : packed a v = .ok t) : OptOk IntOk (some t) := by
  intro u hu; injection hu with hu; subst hu; exact int_ok h

theorem opt_none : OptOk IntOk none := by intro u hu; simp at hu

theorem flashOp_ok {l : Loc} {op : Leaf} (h : flashOp l = .ok op) : OpOk op := by
  unfold flashOp at h
  split at h
  · simp at h
  · rename_i hx
    split at h
    · simp at h
    · rename_i hy
      injection h with h; subst h; exact ⟨opt_int hx, opt_int hy⟩

theorem moveOp_ok {l : Loc} {op : Leaf} (h : moveOp l = .ok op) : OpOk op := by
  unfold moveOp at h
  split at h
  · simp at h
  · rename_i hx
    split at h
    · simp at h
    · rename_i hy
      injection h with h; subst h; exact ⟨opt_int hx, opt_int hy⟩

theorem drawOp_ok {l : Loc} {o : Option Loc} {op : Leaf} (h : drawOp l o = .ok op) : OpOk op := by
  unfold drawOp at h
  split at h
  · simp at h
  · rename_i hx
    split at h
    · simp at h
    · rename_i hy
      cases o with
      | none => injection h with h; subst h; exact ⟨opt_int hx, opt_int hy, opt_none, opt_none⟩
      | some o =>
        dsimp only at h
        split at h
        · simp at h
        · rename_i hi
          split at h
          · simp at h
          · rename_i hj
            injection h with h; subst h; exact ⟨opt_int hx, opt_int hy, opt_int hi, opt_int hj⟩

theorem modeCommand_ok (m : Plot) : OpOk (modeCommand m) := by cases m <;> trivial

theorem outlineOps_ok {segs : List Segment} : ∀ {m ops}, outlineOps m segs = .ok ops → ∀ l ∈ ops, OpOk l := by
  induction segs with
  | nil => intro m ops h l hl; injection h with h; subst h; simp at hl
  | cons g gs ih =>
    intro m ops h l hl
    simp only [outlineOps] at h
    split at h
    · simp at h
    rename_i d hd
    split at h
    · simp at h
    rename_i ds hds
    injection h with h
    subst h
    rw [List.mem_append, List.mem_cons] at hl
    rcases hl with hl | rfl | hl
    · split_ifs at hl
      · rw [List.mem_singleton] at hl; subst hl; exact modeCommand_ok _
      · simp at hl
    · exact drawOp_ok hd
    · exact ih hds l hl

theorem Holds.addDraw {b b' : Builder} (h : Holds T b) {d : Draw} (h1 : b'.pads = b.pads) (h2 : b'.customs = b.customs)
    (h3 : b'.macros = b.macros) (h4 : b'.draws = b.draws) (hd : ∀ l ∈ d.nodes, OpOk l) : Holds T (b'.addDraw d) := by
  have h' := h.keep h1 h2 h3 h4
  refine ⟨h'.pads, h'.customs, h'.macros, ?_⟩
  intro d' hd' l hl
  rcases List.mem_append.mp hd' with hd' | hd'
  · exact h'.draws d' hd' l hl
  · rw [List.mem_singleton] at hd'
    subst hd'
    exact hd l hl

theorem Holds.addFlash {b : Builder} (h : Holds T b) (p : Polarity) (pad : Nat) (r : Ref) {rot : ℚ} (hr : Written rot)
    (mx my : Bool) {k : ℚ} (hk : Written k) : Holds T (b.addFlash p pad r rot mx my k).1 := by
  unfold Builder.addFlash
  cases hq : b.given[pad]?.bind (b.pads[·]?) with
  | none => exact h
  | some q =>
    dsimp only
    rw [show b.createStateUpdates (some q.id) (some p) (some rot) (some mx) (some my) (some k) none =
      updates b ⟨q.id, p, rot, mx, my, k, none⟩ from rfl, updates_fst]
    cases hl : (GerberBuilder.styled b ⟨q.id, p, rot, mx, my, k, none⟩).padLocation r with
    | error e => exact h.keep rfl rfl rfl rfl
    | ok l =>
      dsimp only
      cases hop : flashOp l with
      | error e => exact h.keep rfl rfl rfl rfl
      | ok op =>
        refine h.addDraw rfl rfl rfl rfl ?_
        intro l' hl'
        rcases List.mem_append.mp hl' with hl' | hl'
        · exact updates_ok ⟨q.id, p, rot, mx, my, k, none⟩ hr hk hl'
        · rw [List.mem_singleton] at hl'
          subst hl'
          exact flashOp_ok hop

theorem Holds.addTrace {b : Builder} (h : Holds T b) (m : Plot) {width : ℚ} (hw : Written width) (s t : Ref) (c : Option Loc) :
    Holds T (b.addTrace m width s t c).1 := by
  unfold Builder.addTrace
  have ha := h.traceAperture hw
  generalize hga : b.getTraceAperture width = a at *
  dsimp only
  cases hs : a.1.beginLocation s with
  | error e => exact ha
  | ok s' =>
    dsimp only
    cases ht : a.1.endLocation t with
    | error e => exact ha
    | ok t' =>
      dsimp only
      rw [show a.1.createStateUpdates (some a.2.id) (some .dark) (some 0) (some false) (some false) (some 1) (some m) =
        updates a.1 (plain a.2.id (some m)) from rfl, updates_fst]
      cases hop : traceOps (GerberBuilder.styled a.1 (plain a.2.id (some m))).currentLocation s' t'
          (c.map fun c => (c.1 - s'.1, c.2 - s'.2)) with
      | error e => exact ha.keep rfl rfl rfl rfl
      | ok ops =>
        refine ha.addDraw rfl rfl rfl rfl ?_
        intro l' hl'
        rcases List.mem_append.mp hl' with hl' | hl'
        · exact updates_ok (plain a.2.id _) written_zero written_one hl'
        · unfold traceOps at hop
          split at hop
          · simp at hop
          rename_i ms hms
          split at hop
          · simp at hop
          rename_i dop hdop
          injection hop with hop
          subst hop
          rcases List.mem_append.mp hl' with hl' | hl'
          · split_ifs at hms
            · cases hmo : moveOp s' with
              | error e => rw [hmo] at hms; simp [Except.map] at hms
              | ok mv =>
                rw [hmo] at hms
                have : ms = [mv] := by simpa [Except.map] using hms.symm
                subst this
                rw [List.mem_singleton] at hl'
                subst hl'
                exact moveOp_ok hmo
            · injection hms with hms; subst hms; simp at hl'
          · rw [List.mem_singleton] at hl'
            subst hl'
            exact drawOp_ok hdop

theorem Holds.createRegion {b : Builder} (h : Holds T b) (k : Nat) : Holds T (b.createRegion k).1 := by
  unfold Builder.createRegion
  cases hr : b.regions[k]? with
  | none => exact h
  | some r =>
    dsimp only
    by_cases hl : r.outline.length < 3
    · rw [if_pos hl]; exact h
    rw [if_neg hl]
    have ha := h.traceAperture written_one
    generalize hga : b.getTraceAperture 1 = a at *
    rw [show a.1.createStateUpdates (some a.2.id) (some .dark) (some 0) (some false) (some false) (some 1) none =
      updates a.1 (plain a.2.id none) from rfl, updates_fst]
    cases hm : moveOp r.begin with
    | error e => exact ha.keep rfl rfl rfl rfl
    | ok mv =>
      dsimp only
      cases hop : regionOps r with
      | error e => exact ha.keep rfl rfl rfl rfl
      | ok ops =>
        refine ha.addDraw rfl rfl rfl rfl ?_
        intro l' hl'
        have hl' : l' ∈ (updates a.1 (plain a.2.id none)).2 ++ ops := hl'
        rcases List.mem_append.mp hl' with hl' | hl'
        · exact updates_ok (plain a.2.id _) written_zero written_one hl'
        · unfold regionOps at hop
          rw [hm] at hop
          dsimp only at hop
          split at hop
          · simp at hop
          rename_i body hbody
          injection hop with hop
          subst hop
          simp only [List.cons_append, List.mem_cons, List.mem_append, List.not_mem_nil, or_false] at hl'
          rcases hl' with rfl | rfl | hl' | rfl | rfl
          · trivial
          · exact moveOp_ok hm
          · exact outlineOps_ok hbody l' hl'
          · trivial
          · exact moveOp_ok hm

theorem const_ok {c : ℚ} (h : Written c) : ConstOk (.const c) := ⟨c, rfl, h⟩

theorem exposure_ok (cut : Bool) : ConstOk (exposure cut) := by
  cases cut
  · exact const_ok (by simpa using written_one)
  · exact const_ok (by simpa using written_zero)

theorem shape_ok {s : CustomShape} (h : WritableShape s) {p : Macro.Prim} (hp : s.prim = .ok p) : PrimOk p := by
  cases s with
  | circle cut d c r =>
    injection hp with hp; subst hp
    refine ⟨trivial, ?_⟩
    simp only [prim, primExprs, Option.toList, List.cons_append, List.nil_append, List.mem_cons, List.not_mem_nil, or_false]
    rintro e (rfl | rfl | rfl | rfl | rfl)
    exacts [exposure_ok _, const_ok h.1, const_ok h.2.1.1, const_ok h.2.1.2, const_ok h.2.2]
  | vectorLine cut w s t r =>
    injection hp with hp; subst hp
    refine ⟨trivial, ?_⟩
    simp only [prim, primExprs, List.mem_cons, List.not_mem_nil, or_false]
    rintro e (rfl | rfl | rfl | rfl | rfl | rfl | rfl)
    exacts [exposure_ok _, const_ok h.1, const_ok h.2.1.1, const_ok h.2.1.2, const_ok h.2.2.1.1, const_ok h.2.2.1.2,
      const_ok h.2.2.2]
  | centerLine cut w t c r =>
    injection hp with hp; subst hp
    refine ⟨trivial, ?_⟩
    simp only [prim, primExprs, List.mem_cons, List.not_mem_nil, or_false]
    rintro e (rfl | rfl | rfl | rfl | rfl | rfl)
    exacts [exposure_ok _, const_ok h.1, const_ok h.2.1, const_ok h.2.2.1.1, const_ok h.2.2.1.2, const_ok h.2.2.2]
  | outline cut ps r =>
    obtain ⟨hn, hps, hr⟩ : ps.length < 10 ^ 16 ∧ (∀ p ∈ ps, WrittenAt p) ∧ Written r := h
    have hn : ConstOk (.const (ps.length : ℚ)) := const_ok (written_nat hn)
    simp only [CustomShape.prim] at hp
    split_ifs at hp with hl
    split at hp
    · simp at hp
    rename_i l hlast
    injection hp with hp; subst hp
    have hmem := List.mem_of_getLast? hlast
    refine ⟨?_, ?_⟩
    · simp only [prim, PrimShape]
      intro h0
      rw [List.map_eq_nil_iff] at h0
      rw [h0] at hl
      simp at hl
    · intro e he
      simp only [prim, primExprs, List.mem_append, List.mem_cons, List.not_mem_nil, or_false, List.mem_flatten, List.mem_map] at he
      rcases he with ((rfl | rfl | rfl | rfl) | ⟨_, ⟨q, ⟨p, hp, rfl⟩, rfl⟩, he⟩) | rfl
      · exact exposure_ok _
      · exact hn
      · exact const_ok (hps l hmem).1
      · exact const_ok (hps l hmem).2
      · simp only [List.mem_cons, List.not_mem_nil, or_false] at he
        rcases he with rfl | rfl
        · exact const_ok (hps p hp).1
        · exact const_ok (hps p hp).2
      · exact const_ok hr
  | polygon cut n c d r =>
    injection hp with hp; subst hp
    refine ⟨trivial, ?_⟩
    simp only [prim, primExprs, List.mem_cons, List.not_mem_nil, or_false]
    rintro e (rfl | rfl | rfl | rfl | rfl | rfl)
    exacts [exposure_ok _, const_ok (written_nat h.1), const_ok h.2.1.1, const_ok h.2.1.2, const_ok h.2.2.1, const_ok h.2.2.2]
  | thermal node c o i g r =>
    injection hp with hp; subst hp
    refine ⟨trivial, ?_⟩
    simp only [prim, primExprs, List.mem_cons, List.not_mem_nil, or_false]
    rintro e (rfl | rfl | rfl | rfl | rfl | rfl)
    exacts [const_ok h.1.1, const_ok h.1.2, const_ok h.2.1, const_ok h.2.2.1, const_ok h.2.2.2.1, const_ok h.2.2.2.2]

theorem Holds.addPrimitive {b : Builder} (h : Holds T b) (k : Nat) {p : Macro.Prim} (hp : PrimOk p ∧ T p) :
    Holds T (b.addPrimitive k p).1 := by
  unfold Builder.addPrimitive
  split
  · exact h
  · rename_i c hc
    split_ifs
    · exact h
    · refine ⟨h.pads, ?_, h.macros, h.draws⟩
      intro c' hc' q hq
      rcases List.mem_or_eq_of_mem_set hc' with hc' | rfl
      · exact h.customs c' hc' q hq
      · rcases List.mem_append.mp hq with hq | hq
        · exact h.customs c (List.mem_of_getElem? hc) q hq
        · rw [List.mem_singleton] at hq; subst hq; exact hp

theorem Holds.createCustom {b : Builder} (h : Holds T b) (k : Nat) : Holds T (b.createCustom k).1 := by
  unfold Builder.createCustom
  split
  · exact h
  · rename_i c hc
    dsimp only
    split_ifs
    · exact h
    · have hm := h.customs c (List.mem_of_getElem? hc)
      have h1 : Holds T { b with macroIds := b.macroIds + 1, macros := b.macros ++ [('M' :: Text.natStr b.macroIds, c.primitives)] } := by
        refine ⟨h.pads, h.customs, ?_, h.draws⟩
        intro m hm' q hq
        rcases List.mem_append.mp hm' with hm' | hm'
        · exact h.macros m hm' q hq
        · rw [List.mem_singleton] at hm'; subst hm'; exact hm q hq
      have h2 := h1.givePad (d := .macro ('M' :: Text.natStr b.macroIds) []) rfl
      refine ⟨h2.pads, ?_, h2.macros, h2.draws⟩
      intro c' hc' q hq
      rcases List.mem_or_eq_of_mem_set hc' with hc' | rfl
      · exact h.customs c' hc' q hq
      · exact hm q hq

theorem exec_holds {b : Builder} (h : Holds T b) {c : Call} (hc : Writable c)
    (hT : ∀ k s p, c = .customShape k s → s.prim = .ok p → T p) : Holds T (exec b c).1 := by
  cases c with
  | circle d hole => exact h.givePad hc
  | rectangle a c hole => exact h.givePad hc
  | roundedRectangle a c hole => exact h.givePad hc
  | regularPolygon d n r hole => exact h.givePad ⟨hc.1, ⟨r, rfl, hc.2.1⟩, hc.2.2⟩
  | custom =>
    refine ⟨h.pads, ?_, h.macros, h.draws⟩
    intro c hc q hq
    rcases List.mem_append.mp hc with hc | hc
    · exact h.customs c hc q hq
    · rw [List.mem_singleton] at hc; subst hc; simp at hq
  | customShape k s =>
    simp only [exec]
    cases hp : s.prim with
    | error e => exact h
    | ok p => exact h.addPrimitive k ⟨shape_ok hc hp, hT k s p rfl hp⟩
  | customCreate k => exact h.createCustom k
  | setFunction p v =>
    refine h.updatePad p ?_
    rintro q ⟨h1, h2⟩
    refine ⟨h1, ?_⟩
    intro a ha
    simp only [Pad.attributes, List.mem_append, Option.toList, List.map_cons, List.map_nil, List.mem_singleton] at ha
    rcases ha with (rfl | ha) | ha
    · exact .inl ⟨rfl, hc⟩
    · exact h2 a (by simp only [Pad.attributes, List.mem_append]; exact .inl (.inr ha))
    · exact h2 a (by simp only [Pad.attributes, List.mem_append]; exact .inr ha)
  | setTolerance p v =>
    refine h.updatePad p ?_
    rintro q ⟨h1, h2⟩
    refine ⟨h1, ?_⟩
    intro a ha
    simp only [Pad.attributes, List.mem_append, Option.toList, List.map_cons, List.map_nil, List.mem_singleton] at ha
    rcases ha with (ha | rfl) | ha
    · exact h2 a (by simp only [Pad.attributes, List.mem_append]; exact .inl (.inl ha))
    · exact .inr (.inl ⟨rfl, hc⟩)
    · exact h2 a (by simp only [Pad.attributes, List.mem_append]; exact .inr ha)
  | setCustom p n v =>
    refine h.updatePad p ?_
    rintro q ⟨h1, h2⟩
    refine ⟨h1, ?_⟩
    intro a ha
    simp only [Pad.attributes, List.mem_append, List.mem_singleton] at ha
    rcases ha with (ha | ha) | ha | rfl
    · exact h2 a (by simp only [Pad.attributes, List.mem_append]; exact .inl (.inl ha))
    · exact h2 a (by simp only [Pad.attributes, List.mem_append]; exact .inl (.inr ha))
    · exact h2 a (by simp only [Pad.attributes, List.mem_append]; exact .inr ha)
    · exact .inr (.inr hc)
  | addPad p a r mx my k => exact h.addFlash _ _ _ hc.1 _ _ hc.2
  | addCutoutPad p a r mx my k => exact h.addFlash _ _ _ hc.1 _ _ hc.2
  | lineTrace d s e => exact h.addTrace _ hc ..
  | cwTrace d s e c => exact h.addTrace _ hc ..
  | ccwTrace d s e c => exact h.addTrace _ hc ..
  | newRegion l => exact h.keep rfl rfl rfl rfl
  | regionLine k t =>
    simp only [exec, addSegment]
    split
    · exact h
    · exact h.keep rfl rfl rfl rfl
  | regionCw k t c =>
    simp only [exec, addSegment]
    split
    · exact h
    · exact h.keep rfl rfl rfl rfl
  | regionCcw k t c =>
    simp only [exec, addSegment]
    split
    · exact h
    · exact h.keep rfl rfl rfl rfl
  | regionCreate k => exact h.createRegion k

theorem execAll_holds (cs : List Call) (hw : ∀ c ∈ cs, Writable c)
    (hT : ∀ k s p, .customShape k s ∈ cs → s.prim = .ok p → T p) : ∀ {b}, Holds T b → Holds T (execAll b cs).1 := by
  induction cs with
  | nil => intro b h; exact h
  | cons c cs ih =>
    intro b h
    exact ih (fun c' hc' => hw c' (by simp [hc'])) (fun k s p hk => hT k s p (by simp [hk]))
      (exec_holds h (hw c (by simp)) fun k s p hk => hT k s p (by simp [hk]))

/-- Every command of the file is read back. -/
theorem good_code {rd : Text → Option Text} {b : Builder} (hi : Ids b) (h : Holds T b) : ∀ l ∈ b.getCode, Good rd (node l) := by
  have simple : ∀ n : Node, isBlock n = false → standalone n = true → Rewrite.node signed n = n → Shape rd n → numbers n = [] →
      Regular n → exprs n = [] → Good rd n := fun n a b c d e f g => good_of a b c d (by rw [e]; simp) f g
  intro l hl
  simp only [Builder.getCode, Builder.padNodes, List.mem_append, List.mem_cons, List.not_mem_nil, or_false, List.mem_map,
    List.mem_flatMap] at hl
  rcases hl with ((((rfl | rfl) | ⟨m, hm, rfl⟩ | ⟨p, hp, hl⟩) | rfl) | ⟨d, hd, hl⟩) | rfl
  · exact simple _ rfl rfl rfl (by simp [node, Shape, GerberBuilder.format]) rfl trivial rfl
  · exact simple _ rfl rfl rfl trivial rfl trivial rfl
  · exact good_am (name_ok hi hm) fun p hp => (h.macros m hm p hp).1
  · obtain ⟨h1, h2⟩ := h.pads p hp
    rw [Pad.nodes_eq, List.mem_append, List.mem_cons] at hl
    rcases hl with hl | rfl | hl
    · obtain ⟨a, ha, rfl⟩ := List.mem_map.1 hl
      exact good_attr (h2 a ha)
    · refine good_def (id_ok hi hp) h1 ?_
      intro n ps hn
      obtain ⟨m, hm, rfl⟩ := hi.uses p hp n ps hn
      exact name_ok hi hm
    · split_ifs at hl
      · simp at hl
      · rw [List.mem_singleton] at hl
        subst hl
        exact simple _ rfl rfl rfl (by intro t ht; simp at ht) rfl trivial rfl
  · exact simple _ rfl rfl rfl trivial rfl trivial rfl
  · exact good_op hi (hi.draws d hd l hl) (h.draws d hd l hl)
  · exact simple _ rfl rfl rfl trivial rfl trivial rfl

theorem wfs_good {rd : Text → Option Text} {ns : List Node} (h : ∀ n ∈ ns, Good rd n) :
    WFs (NodeOk rd (build {})) true (Rewrite.nodes signed ns) := by
  induction ns with
  | nil => simp only [Rewrite.nodes]; exact .nil
  | cons n ns ih =>
    obtain ⟨a, b, c⟩ := h n (by simp)
    simp only [Rewrite.nodes]
    exact .leaf c (by rw [Rewrite.isBlock_node, a]) (by rw [Rewrite.standalone_node, b]) (ih fun m hm => h m (by simp [hm]))

/-- What is read back. -/
theorem parse_dumps (rd : Text → Option Text) {b : Builder} (hi : Ids b) (h : Holds T b) :
    parseCode rd (dumps b) = .file (Rewrite.nodes signed (file b)) := by
  have hw : WFs (NodeOk rd (build {})) true (Rewrite.nodes signed (file b)) := by
    refine wfs_good ?_
    intro n hn
    obtain ⟨l, hl, rfl⟩ := List.mem_map.1 hn
    exact good_code hi h l hl
  have hl : BlankLayout {} := ⟨by simp [BlankIndent], by simp [BlankIndent], by simp [BlankIndent],
    by simp [BlankIndent], by simp [BlankIndent], by simp [BlankIndent], by simp [BlankIndent],
    by simp, rfl, by simp⟩
  have e := norm_keep (o := build {}) rfl rfl rfl hw
  have hf : formats (build {}) (Rewrite.nodes signed (file b)) = dumps b :=
    Rewrite.formats_print (o := build {}) (x := false) print_signed (file b)
  rw [← hf, parse_tabbed (layout_build hl) (tabs_build hl false) hw, e]
  rw [e]
  refine Rewrite.nodes_ne_nil ?_
  simp [file, Builder.getCode]

/-! ## The commands of the file -/

/-- Not a thermal. -/
def notThermal : Macro.Prim → Prop
  | .code7 .. => False
  | _ => True

theorem prims_view {ps : List Macro.Prim} (h : ∀ p ∈ ps, notThermal p) (n : Nat) : View.prims n (ps.map prim) = (ps, n) := by
  induction ps with
  | nil => rfl
  | cons p ps ih =>
    have hp : View.prim n (prim p) = (p, n) := by
      have := h p (by simp)
      cases p <;> first | rfl | exact this.elim
    simp only [List.map_cons, View.prims, hp, ih fun q hq => h q (by simp [hq])]

theorem view_node {n : Node} {l : Leaf} (h1 : isBlock n = false) (h2 : ∀ m ps, n ≠ .am m ps) (h3 : View.leaf n = l) (k : Nat) :
    View.cmd k n = (.leaf l, k) := by
  subst h3
  cases n <;> simp [isBlock] at h1 <;> first | exact absurd rfl (h2 _ _) | rfl

theorem view_attr {n v : Name} (h : AttrOk n v) (k : Nat) : View.cmd k (attribute_ n v) = (.leaf (.ta n v), k) := by
  rcases h with ⟨rfl, f, hf, rfl⟩ | ⟨rfl, a, b, ha, hb, rfl⟩ | ⟨hn, fs, hf, rfl⟩
  · rw [attribute_function f hf]; rfl
  · rw [attribute_tolerance ha hb]; rfl
  · rw [attribute_user hn hf]; rfl

theorem view_def {i : Name} {d : ApDef} (h : DefOk d) (k : Nat) : View.cmd k (definition i d) = (.leaf (.ad i d), k) := by
  cases d with
  | «macro» n ps => obtain rfl : ps = [] := h; rfl
  | _ => rfl

theorem view_op {b : Builder} {l : Leaf} (h : Allowed b l) (k : Nat) : View.cmd k (node l) = (.leaf l, k) := by
  obtain ⟨h1, -⟩ := h
  cases l <;> simp only [drawing, Bool.false_eq_true] at h1 <;> rfl

theorem view_code {b : Builder} (hi : Ids b) (h : Holds notThermal b) : ∀ l ∈ b.getCode, ∀ k, View.cmd k (node l) = (.leaf l, k) := by
  intro l hl k
  simp only [Builder.getCode, Builder.padNodes, List.mem_append, List.mem_cons, List.not_mem_nil, or_false, List.mem_map,
    List.mem_flatMap] at hl
  rcases hl with ((((rfl | rfl) | ⟨m, hm, rfl⟩ | ⟨p, hp, hl⟩) | rfl) | ⟨d, hd, hl⟩) | rfl
  · rfl
  · rfl
  · simp only [node, View.cmd, prims_view fun p hp => (h.macros m hm p hp).2]
  · obtain ⟨h1, h2⟩ := h.pads p hp
    rw [Pad.nodes_eq, List.mem_append, List.mem_cons] at hl
    rcases hl with hl | rfl | hl
    · obtain ⟨a, ha, rfl⟩ := List.mem_map.1 hl
      exact view_attr (h2 a ha) k
    · exact view_def h1 k
    · split_ifs at hl
      · simp at hl
      · rw [List.mem_singleton] at hl
        subst hl
        rfl
  · rfl
  · exact view_op (hi.draws d hd l hl) k
  · rfl

theorem cmds_view {ls : List Leaf} (h : ∀ l ∈ ls, ∀ k, View.cmd k (node l) = (.leaf l, k)) (k : Nat) :
    View.cmds k (ls.map node) = (ls.map Cmd.leaf, k) := by
  induction ls with
  | nil => rfl
  | cons l ls ih => simp only [List.map_cons, View.cmds, h l (by simp) k, ih fun m hm => h m (by simp [hm])]

/-- Without thermals the commands of the syntax tree are those of the builder. -/
theorem commands_file {b : Builder} (hi : Ids b) (h : Holds notThermal b) : View.commands (file b) = b.getCode.map Cmd.leaf := by
  simp only [View.commands, file, cmds_view (view_code hi h)]

end Verif.Dump
