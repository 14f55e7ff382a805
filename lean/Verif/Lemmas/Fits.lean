import Verif.Lemmas.Tiled

/-!
# Positions have the shape of the nodes
-/

namespace Verif.Spans

open Verif.Text Verif.Fmt Verif.Syntax Verif.Spec
open Verif.Math hiding P
open Verif.Peg (Text Res P firstOf Skips)
open Verif.Grammar (gDigits gOrder toLiteral floatText Entry Suf)

theorem infos_append (n : Nat) (a b : List Span) : infos n (a ++ b) = infos n a ++ infos n b := by
  induction a with
  | nil => rfl
  | cons x a ih => simp [infos, ih]

theorem infos_length (n : Nat) (a : List Span) : (infos n a).length = a.length := by
  induction a with
  | nil => rfl
  | cons x a ih => simp [infos, ih]

theorem fitsAll_iff (ns : List Node) (is : List Info) : FitsAll ns is ↔ List.Forall₂ Fits ns is := by
  induction ns generalizing is with
  | nil => simp [FitsAll]
  | cons n ns ih =>
    simp only [FitsAll]
    constructor
    · rintro ⟨i, js, rfl, h1, h2⟩; exact .cons h1 ((ih _).1 h2)
    · rintro (_ | ⟨h1, h2⟩); exact ⟨_, _, rfl, h1, (ih _).2 h2⟩

/-! ## Leaves -/

/-- Nodes without a body, except `G` codes. -/
def isLeaf : Node → Bool
  | .g _ _ => false
  | .ab .. => false
  | .sr .. => false
  | .am .. => false
  | _ => true

theorem fits_leaf {n : Node} (h : isLeaf n = true) {i : Info} (hi : i.parts = []) : Fits n i := by
  cases n <;> first | exact hi | cases h

theorem joined_leaf {n : Node} (h : isLeaf n = true) : joined n = false := by
  cases n <;> first | rfl | cases h

/-- The number of characters from the first character of the node to the end of the text. -/
def Span.left : Span → Nat
  | .mk l _ _ => l

/-- The value is a node without a body. -/
def Val (p : L Node) : Prop := ∀ s o r, p s = .ok o r → isLeaf o.val = true

theorem Val.ret {n : Node} (h : isLeaf n = true) : Val (ret n) := by
  intro s o r e
  simp only [Spans.ret, Res.ok.injEq] at e
  obtain ⟨rfl, -⟩ := e
  exact h

theorem Val.raise : Val raise := by intro s o r e; simp [Spans.raise] at e

theorem Val.andThen {α : Type} {p : L α} {f : α → L Node} (h : ∀ a, Val (f a)) : Val (p ~~> f) := by
  intro s o r e
  obtain ⟨a, t, b, -, h2, rfl⟩ := andThen_ok e
  have := h _ _ _ _ h2
  exact this

theorem Val.before {α : Type} {p : L α} {q : L Node} (h : Val q) : Val (p ≫≫ q) := .andThen fun _ => h

theorem Val.mapL {α : Type} {p : L α} {f : α → Node} (h : ∀ a, isLeaf (f a) = true) : Val (mapL f p) := .andThen fun a => .ret (h a)

theorem Val.ite {c : Prop} [Decidable c] {p q : L Node} (h : Val p) (h' : Val q) : Val (if c then p else q) := by
  split <;> assumption

theorem Val.node {p : L Node} (h : Val p) : Val (node p) := by
  intro s o r e
  obtain ⟨a, h1, rfl⟩ := node_ok e
  have := h _ _ _ h1
  exact this

theorem Val.command {p : L Node} (h : Val p) : Val (command p) := by
  apply Val.node
  intro s o r e
  obtain ⟨a, t, b, h1, h2, rfl⟩ := andThen_ok e
  obtain ⟨_, _, c, -, h3, rfl⟩ := andThen_ok h2
  simp only [Spans.ret, Res.ok.injEq] at h3
  obtain ⟨rfl, -⟩ := h3
  have := h _ _ _ h1
  exact this

theorem Val.extended {p : L Node} (h : Val p) : Val (extended p) := by
  apply Val.node
  apply Val.before
  intro s o r e
  obtain ⟨a, t, b, h1, h2, rfl⟩ := andThen_ok e
  obtain ⟨_, _, c, -, h3, rfl⟩ := andThen_ok h2
  obtain ⟨_, _, d, -, h4, rfl⟩ := andThen_ok h3
  simp only [Spans.ret, Res.ok.injEq] at h4
  obtain ⟨rfl, -⟩ := h4
  have := h _ _ _ h1
  exact this

theorem Val.firstOf {ps : List (L Node)} (h : ∀ p ∈ ps, Val p) : Val (firstOf ps) := Each.firstOf h

theorem Val.convert {α : Type} {g : α → Option Node} {p : L α} (h : ∀ a b, g a = some b → isLeaf b = true) : Val (convert g p) :=
  .andThen fun a => by
    cases hg : g a with
    | some b => exact .ret (h _ _ hg)
    | none => exact .raise

/-- Commands whose nodes have no body. -/
macro "vals" : tactic => `(tactic| repeat' (with_reducible first
  | refine Val.command ?_ | refine Val.extended ?_ | refine Val.ret ?_ | exact Val.raise | refine Val.before ?_
  | refine Val.mapL ?_ | refine Val.andThen (fun _ => ?_) | refine Val.ite ?_ ?_
  | (intros; simp only [isLeaf]; done)))

/-- The node has one position, of its shape. -/
def Shape1 (p : L Node) : Prop := ∀ s o r, p s = .ok o r →
  ∃ x, o.spans = [x] ∧ x.left = (skip s).length ∧ joined o.val = false ∧ ∀ total, Fits o.val (info total x)

/-- One item of a file: one entry or two joined ones. -/
def Group {α : Type} (J : α → Bool) (s : Text) (as : List α) (xs : List Span) : Prop :=
  (∃ a x, as = [a] ∧ xs = [x] ∧ x.left = (skip s).length ∧ J a = false) ∨
  ∃ a b x y, as = [a, b] ∧ xs = [x, y] ∧ x.left = (skip s).length ∧ J a = true ∧ J b = false

/-- The nodes have positions of their shapes. -/
def Shapes (p : L (List Node)) : Prop := ∀ s o r, p s = .ok o r →
  Group joined s o.val o.spans ∧ ∀ total, List.Forall₂ Fits o.val (infos total o.spans)

theorem Shape1.leaf {p : L Node} (h : One p) (hv : Val p) : Shape1 p := by
  intro s o r e
  exact ⟨_, (h s o r e).1, rfl, joined_leaf (hv s o r e), fun total => fits_leaf (hv s o r e) rfl⟩

theorem Shape1.firstOf {ps : List (L Node)} (h : ∀ p ∈ ps, Shape1 p) : Shape1 (firstOf ps) := Each.firstOf h
theorem Shapes.firstOf {ps : List (L (List Node))} (h : ∀ p ∈ ps, Shapes p) : Shapes (firstOf ps) := Each.firstOf h

theorem Shape1.one {p : L Node} (h : Shape1 p) : Shapes (one p) := by
  intro s o r e
  unfold Spans.one Spans.mapL at e
  obtain ⟨a, t, b, h1, h2, rfl⟩ := andThen_ok e
  simp only [ret, Res.ok.injEq] at h2
  obtain ⟨rfl, -⟩ := h2
  obtain ⟨x, hx, hl, hj, hf⟩ := h _ _ _ h1
  simp only [hx, List.append_nil]
  refine ⟨.inl ⟨_, x, rfl, rfl, hl, hj⟩, fun total => ?_⟩
  exact .cons (hf total) .nil

theorem val_dCodes (b : Bool) : Val (dCodes b) := by
  apply Val.firstOf
  simp only [List.mem_cons, List.not_mem_nil, or_false, forall_eq_or_imp, forall_eq]
  refine ⟨?_, ?_, ?_, ?_⟩
  · unfold dnn; vals
  · unfold d01; vals
  · unfold d02; vals
  · unfold d03; vals

theorem val_load : Val load := by
  apply Val.firstOf
  simp only [List.mem_cons, List.not_mem_nil, or_false, forall_eq_or_imp, forall_eq]
  refine ⟨?_, ?_, ?_, ?_, ?_⟩
  · unfold ln; vals
  · unfold lp; vals
  · unfold lr; vals
  · unfold ls; vals
  · unfold lm; vals

theorem val_mCodes : Val mCodes := by
  apply Val.firstOf
  simp only [List.mem_cons, List.not_mem_nil, or_false, forall_eq_or_imp, forall_eq]
  refine ⟨?_, ?_, ?_⟩ <;> vals

theorem val_properties : Val properties := by
  apply Val.firstOf
  simp only [List.mem_cons, List.not_mem_nil, or_false, forall_eq_or_imp, forall_eq]
  refine ⟨?_, ?_, ?_, ?_, ?_, ?_, ?_, ?_, ?_⟩
  · unfold fs; vals
  · unfold mo; vals
  · unfold ip; vals
  · unfold ir; vals
  · unfold of_; vals
  · unfold as_; vals
  · unfold mi; vals
  · unfold in_; vals
  · unfold sf; vals

theorem val_addAperture : Val addAperture := by
  apply Val.firstOf
  simp only [List.mem_cons, List.not_mem_nil, or_false, forall_eq_or_imp, forall_eq]
  refine ⟨?_, ?_, ?_, ?_, ?_⟩
  · unfold adc; vals
  · unfold adr; vals
  · unfold ado; vals
  · unfold adp; vals
  · unfold adMacro; vals

theorem val_attributes (rd : Text → Option Text) : Val (attributes rd) := by
  apply Val.firstOf
  simp only [List.mem_cons, List.not_mem_nil, or_false, forall_eq_or_imp, forall_eq]
  refine ⟨?_, ?_, ?_, ?_⟩
  · apply Val.firstOf
    simp only [List.mem_cons, List.not_mem_nil, or_false, forall_eq_or_imp, forall_eq]
    refine ⟨?_, ?_, ?_, ?_⟩
    · unfold taUser; vals
    · unfold taFunction; vals
    · unfold taDrill; vals
    · unfold taFlash; vals
  · unfold td; vals
  · apply Val.firstOf
    simp only [List.mem_cons, List.not_mem_nil, or_false, forall_eq_or_imp, forall_eq]
    refine ⟨?_, ?_, ?_, ?_, ?_, ?_, ?_, ?_, ?_⟩
    · unfold tfUser; vals
    · unfold tfPart; vals
    · unfold tfFunction; vals
    · unfold tfPolarity; vals
    · unfold tfSame; vals
    · apply Val.convert
      intro a b h
      simp only [Option.map_eq_some_iff] at h
      obtain ⟨_, -, rfl⟩ := h
      rfl
    · unfold tfSoftware; vals
    · unfold tfProject; vals
    · unfold tfMd5; vals
  · have t (k : ToKind) : Val (toText k) := by unfold toText; vals
    apply Val.firstOf
    simp only [List.mem_cons, List.not_mem_nil, or_false, forall_eq_or_imp, forall_eq]
    refine ⟨?_, ?_, ?_, t _, ?_, t _, t _, t _, ?_, t _, t _, t _, ?_, t _, t _, ?_⟩
    · unfold toUser; vals
    · unfold toN; vals
    · unfold toP; vals
    · apply Val.convert
      intro a b h
      simp only [Option.map_eq_some_iff] at h
      obtain ⟨_, -, rfl⟩ := h
      rfl
    · unfold toMount; vals
    · apply Val.convert
      intro a b h
      simp only [Option.map_eq_some_iff] at h
      obtain ⟨_, -, rfl⟩ := h
      rfl
    · unfold toSup; vals

/-- The node of a `G` code on its own. -/
theorem gStandalone_ok {c : GCode} {s r : Text} {o : Out Node} (e : gStandalone c s = .ok o r) :
    o.val = .g c true ∧ ∃ a t, codeRe 'G' (gDigits c) s = .ok a t := by
  obtain ⟨a, h1, rfl⟩ := node_ok e
  obtain ⟨a1, t1, b1, h2, h3, rfl⟩ := andThen_ok h1
  obtain ⟨a2, t2, b2, h4, h5, rfl⟩ := andThen_ok h2
  simp only [ret, Res.ok.injEq] at h5
  obtain ⟨rfl, -⟩ := h5
  obtain ⟨a3, t3, b3, -, h6, rfl⟩ := andThen_ok h3
  simp only [ret, Res.ok.injEq] at h6
  obtain ⟨rfl, -⟩ := h6
  exact ⟨rfl, _, _, h4⟩

theorem shape_gStandalone (c : GCode) : Shape1 (gStandalone c) := by
  intro s o r e
  have hv := (gStandalone_ok e).1
  exact ⟨_, (one_gStandalone c s o r e).1, rfl, by rw [hv]; rfl, fun total => by rw [hv]; rfl⟩

theorem shapes_gCodes : Shapes gCodes := by
  apply Shapes.firstOf
  intro p hp
  simp only [List.mem_append, List.mem_singleton, List.mem_map] at hp
  rcases hp with (rfl | ⟨c, -, rfl⟩) | ⟨c, -, rfl⟩
  · exact (Shape1.leaf one_g04 (by unfold g04; vals)).one
  · exact (shape_gStandalone c).one
  · intro s o r e
    unfold gNonStandalone at e
    obtain ⟨a, t, b, h1, h2, rfl⟩ := andThen_ok e
    have e1 := (one_gCode c _ _ _ h1).1
    obtain ⟨d, t', b', h3, h4, rfl⟩ := andThen_ok h2
    simp only [ret, Res.ok.injEq] at h4
    obtain ⟨rfl, -⟩ := h4
    obtain ⟨x, hx, -, hj, hf⟩ := Shape1.leaf (one_dCodes _) (val_dCodes _) _ _ _ h3
    simp only [e1, hx, List.append_nil, List.cons_append, List.nil_append]
    refine ⟨.inr ⟨_, _, _, x, rfl, rfl, rfl, rfl, hj⟩, fun total => ?_⟩
    exact .cons (by simp only [Fits, info, infos, Info.parts]) (.cons (hf total) .nil)

/-! ## Blocks -/

theorem many_prims : ∀ (n : Nat) (s r : Text) (o : Out (List Prim)), manyFuel primitive n s = .ok o r →
    ∀ total, (infos total o.spans).length = o.val.length ∧ ∀ j ∈ infos total o.spans, j.parts = []
  | 0, s, r, o, e, total => by
    simp only [manyFuel, ret, Res.ok.injEq] at e
    obtain ⟨rfl, -⟩ := e
    simp [infos]
  | n + 1, s, r, o, e, total => by
    rcases manyFuel_ok e with ⟨-, rfl, rfl⟩ | ⟨a, t, b, h1, h2, rfl⟩
    · simp [infos]
    · have e1 := (one_primitive _ _ _ h1).1
      obtain ⟨i1, i2⟩ := many_prims n _ _ _ h2 total
      simp only [e1, List.cons_append, List.nil_append, infos, List.length_cons, i1, true_and, List.mem_cons]
      rintro j (rfl | hj)
      · rfl
      · exact i2 _ hj

theorem shape_macro : Shape1 macro_ := by
  intro s o r e
  obtain ⟨a, h1, rfl⟩ := node_ok e
  obtain ⟨a1, t1, b1, h2, h3, rfl⟩ := andThen_ok h1
  obtain ⟨a2, t2, b2, h4, h5, rfl⟩ := andThen_ok h3
  obtain ⟨a3, t3, b3, h6, h7, rfl⟩ := andThen_ok h5
  simp only [ret, Res.ok.injEq] at h7
  obtain ⟨rfl, -⟩ := h7
  refine ⟨_, rfl, rfl, rfl, fun total => ?_⟩
  obtain ⟨i1, i2⟩ := many_prims _ _ _ _ h4 total
  have e1 := (one_amOpen _ _ _ h2).1
  have e2 := (one_amClose _ _ _ h6).1
  simp only [Fits, info, Info.parts, e1, e2, List.append_nil, infos_append, infos, List.length_append, i1, List.length_cons,
    List.length_nil, List.mem_append, List.mem_singleton]
  refine ⟨by omega, ?_⟩
  rintro j (rfl | hj | rfl)
  · rfl
  · exact i2 _ hj
  · rfl

theorem Shapes.manyFuel {p : L (List Node)} (h : Shapes p) : ∀ (n : Nat) (s r : Text) (o : Out (List (List Node))),
    manyFuel p n s = .ok o r → ∀ total, List.Forall₂ Fits o.val.flatten (infos total o.spans)
  | 0, s, r, o, e, total => by
    simp only [Spans.manyFuel, ret, Res.ok.injEq] at e
    obtain ⟨rfl, -⟩ := e
    exact .nil
  | n + 1, s, r, o, e, total => by
    rcases manyFuel_ok e with ⟨-, rfl, rfl⟩ | ⟨a, t, b, h1, h2, rfl⟩
    · exact .nil
    · simp only [List.flatten_cons, infos_append]
      exact List.rel_append ((h _ _ _ h1).2 total) (h.manyFuel n _ _ _ h2 total)

theorem shapes_bodyItem (rd : Text → Option Text) {ab : L Node} (h : Shape1 ab) : Shapes (bodyItem rd ab) := by
  apply Shapes.firstOf
  simp only [List.mem_cons, List.not_mem_nil, or_false, forall_eq_or_imp, forall_eq]
  refine ⟨(Shape1.leaf (one_dCodes _) (val_dCodes _)).one, shapes_gCodes, (Shape1.leaf one_load val_load).one,
    (Shape1.leaf one_properties val_properties).one, (Shape1.leaf (one_attributes rd) (val_attributes rd)).one,
    (Shape1.leaf one_addAperture val_addAperture).one, ?_, h.one, shape_macro.one, (Shape1.leaf one_mCodes val_mCodes).one⟩
  intro s o r e; simp [failing] at e

/-- A block: the first command, the body, the last command. -/
theorem shape_block {α : Type} {f : α → List Node → Node} (hf : ∀ a ns i,
      (∃ o body c, i.parts = o :: (body ++ [c]) ∧ o.parts = [] ∧ c.parts = [] ∧ FitsAll ns body) → Fits (f a ns) i) (hj : ∀ a ns, joined (f a ns) = false)
    {op : L α} {cl : L Unit} (ho : One op) (hc : One cl) {p : L (List Node)} (hp : Shapes p) :
    Shape1 (node (op ~~> fun i => many p ~~> fun ns => cl ≫≫ ret (f i ns.flatten))) := by
  intro s o r e
  obtain ⟨a, h1, rfl⟩ := node_ok e
  obtain ⟨a1, t1, b1, h2, h3, rfl⟩ := andThen_ok h1
  obtain ⟨a2, t2, b2, h4, h5, rfl⟩ := andThen_ok h3
  obtain ⟨a3, t3, b3, h6, h7, rfl⟩ := andThen_ok h5
  simp only [ret, Res.ok.injEq] at h7
  obtain ⟨rfl, -⟩ := h7
  refine ⟨_, rfl, rfl, hj _ _, fun total => hf _ _ _ ?_⟩
  have i1 := hp.manyFuel _ _ _ _ h4 total
  have e1 := (ho _ _ _ h2).1
  have e2 := (hc _ _ _ h6).1
  refine ⟨info total (Span.mk (skip s).length a1.width []), infos total a2.spans,
    info total (Span.mk (skip t2).length a3.width []), ?_, rfl, rfl, (fitsAll_iff _ _).2 i1⟩
  simp only [info, Info.parts, e1, e2, List.append_nil, infos_append, infos, List.cons_append, List.nil_append]

theorem shape_apertureBlock (rd : Text → Option Text) : ∀ k, Shape1 (apertureBlock rd k)
  | 0 => by intro s o r e; simp [apertureBlock, failing] at e
  | k + 1 => shape_block (f := Node.ab) (fun _ _ _ h => by simpa only [Fits] using h) (fun _ _ => rfl) one_abOpen one_abClose
      (shapes_bodyItem rd (shape_apertureBlock rd k))

theorem shape_stepRepeat (rd : Text → Option Text) (k : Nat) : Shape1 (stepRepeat rd k) :=
  shape_block (α := Option Text × Option Text × Option Text × Option Text) (f := fun o ns => Node.sr o.1 o.2.1 o.2.2.1 o.2.2.2 ns) (fun _ _ _ h => by simpa only [Fits] using h) (fun _ _ => rfl) one_srOpen one_srClose
    (shapes_bodyItem rd (shape_apertureBlock rd k))

theorem shape_aperture (rd : Text → Option Text) (k : Nat) : Shape1 (aperture rd k) := by
  apply Shape1.firstOf
  simp only [List.mem_cons, List.not_mem_nil, or_false, forall_eq_or_imp, forall_eq]
  exact ⟨shape_apertureBlock rd k, shape_macro, shape_stepRepeat rd k, .leaf one_addAperture val_addAperture⟩

theorem shapes_rootItem (rd : Text → Option Text) (k : Nat) : Shapes (rootItem rd k) := by
  apply Shapes.firstOf
  simp only [List.mem_cons, List.not_mem_nil, or_false, forall_eq_or_imp, forall_eq]
  exact ⟨(Shape1.leaf (one_dCodes _) (val_dCodes _)).one, shapes_gCodes, (Shape1.leaf one_load val_load).one,
    (shape_aperture rd k).one, (Shape1.leaf (one_attributes rd) (val_attributes rd)).one,
    (Shape1.leaf one_properties val_properties).one, (Shape1.leaf one_mCodes val_mCodes).one⟩

/-- The entries have positions of their shapes. -/
def EntryShapes (p : L (List Entry)) : Prop := ∀ s o r, p s = .ok o r →
  Group joinedEntry s o.val o.spans ∧ ∀ total, List.Forall₂ FitsEntry o.val (infos total o.spans)

theorem Shapes.valid {p : L (List Node)} (h : Shapes p) : EntryShapes (valid p) := by
  intro s o r e
  unfold Spans.valid Spans.mapL at e
  obtain ⟨a, t, b, h1, h2, rfl⟩ := andThen_ok e
  simp only [ret, Res.ok.injEq] at h2
  obtain ⟨rfl, -⟩ := h2
  simp only [List.append_nil]
  obtain ⟨hg, hf⟩ := h _ _ _ h1
  refine ⟨?_, fun total => ?_⟩
  · rcases hg with ⟨n, x, h3, h4, h5, h6⟩ | ⟨m, n, x, y, h3, h4, h5, h6, h7⟩
    · exact .inl ⟨.node n, x, by rw [h3]; rfl, h4, h5, h6⟩
    · exact .inr ⟨.node m, .node n, x, y, by rw [h3]; rfl, h4, h5, h6, h7⟩
  · rw [List.forall₂_map_left_iff]
    exact hf total

theorem shapes_resilientItem (rd : Text → Option Text) (k : Nat) : EntryShapes (resilientItem rd k) := by
  apply Each.firstOf (Q := fun s o _ => Group joinedEntry s o.val o.spans ∧ ∀ total, List.Forall₂ FitsEntry o.val (infos total o.spans))
  simp only [List.mem_cons, List.not_mem_nil, or_false, forall_eq_or_imp, forall_eq]
  refine ⟨(Shape1.leaf (one_dCodes _) (val_dCodes _)).one.valid, shapes_gCodes.valid, (Shape1.leaf one_load val_load).one.valid,
    (shape_aperture rd k).one.valid, (Shape1.leaf (one_attributes rd) (val_attributes rd)).one.valid,
    (Shape1.leaf one_properties val_properties).one.valid, (Shape1.leaf one_mCodes val_mCodes).one.valid, ?_⟩
  intro s o r e
  have hs := (one_invalid _ _ _ e).1
  obtain ⟨a, h1, rfl⟩ := node_ok e
  obtain ⟨e1, -⟩ := tok_ok h1
  simp only [Grammar.invalidToken] at e1
  split at e1
  · cases e1
  · simp only [Res.ok.injEq] at e1
    rw [hs, ← e1.1]
    exact ⟨.inl ⟨_, _, rfl, rfl, rfl, rfl⟩, fun total => .cons rfl .nil⟩

/-! ## Reading on from a node -/

/-- An item that reads groups. -/
def Grouped {α : Type} (J : α → Bool) (item : L (List α)) : Prop := ∀ s o r, item s = .ok o r → Group J s o.val o.spans

/-- From the first character of a node that is not joined to the one before, the rest of the nodes can be read. -/
theorem reread {α : Type} {J : α → Bool} {item : L (List α)} (hg : Grouped J item) (hs : Skips (erase item)) (he : Grammar.Eats (erase item))
    (total : Nat) : ∀ (n : Nat) (s r : Text) (o : Out (List (List α))) (k : Nat) (i : Info),
    s.length ≤ n → s.length ≤ total → manyFuel item n s = .ok o r → (infos total o.spans)[k]? = some i →
    (∀ j a, k = j + 1 → o.val.flatten[j]? = some a → J a = false) →
    ∃ (t : Text) (m : Nat) (vs : List (List α)), t <:+ s ∧ i.location = total - t.length ∧ t.length ≤ m ∧ skip t = t ∧
      Peg.manyFuel (erase item) m t = .ok vs r ∧ vs ≠ [] ∧ vs.flatten = o.val.flatten.drop k
  | 0, s, r, o, k, i, hn, ht, e, hi, hj => by
    simp only [manyFuel, ret, Res.ok.injEq] at e
    obtain ⟨rfl, -⟩ := e
    simp [infos] at hi
  | n + 1, s, r, o, k, i, hn, ht, e, hi, hj => by
    rcases manyFuel_ok e with ⟨-, rfl, rfl⟩ | ⟨a, u, b, h1, h2, rfl⟩
    · simp [infos] at hi
    · have hsk : skip s <:+ s := List.dropWhile_suffix _
      obtain ⟨hu, hul⟩ := he _ _ _ (erase_ok h1)
      have start : ∃ (t : Text) (m : Nat) (vs : List (List α)), t <:+ s ∧ total - (skip s).length = total - t.length ∧ t.length ≤ m ∧ skip t = t ∧
          Peg.manyFuel (erase item) m t = .ok vs r ∧ vs ≠ [] ∧ vs.flatten = (a.val :: b.val).flatten := by
        refine ⟨skip s, n + 1, a.val :: b.val, hsk, rfl, ?_, skip_skip s, ?_, by simp, rfl⟩
        · have := hsk.length_le; omega
        · have h3 := hs s
          rw [erase_ok h1] at h3
          have h4 := erase_ok h2
          rw [erase_manyFuel] at h4
          simp only [Peg.manyFuel, ← h3, Peg.mapP, Peg.andThen, h4, Peg.ret]
      have next : ∀ k', (infos total b.spans)[k']? = some i → k = a.val.length + k' →
          (∀ x, a.val.getLast? = some x → J x = false) →
          ∃ (t : Text) (m : Nat) (vs : List (List α)), t <:+ s ∧ i.location = total - t.length ∧ t.length ≤ m ∧ skip t = t ∧
            Peg.manyFuel (erase item) m t = .ok vs r ∧ vs ≠ [] ∧ vs.flatten = (a.val :: b.val).flatten.drop k := by
        intro k' hk' hk hlast
        obtain ⟨t, m, o', g1, g2, g3, g4, g5, g6, g7⟩ := reread hg hs he total n u r b k' i (by omega) (by omega) h2 hk' (by
          intro j x hkj hx
          apply hj (a.val.length + j) x (by omega)
          simpa [List.getElem?_append_right] using hx)
        refine ⟨t, m, o', g1.trans hu, g2, g3, g4, g5, g6, ?_⟩
        rw [g7, hk, List.flatten_cons, List.drop_append]
        simp
      rcases hg _ _ _ h1 with ⟨x, y, e1, e2, e3, e4⟩ | ⟨x, x', y, y', e1, e2, e3, e4, e5⟩
      · simp only [e2, infos_append, infos, List.cons_append, List.nil_append] at hi
        cases k with
        | zero =>
          simp only [List.getElem?_cons_zero, Option.some.injEq] at hi
          obtain ⟨t, m, o', g1, g2, g⟩ := start
          refine ⟨t, m, o', g1, ?_, g⟩
          rw [← hi, ← g2, ← e3]
          cases y; rfl
        | succ k =>
          simp only [List.getElem?_cons_succ] at hi
          exact next k hi (by simp [e1]; omega) (by simp [e1, e4])
      · simp only [e2, infos_append, infos, List.cons_append, List.nil_append] at hi
        match k, hi, hj, next with
        | 0, hi, _, _ =>
          simp only [List.getElem?_cons_zero, Option.some.injEq] at hi
          obtain ⟨t, m, o', g1, g2, g⟩ := start
          refine ⟨t, m, o', g1, ?_, g⟩
          rw [← hi, ← g2, ← e3]
          cases y; rfl
        | 1, hi, hj, _ =>
          have := hj 0 x rfl (by simp [e1])
          rw [e4] at this; cases this
        | k + 2, hi, hj, next =>
          simp only [List.getElem?_cons_succ] at hi
          exact next k hi (by simp [e1]; omega) (by simp [e1, e5])

end Verif.Spans
