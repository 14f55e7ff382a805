import Verif.Lemmas.Sources
import Verif.Spec.Linter

/-!
# `G` codes begin at their locations
-/

namespace Verif.Spans

open Verif.Text Verif.Fmt Verif.Syntax Verif.Spec
open Verif.Math hiding P
open Verif.Peg (Text Res P firstOf Skips)
open Verif.Grammar (gDigits gOrder Entry Suf)

theorem number_eq (c : GCode) : codeNumber c = gDigits c := by cases c <;> rfl

theorem codesIn_append {source : Text} : ∀ {a b : List Node} {is js : List Info}, a.length = is.length → CodesIn source a is →
    CodesIn source b js → CodesIn source (a ++ b) (is ++ js)
  | [], _, [], _, _, _, h => h
  | [], _, _ :: _, _, h, _, _ => by simp at h
  | n :: a, b, is, js, hl, h, h' => by
    simp only [CodesIn] at h
    obtain ⟨i, is', rfl, h1, h2⟩ := h
    exact ⟨i, is' ++ js, rfl, h1, codesIn_append (by simpa using hl) h2 h'⟩

theorem codesIn_more {source : Text} : ∀ {a : List Node} {is js : List Info}, CodesIn source a is → CodesIn source a (is ++ js)
  | [], _, _, _ => trivial
  | n :: a, is, js, h => by
    simp only [CodesIn] at h
    obtain ⟨i, is', rfl, h1, h2⟩ := h
    exact ⟨i, is' ++ js, rfl, h1, codesIn_more h2⟩

theorem strip_zeros (r : Text) : ∃ z, r = List.replicate z '0' ++ lstrip0 r := by
  induction r with
  | nil => exact ⟨0, rfl⟩
  | cons c r ih =>
    unfold lstrip0 at *
    by_cases h : c = '0'
    · obtain ⟨z, hz⟩ := ih
      refine ⟨z + 1, ?_⟩
      subst h
      simp only [List.dropWhile_cons, beq_self_eq_true, if_true, List.replicate_succ, List.cons_append, ← hz]
    · exact ⟨0, by simp [List.dropWhile_cons, h]⟩

theorem codeRe_begins {c : GCode} {s r : Text} {o : Out Unit} (e : codeRe 'G' (gDigits c) s = .ok o r) : BeginsWithCode c (skip s) := by
  obtain ⟨e1, -⟩ := tok_ok e
  unfold Peg.codeRe at e1
  cases hs : skip s with
  | nil => rw [hs] at e1; cases e1
  | cons d t =>
    rw [hs] at e1
    simp only at e1
    split at e1
    · rename_i hd
      subst hd
      cases hp : Peg.strip (gDigits c) (lstrip0 t) with
      | none => rw [hp] at e1; cases e1
      | some r' =>
        obtain ⟨z, hz⟩ := strip_zeros t
        have := Grammar.strip_eq.1 hp
        refine ⟨z, r', ?_⟩
        rw [number_eq, List.append_assoc, ← this, ← hz]
    · cases e1

theorem drop_suffix {s source : Text} (h : s <:+ source) : source.drop (source.length - s.length) = s := by
  obtain ⟨b, rfl⟩ := h
  simp

theorem skip_suffix (s : Text) : skip s <:+ s := by
  obtain ⟨b, hb, -⟩ := skip_split s
  exact ⟨b, hb.symm⟩

theorem Cover.suffix {α : Type} {p : L α} (h : Cover p) {s r : Text} {o : Out α} (e : p s = .ok o r) : r <:+ s := by
  obtain ⟨c, hc, -⟩ := (h _ _ _ e).2
  exact ⟨c, hc.symm⟩

/-- The `G` codes of the node begin at their locations. -/
def Codes1 (p : L Node) : Prop := ∀ s o r, p s = .ok o r →
  ∃ x, o.spans = [x] ∧ ∀ source, s <:+ source → CodesAt source o.val (info source.length x)

/-- The `G` codes of the nodes begin at their locations. -/
def CodesL (p : L (List Node)) : Prop := ∀ s o r, p s = .ok o r →
  o.val.length = o.spans.length ∧ ∀ source, s <:+ source → CodesIn source o.val (infos source.length o.spans)

theorem codes_leaf {n : Node} (h : isLeaf n = true) (source : Text) (i : Info) : CodesAt source n i := by
  cases n <;> trivial

theorem Codes1.leaf {p : L Node} (h : One p) (hv : Val p) : Codes1 p := by
  intro s o r e
  exact ⟨_, (h s o r e).1, fun source _ => codes_leaf (hv s o r e) _ _⟩

theorem Codes1.firstOf {ps : List (L Node)} (h : ∀ p ∈ ps, Codes1 p) : Codes1 (firstOf ps) := Each.firstOf h
theorem CodesL.firstOf {ps : List (L (List Node))} (h : ∀ p ∈ ps, CodesL p) : CodesL (firstOf ps) := Each.firstOf h

theorem Codes1.one {p : L Node} (h : Codes1 p) : CodesL (one p) := by
  intro s o r e
  unfold Spans.one Spans.mapL at e
  obtain ⟨a, t, b, h1, h2, rfl⟩ := andThen_ok e
  simp only [ret, Res.ok.injEq] at h2
  obtain ⟨rfl, -⟩ := h2
  obtain ⟨x, hx, hf⟩ := h _ _ _ h1
  simp only [hx, List.append_nil]
  exact ⟨rfl, fun source hs => ⟨_, _, rfl, hf source hs, trivial⟩⟩

theorem codes_at {s source : Text} (hs : s <:+ source) {c : GCode} {b : Bool} {w : Nat} {ps : List Span} (h : BeginsWithCode c (skip s)) :
    CodesAt source (.g c b) (info source.length (.mk (skip s).length w ps)) := by
  simp only [CodesAt, info, Info.location]
  rw [drop_suffix ((skip_suffix s).trans hs)]
  exact h

theorem codes_gStandalone (c : GCode) : Codes1 (gStandalone c) := by
  intro s o r e
  obtain ⟨hv, a, t, h1⟩ := gStandalone_ok e
  refine ⟨_, (one_gStandalone c s o r e).1, fun source hs => ?_⟩
  rw [hv]
  exact codes_at hs (codeRe_begins h1)

theorem codes_gCodes : CodesL gCodes := by
  apply CodesL.firstOf
  intro p hp
  simp only [List.mem_append, List.mem_singleton, List.mem_map] at hp
  rcases hp with (rfl | ⟨c, -, rfl⟩) | ⟨c, -, rfl⟩
  · exact (Codes1.leaf one_g04 (by unfold g04; vals)).one
  · exact (codes_gStandalone c).one
  · intro s o r e
    unfold gNonStandalone at e
    obtain ⟨a, t, b, h1, h2, rfl⟩ := andThen_ok e
    have e1 := (one_gCode c _ _ _ h1).1
    obtain ⟨a0, h0, rfl⟩ := node_ok h1
    obtain ⟨a1, t1, b1, h5, -, rfl⟩ := andThen_ok h0
    obtain ⟨d, t', b', h3, h4, rfl⟩ := andThen_ok h2
    simp only [ret, Res.ok.injEq] at h4
    obtain ⟨rfl, -⟩ := h4
    have e2 := (one_dCodes _ _ _ _ h3).1
    have hv := val_dCodes _ _ _ _ h3
    simp only [e2, List.append_nil, List.cons_append, List.nil_append]
    refine ⟨rfl, fun source hs => ⟨_, _, rfl, codes_at hs (codeRe_begins h5), _, _, rfl, codes_leaf hv _ _, trivial⟩⟩

theorem CodesL.manyFuel {p : L (List Node)} (h : CodesL p) (hc : Cover p) : ∀ (n : Nat) (s r : Text) (o : Out (List (List Node))),
    manyFuel p n s = .ok o r →
    o.val.flatten.length = o.spans.length ∧ ∀ source, s <:+ source → CodesIn source o.val.flatten (infos source.length o.spans)
  | 0, s, r, o, e => by
    simp only [Spans.manyFuel, ret, Res.ok.injEq] at e
    obtain ⟨rfl, -⟩ := e
    exact ⟨rfl, fun _ _ => trivial⟩
  | n + 1, s, r, o, e => by
    rcases manyFuel_ok e with ⟨-, rfl, rfl⟩ | ⟨a, t, b, h1, h2, rfl⟩
    · exact ⟨rfl, fun _ _ => trivial⟩
    · obtain ⟨l1, c1⟩ := h _ _ _ h1
      obtain ⟨l2, c2⟩ := h.manyFuel hc n _ _ _ h2
      refine ⟨by simp [l1, ← l2], fun source hs => ?_⟩
      simp only [List.flatten_cons, infos_append]
      exact codesIn_append (by rw [infos_length, l1]) (c1 source hs) (c2 source ((hc.suffix h1).trans hs))

theorem codes_macro : Codes1 macro_ := by
  intro s o r e
  obtain ⟨a, h1, rfl⟩ := node_ok e
  obtain ⟨a1, t1, b1, h2, h3, rfl⟩ := andThen_ok h1
  obtain ⟨a2, t2, b2, h4, h5, rfl⟩ := andThen_ok h3
  obtain ⟨a3, t3, b3, h6, h7, rfl⟩ := andThen_ok h5
  simp only [ret, Res.ok.injEq] at h7
  obtain ⟨rfl, -⟩ := h7
  exact ⟨_, rfl, fun source _ => trivial⟩

theorem codes_bodyItem (rd : Text → Option Text) {ab : L Node} (h : Codes1 ab) : CodesL (bodyItem rd ab) := by
  apply CodesL.firstOf
  simp only [List.mem_cons, List.not_mem_nil, or_false, forall_eq_or_imp, forall_eq]
  refine ⟨(Codes1.leaf (one_dCodes _) (val_dCodes _)).one, codes_gCodes, (Codes1.leaf one_load val_load).one,
    (Codes1.leaf one_properties val_properties).one, (Codes1.leaf (one_attributes rd) (val_attributes rd)).one,
    (Codes1.leaf one_addAperture val_addAperture).one, ?_, h.one, codes_macro.one, (Codes1.leaf one_mCodes val_mCodes).one⟩
  intro s o r e; simp [failing] at e

theorem codes_block {α : Type} {f : α → List Node → Node} (hf : ∀ source a ns i, CodesIn source ns (i.parts.drop 1) → CodesAt source (f a ns) i)
    {op : L α} {cl : L Unit} (ho : One op) (hc : One cl) {p : L (List Node)} (hp : CodesL p) (hcp : Cover p) :
    Codes1 (node (op ~~> fun i => many p ~~> fun ns => cl ≫≫ ret (f i ns.flatten))) := by
  intro s o r e
  obtain ⟨a, h1, rfl⟩ := node_ok e
  obtain ⟨a1, t1, b1, h2, h3, rfl⟩ := andThen_ok h1
  obtain ⟨a2, t2, b2, h4, h5, rfl⟩ := andThen_ok h3
  obtain ⟨a3, t3, b3, h6, h7, rfl⟩ := andThen_ok h5
  simp only [ret, Res.ok.injEq] at h7
  obtain ⟨rfl, -⟩ := h7
  refine ⟨_, rfl, fun source hs => hf _ _ _ _ ?_⟩
  obtain ⟨l1, i1⟩ := hp.manyFuel hcp _ _ _ _ h4
  have e1 := (ho _ _ _ h2).1
  have e2 := (hc _ _ _ h6).1
  simp only [info, Info.parts, e1, e2, List.append_nil, infos_append, infos, List.cons_append, List.nil_append, List.drop_one, List.tail_cons]
  exact codesIn_more (i1 source ((ho.cover.suffix h2).trans hs))

theorem codes_apertureBlock (rd : Text → Option Text) : ∀ k, Codes1 (apertureBlock rd k)
  | 0 => by intro s o r e; simp [apertureBlock, failing] at e
  | k + 1 => codes_block (f := Node.ab) (fun _ _ _ _ h => by simpa only [CodesAt] using h) one_abOpen one_abClose
      (codes_bodyItem rd (codes_apertureBlock rd k)) (cover_bodyItem rd (block_apertureBlock rd k).cover)

theorem codes_stepRepeat (rd : Text → Option Text) (k : Nat) : Codes1 (stepRepeat rd k) :=
  codes_block (α := Option Text × Option Text × Option Text × Option Text) (f := fun o ns => Node.sr o.1 o.2.1 o.2.2.1 o.2.2.2 ns)
    (fun _ _ _ _ h => by simpa only [CodesAt] using h) one_srOpen one_srClose
    (codes_bodyItem rd (codes_apertureBlock rd k)) (cover_bodyItem rd (block_apertureBlock rd k).cover)

theorem codes_aperture (rd : Text → Option Text) (k : Nat) : Codes1 (aperture rd k) := by
  apply Codes1.firstOf
  simp only [List.mem_cons, List.not_mem_nil, or_false, forall_eq_or_imp, forall_eq]
  exact ⟨codes_apertureBlock rd k, codes_macro, codes_stepRepeat rd k, .leaf one_addAperture val_addAperture⟩

theorem codes_rootItem (rd : Text → Option Text) (k : Nat) : CodesL (rootItem rd k) := by
  apply CodesL.firstOf
  simp only [List.mem_cons, List.not_mem_nil, or_false, forall_eq_or_imp, forall_eq]
  exact ⟨(Codes1.leaf (one_dCodes _) (val_dCodes _)).one, codes_gCodes, (Codes1.leaf one_load val_load).one,
    (codes_aperture rd k).one, (Codes1.leaf (one_attributes rd) (val_attributes rd)).one,
    (Codes1.leaf one_properties val_properties).one, (Codes1.leaf one_mCodes val_mCodes).one⟩

/-- In a file read from a text, the `G` codes begin at their locations, at every depth. -/
theorem codes_plain {rd : Text → Option Text} {strict : Bool} {s : Text} {src : Source Node} (h : plainSource rd strict s = some src) :
    CodesIn s src.nodes src.infos := by
  obtain ⟨o, r, -, rfl, -, hf, -⟩ := (items_plain rd).some h
  exact ((codes_rootItem rd _).manyFuel (cover_rootItem rd _) _ _ _ _ hf).2 s (List.suffix_refl s)

end Verif.Spans
