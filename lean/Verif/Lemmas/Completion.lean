import Verif.Lemmas.TabStops
import Verif.Spec.Completion
import Verif.Lemmas.Sources
import Verif.Props.Spans

/-!
# The node under the cursor in a text with unreadable lines
-/

namespace Verif.Completion

open Verif.Text Verif.Syntax Verif.Spec
open Verif.Peg (Text Res firstOf)
open Verif.Math (skip isBlank)
open Verif.Spans
open Verif.Grammar (Entry)
open Verif.Props.Finder (Finds Pick)

/-! ## The text of unreadable lines -/

/-- An unreadable line as an entry: the rest of the line, from the location on. -/
def LineOf (source : Text) (e : Entry) (i : Info) : Prop :=
  ∀ t, e = .invalid t → t ≠ [] ∧ '\n' ∉ t ∧ i.length = t.length ∧
    ∃ rest, source.drop i.location = t ++ rest ∧ ∀ c r, rest = c :: r → c = '\n'

theorem drop_suffix {source s : Text} (h : s <:+ source) : source.drop (source.length - s.length) = s := by
  obtain ⟨b, rfl⟩ := h
  simp

theorem invalid_line {source s r : Text} {o : Out (List Entry)} (h : s <:+ source) (e : invalidToken s = .ok o r) :
    List.Forall₂ (LineOf source) o.val (infos source.length o.spans) := by
  obtain ⟨a, h1, rfl⟩ := Spans.node_ok e
  obtain ⟨e1, e2⟩ := tok_ok h1
  simp only [Grammar.invalidToken] at e1
  split at e1
  · cases e1
  · rename_i hne
    simp only [Res.ok.injEq] at e1
    obtain ⟨ev, er⟩ := e1
    have hs : skip s <:+ source := (List.dropWhile_suffix _).trans h
    simp only [← ev, infos, info]
    refine .cons ?_ .nil
    intro t ht
    simp only [Entry.invalid.injEq] at ht
    subst ht
    have hsplit : (skip s).takeWhile (fun c => c != '\n') ++ r = skip s := by
      rw [← er]; exact List.takeWhile_append_dropWhile
    refine ⟨?_, ?_, ?_, r, ?_, ?_⟩
    · intro h0
      cases hk : skip s with
      | nil => simp [hk] at hne
      | cons c u =>
        rw [hk] at h0
        have hb := Peg.skip_head hk
        have : c = '\n' := by
          by_contra hc
          simp [hc] at h0
        subst this
        exact absurd hb (by decide)
    · intro hm
      have := List.mem_takeWhile_imp hm
      simp at this
    · rw [e2]
      simp only [Info.length]
      have := congrArg List.length hsplit
      simp only [List.length_append] at this
      omega
    · simp only [Info.location]
      rw [drop_suffix hs, hsplit]
    · intro c u hc
      have := List.head?_dropWhile_not (fun c => c != '\n') (skip s)
      rw [er, hc] at this
      simpa using this

theorem valid_line {source s r : Text} {p : L (List Node)} {o : Out (List Entry)} (hs : Shapes p) (e : valid p s = .ok o r) (total : Nat) :
    List.Forall₂ (LineOf source) o.val (infos total o.spans) := by
  unfold Spans.valid Spans.mapL at e
  obtain ⟨a, u, b, h1, h2, rfl⟩ := andThen_ok e
  simp only [ret, Res.ok.injEq] at h2
  obtain ⟨rfl, rfl⟩ := h2
  have hf := (hs _ _ _ h1).2 total
  simp only [List.append_nil]
  generalize infos total a.spans = is at hf ⊢
  generalize a.val = ns at hf ⊢
  induction hf with
  | nil => exact .nil
  | cons _ _ ih => exact .cons (fun t ht => by cases ht) ih

theorem item_line (rd : Text → Option Text) (k : Nat) {source s r : Text} {o : Out (List Entry)} (h : s <:+ source)
    (e : resilientItem rd k s = .ok o r) : List.Forall₂ (LineOf source) o.val (infos source.length o.spans) := by
  have key : Each (fun s o _ => s <:+ source → List.Forall₂ (LineOf source) o.val (infos source.length o.spans)) (resilientItem rd k) := by
    apply Each.firstOf
    simp only [List.mem_cons, List.not_mem_nil, or_false, forall_eq_or_imp, forall_eq]
    refine ⟨?_, ?_, ?_, ?_, ?_, ?_, ?_, fun s o r e h => invalid_line h e⟩
    · exact fun s o r e _ => valid_line (Shape1.leaf (one_dCodes _) (val_dCodes _)).one e _
    · exact fun s o r e _ => valid_line shapes_gCodes e _
    · exact fun s o r e _ => valid_line (Shape1.leaf one_load val_load).one e _
    · exact fun s o r e _ => valid_line (shape_aperture rd k).one e _
    · exact fun s o r e _ => valid_line (Shape1.leaf (one_attributes rd) (val_attributes rd)).one e _
    · exact fun s o r e _ => valid_line (Shape1.leaf one_properties val_properties).one e _
    · exact fun s o r e _ => valid_line (Shape1.leaf one_mCodes val_mCodes).one e _
  exact key s o r e h

theorem many_line (rd : Text → Option Text) (k : Nat) {source : Text} : ∀ (n : Nat) (s r : Text) (o : Out (List (List Entry))),
    s <:+ source → Spans.manyFuel (resilientItem rd k) n s = .ok o r →
    List.Forall₂ (LineOf source) o.val.flatten (infos source.length o.spans)
  | 0, s, r, o, _, e => by
    simp only [Spans.manyFuel, ret, Res.ok.injEq] at e
    obtain ⟨rfl, -⟩ := e
    exact .nil
  | n + 1, s, r, o, h, e => by
    rcases manyFuel_ok e with ⟨-, rfl, rfl⟩ | ⟨a, t, b, h1, h2, rfl⟩
    · exact .nil
    · simp only [List.flatten_cons, infos_append]
      have hs := (Grammar.eats_resilient rd k) _ _ _ ((congrFun (erase_resilientItem rd k) s) ▸ erase_ok h1)
      exact List.rel_append (item_line rd k h h1) (many_line rd k n _ _ _ (hs.1.trans h) h2)

theorem lines (rd : Text → Option Text) {strict : Bool} {s : Text} {src : Source Entry} (h : resilientSource rd strict s = some src) :
    List.Forall₂ (LineOf s) src.nodes src.infos := by
  obtain ⟨o, r, hm, rfl, -, hf, -⟩ := (items_resilient rd).some h
  exact many_line rd _ _ _ _ _ (List.suffix_refl s) hf

/-! ## Cursors -/

/-- Positions in the text and as lines and columns are in the same order. -/
theorem atOrBefore_iff {source : Text} {p o : Nat} (hp : p ≤ source.length) (ho : o ≤ source.length) :
    AtOrBefore (lineAt source p) (columnAt source p) (lineAt source o) (columnAt source o) ↔ p ≤ o := by
  constructor
  · intro h
    by_contra hlt
    rcases before_iff (source := source) (a := o) (b := p) (by omega) hp with h' | ⟨h', h''⟩ <;>
      rcases h with h | ⟨h, h2⟩ <;> omega
  · intro h
    rcases Nat.eq_or_lt_of_le h with rfl | h
    · exact .inr ⟨rfl, Nat.le_refl _⟩
    · rcases before_iff h ho with h' | ⟨h', h''⟩
      · exact .inl h'
      · exact .inr ⟨h', Nat.le_of_lt h''⟩

/-! ## The tree -/

mutual
theorem stands_part (source : Text) : ∀ i, StandsAt source i (part source i)
  | .mk l n ps => by
    simp only [part, StandsAt]
    exact ⟨rfl, stands_parts source ps⟩
theorem stands_parts (source : Text) : ∀ is, StandAt source is (partList source is)
  | [] => rfl
  | i :: is => ⟨_, _, rfl, stands_part source i, stands_parts source is⟩
end

theorem tree_stands (source : Text) : ∀ k is, StandAt source is (tree source k is)
  | _, [] => rfl
  | k, .mk _ _ ps :: is => ⟨_, _, rfl, ⟨rfl, stands_parts source ps⟩, tree_stands source (k + 1) is⟩

theorem tree_length (source : Text) : ∀ k is, (tree source k is).length = is.length
  | _, [] => rfl
  | k, .mk _ _ _ :: is => by simp [tree, tree_length source (k + 1) is]

theorem tree_get (source : Text) : ∀ (k m : Nat) (is : List Info) (i : Info), is[m]? = some i →
    (tree source k is)[m]? = some (.mk (k + m + 1) (some (lineAt source i.location, columnAt source i.location)) (partList source i.parts))
  | k, m, [], i, h => by simp at h
  | k, 0, .mk l n ps :: is, i, h => by
    simp only [List.getElem?_cons_zero, Option.some.injEq] at h
    subst h
    rfl
  | k, m + 1, .mk l n ps :: is, i, h => by
    simp only [List.getElem?_cons_succ] at h
    simp only [tree, List.getElem?_cons_succ]
    rw [tree_get source (k + 1) m is i h]
    congr 2
    omega

/-- All identities are 0, at every level. -/
inductive Anonymous : List Finder.Node → Prop
  | nil : Anonymous []
  | cons (n : Finder.Node) (ns : List Finder.Node) : n.id = 0 → Anonymous n.parts → Anonymous ns → Anonymous (n :: ns)

theorem Anonymous.mem {ns : List Finder.Node} (h : Anonymous ns) : ∀ n ∈ ns, n.id = 0 ∧ Anonymous n.parts := by
  induction h with
  | nil => intro n h; simp at h
  | cons n ns h1 h2 _ _ ih =>
    intro m hm
    rcases List.mem_cons.1 hm with rfl | hm
    · exact ⟨h1, h2⟩
    · exact ih m hm

mutual
theorem anonymous_part (source : Text) : ∀ i, (part source i).id = 0 ∧ Anonymous (part source i).parts
  | .mk _ _ ps => ⟨rfl, anonymous_parts source ps⟩
theorem anonymous_parts (source : Text) : ∀ is, Anonymous (partList source is)
  | [] => .nil
  | i :: is => .cons _ _ (anonymous_part source i).1 (anonymous_part source i).2 (anonymous_parts source is)
end

theorem pick_mem {line column : Nat} {ns : List Finder.Node} {n : Finder.Node} (h : Pick line column ns n) : n ∈ ns := by
  rcases h with ⟨pre, post, rfl, -⟩ | ⟨-, h⟩
  · simp
  · exact List.mem_of_head? h

theorem finds_anonymous {line column : Nat} {ns : List Finder.Node} {r : Finder.Found} (h : Finds line column ns r) (ha : Anonymous ns) :
    r = .nothing ∨ r = .node 0 := by
  induction h with
  | reject => exact .inl rfl
  | leaf nodes n a b hp _ _ _ => exact .inr (by rw [(ha.mem n (pick_mem hp)).1])
  | inside nodes n a b r hp _ _ _ _ ih => exact ih (ha.mem n (pick_mem hp)).2

/-- The entry at the cursor as a node of the finder. -/
theorem last_before {rd : Text → Option Text} {strict : Bool} {s : Text} {src : Source Entry} (h : resilientSource rd strict s = some src)
    {line character o k : Nat} (hc : CursorAt s line character o) {i : Info} (hi : src.infos[k]? = some i) (hio : i.location ≤ o)
    (hnext : ∀ j, src.infos[k + 1]? = some j → o < j.location) :
    IsLastBefore (tree s 0 src.infos) (line + 1) (character + 1)
      (.mk (k + 1) (some (lineAt s i.location, columnAt s i.location)) (partList s i.parts)) := by
  obtain ⟨h1, h2, ho⟩ := cursor_line hc
  obtain ⟨hp, hr⟩ := Props.Spans.c68_apart rd strict s src h
  have hk := tree_get s 0 k src.infos i hi
  rw [Nat.zero_add] at hk
  obtain ⟨e, -⟩ := Props.Finder.split_at hk
  refine ⟨_, _, e, ⟨_, _, rfl, ?_⟩, ?_⟩
  · rw [← h1, ← h2]
    exact (atOrBefore_iff (hio.trans ho) ho).2 hio
  · intro m hm a b hs
    obtain ⟨q, hq⟩ := List.mem_iff_getElem?.1 hm
    rw [List.getElem?_drop] at hq
    have hlt : k + 1 + q < src.infos.length := by
      have := (List.getElem?_eq_some_iff.1 hq).1
      rwa [tree_length] at this
    have hj : src.infos[k + 1 + q]? = some src.infos[k + 1 + q] := List.getElem?_eq_getElem hlt
    rw [tree_get s 0 _ _ _ hj] at hq
    simp only [Option.some.injEq] at hq
    subst hq
    simp only [StartsAt, Finder.Node.start, Option.some.injEq, Prod.mk.injEq] at hs
    obtain ⟨rfl, rfl⟩ := hs
    have hjl := hr _ (List.getElem_mem hlt)
    have hb : o < (src.infos[k + 1 + q]).location := by
      have h0 := hnext _ (List.getElem?_eq_getElem (show k + 1 < src.infos.length by omega))
      rcases Nat.eq_zero_or_pos q with rfl | hq0
      · exact h0
      · have := List.pairwise_iff_getElem.1 hp (k + 1) (k + 1 + q) (by omega) hlt (by omega)
        have h3 := (hr _ (List.getElem_mem (show k + 1 < src.infos.length by omega))).1
        omega
    rw [← h1, ← h2, atOrBefore_iff (by omega) ho]
    omega

/-- What the finder finds between the start of an entry and the start of the next one. -/
theorem find_between {rd : Text → Option Text} {strict : Bool} {s : Text} {src : Source Entry} (h : resilientSource rd strict s = some src)
    {line character o k : Nat} (hc : CursorAt s line character o) {i : Info} (hi : src.infos[k]? = some i) (hio : i.location ≤ o)
    (hnext : ∀ j, src.infos[k + 1]? = some j → o < j.location) (r : Finder.Found)
    (hr : Finder.findNode (line + 1) (character + 1) (tree s 0 src.infos) = r) :
    (r = .nothing ∨ r = .node 0 ∨ r = .node (k + 1)) ∧
    (i.parts = [] → columnAt s i.location ≤ character + 1 → r = .node (k + 1)) := by
  have hlast := last_before h hc hi hio hnext
  have hlt := (List.getElem?_eq_some_iff.1 hi).1
  by_cases h2 : 2 ≤ src.infos.length
  · have hf := (Props.Spans.c68_finder_resilient rd strict s src h _ (tree_stands s 0 src.infos) (by rwa [tree_length]) (line + 1) (character + 1)).2
    rw [hr] at hf
    have pick : ∀ m, Pick (line + 1) (character + 1) (tree s 0 src.infos) m →
        m = .mk (k + 1) (some (lineAt s i.location, columnAt s i.location)) (partList s i.parts) := by
      rintro m (h | ⟨h, -⟩)
      · exact Props.Finder.isLastBefore_unique h hlast
      · exact absurd h (Props.Finder.not_allAfter_of_last hlast)
    cases hf with
    | reject _ m c d p s hc =>
      obtain rfl := pick m p
      simp only [StartsAt, Finder.Node.start, Option.some.injEq, Prod.mk.injEq] at s
      exact ⟨.inl rfl, fun _ h => by omega⟩
    | leaf _ m c d p s hc e =>
      obtain rfl := pick m p
      exact ⟨.inr (.inr rfl), fun _ _ => rfl⟩
    | inside _ m c d r p s hc e f =>
      obtain rfl := pick m p
      refine ⟨?_, fun h => ?_⟩
      · rcases finds_anonymous f (anonymous_parts _ _) with h | h
        · exact .inl h
        · exact .inr (.inl h)
      · rw [h] at e
        exact absurd rfl e
  · have h1 : src.infos.length = 1 := by omega
    obtain ⟨j, hj⟩ := List.length_eq_one_iff.1 h1
    have hk : k = 0 := by omega
    subst hk
    rw [hj] at hr
    cases j
    subst hr
    exact ⟨.inr (.inr rfl), fun _ _ => rfl⟩

/-! ## Cursors in unreadable lines -/

theorem tiles_start {source : Text} {a b : Nat} {is : List Info} (h : Tiles source a is b) :
    ∀ i ∈ is, ∃ c, source[i.location]? = some c ∧ isBlank c = false := by
  induction h with
  | nil => simp
  | leaf before blanks text after ih =>
    intro i hi
    rcases List.mem_cons.1 hi with rfl | hi
    · exact text.2.2.2.2
    · exact ih i hi
  | block before blanks text inside after ih1 ih2 =>
    intro i hi
    rcases List.mem_cons.1 hi with rfl | hi
    · exact text.2.2.2.2
    · exact ih2 i hi

theorem column_mono {source : Text} {a b : Nat} (h : a ≤ b) (hb : b ≤ source.length) (hl : lineAt source a = lineAt source b) :
    columnAt source a ≤ columnAt source b := by
  rcases Nat.eq_or_lt_of_le h with rfl | h
  · exact Nat.le_refl _
  · rcases before_iff h hb with h' | h'
    · omega
    · exact Nat.le_of_lt h'.2

/-- From the start of an unreadable line to its end, the cursor is on the line of the entry and before the next one. -/
theorem line_bounds {rd : Text → Option Text} {strict : Bool} {s : Text} {src : Source Entry} (h : resilientSource rd strict s = some src)
    {k : Nat} {i : Info} {t : Text} (hn : src.nodes[k]? = some (.invalid t)) (hi : src.infos[k]? = some i) {o : Nat}
    (hio : i.location ≤ o) (hoe : o ≤ i.location + t.length) :
    columnAt s i.location ≤ columnAt s o ∧ ∀ j, src.infos[k + 1]? = some j → o < j.location := by
  obtain ⟨hlt, hti⟩ := List.forall₂_iff_get.1 (lines rd h)
  have hk := (List.getElem?_eq_some_iff.1 hn).1
  have hk' := (List.getElem?_eq_some_iff.1 hi).1
  have := hti k hk hk'
  simp only [List.get_eq_getElem] at this
  rw [(List.getElem?_eq_some_iff.1 hn).2, (List.getElem?_eq_some_iff.1 hi).2] at this
  obtain ⟨-, hnl, hlen, rest, hd, hrest⟩ := this t rfl
  have hle : i.location + t.length ≤ s.length := by
    have := congrArg List.length hd
    simp only [List.length_drop, List.length_append] at this
    have := (Props.Spans.c68_apart rd strict s src h).2 i (List.mem_of_getElem? hi)
    omega
  refine ⟨column_mono hio (by omega) ?_, ?_⟩
  · unfold lineAt
    have e : s.take o = s.take i.location ++ (t ++ rest).take (o - i.location) := by
      rw [← hd, ← List.take_add]
      congr 1
      omega
    rw [e, List.count_append, List.take_append_of_le_length (by omega),
      List.count_eq_zero.2 (fun hm => hnl (List.mem_of_mem_take hm)), Nat.add_zero]
  · intro j hj
    obtain ⟨stop, ht, -⟩ := Props.Spans.c68_positions_resilient rd strict s src h
    have hlt' := (List.getElem?_eq_some_iff.1 hj).1
    have hp := List.pairwise_iff_getElem.1 (Props.Spans.c68_apart rd strict s src h).1 k (k + 1) hk' hlt' (by omega)
    rw [(List.getElem?_eq_some_iff.1 hi).2, (List.getElem?_eq_some_iff.1 hj).2] at hp
    unfold Info.endLocation at hp
    rcases Nat.eq_or_lt_of_le hp with he | hl
    · exfalso
      obtain ⟨c, hc, hb⟩ := tiles_start ht j (List.mem_of_getElem? hj)
      have : (s.drop i.location)[t.length]? = some c := by
        rw [List.getElem?_drop, ← hlen, he, hc]
      rw [hd, List.getElem?_append_right (Nat.le_refl _), Nat.sub_self] at this
      cases rest with
      | nil => simp at this
      | cons d u =>
        have hdn := hrest d u rfl
        simp only [List.getElem?_cons_zero, Option.some.injEq] at this
        subst this
        subst hdn
        exact absurd hb (by decide)
    · omega

theorem infos_length {rd : Text → Option Text} {strict : Bool} {s : Text} {src : Source Entry} (h : resilientSource rd strict s = some src) :
    src.nodes.length = src.infos.length := (lines rd h).length_eq

/-- The cursor in an unreadable line: its text is found. -/
theorem invalidAt_line {rd : Text → Option Text} {strict : Bool} {s : Text} {src : Source Entry} (h : resilientSource rd strict s = some src)
    {k : Nat} {i : Info} {t : Text} (hn : src.nodes[k]? = some (.invalid t)) (hi : src.infos[k]? = some i) {line character o : Nat}
    (hc : CursorAt s line character o) (hio : i.location ≤ o) (hoe : o ≤ i.location + t.length) :
    invalidAt s src line character = some t := by
  obtain ⟨h1, h2⟩ := line_bounds h hn hi hio hoe
  obtain ⟨-, hcol, -⟩ := cursor_line hc
  have hparts : i.parts = [] := by
    obtain ⟨hlt, hti⟩ := List.forall₂_iff_get.1 (Props.Spans.c68_shape_resilient rd strict s src h)
    have hk := (List.getElem?_eq_some_iff.1 hn).1
    have hk' := (List.getElem?_eq_some_iff.1 hi).1
    have := hti k hk hk'
    simp only [List.get_eq_getElem] at this
    rw [(List.getElem?_eq_some_iff.1 hn).2, (List.getElem?_eq_some_iff.1 hi).2] at this
    exact this
  unfold invalidAt
  rw [(find_between h hc hi hio h2 _ rfl).2 hparts (by omega)]
  simp only [hn]

/-- The cursor in a command that can be read, or between it and the next entry. -/
theorem invalidAt_node {rd : Text → Option Text} {strict : Bool} {s : Text} {src : Source Entry} (h : resilientSource rd strict s = some src)
    {k : Nat} {i : Info} {n : Node} (hn : src.nodes[k]? = some (.node n)) (hi : src.infos[k]? = some i) {line character o : Nat}
    (hc : CursorAt s line character o) (hio : i.location ≤ o) (hnext : ∀ j, src.infos[k + 1]? = some j → o < j.location) :
    invalidAt s src line character = none := by
  unfold invalidAt
  rcases (find_between h hc hi hio hnext _ rfl).1 with h | h | h <;> rw [h]
  simp only [hn]

end Verif.Completion
