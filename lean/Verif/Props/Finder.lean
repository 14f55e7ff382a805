import Verif.Spec.Finder
import Mathlib.Tactic.Linarith

/-!
# C44: finding the node under the cursor
-/

namespace Verif.Props.Finder
open Verif.Finder Verif.Spec

/-- The node the search settles on at one level: the last one starting at or before the location, or the first one
if there is none. -/
def Pick (line column : Nat) (nodes : List Node) (n : Node) : Prop :=
  IsLastBefore nodes line column n ∨ AllAfter nodes line column ∧ nodes.head? = some n

/-- What the code finds: it settles on a node, rejects it when the column (of whatever line) is left of the column
of the node, and otherwise continues in the parts of the node, if any. -/
inductive Finds (line column : Nat) : List Node → Found → Prop
  | reject (nodes n a b) : Pick line column nodes n → StartsAt n a b → column < b → Finds line column nodes .nothing
  | leaf (nodes n a b) : Pick line column nodes n → StartsAt n a b → b ≤ column → n.parts = [] →
      Finds line column nodes (.node n.id)
  | inside (nodes n a b r) : Pick line column nodes n → StartsAt n a b → b ≤ column → n.parts ≠ [] →
      Finds line column n.parts r → Finds line column nodes r

theorem Finds.not_file {line column : Nat} {nodes : List Node} {r : Found} (h : Finds line column nodes r) :
    r ≠ .file := by
  induction h <;> simp_all

theorem Finds.of_pick {line column : Nat} {xs ys : List Node} {r : Found} (h : Finds line column xs r)
    (hp : ∀ n, Pick line column xs n → Pick line column ys n) : Finds line column ys r := by
  cases h with
  | reject _ n a b p s c => exact .reject _ n a b (hp n p) s c
  | leaf _ n a b p s c e => exact .leaf _ n a b (hp n p) s c e
  | inside _ n a b r p s c e f => exact .inside _ n a b r (hp n p) s c e f

theorem sizes_append (xs ys : List Node) : sizes (xs ++ ys) = sizes xs + sizes ys := by
  induction xs with
  | nil => simp [sizes]
  | cons n ns ih => simp [sizes, ih]; omega

theorem size_pos (n : Node) : 0 < n.size := by cases n; simp [Node.size]

theorem sizes_pos {xs : List Node} (h : xs ≠ []) : 0 < sizes xs := by
  cases xs with
  | nil => exact absurd rfl h
  | cons n ns => have := size_pos n; simp [sizes]; omega

theorem sizes_parts (n : Node) : sizes n.parts < n.size := by cases n; simp [Node.size, Node.parts]

theorem inOrder_append {xs ys : List Node} (h : InOrder (xs ++ ys)) : InOrder xs ∧ InOrder ys :=
  ⟨⟨fun n hn => h.1 n (by simp [hn]), (List.pairwise_append.mp h.2).1⟩,
    ⟨fun n hn => h.1 n (by simp [hn]), (List.pairwise_append.mp h.2).2.1⟩⟩

theorem deep_append {xs ys : List Node} (h : DeepInOrder (xs ++ ys)) : DeepInOrder xs ∧ DeepInOrder ys := by
  cases h with
  | mk _ h sub => exact ⟨.mk _ (inOrder_append h).1 fun n hn => sub n (by simp [hn]), .mk _ (inOrder_append h).2 fun n hn => sub n (by simp [hn])⟩

/-- Going left of a node that starts after the location loses nothing. -/
theorem pick_left {line column : Nat} {xs ys : List Node} {c : Node} (hx : xs ≠ []) (h : InOrder (xs ++ c :: ys))
    {a b : Nat} (hc : StartsAt c a b) (hb : ¬ AtOrBefore a b line column) (n : Node)
    (hp : Pick line column xs n) : Pick line column (xs ++ c :: ys) n := by
  have after : ∀ m ∈ c :: ys, ∀ a b, StartsAt m a b → ¬ AtOrBefore a b line column := by
    intro m hm a' b' hs
    rcases List.mem_cons.mp hm with rfl | hm
    · have : (a, b) = (a', b') := by unfold StartsAt at hc hs; rw [hc] at hs; simpa using hs
      simp only [Prod.mk.injEq] at this
      rw [← this.1, ← this.2]; exact hb
    · have h2 := (List.pairwise_append.mp h.2).2.1
      have := (List.pairwise_cons.mp h2).1 m hm a b a' b' hc hs
      unfold AtOrBefore at *
      omega
  rcases hp with ⟨pre, post, e, hn, hpost⟩ | ⟨hall, hh⟩
  · left
    refine ⟨pre, post ++ c :: ys, by rw [e]; simp, hn, ?_⟩
    intro m hm
    rcases List.mem_append.mp hm with hm | hm
    · exact hpost m hm
    · exact after m hm
  · right
    refine ⟨?_, ?_⟩
    · intro m hm
      rcases List.mem_append.mp hm with hm | hm
      · exact hall m hm
      · exact after m hm
    · cases xs with
      | nil => exact absurd rfl hx
      | cons x xs => simpa using hh

/-- Going right of a node that starts at or before the location loses nothing. -/
theorem pick_right {line column : Nat} {xs ys : List Node} {c : Node} {a b : Nat} (hc : StartsAt c a b)
    (hb : AtOrBefore a b line column) (n : Node) (hp : Pick line column (c :: ys) n) :
    Pick line column (xs ++ c :: ys) n := by
  rcases hp with ⟨pre, post, e, hn, hpost⟩ | ⟨hall, hh⟩
  · left
    exact ⟨xs ++ pre, post, by rw [e]; simp, hn, hpost⟩
  · exact absurd hb (hall c (by simp) a b hc)

theorem split_at {nodes : List Node} {k : Nat} {c : Node} (h : nodes[k]? = some c) :
    nodes = nodes.take k ++ c :: nodes.drop (k + 1) ∧ nodes.drop k = c :: nodes.drop (k + 1) := by
  obtain ⟨hk, hc⟩ := List.getElem?_eq_some_iff.mp h
  have e : nodes.drop k = c :: nodes.drop (k + 1) := by rw [← hc]; exact List.drop_eq_getElem_cons hk
  exact ⟨by rw [← e, List.take_append_drop], e⟩

theorem binSearch_finds (line column : Nat) : ∀ (fuel : Nat) (nodes : List Node), sizes nodes < fuel → nodes ≠ [] →
    DeepInOrder nodes → Finds line column nodes (binSearch line column fuel nodes) := by
  intro fuel
  induction fuel with
  | zero => intro nodes h; omega
  | succ fuel ih =>
    intro nodes hf hne hdeep
    match nodes, hne with
    | [n], _ =>
      cases hdeep with
      | mk _ hord sub =>
      obtain ⟨a, b, hs⟩ := hord.1 n (by simp)
      have hs' : n.start = some (a, b) := hs
      have hp : Pick line column [n] n := by
        by_cases h : AtOrBefore a b line column
        · exact .inl ⟨[], [], rfl, ⟨a, b, hs, h⟩, by simp⟩
        · refine .inr ⟨?_, rfl⟩
          intro m hm a' b' hm'
          obtain rfl : m = n := by simpa using hm
          have : (a, b) = (a', b') := by unfold StartsAt at hm'; rw [hs'] at hm'; simpa using hm'
          simp only [Prod.mk.injEq] at this
          rw [← this.1, ← this.2]; exact h
      simp only [binSearch, hs', decide_eq_true_eq]
      by_cases hcol : column < b
      · rw [if_pos hcol]
        exact .reject _ n a b hp hs hcol
      · rw [if_neg hcol]
        by_cases hpar : n.parts = []
        · rw [if_pos (by simp [hpar])]
          exact .leaf _ n a b hp hs (by omega) hpar
        · rw [if_neg (by simpa using hpar)]
          have hsz : sizes n.parts < fuel := by
            have h1 := sizes_parts n
            have h2 : sizes [n] = n.size := by simp [sizes]
            omega
          have key := ih n.parts hsz hpar (sub n (by simp) hpar)
          refine .inside _ n a b _ hp hs (by omega) hpar ?_
          have hnf := key.not_file
          split
          · rename_i heq; exact absurd heq hnf
          · exact key
    | n₁ :: n₂ :: rest, _ =>
      have hlen : (n₁ :: n₂ :: rest).length = rest.length + 2 := by simp
      generalize hN : n₁ :: n₂ :: rest = nodes at *
      have hcl : nodes.length / 2 < nodes.length := by omega
      obtain ⟨c, hc⟩ : ∃ c, nodes[nodes.length / 2]? = some c := ⟨_, List.getElem?_eq_getElem hcl⟩
      obtain ⟨hsplit, hdrop⟩ := split_at hc
      have hord : InOrder nodes := by cases hdeep; assumption
      obtain ⟨a, b, hs⟩ := hord.1 c (List.mem_of_getElem? hc)
      have hs' : c.start = some (a, b) := hs
      have hdef : binSearch line column (fuel + 1) nodes =
          if line = a then
            if column = b then binSearch line column fuel [c]
            else if column < b then binSearch line column fuel (nodes.take (nodes.length / 2))
            else binSearch line column fuel (nodes.drop (nodes.length / 2))
          else if line < a then binSearch line column fuel (nodes.take (nodes.length / 2))
          else binSearch line column fuel (nodes.drop (nodes.length / 2)) := by
        rw [← hN] at hc ⊢
        conv_lhs => unfold binSearch
        simp only [hc, hs']
      have htake : nodes.take (nodes.length / 2) ≠ [] := by
        intro h0
        have := congrArg List.length h0
        simp only [List.length_take, List.length_nil] at this
        omega
      have hdeep2 : DeepInOrder (nodes.take (nodes.length / 2) ++ c :: nodes.drop (nodes.length / 2 + 1)) := by
        rw [← hsplit]; exact hdeep
      have hord2 : InOrder (nodes.take (nodes.length / 2) ++ c :: nodes.drop (nodes.length / 2 + 1)) := by
        rw [← hsplit]; exact hord
      have hsum : sizes nodes = sizes (nodes.take (nodes.length / 2)) +
          (c.size + sizes (nodes.drop (nodes.length / 2 + 1))) := by
        conv_lhs => rw [hsplit]
        rw [sizes_append]; rfl
      have hleft : ¬ AtOrBefore a b line column →
          Finds line column nodes (binSearch line column fuel (nodes.take (nodes.length / 2))) := by
        intro hb
        have := ih _ (by have := size_pos c; omega) htake (deep_append hdeep2).1
        refine this.of_pick fun n hn => ?_
        rw [hsplit]
        exact pick_left htake hord2 hs hb n hn
      have hright : AtOrBefore a b line column →
          Finds line column nodes (binSearch line column fuel (nodes.drop (nodes.length / 2))) := by
        intro hb
        rw [hdrop]
        have h1 := sizes_pos htake
        have := ih (c :: nodes.drop (nodes.length / 2 + 1)) (by simp only [sizes]; omega) (by simp) (deep_append hdeep2).2
        refine this.of_pick fun n hn => ?_
        rw [hsplit]
        exact pick_right hs hb n hn
      have hone : line = a → column = b → Finds line column nodes (binSearch line column fuel [c]) := by
        intro h1 h2
        have h1' := sizes_pos htake
        have hd1 : DeepInOrder [c] := by
          have : DeepInOrder ([c] ++ nodes.drop (nodes.length / 2 + 1)) := (deep_append hdeep2).2
          exact (deep_append this).1
        have := ih [c] (by simp only [sizes]; omega) (by simp) hd1
        refine this.of_pick fun n hn => ?_
        have hcn : n = c := by
          rcases hn with ⟨pre, post, e, -, -⟩ | ⟨-, hh⟩
          · cases pre with
            | nil => simp at e; exact e.1.symm
            | cons x xs => simp at e
          · simpa using hh.symm
        subst hcn
        left
        refine ⟨_, _, hsplit, ⟨a, b, hs, .inr ⟨h1.symm, h2.ge⟩⟩, ?_⟩
        intro m hm a' b' hm'
        have h2' := (List.pairwise_append.mp hord2.2).2.1
        have := (List.pairwise_cons.mp h2').1 m hm a b a' b' hs hm'
        unfold AtOrBefore
        omega
      rw [hdef]
      split_ifs with e1 e2 e3 e4
      · exact hone e1 e2
      · exact hleft (by unfold AtOrBefore; omega)
      · exact hright (by unfold AtOrBefore; omega)
      · exact hleft (by unfold AtOrBefore; omega)
      · exact hright (by unfold AtOrBefore; omega)

theorem startsAt_unique {n : Node} {a b c d : Nat} (h : StartsAt n a b) (h' : StartsAt n c d) : a = c ∧ b = d := by
  unfold StartsAt at *; rw [h] at h'; simpa using h'

/-- At most one node is the last one starting at or before a location. -/
theorem isLastBefore_unique {nodes : List Node} {line column : Nat} {m n : Node}
    (hm : IsLastBefore nodes line column m) (hn : IsLastBefore nodes line column n) : m = n := by
  obtain ⟨p, q, e, ⟨a, b, ha, hab⟩, hq⟩ := hm
  obtain ⟨p', q', e', ⟨a', b', ha', hab'⟩, hq'⟩ := hn
  rw [e] at e'
  rcases List.append_eq_append_iff.mp e' with ⟨as, h1, h2⟩ | ⟨bs, h1, h2⟩
  · cases as with
    | nil => simp at h2; exact h2.1
    | cons x xs =>
      simp only [List.cons_append, List.cons.injEq] at h2
      exact absurd hab' (hq n (by rw [h2.2]; simp) a' b' ha')
  · cases bs with
    | nil => simp at h2; exact h2.1.symm
    | cons x xs =>
      simp only [List.cons_append, List.cons.injEq] at h2
      exact absurd hab (hq' m (by rw [h2.2]; simp) a b ha)

theorem not_allAfter_of_last {nodes : List Node} {line column : Nat} {n : Node}
    (hn : IsLastBefore nodes line column n) : ¬ AllAfter nodes line column := by
  obtain ⟨p, q, e, ⟨a, b, ha, hab⟩, -⟩ := hn
  intro h
  exact h n (by rw [e]; simp) a b ha hab

theorem flat_deep {nodes : List Node} (h : InOrder nodes) (hflat : ∀ n ∈ nodes, n.parts = []) : DeepInOrder nodes :=
  .mk _ h fun n hn hp => absurd (hflat n hn) hp

theorem findNode_finds {nodes : List Node} (line column : Nat) (hlen : 2 ≤ nodes.length) (h : DeepInOrder nodes) :
    Finds line column nodes (findNode line column nodes) := by
  match nodes, hlen with
  | n₁ :: n₂ :: rest, _ => exact binSearch_finds line column _ _ (by omega) (by simp) h

/-- **C44** (partial: files of at least two nodes, without blocks and macros). When the location is at or after the
start of the first node, the node found is the last one starting at or before the location - provided that the
column of the location is not left of the column of that node, otherwise nothing is found.
Missing: the proviso (`c44_false_next_line`). -/
theorem c44_flat_partial (nodes : List Node) (hlen : 2 ≤ nodes.length) (ho : InOrder nodes)
    (hflat : ∀ n ∈ nodes, n.parts = []) (line column : Nat) (n : Node) (hn : IsLastBefore nodes line column n)
    (a b : Nat) (hs : StartsAt n a b) :
    findNode line column nodes = if b ≤ column then .node n.id else .nothing := by
  have pick : ∀ m, Pick line column nodes m → m = n := by
    rintro m (h | ⟨h, -⟩)
    · exact isLastBefore_unique h hn
    · exact absurd h (not_allAfter_of_last hn)
  have hf := findNode_finds line column hlen (flat_deep ho hflat)
  generalize findNode line column nodes = r at hf ⊢
  cases hf with
  | reject _ m c d p s hc =>
    obtain rfl := pick m p
    obtain ⟨rfl, rfl⟩ := startsAt_unique hs s
    rw [if_neg (by omega)]
  | leaf _ m c d p s hc e =>
    obtain rfl := pick m p
    obtain ⟨rfl, rfl⟩ := startsAt_unique hs s
    rw [if_pos hc]
  | inside _ m c d r p s hc e f =>
    obtain rfl := pick m p
    obtain ⟨pre, post, e', -⟩ := hn
    exact absurd (hflat m (by rw [e']; simp)) e

/-- **C44** (partial: files whose commands all start in column 1, as any file with one command per line). The node
found is the last one starting at or before the location. -/
theorem c44_one_per_line_partial (nodes : List Node) (hlen : 2 ≤ nodes.length) (ho : InOrder nodes)
    (hflat : ∀ n ∈ nodes, n.parts = []) (hcol : ∀ n ∈ nodes, ∀ a b, StartsAt n a b → b = 1)
    (line column : Nat) (hc : 1 ≤ column) (n : Node) (hn : IsLastBefore nodes line column n) :
    findNode line column nodes = .node n.id := by
  have hm : n ∈ nodes := by
    obtain ⟨pre, post, e, -⟩ := hn
    rw [e]; simp
  obtain ⟨a, b, hs⟩ := ho.1 n hm
  rw [c44_flat_partial nodes hlen ho hflat line column n hn a b hs, if_pos (by rw [hcol n hm a b hs]; exact hc)]

/-- **C44** (partial: files on one line). For every location on that line the property holds as stated: the last node
starting at or before the location is found, and nothing when the location is before the first node. -/
theorem c44_single_line_partial (nodes : List Node) (hlen : 2 ≤ nodes.length) (ho : InOrder nodes)
    (hflat : ∀ n ∈ nodes, n.parts = []) (line column : Nat) (hline : ∀ n ∈ nodes, ∀ a b, StartsAt n a b → a = line) :
    (∀ n, IsLastBefore nodes line column n → findNode line column nodes = .node n.id) ∧
    (AllAfter nodes line column → findNode line column nodes = .nothing) := by
  constructor
  · intro n hn
    have hm : n ∈ nodes := by
      obtain ⟨pre, post, e, -⟩ := hn
      rw [e]; simp
    obtain ⟨a, b, hs⟩ := ho.1 n hm
    rw [c44_flat_partial nodes hlen ho hflat line column n hn a b hs, if_pos]
    obtain ⟨pre, post, e, ⟨c, d, hcd, h⟩, -⟩ := hn
    obtain ⟨rfl, rfl⟩ := startsAt_unique hs hcd
    have := hline n hm a b hs
    unfold AtOrBefore at h
    omega
  · intro hall
    have hf := findNode_finds line column hlen (flat_deep ho hflat)
    have key : ∀ m a b, Pick line column nodes m → StartsAt m a b → column < b := by
      rintro m a b (h | ⟨-, h⟩) hs
      · exact absurd hall (not_allAfter_of_last h)
      · have hm := List.mem_of_mem_head? h
        have h1 := hall m hm a b hs
        have h2 := hline m hm a b hs
        unfold AtOrBefore at h1
        omega
    generalize findNode line column nodes = r at hf
    cases hf with
    | reject => rfl
    | leaf _ m a b p s hc e => have := key m a b p s; omega
    | inside _ m a b r p s hc e f => have := key m a b p s; omega

/-- **C44** (with blocks). For files of at least two nodes with every start known and in order at every level, the
search terminates, never fails, and follows the rule `Finds` down into macros, block apertures and step and repeat
blocks. -/
theorem c44_deep (nodes : List Node) (hlen : 2 ≤ nodes.length) (h : DeepInOrder nodes) (line column : Nat) :
    Finds line column nodes (findNode line column nodes) ∧ findNode line column nodes ≠ .file :=
  ⟨findNode_finds line column hlen h, (findNode_finds line column hlen h).not_file⟩

/-- Two commands, in columns 1 and 5 of line 1. -/
def sample : List Node := [.mk 0 (some (1, 1)) [], .mk 1 (some (1, 5)) []]

theorem sample_inOrder : InOrder sample := by
  refine ⟨?_, ?_⟩
  · intro n hn
    simp only [sample, List.mem_cons, List.not_mem_nil, or_false] at hn
    rcases hn with rfl | rfl
    · exact ⟨1, 1, rfl⟩
    · exact ⟨1, 5, rfl⟩
  · refine List.pairwise_cons.mpr ⟨?_, by simp⟩
    intro n hn a b c d h1 h2
    simp only [List.mem_singleton] at hn
    subst hn
    simp only [StartsAt, Node.start, Option.some.injEq, Prod.mk.injEq] at h1 h2
    omega

theorem sample_last {line : Nat} (h : 2 ≤ line) : IsLastBefore sample line 1 (.mk 1 (some (1, 5)) []) :=
  ⟨[_], [], rfl, ⟨1, 5, rfl, .inl (by omega)⟩, by simp⟩

example : InOrder sample ∧ (∀ n ∈ sample, n.parts = []) ∧ IsLastBefore sample 1 7 (.mk 1 (some (1, 5)) []) :=
  ⟨sample_inOrder, by simp [sample, Node.parts], ⟨[_], [], rfl, ⟨1, 5, rfl, .inr (by decide)⟩, by simp⟩⟩

/-- **C44** is false: with the cursor at the start of line 2 below `(1,1)` and `(1,5)`, nothing is found although a
command starts before it. -/
theorem c44_false_next_line : ∃ nodes n line column, InOrder nodes ∧ (∀ n ∈ nodes, n.parts = []) ∧
    IsLastBefore nodes line column n ∧ findNode line column nodes = .nothing :=
  ⟨sample, _, 2, 1, sample_inOrder, by simp [sample, Node.parts], sample_last (by omega), by decide +kernel⟩

/-- **C44** is false for locations before the first node: with commands on lines 2 and 3 and the cursor on line 1, the
first command is found. -/
theorem c44_false_before : ∃ nodes line column, 2 ≤ nodes.length ∧ AllAfter nodes line column ∧
    findNode line column nodes = .node 0 := by
  refine ⟨[.mk 0 (some (2, 1)) [], .mk 1 (some (3, 1)) []], 1, 3, by decide, ?_, by decide +kernel⟩
  intro n hn a b hs
  simp only [List.mem_cons, List.not_mem_nil, or_false] at hn
  unfold AtOrBefore
  rcases hn with rfl | rfl <;> simp only [StartsAt, Node.start, Option.some.injEq, Prod.mk.injEq] at hs <;> omega

/-- **C44**: a file with a single node always gives that node, wherever the cursor is. -/
theorem c44_single_node (n : Node) (line column : Nat) : findNode line column [n] = .node n.id := rfl

end Verif.Props.Finder
