import Verif.Lemmas.Exact

/-!
# Formatting what is read back
-/

namespace Verif.Grammar

open Verif.Text Verif.Fmt Verif.Peg Verif.Syntax Verif.Spec Verif.Formatter
open Verif.Math hiding P

/-- Induction over nodes and lists of nodes. -/
theorem node_induct {P : Node → Prop} {Q : List Node → Prop} (ab : ∀ i ns, Q ns → P (.ab i ns))
    (sr : ∀ x y i j ns, Q ns → P (.sr x y i j ns)) (leaf : ∀ n, isBlock n = false → P n) (nil : Q [])
    (cons : ∀ n ns, P n → Q ns → Q (n :: ns)) (ns : List Node) : Q ns := by
  refine Node.rec_1 (motive_1 := P) (motive_2 := Q) ?_ ?_ ?_ ?_ ?_ ?_ ?_ ?_ ?_ ?_ ?_ ?_ ?_ ?_ ?_ ?_ ?_ ?_ ?_ ?_ ?_ ?_ ?_ ?_
    ?_ ?_ ?_ ?_ ?_ ?_ ?_ ?_ ?_ ?_ ?_ ?_ ?_ ?_ ?_ ?_ ?_ ?_ ?_ ?_ ?_ ?_ ?_ ?_ ?_ ?_ ?_ ?_ ?_ ?_ ?_ ns
  all_goals first | exact nil | (intros; apply leaf; rfl) | (intros; apply ab; assumption) | (intros; apply sr; assumption) |
    (intros; apply cons <;> assumption)

/-! ## Commands up to line breaks -/

theorem bareAll_append (p : GCode → Bool) (ns ms : List Node) : bareAll p (ns ++ ms) = bareAll p ns ++ bareAll p ms := by
  induction ns with
  | nil => simp [bareAll]
  | cons n ns ih => simp [bareAll, ih]

theorem bare_leaf {p : GCode → Bool} {n : Node} (hb : isBlock n = false) (hg : isG n = false) : bare p n = [withFlag true n] := by
  cases n <;> simp only [isBlock, isG, Bool.true_eq_false] at hb hg <;> simp only [bare]

theorem flag_facts (s : Bool) (n : Node) : isBlock (withFlag s n) = isBlock n ∧ isG (withFlag s n) = isG n ∧
    isMacro (withFlag s n) = isMacro n ∧ withFlag true (withFlag s n) = withFlag true n := by
  cases n <;> exact ⟨rfl, rfl, rfl, rfl⟩

theorem bare_norm (o : Opts) (ns : List Node) (j : Bool) :
    bareAll (fun _ => false) (normAll o j ns) = bareAll (removed o) ns := by
  revert j
  refine node_induct (P := fun n => ∀ j, bareAll (fun _ => false) (norm o j n) = bare (removed o) n)
    (Q := fun ns => ∀ j, bareAll (fun _ => false) (normAll o j ns) = bareAll (removed o) ns) ?_ ?_ ?_ ?_ ?_ ns
  · intro i ns ih j; simp [norm, bare, bareAll, ih]
  · intro x y i k ns ih j; simp [norm, bare, bareAll, ih]
  · intro n hb j
    by_cases hg : isG n = true
    · cases n <;> simp only [isG, Bool.false_eq_true] at hg
      rename_i c s
      rw [norm_g]
      simp only [bare]
      split <;> simp [bareAll, bare]
    · have hg : isG n = false := by simpa using hg
      obtain ⟨f1, f2, f3, f4⟩ := flag_facts (!j) n
      rw [norm_leaf hb hg, bare_leaf hb hg]
      simp only [bareAll, bare_leaf (f1.trans hb) (f2.trans hg), f4, List.append_nil]
  · intro j; simp [normAll, bareAll]
  · intro n ns h1 h2 j
    simp only [normAll, bareAll, bareAll_append, h1, h2]

/-! ## Printing the same text again -/

theorem nodes_append (o : Opts) (ns ms : List Node) (base : Text) : nodes o base (ns ++ ms) =
    ((nodes o base ns).1 ++ (nodes o (nodes o base ns).2 ms).1, (nodes o (nodes o base ns).2 ms).2) := by
  induction ns generalizing base with
  | nil => simp [nodes]
  | cons n ns ih => simp [nodes, ih]

theorem nodes_singleton (o : Opts) (n : Node) (base : Text) : nodes o base [n] = node o base n := by
  simp [nodes]

theorem leaf_flag (o : Opts) (s : Bool) (n : Node) : leaf o (withFlag s n) = leaf o n := by
  cases n <;> rfl

theorem reformat_split {o : Opts} (hk : o.keep = false) (hr : ∀ c, removed o c = false) (ns : List Node) (base : Text) (j : Bool) :
    nodes o base (normAll o j ns) = nodes o base ns := by
  revert base j
  refine node_induct (P := fun n => ∀ base j, nodes o base (norm o j n) = node o base n)
    (Q := fun ns => ∀ base j, nodes o base (normAll o j ns) = nodes o base ns) ?_ ?_ ?_ ?_ ?_ ns
  · intro i ns ih base j; simp [norm, nodes_singleton, node, ih]
  · intro x y i k ns ih base j; simp [norm, nodes_singleton, node, ih]
  · intro n hb base j
    by_cases hg : isG n = true
    · cases n <;> simp only [isG, Bool.false_eq_true] at hg
      rename_i c s
      rw [norm_g, hr c]
      simp only [Bool.false_eq_true, if_false, nodes_singleton, node_g, leaf_g, indent_g, gText, hk]
      simp
    · have hg : isG n = false := by simpa using hg
      obtain ⟨f1, f2, f3, f4⟩ := flag_facts (!j) n
      rw [norm_leaf hb hg, nodes_singleton]
      by_cases hm : isMacro n = true
      · cases n <;> simp only [isMacro, Bool.false_eq_true] at hm
        rfl
      · have hm : isMacro n = false := by simpa using hm
        rw [node_leaf hb hm, node_leaf (f1.trans hb) (f3.trans hm), leaf_flag]
        congr 2
        cases n <;> simp [withFlag, indent, hk]
  · intro base j; simp [normAll, nodes]
  · intro n ns h1 h2 base j
    rw [normAll, nodes_append, h1, h2]
    rfl

theorem reformat_flat {o : Opts} (ha : o.abIndent = []) (hs : o.srIndent = []) (h1 : o.d01Indent = []) (h2 : o.d02Indent = [])
    (h3 : o.d03Indent = []) (ns : List Node) (j : Bool) :
    nodes o [] (normAll o j ns) = nodes o [] ns ∧ (nodes o [] ns).2 = [] := by
  revert j
  refine node_induct (P := fun n => ∀ j, nodes o [] (norm o j n) = node o [] n ∧ (node o [] n).2 = [])
    (Q := fun ns => ∀ j, nodes o [] (normAll o j ns) = nodes o [] ns ∧ (nodes o [] ns).2 = []) ?_ ?_ ?_ ?_ ?_ ns
  · intro i ns ih j
    obtain ⟨a, b⟩ := ih false
    simp [norm, nodes_singleton, node, ha, a, b, decrease]
  · intro x y i k ns ih j
    obtain ⟨a, b⟩ := ih false
    simp [norm, nodes_singleton, node, hs, a, b, decrease]
  · intro n hb j
    by_cases hg : isG n = true
    · cases n <;> simp only [isG, Bool.false_eq_true] at hg
      rename_i c s
      rw [norm_g, node_g]
      refine ⟨?_, rfl⟩
      rcases gText_cases o c s with ⟨h, e⟩ | ⟨h, h', e⟩ | ⟨h, h', h'', e⟩
      · simp [h, leaf_g, e, indent_g, nodes]
      · rcases h' with rfl | h'
        · simp [h, nodes_singleton, node_g]
        · simp only [h, h', leaf_g, e, indent_g]
          simp only [Bool.not_false, Bool.or_true, Bool.false_eq_true, if_false, nodes_singleton, node_g, leaf_g, indent_g]
          rcases gText_cases o c true with ⟨g, _⟩ | ⟨_, _, e'⟩ | ⟨_, g, _⟩
          · rw [h] at g; cases g
          · rw [e']
          · cases g
      · simp [h, h'', nodes_singleton, node_g]
    · have hg : isG n = false := by simpa using hg
      obtain ⟨f1, f2, f3, f4⟩ := flag_facts (!j) n
      rw [norm_leaf hb hg, nodes_singleton]
      by_cases hm : isMacro n = true
      · cases n <;> simp only [isMacro, Bool.false_eq_true] at hm
        exact ⟨rfl, by simp [node]⟩
      · have hm : isMacro n = false := by simpa using hm
        rw [node_leaf hb hm, node_leaf (f1.trans hb) (f3.trans hm), leaf_flag]
        refine ⟨?_, rfl⟩
        congr 2
        cases n <;> simp [withFlag, indent, h1, h2, h3]
  · intro j; simp [normAll, nodes]
  · intro n ns h1 h2 j
    obtain ⟨a, b⟩ := h1 j
    obtain ⟨c, d⟩ := h2 (joins o n)
    rw [normAll, nodes_append, a]
    simp only [nodes, b, c, d, and_self]

end Verif.Grammar
