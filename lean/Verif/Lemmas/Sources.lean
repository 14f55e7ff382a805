import Verif.Lemmas.Fits
import Verif.Lemmas.Recover

/-!
# Files with positions
-/

namespace Verif.Spans

open Verif.Text Verif.Fmt Verif.Syntax Verif.Spec
open Verif.Math hiding P
open Verif.Peg (Text Res P firstOf Skips)
open Verif.Grammar (Entry Suf Eats Agree Parsed parseAll parsePlain parseResilient)

theorem manyFuel_more {α : Type} {p : L α} (h : Eats (erase p)) (h0 : p [] = .fail) :
    ∀ n m s, s.length ≤ n → s.length ≤ m → manyFuel p n s = manyFuel p m s := by
  have nil : ∀ n, manyFuel p n [] = .ok ⟨[], 0, []⟩ [] := by
    intro n
    cases n with
    | zero => rfl
    | succ n => simp only [manyFuel, h0]
  intro n
  induction n with
  | zero =>
    intro m s hn _
    have : s = [] := List.length_eq_zero_iff.1 (by omega)
    subst this
    rw [nil, nil]
  | succ n ih =>
    intro m s hn hm
    cases m with
    | zero =>
      have : s = [] := List.length_eq_zero_iff.1 (by omega)
      subst this
      rw [nil, nil]
    | succ m =>
      simp only [manyFuel]
      cases hp : p s with
      | ok a r =>
        have := (h _ _ _ (erase_ok hp)).2
        simp only [ih m r (by omega) (by omega)]
      | fail => rfl
      | raised => rfl

theorem many1_many {α : Type} {p : L α} (h : Eats (erase p)) (h0 : p [] = .fail) {s r : Text} {o : Out (List α)}
    (e : many1 p s = .ok o r) : manyFuel p s.length s = .ok o r ∧ o.val ≠ [] := by
  obtain ⟨a, t, b, h1, h2, rfl⟩ := andThen_ok e
  obtain ⟨c, t', d, h3, h4, rfl⟩ := andThen_ok h2
  simp only [ret, Res.ok.injEq] at h4
  obtain ⟨rfl, rfl⟩ := h4
  have hl := (h _ _ _ (erase_ok h1)).2
  refine ⟨?_, by simp⟩
  cases hs : s.length with
  | zero => omega
  | succ n =>
    unfold many at h3
    rw [manyFuel_more h h0 t.length n t (Nat.le_refl _) (by omega)] at h3
    simp only [manyFuel, h1, h3, List.append_nil, Nat.add_zero]

/-- What is known about the items of a file. -/
structure Items {α : Type} (item : Nat → L (List α)) (item' : Nat → P (List α)) (J : α → Bool) (R : α → Info → Prop) : Prop where
  same : ∀ k, erase (item k) = item' k
  cover : ∀ k, Cover (item k)
  shapes : ∀ k s o r, item k s = .ok o r → Group J s o.val o.spans ∧ ∀ total, List.Forall₂ R o.val (infos total o.spans)
  eats : ∀ k, Eats (item' k)
  nil : ∀ k, item' k [] = .fail
  skips : ∀ k, Skips (item' k)
  agree : ∀ {n k k'}, n ≤ k → n ≤ k' → Agree n (item' k) (item' k')

variable {α : Type} {item : Nat → L (List α)} {item' : Nat → P (List α)} {J : α → Bool} {R : α → Info → Prop}

theorem Items.parse (h : Items item item' J R) (k : Nat) (strict : Bool) (s : Text) :
    (sourceOf (item k) strict s).map Source.nodes =
      match parseAll (item' k) strict s with
      | .file f => some f
      | _ => none := by
  unfold sourceOf parseAll
  rw [← h.same k, ← erase_many1]
  cases hm : many1 (item k) s with
  | ok o r =>
    rw [erase_ok hm]
    simp only
    split <;> rfl
  | fail => simp only [erase, hm]; rfl
  | raised => simp only [erase, hm]; rfl

theorem Items.some (h : Items item item' J R) {k : Nat} {strict : Bool} {s : Text} {src : Source α}
    (e : sourceOf (item k) strict s = some src) : ∃ o r, many1 (item k) s = .ok o r ∧ src = ⟨o.val.flatten, infos s.length o.spans⟩ ∧
      (strict = true → skip r = []) ∧ manyFuel (item k) s.length s = .ok o r ∧ o.val ≠ [] := by
  unfold sourceOf at e
  cases hm : many1 (item k) s with
  | ok o r =>
    rw [hm] at e
    simp only at e
    split at e
    · cases e
    · rename_i hc
      simp only [Option.some.injEq] at e
      refine ⟨o, r, rfl, e.symm, fun hs => ?_, many1_many (by rw [h.same]; exact h.eats k) ?_ hm⟩
      · subst hs
        simpa using hc
      · apply fail_of_erase
        rw [h.same]; exact h.nil k
  | fail => rw [hm] at e; cases e
  | raised => rw [hm] at e; cases e

theorem Items.tiles (h : Items item item' J R) {k : Nat} {strict : Bool} {s : Text} {src : Source α}
    (e : sourceOf (item k) strict s = Option.some src) :
    ∃ stop, Tiles s 0 src.infos stop ∧ (strict = true → ∀ c ∈ s.drop stop, isBlank c = true) := by
  obtain ⟨o, r, hm, rfl, hr, -, -⟩ := h.some e
  obtain ⟨ht, -⟩ := (h.cover k).many1 _ _ _ hm
  obtain ⟨h1, h2⟩ := tiles_of_tiled ht (List.suffix_refl s)
  rw [Nat.sub_self] at h1
  refine ⟨_, h1, fun hs c hc => ?_⟩
  obtain ⟨b, hb⟩ := h2
  have : s.drop (s.length - r.length) = r := by rw [← hb]; simp
  rw [this] at hc
  obtain ⟨w, hw, -, hw'⟩ := skip_split r
  rw [hr hs, List.append_nil] at hw
  exact hw' c (hw ▸ hc)

theorem forall_manyFuel (h : ∀ s o r, item 0 s = .ok o r → Group J s o.val o.spans ∧ ∀ total, List.Forall₂ R o.val (infos total o.spans)) :
    ∀ (n : Nat) (s r : Text) (o : Out (List (List α))),
    manyFuel (item 0) n s = .ok o r → ∀ total, List.Forall₂ R o.val.flatten (infos total o.spans)
  | 0, s, r, o, e, total => by
    simp only [Spans.manyFuel, ret, Res.ok.injEq] at e
    obtain ⟨rfl, -⟩ := e
    exact .nil
  | n + 1, s, r, o, e, total => by
    rcases manyFuel_ok e with ⟨-, rfl, rfl⟩ | ⟨a, t, b, h1, h2, rfl⟩
    · exact .nil
    · simp only [List.flatten_cons, infos_append]
      exact List.rel_append ((h _ _ _ h1).2 total) (forall_manyFuel h n _ _ _ h2 total)

theorem Items.fits (h : Items item item' J R) {k : Nat} {strict : Bool} {s : Text} {src : Source α}
    (e : sourceOf (item k) strict s = Option.some src) : List.Forall₂ R src.nodes src.infos := by
  obtain ⟨o, r, hm, rfl, -, hf, -⟩ := h.some e
  exact forall_manyFuel (item := fun _ => item k) (h.shapes k) _ _ _ _ hf _

theorem Items.again (h : Items item item' J R) {strict : Bool} {s : Text} {src : Source α}
    (e : sourceOf (item s.length) strict s = Option.some src) (k : Nat) (i : Info) (hi : src.infos[k]? = Option.some i)
    (hj : ∀ j a, k = j + 1 → src.nodes[j]? = Option.some a → J a = false) :
    parseAll (item' (s.drop i.location).length) strict (s.drop i.location) = .file (src.nodes.drop k) := by
  obtain ⟨o, r, hm, rfl, hr, hf, -⟩ := h.some e
  obtain ⟨t, m, vs, ht, hloc, hml, hsk, hvs, hne, hd⟩ := reread (J := J) (fun s o r e => (h.shapes _ s o r e).1)
    (by rw [h.same]; exact h.skips _) (by rw [h.same]; exact h.eats _) s.length _ _ _ _ k i (Nat.le_refl _) (Nat.le_refl _) hf hi hj
  obtain ⟨b, hb⟩ := ht
  have hdrop : s.drop i.location = t := by rw [hloc, ← hb]; simp
  rw [hdrop]
  rw [h.same] at hvs
  have hlen : t.length ≤ s.length := by rw [← hb]; simp
  rw [Grammar.manyFuel_more (h.eats _) (h.nil _) m t.length t hml (Nat.le_refl _)] at hvs
  have hvs' : Peg.many (item' t.length) t = .ok vs r :=
    ((h.agree (Nat.le_refl _) hlen).many (h.eats _).suf t (Nat.le_refl _)).trans hvs
  have hnf : item' t.length t ≠ .fail := by
    intro hfail
    rw [Grammar.many_fail hfail] at hvs'
    simp only [Res.ok.injEq] at hvs'
    exact hne hvs'.1.symm
  unfold parseAll
  rw [Grammar.many1_eq (h.eats _) (h.nil _) hnf, hvs']
  simp only [hd]
  split
  · rename_i hc
    simp only [Bool.and_eq_true, bne_iff_ne, ne_eq] at hc
    exact absurd (hr hc.1) hc.2
  · rfl

theorem items_plain (rd : Text → Option Text) :
    Items (rootItem rd) (Grammar.rootItem rd) joined Fits where
  same := erase_rootItem rd
  cover := cover_rootItem rd
  shapes := shapes_rootItem rd
  eats := Grammar.eats_rootItem rd
  nil := Grammar.root_nil rd
  skips := Grammar.skips_rootItem rd
  agree := Grammar.agree_root rd

theorem items_resilient (rd : Text → Option Text) :
    Items (resilientItem rd) (Grammar.resilientItem rd) joinedEntry FitsEntry where
  same := erase_resilientItem rd
  cover := cover_resilientItem rd
  shapes := shapes_resilientItem rd
  eats := Grammar.eats_resilient rd
  nil := Grammar.resilient_nil rd
  skips := Grammar.skips_resilient rd
  agree := Grammar.agree_resilient rd

/-! ## Lines and columns -/

theorem before_iff {source : Text} {a b : Nat} (h : a < b) (hb : b ≤ source.length) :
    lineAt source a < lineAt source b ∨ lineAt source a = lineAt source b ∧ columnAt source a < columnAt source b := by
  obtain ⟨mid, hm, hne⟩ : ∃ mid, source.take b = source.take a ++ mid ∧ mid ≠ [] := by
    refine ⟨(source.take b).drop a, ?_, ?_⟩
    · conv_lhs => rw [← List.take_append_drop a (source.take b)]
      rw [List.take_take, Nat.min_eq_left (Nat.le_of_lt h)]
    · intro e
      have := congrArg List.length e
      simp at this; omega
  unfold lineAt columnAt
  rw [hm, List.count_append]
  by_cases hc : mid.count '\n' = 0
  · right
    refine ⟨by omega, ?_⟩
    have hall : ∀ c ∈ mid.reverse, (c != '\n') = true := by
      intro c hc'
      simp only [bne_iff_ne, ne_eq]
      rintro rfl
      exact (List.count_eq_zero.1 hc) (List.mem_reverse.1 hc')
    rw [List.reverse_append, List.takeWhile_append_of_pos hall, List.length_append, List.length_reverse]
    have := List.length_pos_iff.2 hne
    omega
  · left; omega

theorem _root_.Verif.Spec.Tiles.range {source : Text} {a b : Nat} {is : List Info} (h : Tiles source a is b) :
    a ≤ b ∧ ∀ i ∈ is, a ≤ i.location ∧ 0 < i.length ∧ i.endLocation ≤ b ∧ i.location < source.length := by
  induction h with
  | nil a => exact ⟨Nat.le_refl _, by simp⟩
  | leaf before blanks text after ih =>
    obtain ⟨t1, t2, t3, -⟩ := text
    obtain ⟨h1, h2⟩ := ih
    refine ⟨by omega, ?_⟩
    intro i hi
    rcases List.mem_cons.1 hi with rfl | hi
    · simp only [Info.location, Info.length, Info.endLocation]; omega
    · have := h2 i hi; omega
  | block before blanks text inside after ih1 ih2 =>
    obtain ⟨t1, t2, t3, -⟩ := text
    obtain ⟨h1, h2⟩ := ih2
    refine ⟨by omega, ?_⟩
    intro i hi
    rcases List.mem_cons.1 hi with rfl | hi
    · simp only [Info.location, Info.length, Info.endLocation]; omega
    · have := h2 i hi; omega

theorem _root_.Verif.Spec.Tiles.apart {source : Text} {a b : Nat} {is : List Info} (h : Tiles source a is b) :
    is.Pairwise fun i j => i.endLocation ≤ j.location := by
  induction h with
  | nil a => exact .nil
  | leaf before blanks text after ih =>
    refine .cons (fun j hj => ?_) ih
    have := after.range.2 j hj
    obtain ⟨t1, t2, t3, -⟩ := text
    simp only [Info.location, Info.length, Info.endLocation] at *; omega
  | block before blanks text inside after ih1 ih2 =>
    refine .cons (fun j hj => ?_) ih2
    have := after.range.2 j hj
    obtain ⟨t1, t2, t3, -⟩ := text
    simp only [Info.location, Info.length, Info.endLocation] at *; omega

theorem _root_.Verif.Spec.Tiles.stop_le {source : Text} {b : Nat} {is : List Info} (h : Tiles source 0 is b) : b ≤ source.length := by
  have key : ∀ {a b is}, Tiles source a is b → a ≤ source.length → b ≤ source.length := by
    intro a b is h
    induction h with
    | nil a => exact id
    | leaf before blanks text after ih => exact fun _ => ih text.1
    | block before blanks text inside after ih1 ih2 => exact fun _ => ih2 text.1
  exact key h (Nat.zero_le _)

theorem inked_none {w : Text} (h : ∀ c ∈ w, isBlank c = true) : inked w = 0 := by
  simp only [inked, List.length_eq_zero_iff, List.filter_eq_nil_iff]
  intro c hc
  have : isSpace c = true := h c hc
  simp [this]

theorem inked_all {w : Text} (h : ∀ c ∈ w, isBlank c = false) : inked w = w.length := by
  unfold inked
  rw [List.filter_eq_self.2]
  intro c hc
  have : isSpace c = false := h c hc
  simp [this]

theorem slice_append {source : Text} {a b c : Nat} (h : a ≤ b) (h' : b ≤ c) : slice source a c = slice source a b ++ slice source b c := by
  unfold slice
  have : c - a = (b - a) + (c - b) := by omega
  rw [this, List.take_add, List.drop_drop]
  have : a + (b - a) = b := by omega
  rw [this]

/-- The length of a node counts at least the characters up to the next node that are not blank. -/
theorem _root_.Verif.Spec.Tiles.between {source : Text} {a b : Nat} {pre post : List Info} {i j : Info}
    (h : Tiles source a (pre ++ i :: j :: post) b) :
    inked (slice source i.location j.location) ≤ i.length ∧ i.endLocation ≤ j.location ∧ j.location < source.length := by
  have step : ∀ {stop : Nat}, ReadFrom source i.location stop i.length → Tiles source stop (j :: post) b →
      inked (slice source i.location j.location) ≤ i.length ∧ i.endLocation ≤ j.location ∧ j.location < source.length := by
    intro stop ht hn
    obtain ⟨t1, t2, t3, t4, -⟩ := ht
    have hr := hn.range.2 j List.mem_cons_self
    have hb : ∀ c ∈ slice source stop j.location, isBlank c = true := by
      cases hn <;> assumption
    rw [slice_append (b := stop) (by omega) (by omega), inked_append, inked_none hb]
    unfold Info.endLocation
    omega
  induction pre generalizing a with
  | nil =>
    cases h with
    | leaf before blanks text after => exact step text after
    | block before blanks text inside after => exact step text after
  | cons p pre ih =>
    cases h with
    | leaf before blanks text after => exact ih after
    | block before blanks text inside after => exact ih after

theorem standAt_iff (source : Text) (is : List Info) (ns : List Finder.Node) : StandAt source is ns ↔ List.Forall₂ (StandsAt source) is ns := by
  induction is generalizing ns with
  | nil => simp [StandAt]
  | cons n is ih =>
    simp only [StandAt]
    constructor
    · rintro ⟨i, js, rfl, h1, h2⟩; exact .cons h1 ((ih _).1 h2)
    · rintro (_ | ⟨h1, h2⟩); exact ⟨_, _, rfl, h1, (ih _).2 h2⟩

theorem standsAt_start {source : Text} {i : Info} {n : Finder.Node} (h : StandsAt source i n) :
    StartsAt n (lineAt source i.location) (columnAt source i.location) := by
  cases i; exact h.1

theorem standsAt_parts {source : Text} {i : Info} {n : Finder.Node} (h : StandsAt source i n) : StandAt source i.parts n.parts := by
  cases i; exact h.2

/-- Siblings are in order. -/
theorem inOrder_of_apart {source : Text} {a b : Nat} {is : List Info} (h : Tiles source a is b) {ns : List Finder.Node}
    (hn : StandAt source is ns) : InOrder ns := by
  rw [standAt_iff] at hn
  have hr := h.range.2
  have ha := h.apart
  clear h
  induction hn with
  | nil => exact ⟨by simp, .nil⟩
  | @cons i n is ns h1 h2 ih =>
    obtain ⟨o1, o2⟩ := ih (fun j hj => hr j (List.mem_cons_of_mem _ hj)) (List.pairwise_cons.1 ha).2
    refine ⟨?_, .cons ?_ o2⟩
    · intro m hm
      rcases List.mem_cons.1 hm with rfl | hm
      · exact ⟨_, _, standsAt_start h1⟩
      · exact o1 m hm
    · intro m hm p q c d hp hq
      obtain ⟨j, hj, hjm⟩ : ∃ j ∈ is, StandsAt source j m := by
        clear ih hr ha o1 o2
        induction h2 with
        | nil => cases hm
        | cons g1 g2 ih' =>
          rcases List.mem_cons.1 hm with rfl | hm
          · exact ⟨_, List.mem_cons_self, g1⟩
          · obtain ⟨j, hj, hjm⟩ := ih' hm
            exact ⟨j, List.mem_cons_of_mem _ hj, hjm⟩
      have e1 := standsAt_start h1
      have e2 := standsAt_start hjm
      unfold StartsAt at e1 e2 hp hq
      rw [e1] at hp; rw [e2] at hq
      simp only [Option.some.injEq, Prod.mk.injEq] at hp hq
      obtain ⟨rfl, rfl⟩ := hp
      obtain ⟨rfl, rfl⟩ := hq
      have g1 := hr i List.mem_cons_self
      have g2 := hr j (List.mem_cons_of_mem _ hj)
      have g3 := (List.pairwise_cons.1 ha).1 j hj
      unfold Info.endLocation at g3
      exact before_iff (by omega) (by omega)

theorem deep_of_tiles {source : Text} {a b : Nat} {is : List Info} (h : Tiles source a is b) {ns : List Finder.Node}
    (hn : StandAt source is ns) : DeepInOrder ns := by
  refine .mk _ (inOrder_of_apart h hn) ?_
  induction h generalizing ns with
  | nil a => simp only [StandAt] at hn; subst hn; simp
  | leaf before blanks text after ih =>
    simp only [StandAt] at hn
    obtain ⟨m, ms, rfl, h1, h2⟩ := hn
    intro n hn hp
    rcases List.mem_cons.1 hn with rfl | hn
    · exact absurd h1.2 hp
    · exact ih h2 n hn hp
  | block before blanks text inside after ih1 ih2 =>
    simp only [StandAt] at hn
    obtain ⟨m, ms, rfl, h1, h2⟩ := hn
    intro n hn hp
    rcases List.mem_cons.1 hn with rfl | hn
    · exact .mk _ (inOrder_of_apart inside h1.2) (ih1 h1.2)
    · exact ih2 h2 n hn hp

end Verif.Spans
