import Verif.Lemmas.Resolve

/-!
# Properties C14 and C16: layer order
-/

namespace Verif.Props.Resolve
open Verif.Compiler Verif.Rvmc Verif.Spec Relation

/-! ## C14: compiled programs are well formed -/

theorem sources_mem {ι : Type} {cmds : List (Draw ι)} {src center neg} (h : Draw.paste src center neg ∈ cmds) :
    src ∈ Draw.sources cmds :=
  List.mem_filterMap.2 ⟨_, h, rfl⟩

/-- C14.  Whatever the clock, the iteration order of sets and the recursion limit: a program that compiles is a
sequence of complete layers, the main one last and only once, each pasted layer being completed before. -/
theorem c14_well_formed (env : Env) (hiter : ∀ l, (env.iter l).Perm l) (ignore : Bool) (file : List Visitor.Cmd)
    (prog : List (Command LayerId)) (h : compile env ignore file = .ok prog) : WellFormed LayerId.main prog := by
  unfold compile finish at h
  simp only [bind, Except.bind] at h
  cases hf : feed env (Visitor.processFile ignore file).ev CState.init with
  | error e => simp [hf] at h
  | ok c =>
    simp only [hf] at h
    cases he : (Visitor.processFile ignore file).exn with
    | some e => simp [he] at h
    | none =>
      simp only [he, convert, bind, Except.bind] at h
      cases hr : resolve (dependsOn env c.buffers) env.depth .main [] with
      | error e => simp [hr] at h
      | ok order =>
        simp only [hr, pure, Except.pure, Except.ok.injEq] at h
        obtain ⟨⟨new, hn⟩, hord, hone⟩ := resolve_spec _ _ _ _ hr
        have hord := hord (by intro pre x post h; simp at h)
        have hone := hone (by simp)
        let mk : LayerId → Layer LayerId := fun id => ⟨id, (c.buffers.get? id).getD []⟩
        refine ⟨new.map mk, mk .main, ?_, rfl, ?_, ?_⟩
        · rw [← h, hn]
          simp [program, layerCommands, mk, List.flatMap_map, List.flatMap_append]
        · intro l hl
          obtain ⟨id, hid, rfl⟩ := List.mem_map.1 hl
          rintro (rfl : id = .main)
          rw [hn, List.count_append] at hone
          have h0 : new.count LayerId.main = 0 := by simpa using hone
          exact (List.count_eq_zero.1 h0) hid
        · intro pre l post hsplit src center neg hp
          have hsplit' : order.map mk = pre ++ l :: post := by rw [hn]; simpa using hsplit
          obtain ⟨a, b, hab, ha, hb⟩ := List.map_eq_append_iff.1 hsplit'
          obtain ⟨x, d, hxd, hx, hd⟩ := List.map_eq_cons_iff.1 hb
          have hneeds : Needs (dependsOn env c.buffers) x src := by
            subst hx
            cases hg : c.buffers.get? x with
            | none => simp [mk, hg] at hp
            | some cmds =>
              refine ⟨env.iter (Draw.sources cmds).dedup, by simp [dependsOn, hg], ?_⟩
              rw [(hiter _).mem_iff, List.mem_dedup]
              simp only [mk, hg, Option.getD_some] at hp
              exact sources_mem hp
          have := hord a x d (by rw [hab, hxd]) src hneeds
          exact ⟨mk src, by rw [← ha]; exact List.mem_map_of_mem this, rfl⟩

/-! ## C16: dependencies -/

/-- `main` needs 1 and 2, both need 3, which needs 4: no cycle. -/
def diamond : Nat → Option (List Nat)
  | 0 => some [1, 2]
  | 1 => some [3]
  | 2 => some [3]
  | 3 => some [4]
  | 4 => some []
  | _ => none

theorem diamond_down {a b : Nat} (h : Reach diamond a b) : a < b := by
  have one : ∀ {a b}, Needs diamond a b → a < b := by
    rintro a b ⟨ds, h, hb⟩
    unfold diamond at h
    split at h <;> simp at h <;> subst h <;> simp at hb <;> omega
  induction h with
  | single h => exact one h
  | tail _ h ih => exact lt_trans ih (one h)

/-- C16 is false: a graph without a cycle in which two layers need a third one that has needs of its own is reported
as cyclic. -/
theorem c16_false_diamond :
    (∀ x, ¬ Reach diamond x x) ∧ ∀ n, 4 ≤ n → resolve diamond n 0 [] = .error .cyclic := by
  refine ⟨fun x h => lt_irrefl _ (diamond_down h), ?_⟩
  intro n hn
  obtain ⟨k, rfl⟩ := Nat.exists_eq_add_of_le hn
  rw [Nat.add_comm]
  rfl

/-- Two layers that need each other. -/
def twoCycle : Bool → Option (List Bool) := fun b => some [!b]

/-- C16 is false: a cycle is never reported as such; whatever the recursion limit, that is what is reached. -/
theorem c16_false_cycle : Reach twoCycle true true ∧ ∀ n, resolve twoCycle n true [] = .error .recursion := by
  refine ⟨.tail (.single ⟨_, rfl, by simp⟩) (b := false) ⟨_, rfl, by simp⟩, ?_⟩
  have key : ∀ n b, resolve twoCycle n b [] = .error .recursion := by
    intro n
    induction n with
    | zero => intro b; rfl
    | succ n ih =>
      intro b
      simp only [resolve, twoCycle, resolve.loop, bind, Except.bind]
      rw [ih]
  exact fun n => key n true

/-- C16, what holds of cycles: with a cycle within reach of the main layer there is no layer order, whatever the
recursion limit. -/
theorem c16_cycle_partial {ι : Type} [DecidableEq ι] (deps : ι → Option (List ι)) (root x : ι)
    (hx : Within deps root x) (hc : Reach deps x x) (n : Nat) : ∃ e, resolve deps n root [] = .error e := by
  cases h : resolve deps n root [] with
  | error e => exact ⟨e, rfl⟩
  | ok r => exact absurd h (resolve_cycle hx hc n [] r)

/-- C16, what holds without cycles: in a finite graph without a cycle, in which everything needed exists and no layer
with needs of its own is needed by two layers, the order is found, with any recursion limit above the number of
layers; it contains exactly the layers needed, each after those it needs.
Missing: shared layers with needs of their own (`c16_false_diamond`). -/
theorem c16_acyclic_partial {ι : Type} [DecidableEq ι] (deps : ι → Option (List ι)) (root : ι) (nodes : List ι)
    (hroot : root ∈ nodes)
    (hdeps : ∀ x ∈ nodes, ∃ ds, deps x = some ds ∧ ds.Nodup ∧ ∀ y ∈ ds, y ∈ nodes)
    (hacyclic : ∀ x, ¬ Reach deps x x)
    (hshare : ∀ x y z, Needs deps x z → Needs deps y z → (∃ w, Needs deps z w) → x = y)
    (n : Nat) (hn : nodes.length < n) :
    ∃ order, resolve deps n root [] = .ok order ∧ (∀ x, x ∈ order ↔ Within deps root x) ∧
      ∀ pre x post, order = pre ++ x :: post → ∀ y, Needs deps x y → y ∈ pre := by
  classical
  have hwithin : ∀ x, Within deps root x → x ∈ nodes := by
    intro x hx
    induction hx with
    | refl => exact hroot
    | tail _ h2 ih =>
      obtain ⟨ds, h, hm⟩ := h2
      obtain ⟨ds', h', _, h3⟩ := hdeps _ ih
      rw [h] at h'; cases h'
      exact h3 _ hm
  let rank : ι → Nat := fun x => (nodes.filter fun y => Reach deps x y).length
  have hrank : ∀ x y, Within deps root x → Needs deps x y → rank y < rank x := by
    intro x y hx hxy
    have hy : y ∈ nodes := hwithin y (hx.tail hxy)
    simp only [rank, ← List.countP_eq_length_filter]
    have hle : ∀ z ∈ nodes, decide (Reach deps y z) = true → decide (Reach deps x z) = true := by
      intro z _ hz
      simp only [decide_eq_true_eq] at hz ⊢
      exact TransGen.head hxy hz
    refine Nat.lt_of_le_of_ne (List.countP_mono_left hle) ?_
    intro heq
    obtain ⟨a, b, rfl⟩ := List.append_of_mem hy
    simp only [List.countP_append, List.countP_cons] at heq
    have h1 : List.countP (fun z => decide (Reach deps y z)) a ≤ List.countP (fun z => decide (Reach deps x z)) a :=
      List.countP_mono_left fun z hz => hle z (by simp [hz])
    have h2 : List.countP (fun z => decide (Reach deps y z)) b ≤ List.countP (fun z => decide (Reach deps x z)) b :=
      List.countP_mono_left fun z hz => hle z (by simp [hz])
    rw [if_neg (by simpa using hacyclic y), if_pos (by simpa using TransGen.single hxy)] at heq
    omega
  obtain ⟨order, h⟩ := resolve_ok rank root hrank
    (fun x hx => by obtain ⟨ds, h1, h2, _⟩ := hdeps x (hwithin x hx); exact ⟨ds, h1, h2⟩)
    (fun x y z _ _ => hshare x y z) n root [] .refl
    (lt_of_le_of_lt (List.length_filter_le _ _) hn) (by simp)
  obtain ⟨⟨new, hnew⟩, hord, -⟩ := resolve_spec n root [] order h
  have hord := hord (by intro pre x post h; simp at h)
  refine ⟨order, h, fun x => ⟨fun hx => by simpa using resolve_mem n root [] order h x hx, fun hx => ?_⟩, hord⟩
  induction hx with
  | refl => rw [hnew]; simp
  | tail _ h2 ih =>
    obtain ⟨a, b, hab⟩ := List.append_of_mem ih
    rw [hab]
    exact List.mem_append_left _ (hord a _ b hab _ h2)

/-- A layer shared by two others that draws shapes only. -/
def sharedLeaf : Nat → Option (List Nat)
  | 0 => some [1, 2]
  | 1 => some [3]
  | 2 => some [3]
  | 3 => some []
  | _ => none

example : (∀ x ∈ [0, 1, 2, 3], ∃ ds, sharedLeaf x = some ds ∧ ds.Nodup ∧ ∀ y ∈ ds, y ∈ [0, 1, 2, 3]) ∧
    resolve sharedLeaf 5 0 [] = .ok [3, 1, 3, 2, 0] := by
  constructor
  · intro x hx
    fin_cases hx <;> exact ⟨_, rfl, by decide, by decide⟩
  · decide

end Verif.Props.Resolve
