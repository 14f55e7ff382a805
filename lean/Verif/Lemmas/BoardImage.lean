import Verif.Lemmas.BoardPicture
import Verif.Lemmas.Dump
import Verif.Props.Board

/-!
# The files of the builder avoid what is known to be drawn wrongly
-/

namespace Verif.BoardPicture
open Verif.Visitor Verif.Coord Verif.Geom Verif.Compiler Verif.Macro Verif.Math Verif.Spec Verif.Spec.Board Verif.GerberBuilder
  Verif.GerberBuilder.Builder
  Verif.Props.Compiler Verif.Props.State Verif.Props.MacroShape Verif.Props.Picture Verif.Props.Board

/-! ### Shapes -/

/-- A shape that is drawn as prescribed (C65) and has a size: the holes are smaller than the apertures, and outlines in macros
go round once. -/
def FineShape : Board.Shape → Prop
  | .standard d => SoundAperture (fun _ => none) d ∧ PlainAperture (fun _ => none) d ∧ ∃ figures, ShapeFigures (.standard d) figures
  | .custom body => SoundMacro (parameter []) body ∧ PlainMacro (parameter []) body ∧ ∃ figures, ShapeFigures (.custom body) figures

/-- The macros of a board. -/
def macroOf (b : Builder) (n : Name) : Option (List Prim) := (b.macros.find? (·.1 = n)).map Prod.snd

theorem macroOf_mem {b : Builder} (hi : Ids b) {n : Name} {body : List Prim} (h : (n, body) ∈ b.macros) : macroOf b n = some body := by
  unfold macroOf
  cases hf : b.macros.find? (·.1 = n) with
  | none =>
    have := List.find?_eq_none.1 hf _ h
    simp at this
  | some m =>
    have hm := List.mem_of_find?_eq_some hf
    have hn : m.1 = n := by simpa using List.find?_some hf
    rw [hi.macro_unique hm h hn]
    rfl

theorem standard_paints {ms ms' : Name → Option (List Prim)} {d : ApDef} (hd : ∀ n ps, d ≠ .macro n ps) {fs : List (Bool × Figure)}
    (h : AperturePaints ms d fs) : AperturePaints ms' d fs := by
  cases h with
  | standard _ hf =>
    refine .standard hd ?_
    cases hf with
    | circle h => exact .circle h
    | rect h h' => exact .rect h h'
    | obround h h' => exact .obround h h'
    | polygon h h' => exact .polygon h h'
    | «macro» => exact absurd rfl (hd _ _)
  | «macro» => exact absurd rfl (hd _ _)

theorem standard_sound {ms ms' : Name → Option (List Prim)} {d : ApDef} (hd : ∀ n ps, d ≠ .macro n ps)
    (h : SoundAperture ms d) : SoundAperture ms' d := by
  cases d with
  | «macro» => exact absurd rfl (hd _ _)
  | _ => exact h

theorem standard_plain {ms ms' : Name → Option (List Prim)} {d : ApDef} (hd : ∀ n ps, d ≠ .macro n ps)
    (h : PlainAperture ms d) : PlainAperture ms' d := by
  cases h with
  | circle _ _ h => exact .circle _ _ h
  | rect _ _ _ h h' => exact .rect _ _ _ h h'
  | obround _ _ _ h h' => exact .obround _ _ _ h h'
  | polygon _ _ _ _ h => exact .polygon _ _ _ _ h
  | «macro» => exact absurd rfl (hd _ _)

theorem fine_node {b : Builder} (hi : Ids b) {w : Wish} {node : ApDef} (h : PadOf b.macros w node) (hs : ∀ s ∈ w.pads, FineShape s)
    (ho : ∀ o ∈ w.objects, PlainObject o) :
    SoundAperture (macroOf b) node ∧ PlainAperture (macroOf b) node ∧ ∃ figures, AperturePaints (macroOf b) node figures := by
  rcases h with ⟨shape, hm, ⟨hd, rfl⟩ | ⟨n, body, rfl, hb, rfl⟩⟩ | ⟨width, rfl, hw⟩
  · obtain ⟨h1, h2, fs, h3⟩ := hs _ hm
    exact ⟨standard_sound hd h1, standard_plain hd h2, fs, standard_paints hd h3⟩
  · obtain ⟨h1, h2, fs, h3⟩ := hs _ hm
    have e := macroOf_mem hi hb
    refine ⟨fun body' hb' => ?_, .macro _ _ fun body' hb' => ?_, fs, .macro e h3⟩
    · rw [e] at hb'; cases hb'; exact h1
    · rw [e] at hb'; cases hb'; exact h2
  · have pos : 0 < width := by
      rcases hw with rfl | ⟨k, p, e, c, hm⟩
      · exact one_pos
      · have := ho _ hm
        cases this <;> assumption
    exact ⟨nofun, .circle _ _ pos, _, .standard nofun (.circle pos.le)⟩

/-! ### The commands -/

/-- The commands of a board, without the end of the file. -/
def boardAtoms (b : Builder) : List Atom := (header b ++ b.draws.flatMap Draw.nodes).map .leaf

/-- The kinds of commands of a board. -/
theorem board_mem {b : Builder} (hi : Ids b) {l : Leaf} (hl : l ∈ header b ++ b.draws.flatMap Draw.nodes) :
    l = .fs format ∨ l = .mo .metric ∨ (∃ m ∈ b.macros, l = .am m.1 m.2) ∨ (∃ n v, l = .ta n v) ∨ (∃ n, l = .td n) ∨
      (∃ p ∈ b.pads, l = .ad p.id p.node) ∨ l = .g75 ∨ drawing l = true := by
  rw [header_eq] at hl
  simp only [List.mem_append, List.mem_cons, List.not_mem_nil, or_false, List.mem_map, List.mem_flatMap] at hl
  rcases hl with (((hl | hl) | ⟨m, hm, rfl⟩) | ⟨p, hp, hl⟩ | hl) | ⟨d, hd, hl⟩
  · exact .inl hl
  · exact .inr (.inl hl)
  · exact .inr (.inr (.inl ⟨m, hm, rfl⟩))
  · rw [Pad.nodes_eq] at hl
    rcases List.mem_append.1 hl with hl | hl
    · obtain ⟨a, -, rfl⟩ := List.mem_map.1 hl
      exact .inr (.inr (.inr (.inl ⟨_, _, rfl⟩)))
    · rcases List.mem_cons.1 hl with rfl | hl
      · exact .inr (.inr (.inr (.inr (.inr (.inl ⟨p, hp, rfl⟩)))))
      · split_ifs at hl
        · cases hl
        · rw [List.mem_singleton] at hl
          exact .inr (.inr (.inr (.inr (.inl ⟨_, hl⟩))))
  · exact .inr (.inr (.inr (.inr (.inr (.inr (.inl hl))))))
  · exact .inr (.inr (.inr (.inr (.inr (.inr (.inr (hi.draws d hd l hl).1))))))

theorem board_executed {b : Builder} (hi : Ids b) (resume : Bool) : executed resume (b.getCode.map Cmd.leaf) = boardAtoms b := by
  have key : ∀ ls : List Leaf, (∀ l ∈ ls, isStop (.leaf l) = false) →
      executed resume ((ls ++ [Leaf.m02]).map Cmd.leaf) = ls.map Atom.leaf := by
    intro ls
    induction ls with
    | nil => intro _; cases resume <;> rfl
    | cons l ls ih =>
      intro h
      have h1 := h l List.mem_cons_self
      have : executed resume ((l :: ls ++ [Leaf.m02]).map Cmd.leaf) = Atom.leaf l :: executed resume ((ls ++ [Leaf.m02]).map Cmd.leaf) := by
        show (if ([Atom.leaf l].any isStop) = true then _ else _) = _
        rw [List.any_cons, h1]
        rfl
      rw [this, ih fun l h' => h l (List.mem_cons_of_mem _ h')]
      rfl
  rw [getCode_eq, ← List.append_assoc]
  refine key _ fun l hl => ?_
  rcases board_mem hi hl with rfl | rfl | ⟨_, _, rfl⟩ | ⟨_, _, rfl⟩ | ⟨_, rfl⟩ | ⟨_, _, rfl⟩ | rfl | hl
  iterate 7 rfl
  cases l <;> first | rfl | cases hl

/-! ### Definitions -/

theorem board_macros {b : Builder} (hi : Ids b) {p q : List Atom} {id : Name} {d : ApDef}
    (e : boardAtoms b = p ++ .leaf (.ad id d) :: q) : (fun name => latest (givesMacro name) none p) = macroOf b := by
  unfold boardAtoms at e
  rw [header_eq, List.append_assoc, List.map_append] at e
  obtain ⟨c, rfl⟩ := after_of_not_mem e (by simp)
  rw [List.append_assoc (as := (preamble b).map Atom.leaf), List.append_cancel_left_eq] at e
  funext n
  rw [latest_append_of_none]
  · exact congrFun (preamble_macros hi) n
  · intro a ha
    have hm : a ∈ (b.pads.flatMap Pad.nodes ++ [Leaf.g75] ++ b.draws.flatMap Draw.nodes).map Atom.leaf := by
      rw [e]; simp [ha]
    obtain ⟨l, hl, rfl⟩ := List.mem_map.1 hm
    simp only [List.mem_append, List.mem_cons, List.not_mem_nil, or_false, List.mem_flatMap] at hl
    rcases hl with (⟨p, hp, hl⟩ | rfl) | ⟨d, hd, hl⟩
    · rw [Pad.nodes_eq] at hl
      rcases List.mem_append.1 hl with hl | hl
      · obtain ⟨a, -, rfl⟩ := List.mem_map.1 hl; rfl
      · rcases List.mem_cons.1 hl with rfl | hl
        · rfl
        · split_ifs at hl
          · cases hl
          · rw [List.mem_singleton] at hl; subst hl; rfl
    · rfl
    · have := (hi.draws d hd l hl).1
      clear * - this
      cases l <;> first | rfl | cases this

theorem board_ad {b : Builder} (hi : Ids b) {id : Name} {d : ApDef} (h : Atom.leaf (.ad id d) ∈ boardAtoms b) :
    ∃ p ∈ b.pads, p.id = id ∧ p.node = d := by
  obtain ⟨l, hl, e⟩ := List.mem_map.1 h
  cases e
  rcases board_mem hi hl with h | h | ⟨_, _, h⟩ | ⟨_, _, h⟩ | ⟨_, h⟩ | ⟨p, hp, h⟩ | h | h
  · cases h
  · cases h
  · cases h
  · cases h
  · cases h
  · cases h; exact ⟨p, hp, rfl, rfl⟩
  · cases h
  · cases h

theorem nil_thermals : ∀ (h : List Atom) (macros : Name → List Prim), (∀ n, (macros n).filterMap thermalNode = []) →
    (∀ n body, Atom.leaf (.am n body) ∈ h → body.filterMap thermalNode = []) → drawnThermals macros h = []
  | [], _, _, _ => rfl
  | a :: h, macros, hm, hb => by
    have ih := nil_thermals h
    have hb' : ∀ n body, Atom.leaf (.am n body) ∈ h → body.filterMap thermalNode = [] := fun n body h => hb n body (List.mem_cons_of_mem _ h)
    cases a with
    | leaf l =>
      cases l with
      | am name body =>
        show drawnThermals (fun n => if n = name then body else macros n) h = []
        refine ih _ (fun n => ?_) hb'
        split_ifs
        · exact hb name body List.mem_cons_self
        · exact hm n
      | ad id d =>
        cases d with
        | «macro» name params =>
          show (macros name).filterMap thermalNode ++ drawnThermals macros h = []
          rw [hm, ih _ hm hb']
          rfl
        | _ => exact ih _ hm hb'
      | _ => exact ih _ hm hb'
    | _ => exact ih _ hm hb'

theorem leaf_blocks : ∀ ls : List Leaf, openBlocks (ls.map .leaf) = [] := by
  intro ls
  induction ls using List.reverseRecOn with
  | nil => rfl
  | append_singleton ls l ih =>
    unfold openBlocks at ih ⊢
    rw [List.map_append, List.foldl_append, ih]
    rfl

theorem board_avoids {b : Builder} (hi : Ids b) (hu : (b.getCode.filterMap definedCode).Nodup) (ht : Dump.Holds Dump.notThermal b) {w : Wish}
    (hm : Made b w) (hs : ∀ s ∈ w.pads, FineShape s) (ho : ∀ o ∈ w.objects, PlainObject o)
    (hc : ∀ p a q, boardAtoms b = p ++ a :: q → Cond p a) : Avoids (boardAtoms b) where
  once := by
    intro id
    have e : (boardAtoms b).countP (opensCode id) = ((header b ++ b.draws.flatMap Draw.nodes).filterMap definedCode).count id := by
      unfold boardAtoms
      generalize header b ++ b.draws.flatMap Draw.nodes = ls
      induction ls with
      | nil => rfl
      | cons l ls ih =>
        rw [List.map_cons, List.countP_cons, ih]
        cases l <;> simp [opensCode, definedCode, List.count_cons, List.filterMap_cons]
    rw [e]
    rw [getCode_eq, ← List.append_assoc, List.filterMap_append] at hu
    exact List.nodup_iff_count_le_one.1 (List.nodup_append.1 hu).1 id
  thermals := by
    rw [nil_thermals]
    · exact List.nodup_nil
    · exact fun _ => rfl
    · intro n body h
      obtain ⟨l, hl, e⟩ := List.mem_map.1 h
      cases e
      rw [List.filterMap_eq_nil_iff]
      intro p hp
      rcases board_mem hi hl with h | h | ⟨m, hm, h⟩ | ⟨_, _, h⟩ | ⟨_, h⟩ | ⟨_, _, h⟩ | h | h
      · cases h
      · cases h
      · cases h
        have := (ht.macros m hm p hp).2
        cases p <;> first | rfl | cases this
      · cases h
      · cases h
      · cases h
      · cases h
      · cases h
  apertures := by
    intro p id d q e
    obtain ⟨pad, h1, -, rfl⟩ := board_ad hi (id := id) (d := d) (by rw [e]; simp)
    rw [board_macros hi e]
    exact (fine_node hi (hm.pads pad h1) hs ho).1
  flashes := fun p x y q e => (hc p _ q e).flash x y rfl
  blocks := by
    intro p x y q id e _ h
    have : Atom.abClose id ∈ boardAtoms b := by rw [e]; simp [h]
    obtain ⟨l, -, e⟩ := List.mem_map.1 this
    cases e
  strokes := fun p x y i j q e => (hc p _ q e).stroke x y i j rfl
  repeats := by
    intro p r q e
    have : Atom.srClose r ∈ boardAtoms b := by rw [e]; simp
    obtain ⟨l, -, e⟩ := List.mem_map.1 this
    cases e
  single := by
    intro p q e
    obtain ⟨a, c, -, rfl, -⟩ := List.map_eq_append_iff.1 e
    rw [leaf_blocks]
    exact Nat.zero_le _

/-! ### Outlines -/

theorem compiled_prefix {env : Env} {p q : List Atom} {c : CState} (ok : (run {} (p ++ q)).exn = none) (h : compiled env (p ++ q) = .ok c) :
    (run {} p).exn = none ∧ ∃ c', compiled env p = .ok c' := by
  have h1 := (run_append_none.1 ok).1
  rw [compiled_append h1, Compiler.bind_ok] at h
  obtain ⟨c', h2, -⟩ := h
  exact ⟨h1, c', h2⟩

theorem board_outlines {env : Env} {b : Builder} (hi : Ids b) {w : Wish} (hm : Made b w) (hs : ∀ s ∈ w.pads, FineShape s)
    (ho : ∀ o ∈ w.objects, PlainObject o) (hc : ∀ p a q, boardAtoms b = p ++ a :: q → Cond p a) (ha : Avoids (boardAtoms b))
    (hn : Nested (boardAtoms b)) (ok : (run {} (boardAtoms b)).exn = none) {c : CState} (hcomp : compiled env (boardAtoms b) = .ok c) :
    PlainOutlines (boardAtoms b) where
  apertures := by
    intro p id d q e
    obtain ⟨pad, h1, -, rfl⟩ := board_ad hi (id := id) (d := d) (by rw [e]; simp)
    rw [board_macros hi e]
    exact (fine_node hi (hm.pads pad h1) hs ho).2.1
  arcs := by
    intro p x y ti tj q i j id d objects s e hr hp hi hj hpic hsel htool
    rw [e] at ok hcomp ha hn
    obtain ⟨ok1, c1, hc1⟩ := compiled_prefix ok hcomp
    have A := agrees hpic c1 ok1 hc1 (nested_prefix hn) ha.before
    exact (hc p _ q e).arc x y ti tj i j id d rfl hr hp hi hj hsel (A.single id _ _ htool).2.2
  contours := by
    intro p l q s g gs e hl hr hpic hg
    rw [e] at ok hcomp ha hn
    obtain ⟨ok1, c1, hc1⟩ := compiled_prefix ok hcomp
    have A := agrees hpic c1 ok1 hc1 (nested_prefix hn) ha.before
    obtain ⟨s', hpic', h'⟩ := (hc p _ q e).contour (by
      rcases hl with ⟨x, y, rfl⟩ | rfl
      · exact .inl ⟨x, y, rfl⟩
      · exact .inr rfl) hr
    have A' := agrees hpic' c1 ok1 hc1 (nested_prefix hn) ha.before
    have e1 := A.contour hr
    have e2 := A'.contour hr
    rw [e1] at e2
    refine h' g gs ?_
    rw [← hg]
    exact (Option.some.inj e2).symm

/-! ### The picture -/

theorem board_pictured {b : Builder} {w : Wish} (hr : Rel b w) (hi : Ids b) (hm : Made b w) (hs : ∀ s ∈ w.pads, FineShape s)
    (ho : ∀ o ∈ w.objects, PlainObject o) (hst : Steady w.objects) {picture : List (Painted (Vec ℝ))}
    (hp : List.Forall₂ Asked w.objects picture) : ∃ s, Inv (boardAtoms b) s picture := by
  obtain ⟨s0, I0, r0, q0⟩ := header_inv hi fun p hp => (fine_node hi (hm.pads p hp) hs ho).2.2
  obtain ⟨ev0, h0, hev0⟩ := header_run b
  obtain ⟨s, ev, h1, h2, h3, h4, h5, h6⟩ := hr.code _ (header_start hi)
  have hall := h0.append h1
  unfold Runs at h0 hall
  have hf := Aligned.steady (pre := []) hst h6
  have := Inv.objects hm.draws I0 r0 q0 (fun d hd l hl => (hi.draws d hd l hl).1) (ev := ev) (Ps := picture)
    (by rw [← List.map_append, hall]) (by rw [← List.map_append, hall, h0]) hf ho hp
  rw [← List.map_append, List.nil_append] at this
  exact this

end Verif.BoardPicture
