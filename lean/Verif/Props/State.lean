import Verif.Lemmas.State
import Verif.Lemmas.Text

/-!
# C05-C10: the state tracking visitor

`processFile ignore cmds` models `StateTrackingVisitor(ignore_program_stop=ignore)` visiting a file; `run {} h` is the
visitor fed with the flat list of commands `h`.  `file_is_run` says that the first is an instance of the second, so
that properties of all histories are properties of all files.
-/

namespace Verif.Props.State
open Verif.Visitor Verif.Spec Verif.Coord

/-- Processing a file is running the commands it executes, one after another. -/
theorem file_is_run (ignore : Bool) (cmds : List Cmd) :
    processFile ignore cmds = run {} (executed (!ignore) cmds) := onFile_eq_run ignore {} cmds

/-! ### C05 -/

theorem modes (h : List Atom) (hr : (run {} h).exn = none) :
    (run {} h).st.plot = latest setsPlot .linear h ∧
    (run {} h).st.quad = latest setsQuad .single h ∧
    (run {} h).st.isRegion = latest setsRegion false h ∧
    (run {} h).st.dispatchInRegion = latest setsRegion false h ∧
    (run {} h).st.drawHandler =
      (drawingOf (latest setsPlot .linear h) (latest setsQuad .single h), latest setsRegion false h) := by
  revert h
  refine history_induction ?_ ?_
  · exact ⟨rfl, rfl, rfl, rfl, rfl⟩
  · intro h a h1 h2 ih
    rw [run_snoc_st h1]
    simp only [latest_snoc]
    generalize (run {} h).st = s at *
    obtain ⟨i1, i2, i3, i4, i5⟩ := ih
    refine step_elim h2 (P := fun a s' => s'.plot = (setsPlot a).getD _ ∧ s'.quad = (setsQuad a).getD _ ∧
      s'.isRegion = (setsRegion a).getD _ ∧ s'.dispatchInRegion = (setsRegion a).getD _ ∧
      s'.drawHandler = (drawingOf ((setsPlot a).getD _) ((setsQuad a).getD _), (setsRegion a).getD _)) ?_ ?_ ?_ ?_ ?_
    · intros; exact ⟨i1, i2, i3, i4, i5⟩
    · intros; exact ⟨i1, i2, i3, i4, i5⟩
    · intros; exact ⟨i1, i2, i3, i4, i5⟩
    · intros; exact ⟨i1, i2, i3, i4, i5⟩
    · intro a hp hs
      rw [← i1, ← i2, ← i3] at i5
      rw [← i3] at i4
      rw [← i1, ← i2, ← i3]
      clear i1 i2 i3 h2
      cases a with
      | leaf l =>
        cases l <;> try (simp [isPlain] at hp; done)
        all_goals try exact ⟨rfl, rfl, rfl, i4, i5⟩
        case td n => cases n <;> exact ⟨rfl, rfl, rfl, i4, i5⟩
        all_goals
          cases hpl : s.plot <;> cases hq : s.quad <;>
            simp [step, stepLeaf, Out.ok, setsPlot, setsQuad, setsRegion, drawingOf, VState.dispatch, VState.drawTable,
              VState.startRegion, VState.endRegion, i4, hpl, hq]
      | _ => exact ⟨rfl, rfl, rfl, i4, i5⟩

/-- **C05.** A `D01` after any history is drawn in the plot mode of the latest `G01`/`G02`/`G03` (initially linear)
and the quadrant mode of the latest `G74`/`G75` (initially single quadrant), into the region contour exactly when the
latest of `G36`/`G37` is `G36`; it is the only drawing that the command adds. -/
theorem c05_draw_modes (h : List Atom) (x y i j : Option (List Char))
    (hr : (run {} (h ++ [.leaf (.d01 x y i j)])).exn = none) :
    ∃ s, (run {} (h ++ [.leaf (.d01 x y i j)])).ev = (run {} h).ev ++
      [.draw (drawingOf (latest setsPlot .linear h) (latest setsQuad .single h)) (latest setsRegion false h) s] := by
  obtain ⟨h1, h2⟩ := run_snoc_none.1 hr
  obtain ⟨-, -, -, -, m⟩ := modes h h1
  rw [run_snoc_ev h1, step_d01 h2, m]
  exact ⟨_, rfl⟩

/-- The drawing described by a callback. -/
def drawingIn : Event → Option (DrawKind × Bool)
  | .draw k r _ => some (k, r)
  | _ => none

theorem draws_none {s : VState} {a : Atom} (ha : ∀ x y i j, a ≠ .leaf (.d01 x y i j)) :
    (step s a).ev.filterMap drawingIn = [] := by
  cases a with
  | leaf l =>
    cases l <;> try rfl
    case td n => cases n <;> rfl
    case d01 x y i j => exact absurd rfl (ha x y i j)
    case d02 x y =>
      simp only [step, stepLeaf, Out.andThen]
      have hv : ∀ s, (visitXY x y s).ev = [] := by
        intro s
        unfold visitXY Out.andThen coordinate
        repeat' split
        all_goals simp_all [Out.ok, Out.fail]
      split
      · simp [hv]
      · simp only [hv, List.nil_append, Out.ok]
        split <;> rfl
    case d03 x y =>
      simp only [step, stepLeaf, Out.andThen]
      have hv : ∀ s, (visitXY x y s).ev = [] := by
        intro s
        unfold visitXY Out.andThen coordinate
        repeat' split
        all_goals simp_all [Out.ok, Out.fail]
      split
      · simp [hv]
      · simp only [hv, List.nil_append, flashCurrent]
        repeat' split
        all_goals rfl
    case dnn id =>
      simp only [step, stepLeaf]
      split <;> rfl
  | _ => rfl

theorem draws_run (h rest : List Atom) (hr : (run {} (h ++ rest)).exn = none) :
    (run (run {} h).st rest).ev.filterMap drawingIn = drawsExpected h rest := by
  induction rest generalizing h with
  | nil => rfl
  | cons a rest ih =>
    have e : h ++ a :: rest = (h ++ [a]) ++ rest := by simp
    rw [e] at hr
    have hb := (run_append_none.1 hr).1
    obtain ⟨h1, h2⟩ := run_snoc_none.1 hb
    have ih := ih (h ++ [a]) hr
    rw [run_snoc_st h1] at ih
    simp only [run]
    rw [Out.andThen_of_none h2]
    simp only [List.filterMap_append, ih]
    by_cases hd : ∃ x y i j, a = .leaf (.d01 x y i j)
    · obtain ⟨x, y, i, j, rfl⟩ := hd
      obtain ⟨-, -, -, -, m⟩ := modes h h1
      rw [step_d01 h2, m]
      rfl
    · rw [draws_none (by intro x y i j he; exact hd ⟨x, y, i, j, he⟩)]
      cases a with
      | leaf l => cases l <;> first | rfl | exact absurd ⟨_, _, _, _, rfl⟩ hd
      | _ => rfl

/-- **C05** (whole files). The drawings made while a file is processed are exactly those of its `D01` commands, in
order, each in the modes that the commands before it put in force. -/
theorem c05_file_drawings (ignore : Bool) (cmds : List Cmd) (hr : (processFile ignore cmds).exn = none) :
    (processFile ignore cmds).ev.filterMap drawingIn = drawsExpected [] (executed (!ignore) cmds) := by
  rw [file_is_run] at hr ⊢
  exact draws_run [] _ hr

/-- Non-vacuity of C05: a file with arcs, a region and a block; the draws inside are those expected. -/
def sampleC05 : List Cmd :=
  [.leaf (.fs {}), .leaf (.ad ['D','1','0'] (.circle 1 none)), .leaf (.dnn ['D','1','0']), .leaf .g75,
    .leaf (.d01 (some ['1']) none none none), .leaf .g02, .leaf (.d01 (some ['2']) none (some ['5']) none),
    .ab ['D','1','1'] [.leaf .g36, .leaf .g03, .leaf (.d01 (some ['3']) none none none), .leaf .g37],
    .leaf .g74, .leaf (.d01 none (some ['4']) none none)]

example : (processFile false sampleC05).exn = none ∧
    (processFile false sampleC05).ev.filterMap drawingIn =
      [(.line, false), (.cwMq, false), (.ccwMq, true), (.ccwSq, false)] := by decide +kernel

/-! ### C06 -/

/-- **C06** (current point). After any history each coordinate of the current point is the value last given for it by
a `D01`, `D02` or `D03`, read in the format in force at that command, and 0 if none was given.  (So no other command
moves the current point.) -/
theorem c06_current_point (h : List Atom) (hr : (run {} h).exn = none) :
    LastGiven .x h (run {} h).st.currentX ∧ LastGiven .y h (run {} h).st.currentY := current_inv h hr

theorem formatInForce_unique {h f g} (hf : FormatInForce h f) (hg : FormatInForce h g) : f = g := by
  rcases hf with hf | ⟨f1, _, f3⟩ <;> rcases hg with hg | ⟨g1, _, g3⟩
  · rw [hf] at hg; exact Option.some.inj hg
  · rw [g1] at hf; simp at hf
  · rw [f1] at hg; simp at hg
  · rw [f3, g3]

theorem split_unique {α} {p : α → Prop} {a b a' b' : List α} {c c' : α} (h : a ++ c :: b = a' ++ c' :: b')
    (hc : p c) (hc' : p c') (hb : ∀ x ∈ b, ¬ p x) (hb' : ∀ x ∈ b', ¬ p x) : a = a' ∧ c = c' ∧ b = b' := by
  rcases List.append_eq_append_iff.1 h with ⟨d, h1, h2⟩ | ⟨d, h1, h2⟩
  · cases d with
    | nil => simp at h1 h2; exact ⟨h1.symm, h2.1, h2.2⟩
    | cons e d =>
      simp only [List.cons_append, List.cons.injEq] at h2
      exact absurd hc' (hb c' (by rw [h2.2]; simp))
  · cases d with
    | nil => simp at h1 h2; exact ⟨h1, h2.1.symm, h2.2.symm⟩
    | cons e d =>
      simp only [List.cons_append, List.cons.injEq] at h2
      exact absurd hc (hb' c (by rw [h2.2]; simp))

/-- The specification of C06 determines the value: the current point is a function of the history. -/
theorem c06_spec_unique (a : Axis) (h : List Atom) (v w : ℚ) (hv : LastGiven a h v) (hw : LastGiven a h w) : v = w := by
  rcases hv with ⟨pre, c, post, t, f, e, g1, g2, g3, g4⟩ | ⟨n1, rfl⟩ <;>
    rcases hw with ⟨pre', c', post', t', f', e', g1', g2', g3', g4'⟩ | ⟨n1', rfl⟩
  · obtain ⟨rfl, rfl, rfl⟩ := split_unique (p := fun x => gives a x ≠ none) (e.symm.trans e')
      (by simp [g1]) (by simp [g1']) (by intro x hx; simp [g2 x hx]) (by intro x hx; simp [g2' x hx])
    rw [g1] at g1'; cases g1'
    cases formatInForce_unique g3 g3'
    rw [g4] at g4'; exact Except.ok.inj g4'
  · have := n1' c (by rw [e]; simp)
    rw [g1] at this; cases this
  · have := n1 c' (by rw [e']; simp)
    rw [g1'] at this; cases this
  · rfl

/-- **C06** (draws). A `D01` starts at the current point reached by the preceding history and ends at the new current
point; this is what the callback sees. -/
theorem c06_draw_ends (h : List Atom) (x y i j : Option (List Char))
    (hr : (run {} (h ++ [.leaf (.d01 x y i j)])).exn = none) :
    ∃ k r s, (run {} (h ++ [.leaf (.d01 x y i j)])).ev = (run {} h).ev ++ [.draw k r s] ∧
      s.currentX = (run {} h).st.currentX ∧ s.currentY = (run {} h).st.currentY ∧
      s.coordinateX = (run {} (h ++ [.leaf (.d01 x y i j)])).st.currentX ∧
      s.coordinateY = (run {} (h ++ [.leaf (.d01 x y i j)])).st.currentY := by
  obtain ⟨h1, h2⟩ := run_snoc_none.1 hr
  rw [run_snoc_ev h1, run_snoc_st h1, step_d01 h2, updateCoordinates_eq]
  exact ⟨_, _, _, rfl, rfl, rfl, rfl, rfl⟩

/-- **C06** (flashes). A `D03` flashes at the new current point. -/
theorem c06_flash_point (h : List Atom) (x y : Option (List Char))
    (hr : (run {} (h ++ [.leaf (.d03 x y)])).exn = none) :
    ∃ k ap s, (run {} (h ++ [.leaf (.d03 x y)])).ev = (run {} h).ev ++ [.flash k ap s] ∧
      s.coordinateX = (run {} (h ++ [.leaf (.d03 x y)])).st.currentX ∧
      s.coordinateY = (run {} (h ++ [.leaf (.d03 x y)])).st.currentY := by
  obtain ⟨h1, h2⟩ := run_snoc_none.1 hr
  obtain ⟨ap, k, _, _, e⟩ := step_d03 h2
  rw [run_snoc_ev h1, run_snoc_st h1, e, updateCoordinates_eq]
  exact ⟨_, _, _, rfl, rfl, rfl⟩

/-- Non-vacuity of C06: the format changes between two draws and `Y` stays modal. -/
def sampleC06 : List Atom :=
  [.leaf (.fs {}), .leaf (.d02 (some ['1','0','0','0','0','0','0']) (some ['2','0','0','0','0','0','0'])),
    .leaf (.fs { xIntegral := 2, xDecimal := 4 }), .leaf .g91, .leaf (.d01 (some ['-','5']) none none none)]

example : (run {} sampleC06).exn = none ∧ (run {} sampleC06).st.currentX = -5 / 10000 ∧
    (run {} sampleC06).st.currentY = 2 := by decide +kernel

/-! ### C07 -/

theorem attributes : ∀ h, (run {} h).exn = none → ∀ n,
    (run {} h).st.fileAttrs.get? n = latest (setsFileAttr n) none h ∧
    (run {} h).st.apertureAttrs.get? n = latest (setsApertureAttr n) none h ∧
    (run {} h).st.objectAttrs.get? n = latest (setsObjectAttr n) none h := by
  refine history_induction ?_ ?_
  · intro n; exact ⟨rfl, rfl, rfl⟩
  · intro h a h1 h2 ih n
    have ih := ih n
    rw [run_snoc_st h1]
    simp only [latest_snoc]
    generalize (run {} h).st = s at *
    obtain ⟨i1, i2, i3⟩ := ih
    rw [← i1, ← i2, ← i3]
    refine step_elim h2 (P := fun a s' => s'.fileAttrs.get? n = (setsFileAttr n a).getD _ ∧
      s'.apertureAttrs.get? n = (setsApertureAttr n a).getD _ ∧
      s'.objectAttrs.get? n = (setsObjectAttr n a).getD _) ?_ ?_ ?_ ?_ ?_
    · intros; exact ⟨rfl, rfl, rfl⟩
    · intros; exact ⟨rfl, rfl, rfl⟩
    · intros; exact ⟨rfl, rfl, rfl⟩
    · intros; exact ⟨rfl, rfl, rfl⟩
    · intro a hp hs
      clear i1 i2 i3 h2
      cases a with
      | leaf l =>
        cases l <;> try (simp [isPlain] at hp; done)
        all_goals try exact ⟨rfl, rfl, rfl⟩
        case td m =>
          cases m with
          | none => exact ⟨rfl, rfl, rfl⟩
          | some m =>
            simp only [step, stepLeaf, Out.ok, setsFileAttr, setsApertureAttr, setsObjectAttr, Dict.get?_pop]
            by_cases e : m = n <;> simp [e]
        all_goals
          rename_i m v
          simp only [step, stepLeaf, Out.ok, setsFileAttr, setsApertureAttr, setsObjectAttr, Dict.get?_set]
          by_cases e : m = n <;> simp [e]
      | _ => exact ⟨rfl, rfl, rfl⟩

/-- **C07** (dictionaries). After any history, the value of an attribute is the latest one set and not deleted since;
`TD` deletes aperture and object attributes only. -/
theorem c07_attributes (h : List Atom) (hr : (run {} h).exn = none) (n : Name) :
    (run {} h).st.fileAttrs.get? n = latest (setsFileAttr n) none h ∧
    (run {} h).st.apertureAttrs.get? n = latest (setsApertureAttr n) none h ∧
    (run {} h).st.objectAttrs.get? n = latest (setsObjectAttr n) none h := attributes h hr n

theorem perAperture_step {s : VState} {a : Atom} (h : (step s a).exn = none) (id : Name) :
    (step s a).st.perAperture.get? id =
      if (stores id a).isSome then some s.apertureAttrs else s.perAperture.get? id := by
  refine step_elim h (P := fun a s' => s'.perAperture.get? id =
      if (stores id a).isSome then some s.apertureAttrs else s.perAperture.get? id) ?_ ?_ ?_ ?_ ?_
  · intros; rfl
  · intros; rfl
  · intros; rfl
  · intros; rfl
  · intro a hp hs
    cases a with
    | leaf l =>
      cases l <;> try (simp [isPlain] at hp; done)
      all_goals try rfl
      case td m => cases m <;> rfl
      case ad i d =>
        simp only [step, stepLeaf, Out.ok, storeAttributes, Dict.get?_set, stores]
        by_cases e : i = id <;> simp [e]
    | abClose i =>
      simp only [step, Out.ok, storeAttributes, Dict.get?_set, stores]
      by_cases e : i = id <;> simp [e]
    | _ => rfl

theorem perAperture_append (post : List Atom) : ∀ s, (run s post).exn = none → ∀ id,
    (∀ a ∈ post, stores id a = none) → (run s post).st.perAperture.get? id = s.perAperture.get? id := by
  induction post with
  | nil => intros; rfl
  | cons a post ih =>
    intro s hr id hn
    simp only [run] at hr ⊢
    obtain ⟨h1, h2⟩ := Out.andThen_exn_none.1 hr
    rw [Out.andThen_of_none h1]
    simp only
    rw [ih _ h2 id (fun b hb => hn b (by simp [hb])), perAperture_step h1, hn a (by simp)]
    rfl

/-- **C07** (apertures). An aperture carries exactly the aperture attributes in force when it was (last) defined,
whatever attribute commands follow. -/
theorem c07_aperture_attributes (pre post : List Atom) (c : Atom) (id : Name) (ap : Aperture)
    (hc : stores id c = some ap) (hp : ∀ a ∈ post, stores id a = none)
    (hr : (run {} (pre ++ c :: post)).exn = none) :
    ∃ attrs, (run {} (pre ++ c :: post)).st.perAperture.get? id = some attrs ∧
      ∀ n, attrs.get? n = latest (setsApertureAttr n) none pre := by
  rw [show pre ++ c :: post = (pre ++ [c]) ++ post by simp] at hr ⊢
  obtain ⟨h1, h2⟩ := run_append_none.1 hr
  obtain ⟨h3, h4⟩ := run_snoc_none.1 h1
  refine ⟨(run {} pre).st.apertureAttrs, ?_, fun n => (attributes pre h3 n).2.1⟩
  rw [run_append_st h1, perAperture_append post _ h2 id hp, run_snoc_st h3, perAperture_step h4, hc]
  rfl

/-- **C07** (apertures). A code that was never defined carries no attributes. -/
theorem c07_undefined_aperture (h : List Atom) (id : Name) (hn : ∀ a ∈ h, stores id a = none)
    (hr : (run {} h).exn = none) : (run {} h).st.perAperture.get? id = none :=
  perAperture_append h {} hr id hn

/-- Non-vacuity of C07. -/
def sampleC07 : List Atom :=
  [.leaf (.ta ['a'] ['1']), .leaf (.tf ['a'] ['f']), .leaf (.ta ['b'] ['2']), .leaf (.to ['a'] ['o']),
    .leaf (.ad ['D','1','0'] (.circle 1 none)), .leaf (.td (some ['a'])), .leaf (.ta ['c'] ['3'])]

example : (run {} sampleC07).exn = none ∧ (run {} sampleC07).st.apertureAttrs.get? ['a'] = none ∧
    (run {} sampleC07).st.fileAttrs.get? ['a'] = some ['f'] ∧
    ((run {} sampleC07).st.perAperture.get? ['D','1','0']).map (·.get? ['a']) = some (some ['1']) := by decide +kernel

/-! ### C08 -/

theorem pyInt_code {id : Name} {n : Nat} (h : CodeNumber id n) : pyInt (id.dropWhile (· == 'D')) = some n := by
  obtain ⟨ds, rfl, h1, h2, h3⟩ := h
  have hd : ('D' :: ds).dropWhile (· == 'D') = ds := by
    cases ds with
    | nil => exact absurd rfl h1
    | cons c cs =>
      have hc := h2 c (by simp)
      have : (c == 'D') = false := by
        simp only [beq_eq_false_iff_ne, ne_eq]
        rintro rfl
        exact absurd hc.2 (by decide)
      simp [this]
  rw [hd]
  unfold pyInt
  rw [if_pos ⟨h1, (Text.all_isDigit_iff ds).2 h2⟩, Text.natVal_eq_numeral, h3]

theorem mapM_codes (ids : List Name) (num : Name → Nat) (h : ∀ id ∈ ids, CodeNumber id (num id)) :
    ids.mapM (fun id => pyInt (id.dropWhile (· == 'D'))) = some (ids.map num) := by
  induction ids with
  | nil => rfl
  | cons id ids ih =>
    rw [List.mapM_cons, pyInt_code (h id (by simp)), ih (fun i hi => h i (by simp [hi]))]
    rfl

theorem foldl_max_ge (ns : List Nat) (m : Nat) : m ≤ ns.foldl max m ∧ ∀ n ∈ ns, n ≤ ns.foldl max m := by
  induction ns generalizing m with
  | nil => simp
  | cons a ns ih =>
    obtain ⟨h1, h2⟩ := ih (max m a)
    simp only [List.foldl_cons]
    refine ⟨le_trans (le_max_left _ _) h1, ?_⟩
    intro n hn
    rcases List.mem_cons.1 hn with rfl | hn
    · exact le_trans (le_max_right _ _) h1
    · exact h2 n hn

theorem foldl_max_mem (ns : List Nat) (m : Nat) : ns.foldl max m = m ∨ ns.foldl max m ∈ ns := by
  induction ns generalizing m with
  | nil => simp
  | cons a ns ih =>
    simp only [List.foldl_cons, List.mem_cons]
    rcases ih (max m a) with h | h
    · rcases max_choice m a with e | e
      · left; rw [h, e]
      · right; left; rw [h, e]
    · right; right; exact h

/-- **C08.** With at least one aperture or block defined under codes `D…`, the next free code is larger than every
code in use, hence used by none of them; it is the successor of one of them. -/
theorem c08_next_free (s : VState) (num : Name → Nat)
    (hcode : ∀ id ∈ s.apertures.keys ++ s.blocks.keys, CodeNumber id (num id))
    (hne : s.apertures.keys ++ s.blocks.keys ≠ []) :
    ∃ n, nextFreeApertureCode s = some n ∧ (∀ id ∈ s.apertures.keys ++ s.blocks.keys, num id < n) ∧
      (∀ id ∈ s.apertures.keys ++ s.blocks.keys, ¬ CodeNumber id n) ∧
      ∃ id ∈ s.apertures.keys ++ s.blocks.keys, n = num id + 1 := by
  unfold nextFreeApertureCode
  rw [mapM_codes _ num hcode]
  generalize s.apertures.keys ++ s.blocks.keys = ids at *
  cases ids with
  | nil => exact absurd rfl hne
  | cons i ids =>
    simp only [List.map_cons, maxOf, Option.map_some]
    obtain ⟨h1, h2⟩ := foldl_max_ge (ids.map num) (num i)
    have hlt : ∀ id ∈ i :: ids, num id < (ids.map num).foldl max (num i) + 1 := by
      intro id hid
      rcases List.mem_cons.1 hid with rfl | hid
      · omega
      · have := h2 (num id) (List.mem_map_of_mem hid); omega
    refine ⟨_, rfl, hlt, ?_, ?_⟩
    · intro id hid hc
      have e1 := pyInt_code hc
      rw [pyInt_code (hcode id hid)] at e1
      have := hlt id hid
      have e2 := Option.some.inj e1
      omega
    · rcases foldl_max_mem (ids.map num) (num i) with e | e
      · exact ⟨i, by simp, by rw [e]⟩
      · obtain ⟨j, hj, e2⟩ := List.mem_map.1 e
        exact ⟨j, by simp [hj], by rw [e2]⟩

/-- **C08** (nothing defined). With no aperture and no block the call fails. -/
theorem c08_empty_fails (s : VState) (h : s.apertures.keys ++ s.blocks.keys = []) : nextFreeApertureCode s = none := by
  unfold nextFreeApertureCode; rw [h]; rfl

/-- Non-vacuity of C08. -/
example : nextFreeApertureCode (run {} [.leaf (.ad ['D','1','0'] (.circle 1 none)), .abOpen ['D','2','5'],
    .abClose ['D','2','5'], .leaf (.ad ['D','0','1','2'] (.circle 1 none))]).st = some 26 := by decide +kernel
example : CodeNumber ['D','0','1','2'] 12 := ⟨['0','1','2'], rfl, by simp, by decide, rfl⟩

/-! ### C09 -/

/-- A draw, then `M02`, then another draw. -/
def stopSample : List Cmd :=
  [.leaf (.fs {}), .leaf (.d01 (some ['1']) none none none), .leaf .m02, .leaf (.d01 (some ['2']) none none none)]

/-- **C09 does not hold**: with default options a command after `M02` is executed. -/
theorem c09_false_default :
    ¬ ∀ (before after : List Cmd), (processFile false (before ++ .leaf .m02 :: after)).ev.filterMap drawingIn =
      (processFile false before).ev.filterMap drawingIn := by
  intro h
  have := h [.leaf (.fs {}), .leaf (.d01 (some ['1']) none none none)] [.leaf (.d01 (some ['2']) none none none)]
  revert this; decide +kernel

/-- **C09 does not hold**: with `ignore_program_stop=True` the commands after `M02` are not executed. -/
theorem c09_false_ignore :
    ¬ ∀ (before after : List Cmd), (processFile true (before ++ .leaf .m02 :: after)).ev.filterMap drawingIn =
      (processFile true (before ++ after)).ev.filterMap drawingIn := by
  intro h
  have := h [.leaf (.fs {}), .leaf (.d01 (some ['1']) none none none)] [.leaf (.d01 (some ['2']) none none none)]
  revert this; decide +kernel

theorem executed_append (resume : Bool) (as bs : List Cmd) (h : resume = true ∨ (atomsOfAll as).any isStop = false) :
    executed resume (as ++ bs) = executed resume as ++ executed resume bs := by
  induction as with
  | nil => rfl
  | cons c as ih =>
    simp only [List.cons_append, executed]
    rcases h with rfl | h
    · rw [ih (Or.inl rfl)]
      split <;> simp
    · simp only [atomsOfAll, List.any_append, Bool.or_eq_false_iff] at h
      rw [ih (Or.inr h.2), if_neg (by simp [h.1]), if_neg (by simp [h.1])]
      simp

/-- **C09** (what the code does with default options; the stated behaviour is that of the opposite flag). A stop
command at the top level of the file has no effect at all. -/
theorem c09_default_resumes_partial (before after : List Cmd) (c : Leaf) (hc : c = .m00 ∨ c = .m02) :
    processFile false (before ++ .leaf c :: after) = processFile false (before ++ after) := by
  rw [file_is_run, file_is_run]
  simp only [Bool.not_false]
  rw [executed_append true before _ (Or.inl rfl), executed_append true before _ (Or.inl rfl)]
  congr 2
  rcases hc with rfl | rfl <;> rfl

/-- **C09** (what the code does with `ignore_program_stop=True`; this is the behaviour stated for the default). No
command after the first top-level stop command has any effect. -/
theorem c09_ignore_stops_partial (before after : List Cmd) (c : Leaf) (hc : c = .m00 ∨ c = .m02)
    (hb : (atomsOfAll before).any isStop = false) :
    processFile true (before ++ .leaf c :: after) = processFile true before := by
  rw [file_is_run, file_is_run]
  simp only [Bool.not_true]
  rw [executed_append false before _ (Or.inr hb)]
  have : executed false (.leaf c :: after) = [] := by rcases hc with rfl | rfl <;> rfl
  rw [this, List.append_nil]

/-- **C09** (stop inside a block body). With `ignore_program_stop=True` processing ends in the middle of the body and
the block is never stored; with default options the rest of the body is skipped, the block is not stored and
processing resumes after the block. -/
theorem c09_stop_in_body_partial (id : Name) (before rest : List Cmd) (after : List Cmd) (c : Leaf)
    (hc : c = .m00 ∨ c = .m02) (hb : (atomsOfAll before).any isStop = false) :
    processFile true (.ab id (before ++ .leaf c :: rest) :: after) = run {} (.abOpen id :: atomsOfAll before) ∧
    processFile false (.ab id (before ++ .leaf c :: rest) :: after) =
      run {} (.abOpen id :: (atomsOfAll before ++ executed true after)) := by
  have happ : ∀ as bs : List Cmd, atomsOfAll (as ++ bs) = atomsOfAll as ++ atomsOfAll bs := by
    intro as bs
    induction as with
    | nil => rfl
    | cons a as ih => simp [atomsOfAll, ih]
  have hst : isStop (.leaf c) = true := by rcases hc with rfl | rfl <;> rfl
  have hany : (atomsOf (.ab id (before ++ .leaf c :: rest))).any isStop = true := by
    simp [atomsOf, happ, atomsOfAll, hst]
  have htake : (atomsOf (.ab id (before ++ .leaf c :: rest))).takeWhile (fun a => !isStop a) =
      .abOpen id :: atomsOfAll before := by
    have e : atomsOf (.ab id (before ++ .leaf c :: rest)) =
        (.abOpen id :: atomsOfAll before) ++ .leaf c :: (atomsOfAll rest ++ [.abClose id]) := by
      simp [atomsOf, happ, atomsOfAll]
    rw [e, List.takeWhile_append_of_pos]
    · simp [hst]
    · intro a ha
      rcases List.mem_cons.1 ha with rfl | ha
      · rfl
      · have := List.any_eq_false.1 hb a ha
        simpa using this
  constructor
  · rw [file_is_run]
    simp only [Bool.not_true, executed, hany, if_true, htake]
    simp
  · rw [file_is_run]
    simp only [Bool.not_false, executed, hany, if_true, htake]
    simp

/-- Non-vacuity of the C09 theorems: the stop sample draws twice by default and once with the flag. -/
example : (processFile false stopSample).ev.filterMap drawingIn = [(.line, false), (.line, false)] ∧
    (processFile true stopSample).ev.filterMap drawingIn = [(.line, false)] := by decide +kernel

/-! ### C10 -/

/-- `AD` commands for a code. -/
def adOf (id : Name) : Atom → Option (Option ApDef)
  | .leaf (.ad i d) => if i = id then some (some d) else none
  | _ => none

/-- Ends of `AB` blocks for a code. -/
def abOf (id : Name) : Atom → Option (Option Unit)
  | .abClose i => if i = id then some (some ()) else none
  | _ => none

theorem selected_inv : ∀ h, (run {} h).exn = none →
    (run {} h).st.apId = latest (fun a => (selects a).map some) none h ∧
    (∀ id, (run {} h).st.apertures.get? id =
      latest (adOf id) none h) ∧
    (∀ id, (run {} h).st.blocks.get? id =
      latest (abOf id) none h) ∧
    ((run {} h).st.apId = none ↔ (run {} h).st.flashHandler = none) ∧
    (∀ id, (run {} h).st.apId = some id → ∃ ap, (run {} h).st.currentAperture = .ok ap) := by
  refine history_induction ?_ ?_
  · refine ⟨rfl, fun _ => rfl, fun _ => rfl, ⟨fun _ => rfl, fun _ => rfl⟩, ?_⟩
    intro id hid; cases hid
  · intro h a h1 h2 ih
    rw [run_snoc_st h1]
    simp only [latest_snoc]
    generalize (run {} h).st = s at *
    obtain ⟨i1, i2, i3, i4, i5⟩ := ih
    have grow : ∀ s' : VState, s'.apId = s.apId → (∀ id, s.apertures.get? id ≠ none → s'.apertures.get? id ≠ none) →
        (∀ id, s.blocks.get? id ≠ none → s'.blocks.get? id ≠ none) →
        (∀ id, s'.apId = some id → ∃ ap, s'.currentAperture = .ok ap) := by
      intro s' e1 e2 e3 id hid
      obtain ⟨ap, hap⟩ := i5 id (e1 ▸ hid)
      unfold VState.currentAperture at hap ⊢
      rw [e1] at hid
      rw [hid] at hap; rw [e1, hid]
      simp only at hap ⊢
      cases ha : s.apertures.get? id with
      | some d =>
        cases ha' : s'.apertures.get? id with
        | some d' => exact ⟨_, rfl⟩
        | none => exact absurd ha' (e2 id (by simp [ha]))
      | none =>
        rw [ha] at hap
        cases ha' : s'.apertures.get? id with
        | some d' => exact ⟨_, rfl⟩
        | none =>
          cases hb : s.blocks.get? id with
          | none => simp [hb] at hap
          | some u =>
            cases hb' : s'.blocks.get? id with
            | none => exact absurd hb' (e3 id (by simp [hb]))
            | some u' => exact ⟨_, rfl⟩
    refine step_elim h2 (P := fun a s' => s'.apId = ((selects a).map some).getD _ ∧
      (∀ id, s'.apertures.get? id = (adOf id a).getD (latest (adOf id) none h)) ∧
      (∀ id, s'.blocks.get? id = (abOf id a).getD (latest (abOf id) none h)) ∧
      (s'.apId = none ↔ s'.flashHandler = none) ∧ (∀ id, s'.apId = some id → ∃ ap, s'.currentAperture = .ok ap))
      ?_ ?_ ?_ ?_ ?_
    · intros; exact ⟨i1, i2, i3, i4, grow _ rfl (fun _ h => h) (fun _ h => h)⟩
    · intros; exact ⟨i1, i2, i3, i4, grow _ rfl (fun _ h => h) (fun _ h => h)⟩
    · intros; exact ⟨i1, i2, i3, i4, grow _ rfl (fun _ h => h) (fun _ h => h)⟩
    · intro id ap hap
      refine ⟨rfl, i2, i3, by simp, ?_⟩
      intro id' _
      exact ⟨ap, hap⟩
    · intro a hp hs
      cases a with
      | leaf l =>
        cases l <;> try (simp [isPlain] at hp; done)
        all_goals try exact ⟨i1, i2, i3, i4, grow _ rfl (fun _ h => h) (fun _ h => h)⟩
        case td m => cases m <;> exact ⟨i1, i2, i3, i4, grow _ rfl (fun _ h => h) (fun _ h => h)⟩
        case ad i d =>
          refine ⟨i1, ?_, i3, i4, grow _ rfl ?_ (fun _ h => h)⟩
          · intro id
            simp only [step, stepLeaf, Out.ok, storeAttributes, Dict.get?_set, adOf]
            by_cases e : i = id
            · simp [e]
            · simp only [if_neg e, Option.getD_none]; exact i2 id
          · intro id hid
            simp only [step, stepLeaf, Out.ok, storeAttributes, Dict.get?_set]
            split
            · simp
            · exact hid
      | abClose i =>
        refine ⟨i1, i2, ?_, i4, grow _ rfl (fun _ h => h) ?_⟩
        · intro id
          simp only [step, Out.ok, storeAttributes, Dict.get?_set, abOf]
          by_cases e : i = id
          · simp [e]
          · simp only [if_neg e, Option.getD_none]; exact i3 id
        · intro id hid
          simp only [step, Out.ok, storeAttributes, Dict.get?_set]
          split
          · simp
          · exact hid
      | _ => exact ⟨i1, i2, i3, i4, grow _ rfl (fun _ h => h) (fun _ h => h)⟩

/-- The code is defined by `AD` commands only, or by `AB` blocks only. -/
def OneSort (id : Name) (h : List Atom) : Prop :=
  (∀ d, .leaf (.ad id d) ∉ h) ∨ .abClose id ∉ h

theorem latest_map_of {α β : Type} (f : Atom → Option α) (g : Atom → Option β) (φ : α → β) (d : α) (d' : β) (h : List Atom)
    (hd : d' = φ d) (hfg : ∀ a ∈ h, g a = (f a).map φ) : latest g d' h = φ (latest f d h) := by
  induction h using List.reverseRecOn with
  | nil => exact hd
  | append_singleton h a ih =>
    rw [latest_snoc, latest_snoc, ih (fun b hb => hfg b (by simp [hb])), hfg a (by simp)]
    cases f a <;> rfl

theorem currentAperture_of_oneSort (h : List Atom) (hr : (run {} h).exn = none) (id : Name)
    (hid : (run {} h).st.apId = some id) (hs : OneSort id h) (ap : Aperture)
    (hap : (run {} h).st.currentAperture = .ok ap) : latest (fun a => (stores id a).map some) none h = some ap := by
  obtain ⟨-, i2, i3, -, -⟩ := selected_inv h hr
  unfold VState.currentAperture at hap
  rw [hid] at hap
  simp only at hap
  rcases hs with hs | hs
  · have ha : (run {} h).st.apertures.get? id = none := by
      rw [i2 id]
      have : h.filterMap (adOf id) = [] := by
        rw [List.filterMap_eq_nil_iff]
        intro a ha
        unfold adOf
        split
        · rename_i i d
          rw [if_neg]
          rintro rfl; exact hs d ha
        · rfl
      unfold latest; rw [this]; rfl
    rw [ha] at hap
    simp only at hap
    cases hb : (run {} h).st.blocks.get? id with
    | none => rw [hb] at hap; cases hap
    | some u =>
      rw [hb] at hap
      cases hap
      have := i3 id
      rw [hb] at this
      rw [latest_map_of (abOf id)
        (fun a => (stores id a).map some) (fun o => o.map (fun _ => Aperture.ab id)) none none h rfl ?_, ← this]
      · rfl
      · intro a hmem
        cases a with
        | leaf l =>
          cases l <;> try rfl
          rename_i i d
          have hne : i ≠ id := by rintro rfl; exact hs d hmem
          simp [stores, hne, abOf]
        | abClose i => by_cases e : i = id <;> simp [stores, e, abOf]
        | _ => rfl
  · cases ha : (run {} h).st.apertures.get? id with
    | none =>
      rw [ha] at hap
      simp only at hap
      have hb : (run {} h).st.blocks.get? id = none := by
        rw [i3 id]
        have : h.filterMap (abOf id) = [] := by
          rw [List.filterMap_eq_nil_iff]
          intro a hmem
          unfold abOf
          split
          · rename_i i
            rw [if_neg]
            rintro rfl; exact hs hmem
          · rfl
        unfold latest; rw [this]; rfl
      rw [hb] at hap
      cases hap
    | some d =>
      rw [ha] at hap
      cases hap
      have := i2 id
      rw [ha] at this
      rw [latest_map_of (adOf id)
        (fun a => (stores id a).map some) (fun o => o.map (fun d => Aperture.ad id d)) none none h rfl ?_, ← this]
      · rfl
      · intro a hmem
        cases a with
        | leaf l =>
          cases l <;> try rfl
          rename_i i d
          by_cases e : i = id <;> simp [stores, e, adOf]
        | abClose i =>
          have hne : i ≠ id := by rintro rfl; exact hs hmem
          simp [stores, hne, adOf]
        | _ => rfl

/-- **C10** (partial: for codes not used both by `AD` and by `AB`; see `c10_false_ad_and_ab`). A flash uses the
definition most recently stored under the most recently selected code. -/
theorem c10_flash_latest_partial (h : List Atom) (x y : Option (List Char))
    (hs : ∀ id, latest (fun a => (selects a).map some) none h = some id → OneSort id h)
    (hr : (run {} (h ++ [.leaf (.d03 x y)])).exn = none) :
    ∃ id ap k s, latest (fun a => (selects a).map some) none h = some id ∧
      latest (fun a => (stores id a).map some) none h = some ap ∧
      (run {} (h ++ [.leaf (.d03 x y)])).ev = (run {} h).ev ++ [.flash k ap s] := by
  obtain ⟨h1, h2⟩ := run_snoc_none.1 hr
  obtain ⟨ap, k, e1, e2, e3⟩ := step_d03 h2
  obtain ⟨i1, -, -, -, -⟩ := selected_inv h h1
  cases hid : (run {} h).st.apId with
  | none => simp [VState.currentAperture, hid] at e1
  | some id =>
    refine ⟨id, ap, k, withXY (run {} h).st x y, by rw [← i1, hid], ?_, ?_⟩
    · exact currentAperture_of_oneSort h h1 id hid (hs id (by rw [← i1, hid])) ap e1
    · rw [run_snoc_ev h1, e3]; rfl

/-- **C10 does not hold in full**: when a code is defined by `AD` and later by `AB`, the flash still uses the older
`AD` definition. -/
theorem c10_false_ad_and_ab :
    ¬ ∀ (h : List Atom) (id : Name) (ap : Aperture), (run {} (h ++ [.leaf (.d03 none none)])).exn = none →
      latest (fun a => (selects a).map some) none h = some id →
      latest (fun a => (stores id a).map some) none h = some ap →
      ∃ k s, (run {} (h ++ [.leaf (.d03 none none)])).ev = (run {} h).ev ++ [.flash k ap s] := by
  intro hall
  have := hall [.leaf (.ad ['D','1','0'] (.circle 1 none)), .abOpen ['D','1','0'], .abClose ['D','1','0'],
    .leaf (.dnn ['D','1','0'])] ['D','1','0'] (.ab ['D','1','0']) (by decide +kernel) (by decide +kernel) (by decide +kernel)
  obtain ⟨k, s, e⟩ := this
  have e2 := congrArg List.getLast? e
  rw [List.getLast?_append] at e2
  simp only [List.getLast?_singleton, Option.some_or] at e2
  have e3 : (run {} ([.leaf (.ad ['D','1','0'] (.circle 1 none)), .abOpen ['D','1','0'], .abClose ['D','1','0'],
    .leaf (.dnn ['D','1','0'])] ++ [.leaf (.d03 none none)])).ev.getLast?.bind
      (fun e => match e with | .flash _ ap _ => some ap | _ => none) = some (.ad ['D','1','0'] (.circle 1 none)) := by
    decide +kernel
  rw [e2] at e3
  simp at e3

/-- **C10** (nothing selected). If no aperture was ever selected, a flash whose coordinates are acceptable fails with
"aperture not selected" and no callback is made. -/
theorem c10_not_selected (h : List Atom) (x y : Option (List Char)) (hn : ∀ a ∈ h, selects a = none)
    (hxy : (run {} (h ++ [.leaf (.d02 x y)])).exn = none) :
    (run {} (h ++ [.leaf (.d03 x y)])).exn = some .apertureNotSelected ∧
    (run {} (h ++ [.leaf (.d03 x y)])).ev = (run {} h).ev := by
  obtain ⟨h1, h2⟩ := run_snoc_none.1 hxy
  obtain ⟨i1, -, -, -, -⟩ := selected_inv h h1
  have hid : (run {} h).st.apId = none := by
    rw [i1]
    have : h.filterMap (fun a => (selects a).map some) = [] := by
      rw [List.filterMap_eq_nil_iff]; intro a ha; simp [hn a ha]
    unfold latest; rw [this]; rfl
  rw [run_snoc, Out.andThen_of_none h1]
  generalize (run {} h).st = s at *
  have hv : visitXY x y s = .ok (withXY s x y) := by
    simp only [step, stepLeaf] at h2
    exact visitXY_ok (Out.andThen_exn_none.1 h2).1
  have hc : (withXY s x y).currentAperture = .error .apertureNotSelected := by
    have : (withXY s x y).apId = none := hid
    simp [VState.currentAperture, this]
  simp only [step, stepLeaf, hv, Out.andThen_ok, flashCurrent, hc, Out.fail, List.append_nil]
  exact ⟨trivial, trivial⟩

theorem stores_none_currentAperture (h : List Atom) (hr : (run {} h).exn = none) (id : Name)
    (hn : ∀ a ∈ h, stores id a = none) :
    VState.currentAperture { (run {} h).st with apId := some id } = .error (.apertureNotFound id) := by
  obtain ⟨-, i2, i3, -, -⟩ := selected_inv h hr
  have ha : (run {} h).st.apertures.get? id = none := by
    rw [i2 id]
    have : h.filterMap (adOf id) = [] := by
      rw [List.filterMap_eq_nil_iff]
      intro a ha
      unfold adOf
      split
      · rename_i i d
        rw [if_neg]
        rintro rfl; have := hn _ ha; simp [stores] at this
      · rfl
    unfold latest; rw [this]; rfl
  have hb : (run {} h).st.blocks.get? id = none := by
    rw [i3 id]
    have : h.filterMap (abOf id) = [] := by
      rw [List.filterMap_eq_nil_iff]
      intro a hmem
      unfold abOf
      split
      · rename_i i
        rw [if_neg]
        rintro rfl; have := hn _ hmem; simp [stores] at this
      · rfl
    unfold latest; rw [this]; rfl
  unfold VState.currentAperture
  simp only [ha, hb]

/-- **C10** (unknown code). Selecting a code that was never defined fails with "aperture not found". -/
theorem c10_not_found (h : List Atom) (id : Name) (hr : (run {} h).exn = none) (hn : ∀ a ∈ h, stores id a = none) :
    (run {} (h ++ [.leaf (.dnn id)])).exn = some (.apertureNotFound id) := by
  rw [run_snoc, Out.andThen_of_none hr]
  simp only [step, stepLeaf]
  rw [stores_none_currentAperture h hr id hn]
  rfl

/-- **C10** (known code). Selecting a defined code succeeds, and from then on a flash with acceptable coordinates
never fails for want of an aperture. -/
theorem c10_flash_succeeds (h : List Atom) (x y : Option (List Char)) (hsel : ∃ a ∈ h, selects a ≠ none)
    (hxy : (run {} (h ++ [.leaf (.d02 x y)])).exn = none) : (run {} (h ++ [.leaf (.d03 x y)])).exn = none := by
  obtain ⟨h1, h2⟩ := run_snoc_none.1 hxy
  obtain ⟨i1, -, -, i4, i5⟩ := selected_inv h h1
  have hid : (run {} h).st.apId ≠ none := by
    rw [i1]
    obtain ⟨a, ha, hs⟩ := hsel
    unfold latest
    cases hl : (h.filterMap (fun a => (selects a).map some)).getLast? with
    | none =>
      rw [List.getLast?_eq_none_iff, List.filterMap_eq_nil_iff] at hl
      have := hl a ha
      simp at this; exact absurd this hs
    | some v =>
      have hm := List.mem_of_getLast? hl
      obtain ⟨b, _, hb⟩ := List.mem_filterMap.1 hm
      cases hsb : selects b with
      | none => simp [hsb] at hb
      | some w => simp [hsb] at hb; simp [← hb]
  rw [run_snoc_none]
  refine ⟨h1, ?_⟩
  generalize (run {} h).st = s at *
  have hv : visitXY x y s = .ok (withXY s x y) := by
    simp only [step, stepLeaf] at h2
    exact visitXY_ok (Out.andThen_exn_none.1 h2).1
  cases hid' : s.apId with
  | none => exact absurd hid' hid
  | some id =>
    obtain ⟨ap, hap⟩ := i5 id hid'
    have hc : (withXY s x y).currentAperture = .ok ap := hap
    cases hf : s.flashHandler with
    | none => exact absurd (i4.2 hf) hid
    | some k =>
      have hf' : (withXY s x y).flashHandler = some k := hf
      simp only [step, stepLeaf, hv, Out.andThen_ok, flashCurrent, hc, hf']
      rfl

/-- **C10** (known code). Selecting a defined code succeeds. -/
theorem c10_select_succeeds (h : List Atom) (id : Name) (hr : (run {} h).exn = none) (hd : ∃ a ∈ h, stores id a ≠ none) :
    (run {} (h ++ [.leaf (.dnn id)])).exn = none := by
  rw [run_snoc_none]
  refine ⟨hr, ?_⟩
  have key : ∀ h, (run {} h).exn = none → ∀ a ∈ h, stores id a ≠ none →
      (run {} h).st.apertures.get? id ≠ none ∨ (run {} h).st.blocks.get? id ≠ none := by
    intro h hr a ha hs
    obtain ⟨-, i2, i3, -, -⟩ := selected_inv h hr
    cases a with
    | leaf l =>
      cases l <;> try exact absurd rfl hs
      rename_i i d
      have e : i = id := by by_contra e; simp [stores, e] at hs
      subst e
      left
      rw [i2 i]
      unfold latest
      cases hl : (h.filterMap (adOf i)).getLast? with
      | none =>
        rw [List.getLast?_eq_none_iff, List.filterMap_eq_nil_iff] at hl
        have := hl _ ha
        simp [adOf, abOf] at this
      | some v =>
        have hm := List.mem_of_getLast? hl
        obtain ⟨b, _, hb⟩ := List.mem_filterMap.1 hm
        simp only [adOf, abOf] at hb
        split at hb
        · split at hb
          · cases hb; simp
          · cases hb
        · cases hb
    | abClose i =>
      have e : i = id := by by_contra e; simp [stores, e] at hs
      subst e
      right
      rw [i3 i]
      unfold latest
      cases hl : (h.filterMap (abOf i)).getLast? with
      | none =>
        rw [List.getLast?_eq_none_iff, List.filterMap_eq_nil_iff] at hl
        have := hl _ ha
        simp [adOf, abOf] at this
      | some v =>
        have hm := List.mem_of_getLast? hl
        obtain ⟨b, _, hb⟩ := List.mem_filterMap.1 hm
        simp only [adOf, abOf] at hb
        split at hb
        · split at hb
          · cases hb; simp
          · cases hb
        · cases hb
    | _ => exact absurd rfl hs
  obtain ⟨a, ha, hs⟩ := hd
  have hk := key h hr a ha hs
  simp only [step, stepLeaf]
  cases hap : (run {} h).st.apertures.get? id with
  | some d => simp [VState.currentAperture, hap, Out.ok]
  | none =>
    cases hb : (run {} h).st.blocks.get? id with
    | some u => simp [VState.currentAperture, hap, hb, Out.ok]
    | none => rcases hk with hk | hk <;> contradiction

/-- Non-vacuity of C10: two apertures, a redefinition and a flash. -/
def sampleC10 : List Atom :=
  [.leaf (.fs {}), .leaf (.ad ['D','1','0'] (.circle 1 none)), .leaf (.ad ['D','1','1'] (.rect 1 2 none)),
    .leaf (.dnn ['D','1','0']), .leaf (.ad ['D','1','0'] (.circle 3 none))]

example : (run {} (sampleC10 ++ [.leaf (.d03 (some ['1']) none)])).exn = none ∧
    (∀ d, .abClose ['D','1','0'] ≠ Atom.leaf d) ∧
    latest (fun a => (stores ['D','1','0'] a).map some) none sampleC10 = some (.ad ['D','1','0'] (.circle 3 none)) := by
  refine ⟨by decide +kernel, by simp, by decide +kernel⟩
example : OneSort ['D','1','0'] sampleC10 := Or.inr (by simp [sampleC10])

/-! ### C56 -/

/-- The centre offsets that an arc drawing sees. -/
def offsetsIn : Event → Option (ℚ × ℚ)
  | .draw _ _ s => some (s.coordinateI, s.coordinateJ)
  | _ => none

/-- **C56** (partial: the case in which the command gives both offsets; see `c56_false_omitted`). The callback of a
`D01` sees the offsets written in that command, read in the format in force. -/
theorem c56_offsets_given_partial (h : List Atom) (x y : Option (List Char)) (i j : List Char)
    (hr : (run {} (h ++ [.leaf (.d01 x y (some i) (some j))])).exn = none) :
    ∃ f vi vj k r s, FormatInForce h f ∧ f.unpack .x i = .ok vi ∧ f.unpack .y j = .ok vj ∧
      (run {} (h ++ [.leaf (.d01 x y (some i) (some j))])).ev = (run {} h).ev ++ [.draw k r s] ∧
      s.coordinateI = vi ∧ s.coordinateJ = vj := by
  obtain ⟨h1, h2⟩ := run_snoc_none.1 hr
  have hf := format_inv h h1
  rw [run_snoc_ev h1, step_d01 h2]
  generalize (run {} h).st = s at *
  have h3 := h2
  simp only [step, stepLeaf] at h3
  obtain ⟨h4, h5⟩ := Out.andThen_exn_none.1 (Out.andThen_exn_none.1 h3).1
  rw [visitXY_ok h4] at h5
  obtain ⟨h6, h7⟩ := Out.andThen_exn_none.1 h5
  rcases coordinate_none h6 with ⟨e, _⟩ | ⟨t, g, vi, e, hg, hu, e1⟩
  · cases e
  cases e
  rw [e1] at h7
  rcases coordinate_none h7 with ⟨e, _⟩ | ⟨t', g', vj, e, hg', hu', e2⟩
  · cases e
  cases e
  have hg1 : s.format = some g := hg
  have hg2 : s.format = some g' := hg'
  rw [hg1] at hg2; cases hg2
  rcases hf with ⟨f1, _⟩ | ⟨g'', f, f1, f2, f3⟩
  · rw [f1] at hg1; cases hg1
  rw [f1] at hg1; cases hg1
  refine ⟨f, vi, vj, _, _, _, f2, by rw [← f3.unpack]; exact hu, by rw [← f3.unpack]; exact hu', rfl, ?_, ?_⟩
  · simp [VState.coordinateI, withIJ, withXY, newCoord, f1, hu]
  · simp [VState.coordinateJ, withIJ, withXY, newCoord, f1, hu']

/-- **C56 does not hold in full**: an omitted offset is not 0 but the value left over from an earlier arc. -/
theorem c56_false_omitted :
    ¬ ∀ (h : List Atom) (x y : Option (List Char)), (run {} (h ++ [.leaf (.d01 x y none none)])).exn = none →
      (run {} (h ++ [.leaf (.d01 x y none none)])).ev.getLast?.bind offsetsIn = some (0, 0) := by
  intro hall
  have := hall [.leaf (.fs {}), .leaf .g75, .leaf .g02,
    .leaf (.d01 (some ['1']) none (some ['5','0','0','0','0','0','0']) none)] (some ['2']) none (by decide +kernel)
  revert this; decide +kernel

/-- Non-vacuity of C56. -/
example : (run {} [.leaf (.fs {}), .leaf .g75, .leaf .g02,
    .leaf (.d01 (some ['1']) none (some ['5','0','0','0','0','0','0']) (some ['-','1','0','0','0','0','0','0']))]).ev.getLast?.bind
      offsetsIn = some (5, -1) := by decide +kernel

end Verif.Props.State
