import Verif.Lemmas.Hover
import Verif.Props.Compiler

/-!
# C47, C60: hover information

`hoverState file location` is the state in which the language server describes the node that starts at `location`;
`preview s extra` is the visitor's run over the program that is rendered as the preview, `drawReport` the values shown in
the text.
-/

namespace Verif.Props.Hover
open Verif.Visitor Verif.Coord Verif.Spec Verif.Hover Verif.Props.State

/-! ### The state at the cursor -/

theorem inText_stops {c : Located} : ∀ {pre : List Located}, InText (pre ++ [c]) → ∀ d ∈ pre, d.stop ≤ c.start := by
  intro pre
  induction pre with
  | nil => intro _ d hd; cases hd
  | cons e pre ih =>
    intro h d hd
    have key : e.stop ≤ c.start ∧ InText (pre ++ [c]) := by
      cases pre with
      | nil => exact ⟨h.2.1, h.2.2⟩
      | cons e2 pre2 =>
        obtain ⟨h1, h2, h3⟩ := h
        have := ih h3 e2 (by simp)
        have he2 : e2.start < e2.stop := by
          cases pre2 with
          | nil => exact h3.1
          | cons _ _ => exact h3.1
        exact ⟨by omega, h3⟩
    rcases List.mem_cons.1 hd with rfl | hd
    · exact key.1
    · exact ih key.2 d hd

theorem inText_take {c : Located} : ∀ {pre post : List Located}, InText (pre ++ c :: post) →
    InText (pre ++ [c]) ∧ c.start < c.stop := by
  intro pre
  induction pre with
  | nil =>
    intro post h
    cases post with
    | nil => exact ⟨h, h⟩
    | cons d post => exact ⟨h.1, h.1⟩
  | cons e pre ih =>
    intro post h
    cases pre with
    | nil =>
      obtain ⟨h1, h2, h3⟩ := h
      have := ih h3
      exact ⟨⟨h1, h2, this.1⟩, this.2⟩
    | cons e2 pre2 =>
      obtain ⟨h1, h2, h3⟩ := h
      have := ih h3
      exact ⟨⟨h1, h2, this.1⟩, this.2⟩

/-- **C60** (state). Hovering over a top-level command uses the state reached by exactly the commands before it. -/
theorem c60_state (pre post : List Located) (c : Located) (ht : InText (pre ++ c :: post))
    (hr : (processFile false (pre.map Located.cmd)).exn = none) :
    hoverState (pre ++ c :: post) c.start = .ok (processFile false (pre.map Located.cmd)).st := by
  obtain ⟨h1, h2⟩ := inText_take ht
  unfold hoverState
  rw [limited_prefix c.start pre c post {} (inText_stops h1) h2]
  unfold processFile at hr ⊢
  rw [hr]

/-! ### C47 -/

theorem mem_of_latest_ad {h : List Atom} {id : Name} {d : ApDef} (hl : latest (adOf id) none h = some d) :
    Atom.leaf (.ad id d) ∈ h := by
  induction h using List.reverseRecOn with
  | nil => cases hl
  | append_singleton h a ih =>
    rw [latest_snoc] at hl
    cases ha : adOf id a with
    | none => rw [ha] at hl; exact List.mem_append_left _ (ih hl)
    | some v =>
      rw [ha] at hl
      simp only [Option.getD_some] at hl
      subst hl
      unfold adOf at ha
      split at ha
      · split at ha
        · rename_i i d' he
          cases ha; subst he; simp
        · cases ha
      · cases ha

/-- The shape of a definition in the presence of these macros. -/
def shaped (ms : Dict Name (List Macro.Prim)) (d : ApDef) : ApDef × Option (List Macro.Prim) :=
  (d, match d with
    | .macro n _ => ms.get? n
    | _ => none)

theorem shapeIn_none {s : VState} {a : Atom} (ha : ∀ i d, a ≠ .leaf (.ad i d)) (id : Name) :
    (step s a).ev.filterMap (shapeIn id) = [] := by
  cases a with
  | leaf l =>
    cases l <;> try rfl
    case td n => cases n <;> rfl
    case ad i d => exact absurd rfl (ha i d)
    case d01 x y i j =>
      have hv : ∀ s, (visitXY x y s).ev = [] := by
        intro s
        unfold visitXY Out.andThen coordinate
        repeat' split
        all_goals simp_all [Out.ok, Out.fail]
      have hw : ∀ s, (visitIJ i j s).ev = [] := by
        intro s
        unfold visitIJ Out.andThen coordinate
        repeat' split
        all_goals simp_all [Out.ok, Out.fail]
      simp only [step, stepLeaf, Out.andThen]
      repeat' split
      all_goals simp [hv, hw, Out.ok, shapeIn]
    case d02 x y =>
      simp only [step, stepLeaf, Out.andThen]
      have hv : ∀ s, (visitXY x y s).ev = [] := by
        intro s
        unfold visitXY Out.andThen coordinate
        repeat' split
        all_goals simp_all [Out.ok, Out.fail]
      split
      · simp [hv]
      · simp only [hv, List.nil_append, Out.ok]
        split <;> rfl
    case d03 x y =>
      simp only [step, stepLeaf, Out.andThen]
      have hv : ∀ s, (visitXY x y s).ev = [] := by
        intro s
        unfold visitXY Out.andThen coordinate
        repeat' split
        all_goals simp_all [Out.ok, Out.fail]
      split
      · simp [hv]
      · simp only [hv, List.nil_append, flashCurrent]
        repeat' split
        all_goals rfl
    case dnn id =>
      simp only [step, stepLeaf]
      split <;> rfl
  | _ => rfl

theorem macrosFirst_init {h : List Atom} {a : Atom} (hm : MacrosFirst (h ++ [a])) : MacrosFirst h := by
  intro pre n b post e
  exact hm pre n b (post ++ [a]) (by rw [e]; simp)

theorem selectedLast_init {h : List Atom} {a : Atom} (hm : SelectedLast (h ++ [a])) : SelectedLast h := by
  intro pre n post e d hd
  exact hm pre n (post ++ [a]) (by rw [e]; simp) d (by simp [hd])

/-- In a file whose macros come first every aperture has the shape that its parameters and the final macros give. -/
theorem shapes : ∀ h, (run {} h).exn = none → MacrosFirst h → ∀ id,
    shapeOf (run {} h) id = ((run {} h).st.apertures.get? id).map (shaped (run {} h).st.macros) := by
  refine history_induction ?_ ?_
  · intro _ id; rfl
  · intro h a h1 h2 ih hm id
    have ih := ih (macrosFirst_init hm) id
    have hsel := (selected_inv h h1).2.1 id
    unfold shapeOf at ih ⊢
    rw [run_snoc_ev h1, List.filterMap_append, run_snoc_st h1]
    by_cases hd : ∃ i d, a = .leaf (.ad i d)
    · obtain ⟨i, d, rfl⟩ := hd
      have es : step (run {} h).st (.leaf (.ad i d)) = .ok (storeAttributes i { (run {} h).st with
          apertures := (run {} h).st.apertures.set i d }) [.define i d (storeAttributes i { (run {} h).st with
          apertures := (run {} h).st.apertures.set i d })] := rfl
      rw [es]
      simp only [Out.ok, storeAttributes, Dict.get?_set]
      by_cases hi : i = id
      · subst hi
        simp [shapeIn, shaped]
        cases d <;> rfl
      · simp [shapeIn, hi, ih]
    · have hev := shapeIn_none (s := (run {} h).st) (a := a) (fun i d e => hd ⟨i, d, e⟩) id
      rw [hev, List.append_nil, ih]
      generalize hs : (run {} h).st = s at *
      have hna : ∀ i d, a ≠ .leaf (.ad i d) := fun i d e => hd ⟨i, d, e⟩
      clear hd hev
      revert hm hna
      refine step_elim h2 (P := fun a s' => MacrosFirst (h ++ [a]) → (∀ i d, a ≠ .leaf (.ad i d)) →
        Option.map (shaped s.macros) (s.apertures.get? id) = Option.map (shaped s'.macros) (s'.apertures.get? id)) ?_ ?_ ?_ ?_ ?_
      · intros; rfl
      · intros; rfl
      · intros; rfl
      · intros; rfl
      · intro a hp hs' hm hna
        cases a with
        | leaf l =>
          cases l <;> try (simp [isPlain] at hp; done)
          all_goals try rfl
          case td n => cases n <;> rfl
          case ad i d => exact absurd rfl (hna i d)
          case am n b =>
            cases hap : s.apertures.get? id with
            | none => simp [step, stepLeaf, Out.ok, hap]
            | some d =>
              simp only [step, stepLeaf, Out.ok, hap, Option.map_some]
              congr 1
              cases d with
              | «macro» m ps =>
                rw [hap] at hsel
                have hmem := mem_of_latest_ad hsel.symm
                have hne : n ≠ m := by
                  rintro rfl
                  exact hm h n b [] rfl id ps hmem
                simp [shaped, Dict.get?_set, hne]
              | _ => rfl
        | _ => rfl

/-- The handler of flashes fits the selected aperture when it was not defined again. -/
theorem handler : ∀ h, (run {} h).exn = none → SelectedLast h → ∀ id, (run {} h).st.apId = some id →
    Atom.abClose id ∉ h → ∃ d, (run {} h).st.apertures.get? id = some d ∧
      (run {} h).st.flashHandler = some (flashKind (.ad id d)) := by
  refine history_induction ?_ ?_
  · intro _ id hid; cases hid
  · intro h a h1 h2 ih hl id
    have ih := ih (selectedLast_init hl) id
    have hsel := selected_inv h h1
    have hset := selected_inv (h ++ [a]) (run_snoc_none.2 ⟨h1, h2⟩)
    have hblk := hset.2.2.1 id
    rw [run_snoc_st h1] at hblk ⊢
    have hno : ∀ {h : List Atom} {id}, Atom.abClose id ∉ h → latest (abOf id) none h = none := by
      intro h id hn
      have : h.filterMap (abOf id) = [] := by
        rw [List.filterMap_eq_nil_iff]
        intro a hmem
        unfold abOf
        split
        · rename_i i
          rw [if_neg]
          rintro rfl; exact hn hmem
        · rfl
      unfold latest; rw [this]; rfl
    generalize hs : (run {} h).st = s at *
    revert hl hblk
    refine step_elim h2 (P := fun a s' => SelectedLast (h ++ [a]) → s'.blocks.get? id = latest (abOf id) none (h ++ [a]) →
      s'.apId = some id → Atom.abClose id ∉ h ++ [a] →
      ∃ d, s'.apertures.get? id = some d ∧ s'.flashHandler = some (flashKind (.ad id d))) ?_ ?_ ?_ ?_ ?_
    · intro x y i j _ _ hid hn; exact ih hid (fun hm => hn (by simp [hm]))
    · intro x y _ _ hid hn; exact ih hid (fun hm => hn (by simp [hm]))
    · intro x y _ _ hid hn; exact ih hid (fun hm => hn (by simp [hm]))
    · intro i ap hap _ hblk hid hn
      simp only [Option.some.injEq] at hid
      subst hid
      rw [hno hn] at hblk
      simp only at hblk
      unfold VState.currentAperture at hap
      simp only [hblk] at hap
      cases hg : s.apertures.get? i with
      | none => rw [hg] at hap; cases hap
      | some d => rw [hg] at hap; cases hap; exact ⟨d, rfl, rfl⟩
    · intro a hp hs' hl hblk hid hn
      have hn' : Atom.abClose id ∉ h := fun hm => hn (by simp [hm])
      cases a with
      | leaf l =>
        cases l <;> try (simp [isPlain] at hp; done)
        all_goals try exact ih hid hn'
        case td n => cases n <;> exact ih hid hn'
        case ad i d =>
          have hid' : s.apId = some id := hid
          by_cases hi : i = id
          · subst hi
            exfalso
            rw [hsel.1] at hid'
            obtain ⟨pre, post, e⟩ : ∃ pre post, h = pre ++ Atom.leaf (.dnn i) :: post := by
              have : Atom.leaf (.dnn i) ∈ h := by
                have hmem := List.mem_of_getLast? (l := h.filterMap fun a => (selects a).map some) (a := some i) (by
                  unfold latest at hid'
                  cases hg : (h.filterMap fun a => (selects a).map some).getLast? with
                  | none => rw [hg] at hid'; cases hid'
                  | some v => rw [hg] at hid'; simpa using hid')
                obtain ⟨b, hb, hsb⟩ := List.mem_filterMap.1 hmem
                cases b with
                | leaf l => cases l <;> simp_all [selects]
                | _ => simp [selects] at hsb
              exact List.append_of_mem this
            exact hl pre i (post ++ [.leaf (.ad i d)]) (by rw [e]; simp) d (by simp)
          · obtain ⟨d', e1, e2⟩ := ih hid' hn'
            exact ⟨d', by simp [step, stepLeaf, Out.ok, storeAttributes, Dict.get?_set, hi, e1], e2⟩
      | _ => exact ih hid hn'

theorem filter_one {h pre post : List Atom} {a : Atom} {f f' : CoordinateFormat} (hf : h.filterMap setsFormat = [f])
    (he : h = pre ++ a :: post) (hp : (pre.filterMap setsFormat).getLast? = some f') : f' = f := by
  rw [he, List.filterMap_append] at hf
  have h1 : f' ∈ pre.filterMap setsFormat := List.mem_of_getLast? hp
  have : f' ∈ [f] := by rw [← hf]; exact List.mem_append_left _ h1
  simpa using this

/-- The current point of a file with one format can be written in that format. -/
theorem point_packs {h : List Atom} {f : CoordinateFormat} (hf : h.filterMap setsFormat = [f])
    (he : ∀ pre a post, h = pre ++ a :: post → setsFormat a ≠ none → ∀ ax, ∀ b ∈ pre, gives ax b = none)
    (ax : Axis) (hi : 0 < f.integral ax) (hd : 0 < f.decimal ax) (v : ℚ) (hv : LastGiven ax h v) :
    ∃ t, f.pack ax v = .ok t ∧ f.unpack ax t = .ok v := by
  rcases hv with ⟨pre, c, post, t, g, e, hg, _, hfi, hu⟩ | ⟨_, rfl⟩
  · have : g = f := by
      rcases hfi with hfi | ⟨h1, h2, h3⟩
      · exact filter_one hf e hfi
      · exfalso
        have hmem : f ∈ h.filterMap setsFormat := by rw [hf]; simp
        rw [e, List.filterMap_append, h1, List.nil_append] at hmem
        obtain ⟨b, hb, hsb⟩ := List.mem_filterMap.1 hmem
        rcases List.mem_cons.1 hb with rfl | hb
        · cases b with
          | leaf l => cases l <;> cases ax <;> simp [setsFormat, gives] at hsb hg
          | _ => simp [setsFormat] at hsb
        · obtain ⟨p, q, rfl⟩ := List.append_of_mem hb
          have := he (pre ++ c :: p) b q (by rw [e]; simp) (by rw [hsb]; simp) ax c (by simp)
          rw [hg] at this; cases this
    subst this
    exact repack hi hd hu
  · exact repack hi hd (unpack_zero f ax hi)

theorem run_then {s s1 s2 : VState} {as bs : List Atom} {ev1 ev2 : List Event} {x : Option Exn}
    (h1 : run s as = ⟨s1, ev1, none⟩) (h2 : run s1 bs = ⟨s2, ev2, x⟩) : run s (as ++ bs) = ⟨s2, ev1 ++ ev2, x⟩ := by
  rw [run_append, h1]
  simp only [Out.andThen, h2]

/-- The part of a preview program before the previewed commands. -/
def prelude_ (s : VState) (g : CoordinateFormat) (tx ty : List Char) : List Atom :=
  [.leaf (.fs g), .leaf (.mo s.unit), .leaf (.d02 (some tx) (some ty))] ++ s.macros.map (fun e => .leaf (.am e.1 e.2))
    ++ s.apertures.map (fun e => .leaf (.ad e.1 e.2)) ++ s.macros.map (fun e => .leaf (.am e.1 e.2))
    ++ [.leaf (plotNode s.plot), .leaf (quadNode s.quad), .leaf (.lm s.transform.mirroring),
      .leaf (.ls s.transform.scaling), .leaf (.lr s.transform.rotation)] ++ (s.apId.map fun i => Atom.leaf (.dnn i)).toList

/-- State after the first three commands of a preview. -/
def begun (s : VState) (g : CoordinateFormat) : VState where
  unit := s.unit
  format := some g
  currentX := s.currentX
  currentY := s.currentY
  coordX := some s.currentX
  coordY := some s.currentY

/-- The plot mode of a preview. -/
def shown : Plot → Plot
  | .linear => .linear
  | _ => .arc

/-- State after the modes and transforms of a preview. -/
def readied (s S : VState) : VState :=
  { S with
    plot := shown s.plot
    quad := s.quad
    drawHandler := (VState.drawTable (shown s.plot) s.quad, S.dispatchInRegion)
    transform := { s.transform with polarity := S.transform.polarity } }

theorem prelude_run (s : VState) (g : CoordinateFormat) (tx ty : List Char) (hx : g.unpack .x tx = .ok s.currentX)
    (hy : g.unpack .y ty = .ok s.currentY) (hn : s.apertures.keys.Nodup)
    (hm : s.macros.keys.Nodup) (hap : ∀ id, s.apId = some id → ∃ d, s.apertures.get? id = some d) :
    let o := run {} (prelude_ s g tx ty)
    o.exn = none ∧ o.st.format = some g ∧ o.st.unit = s.unit ∧ o.st.currentX = s.currentX ∧ o.st.currentY = s.currentY ∧
    o.st.coordX = some s.currentX ∧ o.st.coordY = some s.currentY ∧ o.st.coordI = none ∧ o.st.coordJ = none ∧
    o.st.transform = { s.transform with polarity := .dark } ∧ o.st.drawHandler = (drawingOf (shown s.plot) s.quad, false) ∧
    o.st.apId = s.apId ∧ (∀ id, o.st.apertures.get? id = s.apertures.get? id) ∧
    (∀ id d, s.apId = some id → s.apertures.get? id = some d → o.st.flashHandler = some (flashKind (.ad id d))) ∧
    (∀ id, o.st.blocks.get? id = none) ∧
    (∀ id d, s.apertures.get? id = some d → shapeOf o id = some (shaped s.macros d)) := by
  intro o
  have e1 : run {} [.leaf (.fs g), .leaf (.mo s.unit), .leaf (.d02 (some tx) (some ty))] =
      .ok (begun s g) := by
    simp [begun, run, step, stepLeaf, visitXY, coordinate, hx, hy, Out.ok, Out.andThen, VState.putX, VState.putY,
      VState.updateCoordinates]
  generalize hS1 : begun s g = S1 at e1
  have e2 := run_ams s.macros S1
  have m1 : ∀ n, (Dict.setAll S1.macros s.macros).get? n = s.macros.get? n := by
    intro n
    rw [Dict.get?_setAll _ _ _ hm, ← hS1]
    simp [begun]
  generalize hS2 : ({ S1 with macros := Dict.setAll S1.macros s.macros } : VState) = S2 at e2
  obtain ⟨a1, a2, a3⟩ := run_ads s.apertures S2
  obtain ⟨pa, a4⟩ := withAps_eq s.apertures S2
  rw [a4] at a1
  have p1 : ∀ id, (Dict.setAll S2.apertures s.apertures).get? id = s.apertures.get? id := by
    intro id
    rw [Dict.get?_setAll _ _ _ hn, ← hS2, ← hS1]
    simp [begun]
  generalize hS3 : ({ S2 with apertures := Dict.setAll S2.apertures s.apertures, perAperture := pa } : VState) = S3 at a1
  have e4 := run_ams s.macros S3
  generalize hS4 : ({ S3 with macros := Dict.setAll S3.macros s.macros } : VState) = S4 at e4
  have e5 : run S4 [.leaf (plotNode s.plot), .leaf (quadNode s.quad), .leaf (.lm s.transform.mirroring),
      .leaf (.ls s.transform.scaling), .leaf (.lr s.transform.rotation)] =
      .ok (readied s S4) := by
    cases hp : s.plot <;> cases hq : s.quad <;> (simp only [readied, hp, hq]; rfl)
  generalize hS5 : readied s S4 = S5 at e5
  have g5 : ∀ id, S5.apertures.get? id = s.apertures.get? id := by
    intro id; rw [← hS5, ← hS4, ← hS3]; exact p1 id
  have e6 : ∃ fh, run S5 (s.apId.map fun i => Atom.leaf (.dnn i)).toList = .ok { S5 with apId := s.apId, flashHandler := fh } ∧
      ∀ id d, s.apId = some id → s.apertures.get? id = some d → fh = some (flashKind (.ad id d)) := by
    cases hid : s.apId with
    | none =>
      refine ⟨S5.flashHandler, ?_, ?_⟩
      · have : S5.apId = none := by rw [← hS5, ← hS4, ← hS3, ← hS2, ← hS1]; rfl
        simp only [Option.map_none, Option.toList, run]
        rw [← this]
      · intro id d h; cases h
    | some id =>
      obtain ⟨d, hd⟩ := hap id hid
      refine ⟨some (flashKind (.ad id d)), ?_, ?_⟩
      · simp only [Option.map_some, Option.toList, run_singleton, step, stepLeaf, VState.currentAperture, g5, hd]
      · intro id' d' h h'; cases h; rw [hd] at h'; cases h'; rfl
  obtain ⟨fh, e6, f6⟩ := e6
  have ho : o = ⟨{ S5 with apId := s.apId, flashHandler := fh },
      (run S2 (s.apertures.map fun e => .leaf (.ad e.1 e.2))).ev, none⟩ := by
    show run {} (prelude_ s g tx ty) = _
    unfold prelude_
    have a0 : run S2 (s.apertures.map fun e => .leaf (.ad e.1 e.2)) =
        ⟨S3, (run S2 (s.apertures.map fun e => .leaf (.ad e.1 e.2))).ev, none⟩ := by
      rw [← a1, ← a2]
    have := run_then (run_then (run_then (run_then (run_then e1 e2) a0) e4) e5) e6
    simpa using this
  rw [ho]
  refine ⟨rfl, ?_, ?_, ?_, ?_, ?_, ?_, ?_, ?_, ?_, ?_, rfl, g5, f6, ?_, ?_⟩
  · rw [← hS5, ← hS4, ← hS3, ← hS2, ← hS1]; rfl
  · rw [← hS5, ← hS4, ← hS3, ← hS2, ← hS1]; rfl
  · rw [← hS5, ← hS4, ← hS3, ← hS2, ← hS1]; rfl
  · rw [← hS5, ← hS4, ← hS3, ← hS2, ← hS1]; rfl
  · rw [← hS5, ← hS4, ← hS3, ← hS2, ← hS1]; rfl
  · rw [← hS5, ← hS4, ← hS3, ← hS2, ← hS1]; rfl
  · rw [← hS5, ← hS4, ← hS3, ← hS2, ← hS1]; rfl
  · rw [← hS5, ← hS4, ← hS3, ← hS2, ← hS1]; rfl
  · rw [← hS5, ← hS4, ← hS3, ← hS2, ← hS1]; rfl
  · rw [← hS5, ← hS4, ← hS3, ← hS2, ← hS1]
    simp only [readied, drawTable_drawingOf]; rfl
  · intro id; rw [← hS5, ← hS4, ← hS3, ← hS2, ← hS1]; rfl
  · intro id d hd
    show ((run S2 _).ev.filterMap (shapeIn id)).getLast? = _
    rw [a3 id, filter_key _ _ _ hn hd]
    simp only [List.map_cons, List.map_nil, List.getLast?_singleton, shaped]
    have : ∀ n, S2.macros.get? n = s.macros.get? n := by intro n; rw [← hS2]; exact m1 n
    cases d <;> simp [this]

/-- The program of a preview is its prelude and the previewed commands. -/
theorem preview_eq (s : VState) (g : CoordinateFormat) (tx ty : List Char) (hf : s.format = some g)
    (hx : g.pack .x s.currentX = .ok tx) (hy : g.pack .y s.currentY = .ok ty) (a : Leaf) (ha : isStop (.leaf a) = false) :
    preview s [a] = .ok (run {} (prelude_ s g tx ty ++ [.leaf a])) := by
  unfold preview previewNodes
  simp only [hf, hx, hy]
  congr 1
  rw [file_is_run]
  congr 1
  have key : ∀ ls : List Leaf, (∀ l ∈ ls, isStop (.leaf l) = false) →
      executed (!false) (ls.map Cmd.leaf) = ls.map Atom.leaf := by
    intro ls
    induction ls with
    | nil => intro _; rfl
    | cons l ls ih =>
      intro h
      have h1 := h l (by simp)
      have h2 := ih (fun m hm => h m (by simp [hm]))
      simp only [Bool.not_false] at h2 ⊢
      simp [executed, atomsOf, h1, h2]
  rw [key]
  · simp [prelude_, Function.comp_def]
    cases s.apId <;> rfl
  · intro l hl
    simp only [List.mem_append, List.mem_map, List.mem_cons, List.not_mem_nil, or_false] at hl
    rcases hl with (((((((rfl | rfl | rfl) | ⟨_, _, rfl⟩) | ⟨_, _, rfl⟩) | ⟨_, _, rfl⟩) | (rfl | rfl | rfl | rfl | rfl)) | hl) | rfl)
    all_goals try rfl
    · cases s.plot <;> rfl
    · cases s.quad <;> rfl
    · cases hid : s.apId with
      | none => rw [hid] at hl; simp at hl
      | some i => rw [hid] at hl; simp at hl; subst hl; rfl
    · exact ha

theorem coordinate_exn_congr {s t : VState} (h : s.format = t.format) (a put put' x) :
    (coordinate a put x s).exn = (coordinate a put' x t).exn := by
  unfold coordinate
  cases x with
  | none => rfl
  | some x =>
    rw [h]
    cases t.format with
    | none => rfl
    | some f => cases hu : f.unpack a x <;> simp [hu, Out.ok, Out.fail]

theorem coordinate_format (s : VState) (a put x) (hp : ∀ v s, (put v s).format = s.format) :
    (coordinate a put x s).st.format = s.format := by
  unfold coordinate
  repeat' split
  all_goals simp [Out.ok, Out.fail, hp]

theorem visitXY_congr {s t : VState} (h : s.format = t.format) (x y) :
    (visitXY x y s).exn = none → (visitXY x y t).exn = none := by
  unfold visitXY
  intro hs
  obtain ⟨h1, h2⟩ := Out.andThen_exn_none.1 hs
  refine Out.andThen_exn_none.2 ⟨by rw [← h1]; exact (coordinate_exn_congr h _ _ _ _).symm, ?_⟩
  rw [← h2]
  refine (coordinate_exn_congr ?_ _ _ _ _).symm
  rw [coordinate_format s _ _ x (by intros; rfl), coordinate_format t _ _ x (by intros; rfl), h]

theorem visitIJ_congr {s t : VState} (h : s.format = t.format) (x y) :
    (visitIJ x y s).exn = none → (visitIJ x y t).exn = none := by
  unfold visitIJ
  intro hs
  obtain ⟨h1, h2⟩ := Out.andThen_exn_none.1 hs
  refine Out.andThen_exn_none.2 ⟨by rw [← h1]; exact (coordinate_exn_congr h _ _ _ _).symm, ?_⟩
  rw [← h2]
  refine (coordinate_exn_congr ?_ _ _ _ _).symm
  rw [coordinate_format s _ _ x (by intros; rfl), coordinate_format t _ _ x (by intros; rfl), h]

theorem step_d01_congr {s t : VState} (h : s.format = t.format) {x y i j}
    (hs : (step s (.leaf (.d01 x y i j))).exn = none) : (step t (.leaf (.d01 x y i j))).exn = none := by
  simp only [step, stepLeaf] at hs ⊢
  obtain ⟨h1, _⟩ := Out.andThen_exn_none.1 hs
  obtain ⟨h2, h3⟩ := Out.andThen_exn_none.1 h1
  have h2' := visitXY_congr h x y h2
  rw [visitXY_ok h2] at h3
  refine Out.andThen_exn_none.2 ⟨Out.andThen_exn_none.2 ⟨h2', ?_⟩, rfl⟩
  rw [visitXY_ok h2']
  exact visitIJ_congr (s := withXY s x y) (t := withXY t x y) h i j h3

/-- Everything a preview needs to know about the state at the cursor. -/
theorem at_cursor {h : List Atom} {f : CoordinateFormat} (hr : (run {} h).exn = none) (hp : Previewable h f) :
    ∃ g tx ty, (run {} h).st.format = some g ∧ g.pack .x (run {} h).st.currentX = .ok tx ∧
      g.pack .y (run {} h).st.currentY = .ok ty ∧ g.unpack .x tx = .ok (run {} h).st.currentX ∧
      g.unpack .y ty = .ok (run {} h).st.currentY := by
  obtain ⟨d1, d2, d3, d4⟩ := hp.digits
  have hf : ∃ g, (run {} h).st.format = some g ∧ SameDigits f g := by
    rcases format_inv h hr with ⟨_, e, _⟩ | ⟨g, f', e1, e2, e3⟩
    · rw [hp.format] at e; cases e
    · have : f' = f := by
        rcases e2 with e2 | ⟨e2, _⟩
        · rw [hp.format] at e2; simp at e2; exact e2.symm
        · rw [hp.format] at e2; cases e2
      subst this
      exact ⟨g, e1, e3⟩
  obtain ⟨g, hg, n, rfl⟩ := hf
  obtain ⟨px, py⟩ := current_inv h hr
  obtain ⟨tx, x1, x2⟩ := point_packs hp.format hp.early .x d1 d2 _ px
  obtain ⟨ty, y1, y2⟩ := point_packs hp.format hp.early .y d3 d4 _ py
  exact ⟨_, tx, ty, hg, x1, y1, x2, y2⟩

theorem transform_dark : ∀ h : List Atom, (run {} h).exn = none →
    (run {} h).st.transform.polarity = latest setsPolarity .dark h := by
  refine history_induction rfl ?_
  intro h a h1 h2 ih
  rw [run_snoc_st h1, latest_snoc]
  generalize (run {} h).st = s at *
  refine step_elim h2 (P := fun a s' => s'.transform.polarity = (setsPolarity a).getD _) ?_ ?_ ?_ ?_ ?_
  · intros; exact ih
  · intros; exact ih
  · intros; exact ih
  · intros; exact ih
  · intro a hp hs
    cases a with
    | leaf l =>
      cases l <;> try (simp [isPlain] at hp; done)
      all_goals try exact ih
      case td n => cases n <;> exact ih
      case lp p => rfl
    | _ => exact ih

/-- **C47** (draws; partial, see the conditions in `Previewable` and the `c47_false_` theorems). The preview of a `D01`
outside of counter-clockwise mode ends with the same drawing as the file: same kind, same start and end points, same
centre offsets, same transform and unit, same aperture with the same shape.  The offsets of an arc have to be given. -/
theorem c47_draw_partial (h : List Atom) (f : CoordinateFormat) (x y i j : Option (List Char)) (hp : Previewable h f)
    (hplot : latest setsPlot .linear h ≠ .ccwArc)
    (hij : latest setsPlot .linear h = .linear ∨ (i ≠ none ∧ j ≠ none))
    (hr : (run {} (h ++ [.leaf (.d01 x y i j)])).exn = none) :
    ∃ o p, preview (run {} h).st [.d01 x y i j] = .ok o ∧ o.exn = none ∧ finalPicture o = some p ∧
      finalPicture (run {} (h ++ [.leaf (.d01 x y i j)])) = some p ∧
      ∀ id, latest (fun a => (selects a).map some) none h = some id →
        shapeOf o id = shapeOf (run {} (h ++ [.leaf (.d01 x y i j)])) id ∧ shapeOf o id ≠ none := by
  obtain ⟨h1, h2⟩ := run_snoc_none.1 hr
  obtain ⟨g, tx, ty, hg, x1, y1, x2, y2⟩ := at_cursor h1 hp
  obtain ⟨m1, m2, m3, m4, m5⟩ := modes h h1
  obtain ⟨n1, n2⟩ := keys_nodup h h1
  obtain ⟨s1, s2, s3, s4, s5⟩ := selected_inv h h1
  have hset := settled h h1
  have hsX := settled_coordX hset
  have hsY := settled_coordY hset
  unfold VState.coordinateX at hsX
  unfold VState.coordinateY at hsY
  have hshape := shapes h h1 hp.macrosFirst
  have hpol := transform_dark h h1
  have hh := handler h h1 hp.selectedLast
  rw [hp.dark] at hpol
  have hnb : ∀ id, (run {} h).st.apId = some id → Atom.abClose id ∉ h := fun id e => hp.noBlock id (by rw [← s1, e])
  have hev := run_snoc_ev (a := .leaf (.d01 x y i j)) h1
  rw [hp.outside] at m5
  have hsh : ∀ id, shapeOf (run {} (h ++ [.leaf (.d01 x y i j)])) id = shapeOf (run {} h) id := by
    intro id
    unfold shapeOf
    rw [hev, List.filterMap_append, shapeIn_none (by simp), List.append_nil]
  simp only [hsh]
  have hfin : finalPicture (run {} (h ++ [.leaf (.d01 x y i j)])) = picture (.draw (run {} h).st.drawHandler.1
      (run {} h).st.drawHandler.2 (withIJ (withXY (run {} h).st x y) i j)) := by
    unfold finalPicture
    rw [hev, step_d01 h2]
    simp [Out.ok]
  rw [hfin]
  simp only [← s1]
  generalize (run {} h).st = s at *
  have P := prelude_run s g tx ty x2 y2 n1 n2
    (fun id e => (hh id e (hnb id e)).imp fun d hd => hd.1)
  obtain ⟨p1, p2, p3, p4, p5, p6, p7, p8, p9, p10, p11, p12, p13, p14, p15, p16⟩ := P
  refine ⟨_, _, preview_eq s g tx ty hg x1 y1 (.d01 x y i j) rfl, ?_, ?_, rfl, ?_⟩
  · refine run_snoc_none.2 ⟨p1, step_d01_congr ?_ h2⟩
    rw [p2, hg]
  · have hd := step_d01_congr (t := (run {} (prelude_ s g tx ty)).st) (by rw [p2, hg]) h2
    unfold finalPicture
    rw [run_snoc_ev p1, step_d01 hd]
    simp only [Out.ok, List.getLast?_append, List.getLast?_singleton, Option.some_or, Option.bind_some, picture]
    rw [← m1] at hplot
    have hsh : shown s.plot = s.plot := by cases hpl : s.plot <;> first | rfl | exact absurd hpl hplot
    rw [p11, m5, ← m1, ← m2, hsh]
    have ex : (withIJ (withXY (run {} (prelude_ s g tx ty)).st x y) i j).coordinateX =
        (withIJ (withXY s x y) i j).coordinateX := by
      simp only [VState.coordinateX, withIJ, withXY, newCoord, p2, hg, p6, p4]
      cases x with
      | none => exact hsX.symm
      | some t =>
        simp only
        cases hu : g.unpack .x t with
        | ok v => rfl
        | error e => exact hsX.symm
    have ey : (withIJ (withXY (run {} (prelude_ s g tx ty)).st x y) i j).coordinateY =
        (withIJ (withXY s x y) i j).coordinateY := by
      simp only [VState.coordinateY, withIJ, withXY, newCoord, p2, hg, p7, p5]
      cases y with
      | none => exact hsY.symm
      | some t =>
        simp only
        cases hu : g.unpack .y t with
        | ok v => rfl
        | error e => exact hsY.symm
    have et : (run {} (prelude_ s g tx ty)).st.transform = s.transform := by
      rw [p10, ← hpol]
    have ea : (withIJ (withXY (run {} (prelude_ s g tx ty)).st x y) i j).currentAperture.toOption =
        (withIJ (withXY s x y) i j).currentAperture.toOption := by
      show (run {} (prelude_ s g tx ty)).st.currentAperture.toOption = s.currentAperture.toOption
      unfold VState.currentAperture
      rw [p12]
      cases hid : s.apId with
      | none => rfl
      | some id =>
        obtain ⟨d, hd, _⟩ := hh id hid (hnb id hid)
        simp only [p13, hd]
    have eo : (if drawingOf s.plot s.quad = .line then none else
          some ((withIJ (withXY (run {} (prelude_ s g tx ty)).st x y) i j).coordinateI,
            (withIJ (withXY (run {} (prelude_ s g tx ty)).st x y) i j).coordinateJ)) =
        (if drawingOf s.plot s.quad = .line then none else
          some ((withIJ (withXY s x y) i j).coordinateI, (withIJ (withXY s x y) i j).coordinateJ)) := by
      rcases hij with hl | ⟨hi, hj⟩
      · rw [← m1] at hl
        simp [hl, drawingOf]
      · obtain ⟨ti, rfl⟩ := Option.ne_none_iff_exists'.1 hi
        obtain ⟨tj, rfl⟩ := Option.ne_none_iff_exists'.1 hj
        simp only [step, stepLeaf] at h2
        obtain ⟨h4, h5⟩ := Out.andThen_exn_none.1 (Out.andThen_exn_none.1 h2).1
        rw [visitXY_ok h4] at h5
        obtain ⟨h6, h7⟩ := Out.andThen_exn_none.1 h5
        rcases coordinate_none h6 with ⟨e, _⟩ | ⟨_, g1, vi, e, hg1, hu, e1⟩
        · cases e
        cases e
        rw [e1] at h7
        rcases coordinate_none h7 with ⟨e, _⟩ | ⟨_, g2, vj, e, hg2, hu', _⟩
        · cases e
        cases e
        have q1 : s.format = some g1 := hg1
        have q2 : s.format = some g2 := hg2
        rw [hg] at q1 q2; cases q1; cases q2
        simp only [VState.coordinateI, VState.coordinateJ, withIJ, withXY, newCoord, p2, hg, hu, hu']
    rw [ex, ey, ea, eo]
    simp only [withIJ, withXY, p3, p4, p5, et]
  · intro id hid
    obtain ⟨d, hd, _⟩ := hh id hid (hnb id hid)
    have : shapeOf (run {} (prelude_ s g tx ty ++ [.leaf (.d01 x y i j)])) id = shapeOf (run {} (prelude_ s g tx ty)) id := by
      unfold shapeOf
      rw [run_snoc_ev p1, List.filterMap_append, shapeIn_none (by simp), List.append_nil]
    rw [this, p16 id d hd, hshape id, hd]
    simp

theorem step_d03_congr {s t : VState} (h : s.format = t.format) {x y ap k} (hs : (step s (.leaf (.d03 x y))).exn = none)
    (ha : t.currentAperture = .ok ap) (hk : t.flashHandler = some k) :
    step t (.leaf (.d03 x y)) = .ok (withXY t x y).updateCoordinates [.flash k ap (withXY t x y)] := by
  simp only [step, stepLeaf] at hs ⊢
  obtain ⟨h1, _⟩ := Out.andThen_exn_none.1 hs
  rw [visitXY_ok (visitXY_congr h x y h1)]
  have ha' : (withXY t x y).currentAperture = .ok ap := ha
  have hk' : (withXY t x y).flashHandler = some k := hk
  rw [Out.andThen_ok]
  simp only [flashCurrent, ha', hk', Out.ok, List.nil_append]

/-- **C47** (flashes; partial as `c47_draw_partial`, but in any plot mode). The preview of a `D03` ends with the same flash
as the file: same kind, place, transform, unit and aperture, with the same shape. -/
theorem c47_flash_partial (h : List Atom) (f : CoordinateFormat) (x y : Option (List Char)) (hp : Previewable h f)
    (hr : (run {} (h ++ [.leaf (.d03 x y)])).exn = none) :
    ∃ o p, preview (run {} h).st [.d03 x y] = .ok o ∧ o.exn = none ∧ finalPicture o = some p ∧
      finalPicture (run {} (h ++ [.leaf (.d03 x y)])) = some p ∧
      ∀ id, latest (fun a => (selects a).map some) none h = some id →
        shapeOf o id = shapeOf (run {} (h ++ [.leaf (.d03 x y)])) id ∧ shapeOf o id ≠ none := by
  obtain ⟨h1, h2⟩ := run_snoc_none.1 hr
  obtain ⟨g, tx, ty, hg, x1, y1, x2, y2⟩ := at_cursor h1 hp
  obtain ⟨m1, m2, m3, m4, m5⟩ := modes h h1
  obtain ⟨n1, n2⟩ := keys_nodup h h1
  obtain ⟨s1, s2, s3, s4, s5⟩ := selected_inv h h1
  have hset := settled h h1
  have hsX := settled_coordX hset
  have hsY := settled_coordY hset
  unfold VState.coordinateX at hsX
  unfold VState.coordinateY at hsY
  have hshape := shapes h h1 hp.macrosFirst
  have hpol := transform_dark h h1
  have hh := handler h h1 hp.selectedLast
  rw [hp.dark] at hpol
  have hnb : ∀ id, (run {} h).st.apId = some id → Atom.abClose id ∉ h := fun id e => hp.noBlock id (by rw [← s1, e])
  have hev := run_snoc_ev (a := .leaf (.d03 x y)) h1
  have hsh : ∀ id, shapeOf (run {} (h ++ [.leaf (.d03 x y)])) id = shapeOf (run {} h) id := by
    intro id
    unfold shapeOf
    rw [hev, List.filterMap_append, shapeIn_none (by simp), List.append_nil]
  simp only [hsh]
  obtain ⟨ap, k, c1, c2, c3⟩ := step_d03 h2
  have hfin : finalPicture (run {} (h ++ [.leaf (.d03 x y)])) = picture (.flash k ap (withXY (run {} h).st x y)) := by
    unfold finalPicture
    rw [hev, c3]
    simp [Out.ok]
  rw [hfin]
  simp only [← s1]
  generalize (run {} h).st = s at *
  have P := prelude_run s g tx ty x2 y2 n1 n2
    (fun id e => (hh id e (hnb id e)).imp fun d hd => hd.1)
  obtain ⟨p1, p2, p3, p4, p5, p6, p7, p8, p9, p10, p11, p12, p13, p14, p15, p16⟩ := P
  have hap : (run {} (prelude_ s g tx ty)).st.currentAperture = .ok ap ∧
      (run {} (prelude_ s g tx ty)).st.flashHandler = some k := by
    cases hid : s.apId with
    | none => simp [VState.currentAperture, hid] at c1
    | some id =>
      obtain ⟨d, hd, hk⟩ := hh id hid (hnb id hid)
      rw [hk] at c2; cases c2
      simp only [VState.currentAperture, hid, hd] at c1
      cases c1
      refine ⟨?_, p14 id d hid hd⟩
      simp only [VState.currentAperture, p12, hid, p13, hd]
  have hd := step_d03_congr (t := (run {} (prelude_ s g tx ty)).st) (by rw [p2, hg]) h2 hap.1 hap.2
  refine ⟨_, _, preview_eq s g tx ty hg x1 y1 (.d03 x y) rfl, ?_, ?_, rfl, ?_⟩
  · exact run_snoc_none.2 ⟨p1, by rw [hd]; rfl⟩
  · unfold finalPicture
    rw [run_snoc_ev p1, hd]
    simp only [Out.ok, List.getLast?_append, List.getLast?_singleton, Option.some_or, Option.bind_some, picture]
    have ex : (withXY (run {} (prelude_ s g tx ty)).st x y).coordinateX = (withXY s x y).coordinateX := by
      simp only [VState.coordinateX, withXY, newCoord, p2, hg, p6, p4]
      cases x with
      | none => exact hsX.symm
      | some t =>
        simp only
        cases hu : g.unpack .x t with
        | ok v => rfl
        | error e => exact hsX.symm
    have ey : (withXY (run {} (prelude_ s g tx ty)).st x y).coordinateY = (withXY s x y).coordinateY := by
      simp only [VState.coordinateY, withXY, newCoord, p2, hg, p7, p5]
      cases y with
      | none => exact hsY.symm
      | some t =>
        simp only
        cases hu : g.unpack .y t with
        | ok v => rfl
        | error e => exact hsY.symm
    have et : (run {} (prelude_ s g tx ty)).st.transform = s.transform := by
      rw [p10, ← hpol]
    rw [ex, ey]
    simp only [withXY, p3, et]
  · intro id hid
    obtain ⟨d, hd', _⟩ := hh id hid (hnb id hid)
    have : shapeOf (run {} (prelude_ s g tx ty ++ [.leaf (.d03 x y)])) id = shapeOf (run {} (prelude_ s g tx ty)) id := by
      unfold shapeOf
      rw [run_snoc_ev p1, List.filterMap_append, shapeIn_none (by simp), List.append_nil]
    rw [this, p16 id d hd', hshape id, hd']
    simp

/-- **C47** for files: hovering over a top-level `D01`. -/
theorem c47_file_partial (pre post : List Located) (c : Located) (f : CoordinateFormat) (x y i j : Option (List Char))
    (hc : c.cmd = .leaf (.d01 x y i j)) (ht : InText (pre ++ c :: post))
    (hp : Previewable (executed true (pre.map Located.cmd)) f)
    (hplot : latest setsPlot .linear (executed true (pre.map Located.cmd)) ≠ .ccwArc)
    (hij : latest setsPlot .linear (executed true (pre.map Located.cmd)) = .linear ∨ (i ≠ none ∧ j ≠ none))
    (hr : (processFile false ((pre ++ [c]).map Located.cmd)).exn = none) :
    ∃ s o p, hoverState (pre ++ c :: post) c.start = .ok s ∧ preview s [.d01 x y i j] = .ok o ∧ o.exn = none ∧
      finalPicture o = some p ∧ finalPicture (processFile false ((pre ++ [c]).map Located.cmd)) = some p := by
  have e : executed true ((pre ++ [c]).map Located.cmd) =
      executed true (pre.map Located.cmd) ++ [.leaf (.d01 x y i j)] := by
    rw [List.map_append, executed_append true _ _ (Or.inl rfl)]
    simp [executed, hc, atomsOf, isStop]
  rw [file_is_run] at hr ⊢
  simp only [Bool.not_false, e] at hr ⊢
  obtain ⟨o, p, h1, h2, h3, h4, -⟩ := c47_draw_partial _ f x y i j hp hplot hij hr
  have h0 := (run_snoc_none.1 hr).1
  refine ⟨_, o, p, c60_state pre post c ht ?_, ?_, h2, h3, h4⟩
  · rw [file_is_run]; exact h0
  · rw [file_is_run]; exact h1

theorem selectedLast_cons {a : Atom} {h : List Atom} (ha : ∀ id, a = .leaf (.dnn id) → ∀ d, Atom.leaf (.ad id d) ∉ h)
    (hh : SelectedLast h) : SelectedLast (a :: h) := by
  intro pre id post e
  cases pre with
  | nil => cases e; exact ha id rfl
  | cons b pre => cases e; exact hh pre id post rfl

theorem macrosFirst_cons {a : Atom} {h : List Atom}
    (ha : ∀ id n ps, a = .leaf (.ad id (.macro n ps)) → ∀ b, Atom.leaf (.am n b) ∉ h)
    (hh : MacrosFirst h) : MacrosFirst (a :: h) := by
  intro pre n b post e id ps hm
  cases pre with
  | nil => cases hm
  | cons c pre =>
    cases e
    rcases List.mem_cons.1 hm with hm | hm
    · exact ha id n ps hm.symm b (by simp)
    · exact hh pre n b post rfl id ps hm

theorem selectedLast_nil : SelectedLast [] := by intro pre id post e; simp at e
theorem macrosFirst_nil : MacrosFirst [] := by intro pre n b post e; simp at e

/-- A file to look at: a macro, two apertures, an arc. -/
def sample : List Atom :=
  [.leaf (.fs {}), .leaf (.mo .imperial), .leaf (.am ['M'] []), .leaf (.ad ['D','1','0'] (.macro ['M'] [1])),
    .leaf (.ad ['D','1','1'] (.circle 1 none)), .leaf (.dnn ['D','1','0']), .leaf .g75, .leaf .g02, .leaf (.lr 30),
    .leaf (.d02 (some ['5','0','0']) (some ['-','7']))]

theorem sample_previewable : Previewable sample {} := by
  refine ⟨rfl, ?_, by decide, rfl, rfl, ?_, ?_, ?_⟩
  · intro pre a post e ha ax b hb
    cases pre with
    | nil => cases hb
    | cons b' pre =>
      exfalso
      simp only [sample, List.cons_append, List.cons.injEq] at e
      have : a ∈ pre ++ a :: post := by simp
      rw [← e.2] at this
      simp only [List.mem_cons, List.not_mem_nil, or_false] at this
      rcases this with rfl | rfl | rfl | rfl | rfl | rfl | rfl | rfl | rfl <;> exact ha rfl
  · intro id _; simp [sample]
  · unfold sample
    repeat' apply selectedLast_cons
    all_goals first | exact selectedLast_nil | simp
  · unfold sample
    repeat' apply macrosFirst_cons
    all_goals first | exact macrosFirst_nil | simp

/-- Non-vacuity of C47: an arc and a flash can be drawn after the sample. -/
example : latest setsPlot .linear sample = .arc ∧
    (run {} (sample ++ [.leaf (.d01 (some ['1']) none (some ['2']) (some ['3']))])).exn = none ∧
    (run {} (sample ++ [.leaf (.d03 (some ['1']) none)])).exn = none := by
  refine ⟨rfl, by decide +kernel, by decide +kernel⟩

/-- What the preview of a command paints. -/
def previewed (h : List Atom) (l : Leaf) : Option (Option Picture) :=
  match preview (run {} h).st [l] with
  | .ok o => some (if o.exn = none then finalPicture o else none)
  | .error _ => none

/-- What the claim would say without the conditions. -/
def Claim (h : List Atom) (l : Leaf) : Prop :=
  (run {} (h ++ [.leaf l])).exn = none → previewed h l = some (finalPicture (run {} (h ++ [.leaf l])))

/-- **C47 fails for counter-clockwise arcs**: they are previewed clockwise. -/
theorem c47_false_counter_clockwise : ¬ ∀ h x y i j, Claim h (.d01 x y i j) := by
  intro hall
  have := hall [.leaf (.fs {}), .leaf .g75, .leaf .g03] (some ['1']) none (some ['2']) (some ['3']) (by decide +kernel)
  revert this; decide +kernel

/-- **C47 fails for clear polarity**: the preview is dark. -/
theorem c47_false_clear : ¬ ∀ h x y, Claim h (.d01 x y none none) := by
  intro hall
  have := hall [.leaf (.fs {}), .leaf (.lp .clear)] (some ['1']) none (by decide +kernel)
  revert this; decide +kernel

/-- **C47 fails inside regions**: the preview strokes the contour. -/
theorem c47_false_region : ¬ ∀ h x y, Claim h (.d01 x y none none) := by
  intro hall
  have := hall [.leaf (.fs {}), .leaf .g36] (some ['1']) none (by decide +kernel)
  revert this; decide +kernel

/-- **C47 fails for block apertures**: there is no preview. -/
theorem c47_false_block : ¬ ∀ h x y, Claim h (.d03 x y) := by
  intro hall
  have := hall [.leaf (.fs {}), .abOpen ['D','1'], .abClose ['D','1'], .leaf (.dnn ['D','1'])] (some ['1']) none
    (by decide +kernel)
  revert this; decide +kernel

/-- **C47 fails for omitted centre offsets**: the file uses the latest ones, the preview none. -/
theorem c47_false_omitted_offsets : ¬ ∀ h x y i j, Claim h (.d01 x y i j) := by
  intro hall
  have := hall [.leaf (.fs {}), .leaf .g75, .leaf .g02, .leaf (.d01 (some ['1']) none (some ['2']) (some ['3']))]
    (some ['9']) none none none (by decide +kernel)
  revert this; decide +kernel

/-- **C47 fails after a change of format**: the start is rounded to the new format. -/
theorem c47_false_format_change : ¬ ∀ h x y, Claim h (.d01 x y none none) := by
  intro hall
  have := hall [.leaf (.fs {}), .leaf (.d02 (some ['1']) none), .leaf (.fs { xDecimal := 3, yDecimal := 3 })]
    (some ['9']) none (by decide +kernel)
  revert this; decide +kernel

/-- **C47 fails for formats without decimal digits**: there is no preview. -/
theorem c47_false_no_decimals : ¬ ∀ h x y, Claim h (.d01 x y none none) := by
  intro hall
  have := hall [.leaf (.fs { xDecimal := 0, yDecimal := 0 })] (some ['9']) none (by decide +kernel)
  revert this; decide +kernel

/-- The shape of an aperture in the preview of a command. -/
def previewedShape (h : List Atom) (l : Leaf) (id : Name) : Option (Option (ApDef × Option (List Macro.Prim))) :=
  match preview (run {} h).st [l] with
  | .ok o => some (shapeOf o id)
  | .error _ => none

/-- **C47 fails for macros defined again**: the aperture is previewed with the later macro. -/
theorem c47_false_macro_again : ¬ ∀ h x y id, (run {} (h ++ [.leaf (.d03 x y)])).exn = none →
    previewedShape h (.d03 x y) id = some (shapeOf (run {} (h ++ [.leaf (.d03 x y)])) id) := by
  intro hall
  have := hall [.leaf (.fs {}), .leaf (.am ['M'] []), .leaf (.ad ['D','1'] (.macro ['M'] [])),
    .leaf (.am ['M'] [.assign ['1'] (.const 1)]), .leaf (.dnn ['D','1'])] (some ['9']) none ['D','1'] (by decide +kernel)
  have := congrArg (fun o => o.map fun o => o.map fun p => p.2.map List.length) this
  revert this; decide +kernel

/-! ### C60 -/

/-- **C60** (text; partial: see `c60_false_centre` for the centre shown for arcs). The text shown for a `D01` names the
start and the end of the drawing, the selected aperture, the modes, the transform and the object attributes: those with
which the command is executed. -/
theorem c60_report_partial (h : List Atom) (x y i j : Option (List Char))
    (hr : (run {} (h ++ [.leaf (.d01 x y i j)])).exn = none) (hf : ∃ f, FormatInForce h f) :
    ∃ r vx vy vx' vy', drawReport (run {} h).st x y i j = .ok r ∧
      LastGiven .x h vx ∧ LastGiven .y h vy ∧ r.startsAt = (vx, vy) ∧
      LastGiven .x (h ++ [.leaf (.d01 x y i j)]) vx' ∧ LastGiven .y (h ++ [.leaf (.d01 x y i j)]) vy' ∧
      r.endsAt = some (vx', vy') ∧
      r.aperture = latest (fun a => (selects a).map some) none h ∧
      r.plot = latest setsPlot .linear h ∧
      r.quadrant = (if latest setsPlot .linear h = .linear then none else some (latest setsQuad .single h)) ∧
      r.polarity = latest setsPolarity .dark h ∧ r.mirroring = latest setsMirroring .none h ∧
      r.rotation = latest setsRotation 0 h ∧ r.scaling = latest setsScaling 1 h ∧
      (∀ n, r.objectAttrs.get? n = latest (setsObjectAttr n) none h) := by
  obtain ⟨h1, h2⟩ := run_snoc_none.1 hr
  obtain ⟨m1, m2, m3, m4, m5⟩ := modes h h1
  obtain ⟨s1, -⟩ := selected_inv h h1
  obtain ⟨c1, c2⟩ := current_inv h h1
  obtain ⟨c3, c4⟩ := current_inv _ hr
  have hset := settled h h1
  have hsX := settled_coordX hset
  have hsY := settled_coordY hset
  unfold VState.coordinateX at hsX
  unfold VState.coordinateY at hsY
  obtain ⟨t1, t2, t3, t4⟩ := Props.Compiler.transform_inv h h1
  have hattr := fun n => (attributes h h1 n).2.2
  rw [run_snoc_st h1, step_d01 h2, updateCoordinates_eq] at c3 c4
  have hfmt : ∃ g, (run {} h).st.format = some g := by
    rcases format_inv h h1 with ⟨_, e2, e3⟩ | ⟨g, _, e1, _⟩
    · obtain ⟨f, hf | ⟨_, ⟨a, ha, hn⟩, _⟩⟩ := hf
      · rw [e2] at hf; cases hf
      · rw [e3 a ha] at hn; cases hn
    · exact ⟨g, e1⟩
  obtain ⟨g, hg⟩ := hfmt
  generalize (run {} h).st = s at *
  have h3 := h2
  simp only [step, stepLeaf] at h3
  obtain ⟨h4, h5⟩ := Out.andThen_exn_none.1 (Out.andThen_exn_none.1 h3).1
  rw [visitXY_ok h4] at h5
  -- the coordinates can be read
  have one : ∀ (a : Axis) put (t : Option (List Char)) (s' : VState), s'.format = some g → (coordinate a put t s').exn = none →
      ∀ d : ℚ, ∃ v, shownValue g a t d = .ok v ∧
        (∀ old, (newCoord a s' t old).getD d = (t.map fun _ => v).getD (old.getD d)) := by
    intro a put t s' hs' he d
    cases t with
    | none => exact ⟨d, rfl, fun old => by simp [newCoord]⟩
    | some t =>
      rcases coordinate_none he with ⟨e, _⟩ | ⟨t', f, v, e, hf', hu, _⟩
      · cases e
      · cases e
        rw [hs'] at hf'; cases hf'
        exact ⟨v, hu, fun old => by simp [newCoord, hs', hu]⟩
  obtain ⟨hx1, hy1⟩ := Out.andThen_exn_none.1 h4
  obtain ⟨hi1, hj1⟩ := Out.andThen_exn_none.1 h5
  have fx : ((coordinate .x (fun v s => s.putX v) x s).st).format = some g := by
    rw [coordinate_format _ _ _ _ (by intros; rfl), hg]
  have fi : (coordinate .x (fun v s => s.putI v) i (withXY s x y)).st.format = some g := by
    rw [coordinate_format _ _ _ _ (by intros; rfl)]; exact hg
  obtain ⟨vx, ex1, ex2⟩ := one .x _ x s hg hx1 s.currentX
  obtain ⟨vy, ey1, ey2⟩ := one .y _ y _ fx hy1 s.currentY
  obtain ⟨vi, ei1, -⟩ := one .x _ i _ (show (withXY s x y).format = some g from hg) hi1 0
  obtain ⟨vj, ej1, -⟩ := one .y _ j _ fi hj1 0
  have ey2' : ∀ old, (newCoord .y s y old).getD s.currentY = (y.map fun _ => vy).getD (old.getD s.currentY) := by
    intro old
    rw [← ey2 old]
    simp only [newCoord, fx, hg]
  have a1 : appendXY s x y s.currentX s.currentY = .ok (some (vx, vy)) := by
    unfold appendXY
    rw [hg]
    simp only [ex1, ey1]
  have a2 : appendXY s i j 0 0 = .ok (some (vi, vj)) := by
    unfold appendXY
    rw [hg]
    simp only [ei1, ej1]
  have b1 : (withIJ (withXY s x y) i j).coordinateX = vx := by
    show (newCoord .x s x s.coordX).getD s.currentX = vx
    rw [ex2]
    cases x with
    | none => cases ex1; exact hsX
    | some t => rfl
  have b2 : (withIJ (withXY s x y) i j).coordinateY = vy := by
    show (newCoord .y s y s.coordY).getD s.currentY = vy
    rw [ey2']
    cases y with
    | none => cases ey1; exact hsY
    | some t => rfl
  simp only [Out.ok, b1, b2] at c3 c4
  unfold drawReport
  rw [a1, a2]
  by_cases hpl : s.plot = .linear
  · simp only [if_pos hpl]
    refine ⟨_, _, _, _, _, rfl, c1, c2, rfl, c3, c4, rfl, s1, m1, ?_, t1, t2, t3, t4, hattr⟩
    simp [← m1, hpl]
  · simp only [if_neg hpl]
    refine ⟨_, _, _, _, _, rfl, c1, c2, rfl, c3, c4, rfl, s1, m1, ?_, t1, t2, t3, t4, hattr⟩
    simp [← m1, m2, hpl]

/-- **C60 fails for the centre of an arc**: the text names the offset of the centre from the start, not the centre. -/
theorem c60_false_centre : ¬ ∀ h x y i j r k q s, (run {} (h ++ [.leaf (.d01 x y i j)])).ev.getLast? = some (.draw k q s) →
    k ≠ .line → drawReport (run {} h).st x y i j = .ok r →
    r.centreAt = some (s.currentX + s.coordinateI, s.currentY + s.coordinateJ) := by
  intro hall
  let h : List Atom := [.leaf (.fs {}), .leaf .g75, .leaf .g02, .leaf (.d02 (some ['1']) (some ['1']))]
  have e : ∃ r k q s, (run {} (h ++ [.leaf (.d01 (some ['2']) none (some ['5']) (some ['7']))])).ev.getLast? = some (.draw k q s) ∧
      k ≠ .line ∧ drawReport (run {} h).st (some ['2']) none (some ['5']) (some ['7']) = .ok r ∧
      r.centreAt ≠ some (s.currentX + s.coordinateI, s.currentY + s.coordinateJ) := by
    refine ⟨_, _, _, _, rfl, by decide +kernel, rfl, by decide +kernel⟩
  obtain ⟨r, k, q, s, e1, e2, e3, e4⟩ := e
  exact e4 (hall h _ _ _ _ r k q s e1 e2 e3)

/-- **C60 fails inside of blocks**: hovering over a command in a block shows the state before the block. -/
theorem c60_false_in_block : ¬ ∀ (file : List Located) (loc : Nat) (id : Name) (body rest : List Cmd) (st en : Nat),
    file = [⟨st, en, .ab id (body ++ rest)⟩] → st < loc → loc < en → (run {} (atomsOfAll body)).exn = none →
    ∃ s, hoverState file loc = .ok s ∧ s.currentX = (run {} (atomsOfAll body)).st.currentX := by
  intro hall
  obtain ⟨s, h1, h2⟩ := hall [⟨0, 99, .ab ['D','1'] ([.leaf (.fs {}), .leaf (.d02 (some ['1']) none)] ++
    [.leaf (.d01 (some ['2']) none none none)])⟩] 50 ['D','1'] _ _ 0 99 rfl (by omega) (by omega) (by decide +kernel)
  cases h1
  revert h2; decide +kernel

/-- Non-vacuity of C60. -/
example : InText [⟨0, 5, .leaf (.fs {})⟩, ⟨6, 10, .leaf .g02⟩, ⟨10, 20, .leaf (.d01 (some ['1']) none none none)⟩] ∧
    FormatInForce sample {} := ⟨by simp [InText], Or.inl rfl⟩

end Verif.Props.Hover
