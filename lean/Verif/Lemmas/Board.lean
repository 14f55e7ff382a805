import Verif.Spec.Board
import Verif.Lemmas.State
import Verif.Lemmas.CoordProps

/-!
# Lemmas about the Gerber builder: running the generated commands
-/

namespace Verif.GerberBuilder
open Verif.Visitor Verif.Coord Verif.Spec Verif.Spec.Board Builder

/-! ## Rounding -/

theorem grid_spec (v : ℚ) : ∃ n : ℤ, RoundsTo (v * 10 ^ 6) n ∧ grid v = n / 10 ^ 6 := by
  unfold grid
  simp only
  generalize v * 10 ^ 6 = q
  have h0 := Int.floor_le q
  have h1 := Int.lt_floor_add_one q
  split_ifs with ha hb hc
  · exact ⟨⌊q⌋, .inl (by rw [abs_lt]; constructor <;> linarith), rfl⟩
  · exact ⟨⌊q⌋ + 1, .inl (by rw [abs_lt]; push_cast; constructor <;> linarith), by push_cast; rfl⟩
  · have : q - ⌊q⌋ = 1 / 2 := by linarith
    exact ⟨⌊q⌋, .inr ⟨by rw [this]; norm_num, hc⟩, rfl⟩
  · have : q - ⌊q⌋ = 1 / 2 := by linarith
    refine ⟨⌊q⌋ + 1, .inr ⟨?_, ?_⟩, by push_cast; rfl⟩
    · rw [show q - ((⌊q⌋ + 1 : ℤ) : ℚ) = -(1 / 2) by push_cast; linarith]; norm_num
    · exact (Int.not_even_iff_odd.mp hc).add_one

theorem roundsTo_neg {q : ℚ} {n : ℤ} (h : RoundsTo q n) : RoundsTo (-q) (-n) := by
  have e : |(-q) - ((-n : ℤ) : ℚ)| = |q - n| := by rw [← abs_neg]; congr 1; push_cast; ring
  rcases h with h | ⟨h, h2⟩
  · exact .inl (by rw [e]; exact h)
  · exact .inr ⟨by rw [e]; exact h, h2.neg⟩

theorem unpack_pack (a : Axis) (v : ℚ) (t : List Char) (h : format.pack a v = .ok t) :
    format.unpack a t = .ok (grid v) := by
  obtain ⟨n, hn, hu⟩ := Lemmas.Coord.unpack_pack_core format a v t h
  have hd : format.decimal a = 6 := by cases a <;> rfl
  rw [hd] at hn hu
  obtain ⟨m, hm, hg⟩ := grid_spec v
  rw [hu, hg]
  by_cases hv : v < 0
  · rw [if_pos hv]
    have : RoundsTo (v * 10 ^ 6) (-n) := by
      have := roundsTo_neg hn
      rwa [abs_of_neg hv, neg_mul, neg_neg] at this
    rw [Text.roundsTo_unique hm this]
  · rw [if_neg hv]
    rw [abs_of_nonneg (not_lt.mp hv)] at hn
    rw [Text.roundsTo_unique hm hn]

theorem packed_ok {a : Axis} {v : ℚ} {t : List Char} (h : packed a v = .ok t) : format.unpack a t = .ok (grid v) := by
  unfold packed at h
  split at h
  · rename_i t' ht
    injection h with h; subst h
    exact unpack_pack a v _ ht
  · simp at h

/-! ## Running commands -/

/-- Running commands ends normally in a state, with callbacks. -/
def Runs (s : VState) (ls : List Leaf) (s' : VState) (ev : List Event) : Prop :=
  run s (ls.map Atom.leaf) = ⟨s', ev, none⟩

theorem Runs.nil (s : VState) : Runs s [] s [] := rfl

theorem Runs.cons {s s1 s2 : VState} {l : Leaf} {ls : List Leaf} {e1 e2 : List Event}
    (h1 : stepLeaf s l = ⟨s1, e1, none⟩) (h2 : Runs s1 ls s2 e2) : Runs s (l :: ls) s2 (e1 ++ e2) := by
  unfold Runs at *
  simp only [List.map_cons, run, step]
  rw [h1, Out.andThen_of_none rfl]
  simp only [h2]

theorem Runs.single {s s1 : VState} {l : Leaf} {e1 : List Event} (h1 : stepLeaf s l = ⟨s1, e1, none⟩) :
    Runs s [l] s1 e1 := by
  simpa using Runs.cons h1 (Runs.nil s1)

theorem Runs.append {s s1 s2 : VState} {a b : List Leaf} {e1 e2 : List Event} (h1 : Runs s a s1 e1)
    (h2 : Runs s1 b s2 e2) : Runs s (a ++ b) s2 (e1 ++ e2) := by
  unfold Runs at *
  rw [List.map_append, run_append, h1, Out.andThen_of_none rfl]
  simp only [h2]

/-! ## State updates -/

theorem selectUpdate_fst (b : Builder) (id : Name) :
    (b.selectUpdate (some id)).1 = { b with selectedAperture := some id } := by
  unfold selectUpdate
  dsimp only
  split_ifs with h
  · rfl
  · rw [not_not] at h; rw [← h]

theorem selectUpdate_runs {b : Builder} {s : VState} {id : Name} {d : ApDef} (hd : s.apertures.get? id = some d)
    (h : s.apId = b.selectedAperture)
    (hf : ∀ id, s.apId = some id → ∃ d, s.apertures.get? id = some d ∧ s.flashHandler = some (flashKind (.ad id d))) :
    Runs s (b.selectUpdate (some id)).2 { s with apId := some id, flashHandler := some (flashKind (.ad id d)) } [] := by
  unfold selectUpdate
  dsimp only
  split_ifs with hs
  · apply Runs.single
    simp only [stepLeaf, VState.currentAperture, hd]
    rfl
  · rw [not_not] at hs
    have h1 : s.apId = some id := h.trans hs
    obtain ⟨d', hd', hk⟩ := hf id h1
    have : d' = d := by rw [hd] at hd'; exact (Option.some.inj hd').symm
    subst this
    rw [← h1, ← hk]
    exact Runs.nil s

theorem polarityUpdate_fst (b : Builder) (p : Polarity) :
    (b.polarityUpdate (some p)).1 = { b with polarity := p } := by
  unfold polarityUpdate
  dsimp only
  split_ifs with h
  · rfl
  · rw [not_not] at h; rw [h]

theorem polarityUpdate_runs {b : Builder} {s : VState} {p : Polarity} (h : s.transform.polarity = b.polarity) :
    Runs s (b.polarityUpdate (some p)).2 { s with transform := { s.transform with polarity := p } } [] := by
  unfold polarityUpdate
  dsimp only
  split_ifs with hs
  · exact Runs.single rfl
  · rw [not_not] at hs
    have : s.transform.polarity = p := h.trans hs.symm
    subst this
    exact Runs.nil s

theorem rotationUpdate_fst (b : Builder) (r : ℚ) : (b.rotationUpdate (some r)).1 = { b with rotation := r } := by
  unfold rotationUpdate
  dsimp only
  split_ifs with h
  · rfl
  · rw [not_not] at h; rw [h]

theorem rotationUpdate_runs {b : Builder} {s : VState} {r : ℚ} (h : s.transform.rotation = b.rotation) :
    Runs s (b.rotationUpdate (some r)).2 { s with transform := { s.transform with rotation := r } } [] := by
  unfold rotationUpdate
  dsimp only
  split_ifs with hs
  · exact Runs.single rfl
  · rw [not_not] at hs
    have : s.transform.rotation = r := h.trans hs.symm
    subst this
    exact Runs.nil s

theorem mirroringUpdate_fst (b : Builder) (x y : Bool) :
    (b.mirroringUpdate (some x) (some y)).1 = { b with mirroring := mirroringOf x y } := by
  unfold mirroringUpdate
  dsimp only [Option.getD]
  split_ifs with h
  · rfl
  · rw [not_not] at h; rw [h]

theorem mirroringUpdate_runs {b : Builder} {s : VState} {x y : Bool} (h : s.transform.mirroring = b.mirroring) :
    Runs s (b.mirroringUpdate (some x) (some y)).2
      { s with transform := { s.transform with mirroring := mirroringOf x y } } [] := by
  unfold mirroringUpdate
  dsimp only [Option.getD]
  split_ifs with hs
  · exact Runs.single rfl
  · rw [not_not] at hs
    have : s.transform.mirroring = mirroringOf x y := h.trans hs.symm
    rw [← this]
    exact Runs.nil s

theorem scaleUpdate_fst (b : Builder) (k : ℚ) : (b.scaleUpdate (some k)).1 = { b with scale := k } := by
  unfold scaleUpdate
  dsimp only
  split_ifs with h
  · rfl
  · rw [not_not] at h; rw [h]

theorem scaleUpdate_runs {b : Builder} {s : VState} {k : ℚ} (h : s.transform.scaling = b.scale) :
    Runs s (b.scaleUpdate (some k)).2 { s with transform := { s.transform with scaling := k } } [] := by
  unfold scaleUpdate
  dsimp only
  split_ifs with hs
  · exact Runs.single rfl
  · rw [not_not] at hs
    have : s.transform.scaling = k := h.trans hs.symm
    subst this
    exact Runs.nil s

theorem modeUpdate_fst (b : Builder) (m : Plot) : (b.modeUpdate (some m)).1 = { b with plotMode := some m } := by
  unfold modeUpdate
  dsimp only
  split_ifs with h
  · rfl
  · rw [not_not] at h; rw [← h]

/-- A state with a plot mode and the handler for it. -/
def withPlot (s : VState) (m : Plot) : VState :=
  { s with plot := m, drawHandler := (VState.drawTable m s.quad, s.dispatchInRegion) }

theorem modeCommand_step (s : VState) (m : Plot) : stepLeaf s (modeCommand m) = ⟨withPlot s m, [], none⟩ := by
  cases m <;> rfl

theorem modeUpdate_runs {b : Builder} {s : VState} {m : Plot}
    (h : s.drawHandler = (VState.drawTable s.plot s.quad, s.dispatchInRegion)) :
    Runs s (b.modeUpdate (some m)).2 (withPlot s (if b.plotMode = some m then s.plot else m)) [] := by
  unfold modeUpdate
  dsimp only
  by_cases hs : b.plotMode = some m
  · rw [if_neg (not_not.mpr hs), if_pos hs]
    unfold withPlot
    rw [← h]
    exact Runs.nil s
  · rw [if_pos hs, if_neg hs]
    exact Runs.single (modeCommand_step s m)

/-- The file and the builder agree on what is selected. -/
structure Sync (b : Builder) (s : VState) : Prop where
  ap : s.apId = b.selectedAperture
  flash : ∀ id, s.apId = some id → ∃ d, s.apertures.get? id = some d ∧ s.flashHandler = some (flashKind (.ad id d))
  transform : s.transform = ⟨b.polarity, b.mirroring, b.rotation, b.scale⟩
  handler : s.drawHandler = (VState.drawTable s.plot s.quad, s.dispatchInRegion)
  quad : s.quad = .multi
  region : s.isRegion = false
  dispatch : s.dispatchInRegion = false
  loc : ∀ l, b.currentLocation = some l → s.currentX = grid l.1 ∧ s.currentY = grid l.2

/-- The style asked for by a call. -/
structure Style where
  id : Name
  polarity : Polarity
  rotation : ℚ
  mirrorX : Bool
  mirrorY : Bool
  scale : ℚ
  mode : Option Plot

/-- The builder after the state updates of a style. -/
def styled (b : Builder) (y : Style) : Builder :=
  { b with
    selectedAperture := some y.id, polarity := y.polarity, rotation := y.rotation,
    mirroring := mirroringOf y.mirrorX y.mirrorY, scale := y.scale, plotMode := y.mode.or b.plotMode }

/-- The state updates of a style. -/
def updates (b : Builder) (y : Style) : Builder × List Leaf :=
  b.createStateUpdates (some y.id) (some y.polarity) (some y.rotation) (some y.mirrorX) (some y.mirrorY)
    (some y.scale) y.mode

theorem updates_fst (b : Builder) (y : Style) : (updates b y).1 = styled b y := by
  unfold updates createStateUpdates
  dsimp only
  rw [selectUpdate_fst, polarityUpdate_fst, rotationUpdate_fst, mirroringUpdate_fst, scaleUpdate_fst]
  cases h : y.mode with
  | none => simp [modeUpdate, styled, h]
  | some m => rw [modeUpdate_fst]; simp [styled, h]

/-- The plot mode in force after the state updates. -/
def plotAfter (b : Builder) (p : Plot) (m : Option Plot) : Plot :=
  match m with
  | none => p
  | some m => if b.plotMode = some m then p else m

/-- The state after the state updates. -/
def afterUpdates (b : Builder) (s : VState) (y : Style) (d : ApDef) : VState :=
  withPlot { s with
    apId := some y.id, flashHandler := some (flashKind (.ad y.id d)),
    transform := ⟨y.polarity, mirroringOf y.mirrorX y.mirrorY, y.rotation, y.scale⟩ } (plotAfter b s.plot y.mode)

theorem updates_runs {b : Builder} {s : VState} (h : Sync b s) (y : Style) {d : ApDef}
    (hd : s.apertures.get? y.id = some d) : Runs s (updates b y).2 (afterUpdates b s y d) [] := by
  unfold updates createStateUpdates
  dsimp only
  rw [selectUpdate_fst, polarityUpdate_fst, rotationUpdate_fst, mirroringUpdate_fst, scaleUpdate_fst]
  obtain ⟨hap, hfl, htr, hh, -, -, -, -⟩ := h
  have h1 := selectUpdate_runs (b := b) hd hap hfl
  have htr1 : ({ s with apId := some y.id, flashHandler := some (flashKind (.ad y.id d)) } : VState).transform
    = ⟨b.polarity, b.mirroring, b.rotation, b.scale⟩ := htr
  have hh1 : ({ s with apId := some y.id, flashHandler := some (flashKind (.ad y.id d)) } : VState).drawHandler
    = (VState.drawTable s.plot s.quad, s.dispatchInRegion) := hh
  unfold afterUpdates
  generalize hs1 : ({ s with apId := some y.id, flashHandler := some (flashKind (.ad y.id d)) } : VState) = s1 at h1 htr1 hh1
  have e1 : s1.plot = s.plot := by rw [← hs1]
  have e2 : s1.quad = s.quad := by rw [← hs1]
  have e3 : s1.dispatchInRegion = s.dispatchInRegion := by rw [← hs1]
  rw [show ({ s with apId := some y.id, flashHandler := some (flashKind (.ad y.id d)), transform := ⟨y.polarity, mirroringOf y.mirrorX y.mirrorY, y.rotation, y.scale⟩ } : VState) = { s1 with transform := ⟨y.polarity, mirroringOf y.mirrorX y.mirrorY, y.rotation, y.scale⟩ } from by rw [← hs1]]
  generalize hb1 : ({ b with selectedAperture := some y.id } : Builder) = b1
  have f1 : b1.polarity = b.polarity := by rw [← hb1]
  have f2 : b1.rotation = b.rotation := by rw [← hb1]
  have f3 : b1.mirroring = b.mirroring := by rw [← hb1]
  have f4 : b1.scale = b.scale := by rw [← hb1]
  have f5 : b1.plotMode = b.plotMode := by rw [← hb1]
  have h2 := polarityUpdate_runs (b := b1) (s := s1) (p := y.polarity) (by rw [htr1, f1])
  rw [htr1] at h2
  have h3 := rotationUpdate_runs (b := { b1 with polarity := y.polarity })
    (s := { s1 with transform := ⟨y.polarity, b.mirroring, b.rotation, b.scale⟩ }) (r := y.rotation) f2.symm
  have h4 := mirroringUpdate_runs (b := { b1 with polarity := y.polarity, rotation := y.rotation })
    (s := { s1 with transform := ⟨y.polarity, b.mirroring, y.rotation, b.scale⟩ }) (x := y.mirrorX)
    (y := y.mirrorY) f3.symm
  have h5 := scaleUpdate_runs
    (b := { b1 with polarity := y.polarity, rotation := y.rotation, mirroring := mirroringOf y.mirrorX y.mirrorY })
    (s := { s1 with transform := ⟨y.polarity, mirroringOf y.mirrorX y.mirrorY, y.rotation, b.scale⟩ }) (k := y.scale)
    f4.symm
  have h12345 := (((h1.append h2).append h3).append h4).append h5
  simp only [List.append_nil] at h12345
  unfold plotAfter
  cases hm : y.mode with
  | none =>
    simp only [modeUpdate, List.append_nil]
    unfold withPlot
    dsimp only
    rw [e2, e3, ← hh1, ← e1]
    subst hb1 hs1
    exact h12345
  | some m =>
    have h6 := modeUpdate_runs
      (b := { b1 with polarity := y.polarity, rotation := y.rotation, mirroring := mirroringOf y.mirrorX y.mirrorY, scale := y.scale })
      (s := { s1 with transform := ⟨y.polarity, mirroringOf y.mirrorX y.mirrorY, y.rotation, y.scale⟩ }) (m := m)
      (by dsimp only; rw [hh1, e1, e2, e3])
    have := h12345.append h6
    dsimp only at this ⊢
    rw [e1] at this
    subst hb1 hs1
    exact this

theorem Sync.updated {b : Builder} {s : VState} (h : Sync b s) (y : Style) {d : ApDef}
    (hd : s.apertures.get? y.id = some d) : Sync (styled b y) (afterUpdates b s y d) := by
  refine ⟨rfl, ?_, rfl, rfl, h.quad, h.region, h.dispatch, h.loc⟩
  intro id hid
  have : y.id = id := Option.some.inj hid
  subst this
  exact ⟨d, hd, rfl⟩

/-! ## Drawing commands -/

theorem coordinate_packed {a : Axis} {v : ℚ} {t : List Char} (h : packed a v = .ok t) {s : VState}
    (hf : s.format = some format) (put : ℚ → VState → VState) :
    coordinate a put (some t) s = ⟨put (grid v) s, [], none⟩ := by
  unfold coordinate
  simp only [hf, packed_ok h]
  rfl

/-- A state that has read the coordinates of a location. -/
def atLoc (s : VState) (l : Loc) : VState := { s with coordX := some (grid l.1), coordY := some (grid l.2) }

/-- A state that has moved to a location. -/
def moved (s : VState) (l : Loc) : VState :=
  { s with coordX := some (grid l.1), coordY := some (grid l.2), currentX := grid l.1, currentY := grid l.2 }

/-- A state that has read the offset of a centre. -/
def withOffset (s : VState) : Option Loc → VState
  | none => s
  | some o => { s with coordI := some (grid o.1), coordJ := some (grid o.2) }

theorem visitXY_packed {l : Loc} {x y : List Char} (hx : packed .x l.1 = .ok x) (hy : packed .y l.2 = .ok y) {s : VState}
    (hf : s.format = some format) : visitXY (some x) (some y) s = ⟨atLoc s l, [], none⟩ := by
  unfold visitXY
  rw [coordinate_packed hx hf, Out.andThen_of_none rfl]
  dsimp only
  rw [coordinate_packed hy (by exact hf)]
  rfl

theorem visitIJ_packed {l : Loc} {x y : List Char} (hx : packed .x l.1 = .ok x) (hy : packed .y l.2 = .ok y) {s : VState}
    (hf : s.format = some format) : visitIJ (some x) (some y) s = ⟨withOffset s (some l), [], none⟩ := by
  unfold visitIJ
  rw [coordinate_packed hx hf, Out.andThen_of_none rfl]
  dsimp only
  rw [coordinate_packed hy (by exact hf)]
  rfl

theorem flashOp_step {l : Loc} {op : Leaf} (h : flashOp l = .ok op) {s : VState} (hf : s.format = some format)
    {ap : Aperture} {k : FlashKind} (ha : s.currentAperture = .ok ap) (hk : s.flashHandler = some k) :
    stepLeaf s op = ⟨moved s l, [.flash k ap (atLoc s l)], none⟩ := by
  unfold flashOp at h
  split at h
  · simp at h
  rename_i x hx
  split at h
  · simp at h
  rename_i y hy
  injection h with h
  subst h
  simp only [stepLeaf]
  rw [visitXY_packed hx hy hf, Out.andThen_of_none rfl]
  have ha' : (atLoc s l).currentAperture = .ok ap := ha
  have hk' : (atLoc s l).flashHandler = some k := hk
  simp only [flashCurrent, ha', hk']
  rfl

theorem moveOp_step {l : Loc} {op : Leaf} (h : moveOp l = .ok op) {s : VState} (hf : s.format = some format) :
    stepLeaf s op = ⟨moved s l, if s.isRegion then [.flushRegion (moved s l)] else [], none⟩ := by
  unfold moveOp at h
  split at h
  · simp at h
  rename_i x hx
  split at h
  · simp at h
  rename_i y hy
  injection h with h
  subst h
  simp only [stepLeaf]
  rw [visitXY_packed hx hy hf, Out.andThen_of_none rfl]
  rfl

theorem drawOp_step {e : Loc} {o : Option Loc} {op : Leaf} (h : drawOp e o = .ok op) {s : VState}
    (hf : s.format = some format) :
    stepLeaf s op = ⟨moved (withOffset s o) e,
      [.draw s.drawHandler.1 s.drawHandler.2 (withOffset (atLoc s e) o)], none⟩ := by
  unfold drawOp at h
  split at h
  · simp at h
  rename_i x hx
  split at h
  · simp at h
  rename_i y hy
  cases o with
  | none =>
    injection h with h
    subst h
    simp only [stepLeaf]
    rw [visitXY_packed hx hy hf, Out.andThen_of_none rfl]
    rfl
  | some o =>
    simp only at h
    split at h
    · simp at h
    rename_i i hi
    split at h
    · simp at h
    rename_i j hj
    injection h with h
    subst h
    simp only [stepLeaf]
    have h1 : (⟨atLoc s e, [], none⟩ : Out).andThen (visitIJ (some i) (some j)) =
        ⟨withOffset (atLoc s e) (some o), [], none⟩ := by
      rw [Out.andThen_of_none rfl]
      dsimp only
      rw [visitIJ_packed hi hj (by exact hf)]
      rfl
    rw [visitXY_packed hx hy hf, h1, Out.andThen_of_none rfl]
    rfl

theorem Sync.moved {b : Builder} {s : VState} (h : Sync b s) (l : Loc) (ds : List Draw) :
    Sync { b with currentLocation := some l, draws := ds } (moved s l) :=
  ⟨h.ap, h.flash, h.transform, h.handler, h.quad, h.region, h.dispatch, fun l' hl => by
    have : l = l' := Option.some.inj hl
    subst this
    exact ⟨rfl, rfl⟩⟩

theorem Sync.withOffset {b : Builder} {s : VState} (h : Sync b s) (o : Option Loc) : Sync b (withOffset s o) := by
  cases o with
  | none => exact h
  | some o => exact ⟨h.ap, h.flash, h.transform, h.handler, h.quad, h.region, h.dispatch, h.loc⟩

/-! ## Reading callbacks -/

/-- The part of a region drawn so far after callbacks. -/
def pending (contour : List Edge) : List Event → List Edge
  | [] => contour
  | .draw k true s :: es => pending (contour ++ [edgeOf k s]) es
  | .flushRegion _ :: es => pending [] es
  | .draw _ false _ :: es => pending contour es
  | .flash .. :: es => pending contour es
  | .startRegion :: es => pending contour es
  | .endRegion :: es => pending contour es
  | .define .. :: es => pending contour es
  | .abOpen _ :: es => pending contour es
  | .abClose _ :: es => pending contour es
  | .srOpen _ :: es => pending contour es
  | .srClose .. :: es => pending contour es

theorem reading_append (a b : List Event) : ∀ c, reading c (a ++ b) = reading c a ++ reading (pending c a) b := by
  induction a with
  | nil => intro c; rfl
  | cons e a ih =>
    intro c
    rw [List.cons_append]
    cases e with
    | draw k r s =>
      cases r
      · simp only [reading, pending, ih, List.cons_append]
      · simp only [reading, pending, ih]
    | flushRegion s =>
      simp only [reading, pending, ih]
      split_ifs <;> simp
    | _ => simp only [reading, pending, ih, List.cons_append]

theorem pending_append (a b : List Event) : ∀ c, pending c (a ++ b) = pending (pending c a) b := by
  induction a with
  | nil => intro c; rfl
  | cons e a ih =>
    intro c
    rw [List.cons_append]
    cases e with
    | draw k r s => cases r <;> simp only [pending, ih]
    | _ => simp only [pending, ih]

/-! ## Outlines -/

/-- The edges drawn for parts of an outline, from a point on. -/
def segEdges : Loc → List Segment → List Edge
  | _, [] => []
  | cur, s :: ss =>
    ⟨VState.drawTable (Segment.plot s) .multi, cur, onGrid s.end_, (Segment.offset s).map onGrid⟩ ::
      segEdges (onGrid s.end_) ss

/-- Inside of a region. -/
structure Inside (s : VState) : Prop where
  format : s.format = some format
  handler : s.drawHandler = (VState.drawTable s.plot s.quad, true)
  quad : s.quad = .multi
  region : s.isRegion = true
  dispatch : s.dispatchInRegion = true

/-- States that differ in coordinates and plot mode only. -/
def Near (s s' : VState) : Prop :=
  ∃ p h cx cy ci cj x y, s' =
    { s with plot := p, drawHandler := h, coordX := cx, coordY := cy, coordI := ci, coordJ := cj, currentX := x, currentY := y }

theorem Near.refl (s : VState) : Near s s := ⟨_, _, _, _, _, _, _, _, rfl⟩

theorem Near.trans {a b c : VState} (h : Near a b) (h' : Near b c) : Near a c := by
  obtain ⟨p, h, cx, cy, ci, cj, x, y, rfl⟩ := h
  obtain ⟨p, h, cx, cy, ci, cj, x, y, rfl⟩ := h'
  exact ⟨_, _, _, _, _, _, _, _, rfl⟩

theorem edge_segment (g : Segment) {s : VState} (hq : s.quad = .multi)
    (hp : s.plot = Segment.plot g) :
    edgeOf (VState.drawTable s.plot s.quad) (withOffset (atLoc s g.end_) (Segment.offset g)) =
      ⟨VState.drawTable (Segment.plot g) .multi, (s.currentX, s.currentY), onGrid g.end_,
        (Segment.offset g).map onGrid⟩ := by
  rw [hq, hp]
  cases g <;> rfl

theorem outline_runs (segs : List Segment) : ∀ (mode : Option Plot) (ops : List Leaf) (s : VState),
    outlineOps mode segs = .ok ops → Inside s → (∀ p, mode = some p → s.plot = p) →
    ∃ s' ev, Runs s ops s' ev ∧ Inside s' ∧ Near s s' ∧
      s'.plot = (segs.getLast?.map Segment.plot).getD s.plot ∧
      (∀ c, reading c ev = [] ∧ pending c ev = c ++ segEdges (s.currentX, s.currentY) segs) := by
  induction segs with
  | nil =>
    intro mode ops s h hi hm
    injection h with h
    subst h
    exact ⟨s, [], Runs.nil s, hi, Near.refl s, rfl, fun c => ⟨rfl, by simp [pending, segEdges]⟩⟩
  | cons g segs ih =>
    intro mode ops s h hi hm
    simp only [outlineOps] at h
    split at h
    · simp at h
    rename_i d hd
    split at h
    · simp at h
    rename_i ds hds
    injection h with h
    subst h
    -- the mode command
    have h1 : Runs s (if mode ≠ some (Segment.plot g) then [modeCommand (Segment.plot g)] else [])
        (withPlot s (Segment.plot g)) [] := by
      split_ifs with hc
      · exact Runs.single (modeCommand_step s _)
      · rw [not_not] at hc
        have := hm _ hc
        have he : withPlot s (Segment.plot g) = s := by
          unfold withPlot
          rw [← this, hi.dispatch, ← hi.handler, ← hi.dispatch]
        rw [he]
        exact Runs.nil s
    have hi1 : Inside (withPlot s (Segment.plot g)) :=
      ⟨hi.format, by show (_, _) = (_, _); rw [hi.dispatch]; rfl, hi.quad, hi.region, hi.dispatch⟩
    have h2 := drawOp_step hd hi1.format
    rw [hi1.handler] at h2
    have hi2 : Inside (moved (withOffset (withPlot s (Segment.plot g)) (Segment.offset g)) g.end_) := by
      cases g <;> exact ⟨hi1.format, hi1.handler, hi1.quad, hi1.region, hi1.dispatch⟩
    have hp2 : (moved (withOffset (withPlot s (Segment.plot g)) (Segment.offset g)) g.end_).plot = Segment.plot g := by
      cases g <;> rfl
    obtain ⟨s', ev, hr, hi', hn, hpl, hread⟩ := ih _ _ _ hds hi2 (fun p hp => by
      rw [hp2]; exact Option.some.inj hp)
    refine ⟨s', _, h1.append (Runs.cons h2 hr), hi', ?_, ?_, ?_⟩
    · refine Near.trans ?_ hn
      cases g <;> exact ⟨_, _, _, _, _, _, _, _, rfl⟩
    · rw [hpl, hp2]
      cases segs with
      | nil => rfl
      | cons g' segs => rw [List.getLast?_cons_cons]; cases h : (g' :: segs).getLast? <;> simp_all
    · intro c
      have he := edge_segment g (s := withPlot s (Segment.plot g)) hi1.quad rfl
      simp only [List.nil_append, List.singleton_append, reading, pending]
      rw [he]
      obtain ⟨hr1, hr2⟩ := hread (c ++ [⟨VState.drawTable (Segment.plot g) .multi, (s.currentX, s.currentY),
        onGrid g.end_, (Segment.offset g).map onGrid⟩])
      refine ⟨hr1, ?_⟩
      have hcur : ((moved (withOffset (withPlot s (Segment.plot g)) (Segment.offset g)) g.end_).currentX,
        (moved (withOffset (withPlot s (Segment.plot g)) (Segment.offset g)) g.end_).currentY) = onGrid g.end_ := by
        cases g <;> rfl
      rw [hcur] at hr2
      change pending _ ev = _
      rw [show ((withPlot s (Segment.plot g)).currentX, (withPlot s (Segment.plot g)).currentY) =
        (s.currentX, s.currentY) from rfl, hr2]
      simp [segEdges]

/-! ## Outlines asked for -/

/-- A part of an outline and the part asked for. -/
def PartOf (cur : Loc) : Segment → DrawKind × Loc × Option Loc → Prop
  | .line t, p => p = (.line, t, none)
  | .cw b c t, p => b = cur ∧ p = (.cwMq, t, some c)
  | .ccw b c t, p => b = cur ∧ p = (.ccwMq, t, some c)

/-- The parts of an outline and the parts asked for, from a point on. -/
def Segs : Loc → List Segment → List (DrawKind × Loc × Option Loc) → Prop
  | _, [], [] => True
  | cur, g :: gs, p :: ps => PartOf cur g p ∧ Segs p.2.1 gs ps
  | _, _, _ => False

/-- Where parts end. -/
def tipOf (b : Loc) (ps : List (DrawKind × Loc × Option Loc)) : Loc := (ps.getLast?.map fun p => p.2.1).getD b

theorem tipOf_cons (b : Loc) (p) (ps) : tipOf b (p :: ps) = tipOf p.2.1 ps := by
  unfold tipOf
  cases ps with
  | nil => rfl
  | cons q qs => rw [List.getLast?_cons_cons]; cases h : (q :: qs).getLast? <;> simp_all

theorem PartOf.end_eq {cur g p} (h : PartOf cur g p) : g.end_ = p.2.1 := by
  cases g with
  | line t => rw [show p = _ from h]; rfl
  | cw b c t => rw [show p = _ from h.2]; rfl
  | ccw b c t => rw [show p = _ from h.2]; rfl

theorem PartOf.kind_eq {cur g p} (h : PartOf cur g p) : VState.drawTable (Segment.plot g) .multi = p.1 := by
  cases g with
  | line t => rw [show p = _ from h]; rfl
  | cw b c t => rw [show p = _ from h.2]; rfl
  | ccw b c t => rw [show p = _ from h.2]; rfl

theorem PartOf.edge_eq {cur g p} (h : PartOf cur g p) :
    (⟨VState.drawTable (Segment.plot g) .multi, onGrid cur, onGrid g.end_, (Segment.offset g).map onGrid⟩ : Edge) =
      edge p.1 cur p.2.1 p.2.2 := by
  cases g with
  | line t => rw [show p = _ from h]; rfl
  | cw b c t => rw [show p = _ from h.2, h.1]; rfl
  | ccw b c t => rw [show p = _ from h.2, h.1]; rfl

theorem Segs.snoc {gs : List Segment} : ∀ {b ps g p}, Segs b gs ps → PartOf (tipOf b ps) g p →
    Segs b (gs ++ [g]) (ps ++ [p]) := by
  induction gs with
  | nil =>
    intro b ps g p h hp
    cases ps with
    | nil => exact ⟨hp, trivial⟩
    | cons q qs => exact h.elim
  | cons g' gs ih =>
    intro b ps g p h hp
    cases ps with
    | nil => exact h.elim
    | cons q qs =>
      rw [tipOf_cons] at hp
      exact ⟨h.1, ih h.2 hp⟩

theorem Segs.last {gs : List Segment} : ∀ {b ps}, Segs b gs ps →
    gs.getLast?.map Segment.end_ = ps.getLast?.map (fun p => p.2.1) ∧
    gs.getLast?.map (fun g => VState.drawTable (Segment.plot g) .multi) = ps.getLast?.map (fun p => p.1) := by
  induction gs with
  | nil =>
    intro b ps h
    cases ps with
    | nil => exact ⟨rfl, rfl⟩
    | cons q qs => exact h.elim
  | cons g gs ih =>
    intro b ps h
    cases ps with
    | nil => exact h.elim
    | cons q qs =>
      have h2 := ih h.2
      cases gs with
      | nil =>
        cases qs with
        | nil => simp [h.1.end_eq, h.1.kind_eq]
        | cons => exact h.2.elim
      | cons g' gs =>
        cases qs with
        | nil => exact h.2.elim
        | cons q' qs => rw [List.getLast?_cons_cons, List.getLast?_cons_cons]; exact h2

theorem Segs.edges {gs : List Segment} : ∀ {b ps}, Segs b gs ps → segEdges (onGrid b) gs = Board.edges b ps := by
  induction gs with
  | nil =>
    intro b ps h
    cases ps with
    | nil => rfl
    | cons q qs => exact h.elim
  | cons g gs ih =>
    intro b ps h
    cases ps with
    | nil => exact h.elim
    | cons q qs =>
      obtain ⟨k, e, c⟩ := q
      simp only [segEdges, Board.edges]
      rw [h.1.edge_eq, h.1.end_eq, ih h.2]

/-- A region creator and the outline asked for. -/
def RegRel (r : RegionCreator) : Option Outline → Prop
  | none => True
  | some o => r.begin = o.begin ∧ Segs o.begin r.outline o.parts ∧ r.previousEnd = o.tip

theorem RegRel.closed {r : RegionCreator} {o : Outline} (h : RegRel r (some o)) (hl : 3 ≤ r.outline.length) :
    Segs o.begin (RegionCreator.closed r) o.closed := by
  obtain ⟨hb, hs, -⟩ := h
  have hlast := hs.last.1
  unfold RegionCreator.closed Outline.closed
  cases hp : o.parts.getLast? with
  | none =>
    rw [List.getLast?_eq_none_iff] at hp
    rw [hp] at hs
    cases ho : r.outline with
    | nil => rw [ho] at hl; simp at hl
    | cons g gs => rw [ho] at hs; exact hs.elim
  | some p =>
    rw [hlast, hp, hb]
    have ht : o.tip = p.2.1 := by unfold Outline.tip; rw [hp]; rfl
    rw [ht]
    by_cases h : p.2.1 = o.begin
    · rw [if_pos h, if_neg (by simp [h])]; exact hs
    · rw [if_neg h, if_pos (by simpa using h)]; exact hs.snoc rfl

theorem closed_ne {r : RegionCreator} (hl : 3 ≤ r.outline.length) : RegionCreator.closed r ≠ [] := by
  unfold RegionCreator.closed
  split_ifs
  · simp
  · intro h; rw [h] at hl; simp at hl

theorem segEdges_ne {l : Loc} {gs : List Segment} (h : gs ≠ []) : segEdges l gs ≠ [] := by
  cases gs with
  | nil => exact absurd rfl h
  | cons => simp [segEdges]

/-! ## Modes -/

/-- Modes that the builder and the file are in (the latter, if known). -/
abbrev Modes := Option DrawKind × Option DrawKind

/-- Modes after an object. -/
def track (m : Modes) : Object → Modes
  | .pad .. => m
  | .trace k .. => if m.1 = some k then m else (some k, some k)
  | .region (some o) => (m.1, o.closed.getLast?.map (·.1))
  | .region none => (m.1, none)

/-- The mode in which an object is drawn, if known. -/
def predict (m : Modes) : Object → Option DrawKind
  | .trace k .. => if m.1 = some k then m.2 else some k
  | _ => none

/-- How an object is drawn, with the mode if known. -/
def FulfilsAs (m : Option DrawKind) (o : Object) (d : Drawn) : Prop :=
  FulfilsButMode o d ∧
  match o with
  | .trace k w b e _ => (m = some k → Fulfils o d) ∧
    ∀ k', m = some k' → ∃ c, d = .stroke (.standard (.circle w none)) ⟨k', onGrid b, onGrid e, c⟩ {}
  | _ => True

/-- Objects and what is drawn for them. -/
def Aligned : Modes → List Object → List Drawn → Prop
  | _, [], [] => True
  | m, o :: os, d :: ds => FulfilsAs (predict m o) o d ∧ Aligned (track m o) os ds
  | _, _, _ => False

theorem Aligned.snoc {os : List Object} : ∀ {m ds o d}, Aligned m os ds →
    FulfilsAs (predict (os.foldl track m) o) o d → Aligned m (os ++ [o]) (ds ++ [d]) := by
  induction os with
  | nil =>
    intro m ds o d h hd
    cases ds with
    | nil => exact ⟨hd, trivial⟩
    | cons => exact h.elim
  | cons o' os ih =>
    intro m ds o d h hd
    cases ds with
    | nil => exact h.elim
    | cons d' ds => exact ⟨h.1, ih h.2 hd⟩

/-! ## The invariant -/

/-- A definition and the shape it stands for. -/
def HasShape (macros : List (Name × List Macro.Prim)) (d : ApDef) (shape : Shape) : Prop :=
  ((∀ n ps, d ≠ .macro n ps) ∧ shape = .standard d) ∨
  ∃ n body, d = .macro n [] ∧ (n, body) ∈ macros ∧ shape = .custom body

/-- States in which drawing starts. -/
structure Start (b : Builder) (s : VState) : Prop where
  format : s.format = some format
  apertures : ∀ p ∈ b.pads, s.apertures.get? p.id = some p.node
  macros : ∀ m ∈ b.macros, s.macros.get? m.1 = some m.2
  apId : s.apId = none
  transform : s.transform = {}
  plot : s.plot = .linear
  quad : s.quad = .multi
  handler : s.drawHandler = (.line, false)
  region : s.isRegion = false
  dispatch : s.dispatchInRegion = false

/-- Tables are as before. -/
def Kept (s s' : VState) : Prop := s'.apertures = s.apertures ∧ s'.macros = s.macros ∧ s'.format = s.format

theorem Kept.trans {a b c : VState} (h : Kept a b) (h' : Kept b c) : Kept a c :=
  ⟨h'.1.trans h.1, h'.2.1.trans h.2.1, h'.2.2.trans h.2.2⟩

/-- The modes at the beginning. -/
def modes0 : Modes := (none, some .line)

/-- The file is in the known mode. -/
def InMode (objs : List Object) (s : VState) : Prop :=
  ∀ k, (objs.foldl track modes0).2 = some k → VState.drawTable s.plot .multi = k

/-- The commands added so far draw the objects asked for. -/
def Code (b : Builder) (objs : List Object) : Prop :=
  ∀ s0, Start b s0 → ∃ s ev, Runs s0 (b.draws.flatMap Draw.nodes) s ev ∧ Sync b s ∧ Kept s0 s ∧
    pending [] ev = [] ∧ InMode objs s ∧ Aligned modes0 objs (reading [] ev)

/-- Pads and macros are only added. -/
structure Grow (b b' : Builder) : Prop where
  pads : ∀ p ∈ b.pads, ∃ q ∈ b'.pads, q.id = p.id ∧ q.node = p.node
  macros : ∀ m ∈ b.macros, m ∈ b'.macros

/-- Drawing is in the same state. -/
structure SameDrawing (b b' : Builder) : Prop where
  ap : b'.selectedAperture = b.selectedAperture
  polarity : b'.polarity = b.polarity
  mirroring : b'.mirroring = b.mirroring
  rotation : b'.rotation = b.rotation
  scale : b'.scale = b.scale
  loc : b'.currentLocation = b.currentLocation
  plot : b'.plotMode = b.plotMode
  draws : b'.draws = b.draws

theorem Start.grow {b b' : Builder} {s : VState} (h : Start b' s) (g : Grow b b') : Start b s := by
  refine ⟨h.format, fun p hp => ?_, fun m hm => h.macros m (g.macros m hm), h.apId, h.transform, h.plot, h.quad,
    h.handler, h.region, h.dispatch⟩
  obtain ⟨q, hq, e1, e2⟩ := g.pads p hp
  rw [← e1, ← e2]
  exact h.apertures q hq

theorem Sync.same {b b' : Builder} {s : VState} (h : Sync b s) (e : SameDrawing b b') : Sync b' s :=
  ⟨e.ap ▸ h.ap, h.flash, by rw [e.polarity, e.mirroring, e.rotation, e.scale]; exact h.transform, h.handler, h.quad,
    h.region, h.dispatch, by rw [e.loc]; exact h.loc⟩

theorem Code.same {b b' : Builder} {objs : List Object} (h : Code b objs) (e : SameDrawing b b') (g : Grow b b') :
    Code b' objs := by
  intro s0 hs0
  obtain ⟨s, ev, h1, h2, h3⟩ := h s0 (hs0.grow g)
  exact ⟨s, ev, by rw [e.draws]; exact h1, h2.same e, h3⟩

/-- One more drawing operation. -/
theorem Code.add {b b' : Builder} {objs : List Object} {o : Object} {d : Draw} (h : Code b objs)
    (hd : b'.draws = b.draws ++ [d]) (hp : b'.pads = b.pads) (hm : b'.macros = b.macros)
    (step : ∀ s0 s, Start b s0 → Sync b s → Kept s0 s → InMode objs s →
      ∃ s' ev r, Runs s d.nodes s' ev ∧ Sync b' s' ∧ Kept s s' ∧ pending [] ev = [] ∧ InMode (objs ++ [o]) s' ∧
        reading [] ev = [r] ∧ FulfilsAs (predict (objs.foldl track modes0) o) o r) : Code b' (objs ++ [o]) := by
  intro s0 hs0
  have hs0' : Start b s0 := hs0.grow ⟨fun p hp' => ⟨p, by rw [hp]; exact hp', rfl, rfl⟩, fun m hm' => by rw [hm]; exact hm'⟩
  obtain ⟨s, ev, h1, h2, h3, h4, h5, h6⟩ := h s0 hs0'
  obtain ⟨s', ev', r, g1, g2, g3, g4, g5, g6, g7⟩ := step s0 s hs0' h2 h3 h5
  refine ⟨s', ev ++ ev', ?_, g2, h3.trans g3, ?_, g5, ?_⟩
  · rw [hd, List.flatMap_append]
    exact h1.append (by simpa using g1)
  · rw [pending_append, h4]; exact g4
  · rw [reading_append, h4, g6]
    exact h6.snoc g7

theorem HasShape.shapeOf {b : Builder} {s : VState} {d : ApDef} {shape : Shape} (h : HasShape b.macros d shape)
    (hm : ∀ m ∈ b.macros, s.macros.get? m.1 = some m.2) (id : Name) :
    shapeOf s (.ad id d) = some shape ∧ flashKind (.ad id d) = kindOf shape := by
  rcases h with ⟨h1, rfl⟩ | ⟨n, body, rfl, h1, rfl⟩
  · cases d with
    | «macro» n ps => exact absurd rfl (h1 n ps)
    | _ => exact ⟨rfl, rfl⟩
  · simp [Board.shapeOf, hm _ h1, flashKind, kindOf]

theorem mirroringOf_eq (x y : Bool) : mirroringOf x y = mirror x y := by cases x <;> cases y <;> rfl

theorem Code.flash {b : Builder} {objs : List Object} (h : Code b objs) {p : Pad} (hp : p ∈ b.pads) {shape : Shape}
    (hs : HasShape b.macros p.node shape) (y : Style) (hy : y.id = p.id) (hm : y.mode = none) {l : Loc} {op : Leaf}
    (hop : flashOp l = .ok op) :
    Code ((styled b y).addDraw { stateUpdates := (updates b y).2, ops := [op], anchor := .pad l })
      (objs ++ [.pad shape l ⟨y.polarity, mirror y.mirrorX y.mirrorY, y.rotation, y.scale⟩]) := by
  refine h.add (d := { stateUpdates := (updates b y).2, ops := [op], anchor := .pad l }) rfl rfl rfl ?_
  intro s0 s hs0 hsy hk hmode
  have had : s.apertures.get? y.id = some p.node := by rw [hk.1, hy]; exact hs0.apertures p hp
  have h1 := updates_runs hsy y had
  have hsy1 := hsy.updated y had
  have hf1 : (afterUpdates b s y p.node).format = some format := hk.2.2.trans hs0.format
  have hc1 : (afterUpdates b s y p.node).currentAperture = .ok (.ad y.id p.node) := by
    unfold VState.currentAperture
    show (match s.apertures.get? y.id with
      | some d => Except.ok (Aperture.ad y.id d)
      | none => _) = _
    rw [had]
  have h2 := flashOp_step hop hf1 hc1 (k := flashKind (.ad y.id p.node)) rfl
  have hms : ∀ m ∈ b.macros, (atLoc (afterUpdates b s y p.node) l).macros.get? m.1 = some m.2 := by
    intro m hm'
    show s.macros.get? m.1 = _
    rw [hk.2.1]; exact hs0.macros m hm'
  obtain ⟨e1, e2⟩ := hs.shapeOf hms y.id
  refine ⟨_, _, _, h1.append (Runs.single h2), hsy1.moved l _, ⟨rfl, rfl, rfl⟩, rfl, ?_, rfl, ?_, trivial⟩
  · intro k hk'
    rw [List.foldl_append] at hk'
    have := hmode k hk'
    show VState.drawTable (plotAfter b s.plot y.mode) .multi = k
    rw [hm]
    exact this
  · show flashOf _ _ _ = _
    unfold flashOf
    rw [e1, e2]
    show Drawn.flash _ _ _ ⟨_, mirroringOf y.mirrorX y.mirrorY, _, _⟩ = _
    rw [mirroringOf_eq]
    rfl

/-- A state at a location. -/
def shifted (s : VState) (cx cy : Option ℚ) (l : Loc) : VState :=
  { s with coordX := cx, coordY := cy, currentX := grid l.1, currentY := grid l.2 }

/-- The style of traces and regions. -/
def plain (id : Name) (m : Option Plot) : Style := ⟨id, .dark, 0, false, false, 1, m⟩

theorem Code.trace {b : Builder} {objs : List Object} (h : Code b objs)
    (hmode : b.plotMode.map (VState.drawTable · .multi) = (objs.foldl track modes0).1) {id : Name} {width : ℚ}
    (hp : ∃ p ∈ b.pads, p.id = id ∧ p.node = .circle width none) {m : Plot} {begin end_ : Loc} {c : Option Loc}
    (hc : m = .linear ↔ c = none) {ops : List Leaf}
    (hop : traceOps b.currentLocation begin end_ (c.map fun c => (c.1 - begin.1, c.2 - begin.2)) = .ok ops) :
    Code ((styled b (plain id (some m))).addDraw
        { stateUpdates := (updates b (plain id (some m))).2, ops := ops, anchor := .trace begin end_ })
      (objs ++ [.trace (VState.drawTable m .multi) width begin end_ c]) := by
  refine h.add (d := { stateUpdates := (updates b (plain id (some m))).2, ops := ops, anchor := .trace begin end_ })
    rfl rfl rfl ?_
  intro s0 s hs0 hsy hk hin
  obtain ⟨p, hpm, hpi, hpn⟩ := hp
  have had : s.apertures.get? (plain id (some m)).id = some (.circle width none) := by
    rw [hk.1, ← hpn]; show s0.apertures.get? id = _; rw [← hpi]; exact hs0.apertures p hpm
  have h1 := updates_runs hsy (plain id (some m)) had
  have hsy1 := hsy.updated (plain id (some m)) had
  generalize hs1 : afterUpdates b s (plain id (some m)) (.circle width none) = s1 at h1 hsy1
  have hplot1 : s1.plot = plotAfter b s.plot (some m) := by rw [← hs1]; rfl
  have hap1 : s1.apertures = s.apertures := by rw [← hs1]; rfl
  have hma1 : s1.macros = s.macros := by rw [← hs1]; rfl
  have hfo1 : s1.format = s.format := by rw [← hs1]; rfl
  have hf1 : s1.format = some format := hfo1.trans (hk.2.2.trans hs0.format)
  have htr1 : s1.transform = {} := by rw [← hs1]; rfl
  have hid1 : s1.apId = some id := by rw [← hs1]; rfl
  unfold traceOps at hop
  split at hop
  · simp at hop
  rename_i ms hms
  split at hop
  · simp at hop
  rename_i dop hdop
  injection hop with hop
  subst hop
  -- the move, if any
  have hmove : ∃ cx cy, Runs s1 ms (shifted s1 cx cy begin) [] := by
    split_ifs at hms with hcur
    · cases hmo : moveOp begin with
      | error e => rw [hmo] at hms; simp [Except.map] at hms
      | ok mv =>
        rw [hmo] at hms
        have : ms = [mv] := by simpa [Except.map] using hms.symm
        subst this
        have := moveOp_step hmo hf1
        rw [hsy1.region] at this
        exact ⟨_, _, Runs.single this⟩
    · rw [not_not] at hcur
      injection hms with hms
      subst hms
      obtain ⟨e1, e2⟩ := hsy1.loc begin hcur
      refine ⟨s1.coordX, s1.coordY, ?_⟩
      unfold shifted
      rw [← e1, ← e2]
      exact Runs.nil s1
  obtain ⟨cx, cy, hmove⟩ := hmove
  have hd := drawOp_step hdop (s := (shifted s1 cx cy begin)) hf1
  have hh : s1.drawHandler = (VState.drawTable s1.plot .multi, false) := by
    rw [hsy1.handler, hsy1.quad, hsy1.dispatch]
  have hst : ∀ off, strokeOf (VState.drawTable s1.plot .multi) (withOffset (atLoc (shifted s1 cx cy begin) end_) off) =
      .stroke (.standard (.circle width none)) ⟨VState.drawTable s1.plot .multi, onGrid begin, onGrid end_,
        if VState.drawTable s1.plot .multi = .line then none else some
          ((withOffset s1 off).coordinateI, (withOffset s1 off).coordinateJ)⟩ {} := by
    intro off
    unfold strokeOf
    have : (withOffset (atLoc (shifted s1 cx cy begin) end_) off).currentAperture = .ok (.ad id (.circle width none)) := by
      have e1 : (withOffset (atLoc (shifted s1 cx cy begin) end_) off).apId = some id := by
        cases off <;> exact hid1
      have e2 : (withOffset (atLoc (shifted s1 cx cy begin) end_) off).apertures.get? id = some (.circle width none) := by
        cases off <;> exact (congrArg (fun a => Dict.get? a id) hap1).trans had
      unfold VState.currentAperture
      rw [e1]
      simp only [e2]
    rw [this]
    have htr : (withOffset (atLoc (shifted s1 cx cy begin) end_) off).transform = {} := by
      cases off <;> exact htr1
    simp only [Board.shapeOf, htr]
    cases off <;> rfl
  refine ⟨_, _, strokeOf (VState.drawTable s1.plot .multi) (withOffset (atLoc (shifted s1 cx cy begin) end_)
    (c.map fun c => (c.1 - begin.1, c.2 - begin.2))), h1.append (hmove.append (Runs.single hd)), ?_, ?_, ?_, ?_, ?_, ?_⟩
  · have : Sync (styled b (plain id (some m))) (withOffset { s1 with coordX := cx, coordY := cy, currentX := s1.currentX, currentY := s1.currentY } (c.map fun c => (c.1 - begin.1, c.2 - begin.2))) :=
      Sync.withOffset (s := { s1 with coordX := cx, coordY := cy, currentX := s1.currentX, currentY := s1.currentY }) ⟨hsy1.ap, hsy1.flash, hsy1.transform, hsy1.handler, hsy1.quad, hsy1.region, hsy1.dispatch, hsy1.loc⟩ _
    have := this.moved end_ ((styled b (plain id (some m))).draws ++ [⟨(updates b (plain id (some m))).2, ms ++ [dop], .trace begin end_⟩])
    cases c <;> exact this
  · cases c <;> exact ⟨hap1, hma1, hfo1⟩
  · simp only [List.nil_append]
    rw [show (shifted s1 cx cy begin).drawHandler = _ from hh]
    rfl
  · intro k hk'
    have hpl : (moved (withOffset (shifted s1 cx cy begin) (c.map fun c => (c.1 - begin.1, c.2 - begin.2))) end_).plot = s1.plot := by
      cases c <;> rfl
    rw [hpl, hplot1]
    rw [List.foldl_append] at hk'
    simp only [List.foldl_cons, List.foldl_nil, track] at hk'
    rw [← hmode] at hk'
    unfold plotAfter
    by_cases hbm : b.plotMode = some m
    · rw [hbm] at hk'
      simp only [Option.map_some, if_pos] at hk' ⊢
      rw [hbm]
      simp only [if_true]
      exact hin k hk'
    · have : Option.map (fun x => VState.drawTable x .multi) b.plotMode ≠ some (VState.drawTable m .multi) := by
        intro he
        apply hbm
        cases hb : b.plotMode with
        | none => rw [hb] at he; simp at he
        | some m' =>
          rw [hb] at he
          cases m <;> cases m' <;> simp_all [VState.drawTable]
      rw [if_neg this] at hk'
      simp only [if_neg hbm]
      exact Option.some.inj hk'
  · simp only [List.nil_append]
    rw [show (shifted s1 cx cy begin).drawHandler = _ from hh]
    rfl
  · rw [hst]
    set k' := VState.drawTable s1.plot .multi with hk'
    have hcenter : k' ≠ .line → c ≠ none → (some ((withOffset s1 (c.map fun c => (c.1 - begin.1, c.2 - begin.2))).coordinateI, (withOffset s1 (c.map fun c => (c.1 - begin.1, c.2 - begin.2))).coordinateJ) : Option Loc) = (edge k' begin end_ c).center := by
      intro _ h2
      cases c with
      | none => exact absurd rfl h2
      | some c => rfl
    refine ⟨⟨k', _, rfl, ?_⟩, ?_, ?_⟩
    · intro g1 g2
      rw [if_neg g1]
      exact hcenter g1 g2
    · -- the mode is the one asked for
      intro hpred
      have hkk : k' = VState.drawTable m .multi := by
        simp only [predict] at hpred
        rw [← hmode] at hpred
        rw [hk', hplot1]
        unfold plotAfter
        by_cases hbm : b.plotMode = some m
        · rw [hbm] at hpred
          simp only [Option.map_some, if_true] at hpred
          simp only [if_pos hbm]
          exact hin _ hpred
        · simp only [if_neg hbm]
      show Drawn.stroke _ _ _ = _
      rw [hkk]
      congr 1
      unfold edge
      congr 1
      by_cases hl : m = .linear
      · have : c = none := hc.mp hl
        subst hl this
        rfl
      · have hcn : c ≠ none := fun he => hl (hc.mpr he)
        have hkn : VState.drawTable m .multi ≠ .line := by
          cases m with
          | linear => exact absurd rfl hl
          | arc => decide
          | ccwArc => decide
        rw [if_neg hkn]
        have := hcenter (by rw [hkk]; exact hkn) hcn
        rw [this]
        rfl
    · intro k'' hpred
      have hkk : k' = k'' := by
        simp only [predict] at hpred
        rw [← hmode] at hpred
        rw [hk', hplot1]
        unfold plotAfter
        by_cases hbm : b.plotMode = some m
        · rw [hbm] at hpred
          simp only [Option.map_some, if_true] at hpred
          simp only [if_pos hbm]
          exact hin _ hpred
        · have : Option.map (fun x => VState.drawTable x .multi) b.plotMode ≠ some (VState.drawTable m .multi) := by
            intro he
            apply hbm
            cases hb : b.plotMode with
            | none => rw [hb] at he; simp at he
            | some m' =>
              rw [hb] at he
              cases m <;> cases m' <;> simp_all [VState.drawTable]
          rw [if_neg this] at hpred
          simp only [if_neg hbm]
          exact Option.some.inj hpred
      exact ⟨_, by rw [← hkk]⟩

theorem Code.region {b : Builder} {objs : List Object} (h : Code b objs) {id : Name} {width : ℚ}
    (hp : ∃ p ∈ b.pads, p.id = id ∧ p.node = .circle width none) {r : RegionCreator} {o : Option Outline}
    (hr : RegRel r o) (hl : 3 ≤ r.outline.length) (rs : List RegionCreator) {ops : List Leaf}
    (hop : regionOps r = .ok ops) :
    Code ({ styled b (plain id none) with regions := rs }.addDraw
        { ops := (updates b (plain id none)).2 ++ ops, anchor := .region r.begin }) (objs ++ [.region o]) := by
  refine h.add (d := { ops := (updates b (plain id none)).2 ++ ops, anchor := .region r.begin }) rfl rfl rfl ?_
  intro s0 s hs0 hsy hk hin
  obtain ⟨p, hpm, hpi, hpn⟩ := hp
  have had : s.apertures.get? (plain id none).id = some (.circle width none) := by
    rw [hk.1, ← hpn]; show s0.apertures.get? id = _; rw [← hpi]; exact hs0.apertures p hpm
  have h1 := updates_runs hsy (plain id none) had
  have hsy1 := hsy.updated (plain id none) had
  generalize hs1 : afterUpdates b s (plain id none) (.circle width none) = s1 at h1 hsy1
  have hk1 : Kept s s1 := by rw [← hs1]; exact ⟨rfl, rfl, rfl⟩
  have hf1 : s1.format = some format := hk1.2.2.trans (hk.2.2.trans hs0.format)
  have hpol1 : s1.transform.polarity = .dark := by rw [← hs1]; rfl
  unfold regionOps at hop
  split at hop
  · simp at hop
  rename_i mv hmv
  split at hop
  · simp at hop
  rename_i body hbody
  injection hop with hop
  subst hop
  -- the beginning
  have h2 : stepLeaf s1 .g36 = ⟨s1.startRegion, [.startRegion], none⟩ := rfl
  have h3 := moveOp_step hmv (s := s1.startRegion) hf1
  have hins : Inside (moved s1.startRegion r.begin) :=
    ⟨hf1, rfl, hsy1.quad, rfl, rfl⟩
  obtain ⟨s', ev, h4, hi', hn, hpl, hread⟩ := outline_runs _ none _ _ hbody hins (fun p hp => by simp at hp)
  have h5 : stepLeaf s' .g37 = ⟨s'.endRegion, [.flushRegion s', .endRegion], none⟩ := rfl
  have h6 := moveOp_step hmv (s := s'.endRegion) hi'.format
  obtain ⟨np, nh, ncx, ncy, nci, ncj, nx, ny, hn⟩ := hn
  have hall := h1.append (Runs.cons h2 (Runs.cons h3 (h4.append (Runs.cons h5 (Runs.single h6)))))
  have hcont : segEdges ((moved s1.startRegion r.begin).currentX, (moved s1.startRegion r.begin).currentY)
    (RegionCreator.closed r) = segEdges (onGrid r.begin) (RegionCreator.closed r) := rfl
  have hne : segEdges (onGrid r.begin) (RegionCreator.closed r) ≠ [] := segEdges_ne (closed_ne hl)
  have hpol' : s'.transform.polarity = .dark := by rw [hn]; exact hpol1
  have hev : reading [] ([] ++ ([Event.startRegion] ++ ((if s1.startRegion.isRegion then [Event.flushRegion (moved s1.startRegion r.begin)] else []) ++ (ev ++ ([Event.flushRegion s', .endRegion] ++ if s'.endRegion.isRegion then [Event.flushRegion (moved s'.endRegion r.begin)] else []))))) =
      [.region (segEdges (onGrid r.begin) (RegionCreator.closed r)) .dark] ∧
      pending [] ([] ++ ([Event.startRegion] ++ ((if s1.startRegion.isRegion then [Event.flushRegion (moved s1.startRegion r.begin)] else []) ++ (ev ++ ([Event.flushRegion s', .endRegion] ++ if s'.endRegion.isRegion then [Event.flushRegion (moved s'.endRegion r.begin)] else []))))) = [] := by
    have e1 : s1.startRegion.isRegion = true := rfl
    have e2 : s'.endRegion.isRegion = false := rfl
    obtain ⟨r1, r2⟩ := hread []
    rw [hcont] at r2
    simp only [e1, e2, if_true, List.nil_append, List.singleton_append, Bool.false_eq_true, if_false, reading, pending,
      List.append_nil, reading_append, pending_append, r1, r2]
    rw [if_neg hne, hpol']
    exact ⟨rfl, trivial⟩
  refine ⟨_, _, _, hall, ?_, ?_, hev.2, ?_, hev.1, ?_⟩
  · subst hn
    exact ⟨hsy1.ap, hsy1.flash, hsy1.transform, rfl, hsy1.quad, rfl, rfl, fun l' hl => by
      have : r.begin = l' := Option.some.inj hl
      subst this
      exact ⟨rfl, rfl⟩⟩
  · subst hn
    exact hk1
  · intro k hk'
    rw [List.foldl_append] at hk'
    cases o with
    | none => simp [track] at hk'
    | some o =>
      simp only [List.foldl_cons, List.foldl_nil, track] at hk'
      rw [← (RegRel.closed hr hl).last.2] at hk'
      show VState.drawTable s'.plot .multi = k
      rw [hpl]
      cases hg : (RegionCreator.closed r).getLast? with
      | none => rw [hg] at hk'; simp at hk'
      | some g => rw [hg] at hk'; exact Option.some.inj hk'
  · refine ⟨?_, trivial⟩
    cases o with
    | none => exact ⟨_, _, rfl⟩
    | some o =>
      show Drawn.region _ _ = _
      rw [← (RegRel.closed hr hl).edges, hr.1]

end Verif.GerberBuilder
