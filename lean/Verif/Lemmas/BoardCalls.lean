import Verif.Lemmas.Board

/-!
# Lemmas about the Gerber builder: calls
-/

namespace Verif.GerberBuilder
open Verif.Visitor Verif.Coord Verif.Spec Verif.Spec.Board Builder

/-! ## Calls -/

/-- What later calls may ask of a drawing operation, and the object. -/
def AnchorRel (d : Draw) : Object → Prop
  | .pad _ l _ => d.anchor = .pad l
  | .trace _ _ b e _ => d.anchor = .trace b e
  | .region _ => ∃ l, d.anchor = .region l

/-- The builder and the board asked for. -/
structure Rel (b : Builder) (w : Wish) : Prop where
  pads : List.Forall₂ (fun k shape => ∃ p, b.pads[k]? = some p ∧ HasShape b.macros p.node shape) b.given w.pads
  customs : b.customs.map CustomPad.primitives = w.customs
  regions : List.Forall₂ RegRel b.regions w.regions
  anchors : List.Forall₂ AnchorRel b.draws w.objects
  tracePads : ∀ k p, b.tracePads.get? k = some p → ∃ q ∈ b.pads, q.id = p.id ∧ q.node = .circle k none
  mode : b.plotMode.map (VState.drawTable · .multi) = (w.objects.foldl track modes0).1
  code : Code b w.objects

theorem HasShape.mono {ms ms' : List (Name × List Macro.Prim)} {d : ApDef} {shape : Shape} (h : HasShape ms d shape)
    (hm : ∀ m ∈ ms, m ∈ ms') : HasShape ms' d shape := by
  rcases h with h | ⟨n, body, h1, h2, h3⟩
  · exact .inl h
  · exact .inr ⟨n, body, h1, hm _ h2, h3⟩

theorem Rel.init : Rel {} {} := by
  refine ⟨.nil, rfl, .nil, .nil, fun k p h => by simp at h, rfl, ?_⟩
  intro s0 h
  refine ⟨s0, [], Runs.nil s0, ⟨h.apId, fun id hid => ?_, h.transform, ?_, h.quad, h.region, h.dispatch,
    fun l hl => by simp at hl⟩, ⟨rfl, rfl, rfl⟩, rfl, ?_, trivial⟩
  · rw [h.apId] at hid; simp at hid
  · rw [h.handler, h.plot, h.quad, h.dispatch]; rfl
  · intro k hk
    rw [h.plot]
    exact Option.some.inj hk

/-- A builder with one more pad, which may be given to the user. -/
theorem Rel.newPad {b : Builder} {w : Wish} (h : Rel b w) (d : ApDef) : Rel (b.newPad d).1 w := by
  refine ⟨?_, h.customs, h.regions, h.anchors, ?_, h.mode, ?_⟩
  · refine h.pads.imp ?_
    rintro k shape ⟨p, hp, hs⟩
    have hk : k < b.pads.length := (List.getElem?_eq_some_iff.mp hp).1
    exact ⟨p, by show (b.pads ++ [_])[k]? = _; rw [List.getElem?_append_left hk]; exact hp, hs⟩
  · intro k p hk
    obtain ⟨q, hq, e⟩ := h.tracePads k p hk
    exact ⟨q, List.mem_append_left _ hq, e⟩
  · exact h.code.same ⟨rfl, rfl, rfl, rfl, rfl, rfl, rfl, rfl⟩
      ⟨fun p hp => ⟨p, List.mem_append_left _ hp, rfl, rfl⟩, fun m hm => hm⟩

theorem Rel.givePad {b : Builder} {w : Wish} (h : Rel b w) {d : ApDef} {shape : Shape}
    (hs : HasShape b.macros d shape) : Rel (b.givePad d) { w with pads := w.pads ++ [shape] } := by
  have h1 := h.newPad d
  refine ⟨?_, h1.customs, h1.regions, h1.anchors, h1.tracePads, h1.mode, ?_⟩
  · refine List.rel_append h1.pads (.cons ⟨{ id := 'D' :: Text.natStr (b.nextId + 1), node := d }, ?_, hs⟩ .nil)
    show (b.pads ++ [_])[b.pads.length]? = _
    simp
  · exact h1.code.same ⟨rfl, rfl, rfl, rfl, rfl, rfl, rfl, rfl⟩ ⟨fun p hp => ⟨p, hp, rfl, rfl⟩, fun m hm => hm⟩

theorem Rel.traceAperture {b : Builder} {w : Wish} (h : Rel b w) (width : ℚ) :
    Rel (b.getTraceAperture width).1 w ∧
    ∃ p ∈ (b.getTraceAperture width).1.pads, p.id = (b.getTraceAperture width).2.id ∧ p.node = .circle width none := by
  unfold getTraceAperture
  cases ht : b.tracePads.get? width with
  | some pad => exact ⟨h, h.tracePads width pad ht⟩
  | none =>
    dsimp only
    have h1 := h.newPad (.circle width none)
    have hmem : ({ id := 'D' :: Text.natStr (b.nextId + 1), node := .circle width none } : Pad) ∈
        (b.newPad (.circle width none)).1.pads := by simp [Builder.newPad]
    refine ⟨⟨h1.pads, h1.customs, h1.regions, h1.anchors, ?_, h1.mode, ?_⟩, _, hmem, rfl, rfl⟩
    · intro k p hk
      rw [Dict.get?_set] at hk
      split_ifs at hk with hkw
      · subst hkw
        injection hk with hk
        subst hk
        exact ⟨_, hmem, rfl, rfl⟩
      · exact h1.tracePads k p hk
    · exact h1.code.same ⟨rfl, rfl, rfl, rfl, rfl, rfl, rfl, rfl⟩ ⟨fun p hp => ⟨p, hp, rfl, rfl⟩, fun m hm => hm⟩

theorem Rel.updatePad {b : Builder} {w : Wish} (h : Rel b w) (pad : Nat) (f : Pad → Pad)
    (hf : ∀ p, (f p).id = p.id ∧ (f p).node = p.node) : Rel (b.updatePad pad f).1 w := by
  unfold Builder.updatePad
  split
  · exact h
  rename_i k hk
  have hmem : ∀ p ∈ b.pads, ∃ q ∈ b.pads.modify k f, q.id = p.id ∧ q.node = p.node := by
    intro p hp
    obtain ⟨i, hi⟩ := List.mem_iff_getElem?.mp hp
    by_cases hik : k = i
    · refine ⟨f p, List.mem_iff_getElem?.mpr ⟨i, ?_⟩, hf p⟩
      rw [List.getElem?_modify, hi]
      simp [hik]
    · refine ⟨p, List.mem_iff_getElem?.mpr ⟨i, ?_⟩, rfl, rfl⟩
      rw [List.getElem?_modify, hi]
      simp [hik]
  refine ⟨?_, h.customs, h.regions, h.anchors, ?_, h.mode, ?_⟩
  · refine h.pads.imp ?_
    rintro i shape ⟨p, hp, hs⟩
    by_cases hik : k = i
    · refine ⟨f p, ?_, by rw [(hf p).2]; exact hs⟩
      show (b.pads.modify k f)[i]? = _
      rw [List.getElem?_modify, hp]; simp [hik]
    · refine ⟨p, ?_, hs⟩
      show (b.pads.modify k f)[i]? = _
      rw [List.getElem?_modify, hp]; simp [hik]
  · intro k' p hk'
    obtain ⟨q, hq, e1, e2⟩ := h.tracePads k' p hk'
    obtain ⟨q', hq', e3, e4⟩ := hmem q hq
    exact ⟨q', hq', e3.trans e1, e4.trans e2⟩
  · exact h.code.same ⟨rfl, rfl, rfl, rfl, rfl, rfl, rfl, rfl⟩ ⟨hmem, fun m hm => hm⟩

/-- Exceptions after which the builder is known to be as before, but for pads for traces. -/
def Harmless : Option Err → Prop
  | none => True
  | some .notAPad => True
  | some .notImplemented => True
  | some .invalidOutline => True
  | some .finalized => True
  | some .assertion => True
  | _ => False

/-- A call has the effect asked for, or none. -/
def Good (r : Result) (w w' : Wish) : Prop :=
  (r.2 = none → Rel r.1 w') ∧ (∀ e, r.2 = some e → Harmless (some e) → Rel r.1 w)

theorem Good.ok {b : Builder} {w w' : Wish} (h : Rel b w') : Good (b, none) w w' :=
  ⟨fun _ => h, fun e he => by simp at he⟩

theorem Good.err {b : Builder} {w w' : Wish} {e : Err} (h : Rel b w) : Good (b, some e) w w' :=
  ⟨fun he => by simp at he, fun _ _ _ => h⟩

theorem Good.bad {b : Builder} {w w' : Wish} {e : Err} (h : ¬ Harmless (some e)) : Good (b, some e) w w' :=
  ⟨fun he => by simp at he, fun e' he hh => by
    have : e = e' := Option.some.inj he
    subst this
    exact absurd hh h⟩

theorem packed_err {a : Axis} {v : ℚ} {e : Err} (h : packed a v = .error e) : ∃ p, e = .pack p := by
  unfold packed at h
  split at h
  · simp at h
  · injection h with h; exact ⟨_, h.symm⟩

theorem flashOp_err {l : Loc} {e : Err} (h : flashOp l = .error e) : ∃ p, e = .pack p := by
  unfold flashOp at h
  split at h
  · injection h with h; subst h; exact packed_err ‹_›
  · split at h
    · injection h with h; subst h; exact packed_err ‹_›
    · simp at h

theorem moveOp_err {l : Loc} {e : Err} (h : moveOp l = .error e) : ∃ p, e = .pack p := by
  unfold moveOp at h
  split at h
  · injection h with h; subst h; exact packed_err ‹_›
  · split at h
    · injection h with h; subst h; exact packed_err ‹_›
    · simp at h

theorem drawOp_err {l : Loc} {o : Option Loc} {e : Err} (h : drawOp l o = .error e) : ∃ p, e = .pack p := by
  unfold drawOp at h
  split at h
  · injection h with h; subst h; exact packed_err ‹_›
  · split at h
    · injection h with h; subst h; exact packed_err ‹_›
    · cases o with
      | none => simp at h
      | some o =>
        dsimp only at h
        split at h
        · injection h with h; subst h; exact packed_err ‹_›
        · split at h
          · injection h with h; subst h; exact packed_err ‹_›
          · simp at h

theorem traceOps_err {c : Option Loc} {s t : Loc} {o : Option Loc} {e : Err} (h : traceOps c s t o = .error e) :
    ∃ p, e = .pack p := by
  unfold traceOps at h
  split at h
  · rename_i e' he
    injection h with h; subst h
    split_ifs at he
    · cases hm : moveOp s with
      | error e => rw [hm] at he; injection he with he; subst he; exact moveOp_err hm
      | ok => rw [hm] at he; simp [Except.map] at he
  · split at h
    · injection h with h; subst h; exact drawOp_err ‹_›
    · simp at h

theorem outlineOps_err {segs : List Segment} : ∀ {m e}, outlineOps m segs = .error e → ∃ p, e = .pack p := by
  induction segs with
  | nil => intro m e h; simp [outlineOps] at h
  | cons g gs ih =>
    intro m e h
    simp only [outlineOps] at h
    split at h
    · injection h with h; subst h; exact drawOp_err ‹_›
    · split at h
      · injection h with h; subst h; exact ih ‹_›
      · simp at h

theorem regionOps_err {r : RegionCreator} {e : Err} (h : regionOps r = .error e) : ∃ p, e = .pack p := by
  unfold regionOps at h
  split at h
  · injection h with h; subst h; exact moveOp_err ‹_›
  · split at h
    · injection h with h; subst h; exact outlineOps_err ‹_›
    · simp at h

theorem Rel.anchor {b : Builder} {w : Wish} (h : Rel b w) {k : Nat} {d : Draw} (hd : b.draws[k]? = some d) :
    ∃ o, w.objects[k]? = some o ∧ AnchorRel d o := by
  obtain ⟨hk, hd⟩ := List.getElem?_eq_some_iff.mp hd
  have hl := h.anchors.length_eq
  have hk' : k < w.objects.length := hl ▸ hk
  refine ⟨w.objects[k], List.getElem?_eq_some_iff.mpr ⟨hk', rfl⟩, ?_⟩
  rw [← hd]
  exact (List.forall₂_iff_get.mp h.anchors).2 k hk hk'

theorem Rel.padLocation {b : Builder} {w : Wish} (h : Rel b w) {r : Ref} {l : Loc} (hl : b.padLocation r = .ok l) :
    w.from_ r = l := by
  cases r with
  | loc l' => exact Except.ok.inj hl
  | draw k =>
    simp only [Builder.padLocation] at hl
    split at hl
    · simp at hl
    rename_i d hd
    obtain ⟨o, ho, ha⟩ := h.anchor hd
    split at hl
    · rename_i s e hda
      injection hl with hl
      simp only [Wish.from_, ho]
      cases o with
      | pad _ l' _ => exact absurd ((hda.symm.trans ha : Anchor.trace s e = .pad l')) (by simp)
      | trace k w b' e' c =>
        have : d.anchor = .trace b' e' := ha
        rw [hda] at this
        injection this with t1 t2
        rw [← hl, t2]
      | region o => obtain ⟨l', hl'⟩ := ha; rw [hda] at hl'; simp at hl'
    · simp at hl

theorem AnchorRel.pad_eq {d : Draw} {o : Object} (h : AnchorRel d o) {l : Loc} (hd : d.anchor = .pad l) :
    ∃ shape t, o = .pad shape l t := by
  cases o with
  | pad shape l' t =>
    have : Anchor.pad l = .pad l' := hd.symm.trans h
    injection this with this
    exact ⟨shape, t, by rw [this]⟩
  | trace k w b e c => exact absurd (hd.symm.trans h : Anchor.pad l = .trace b e) (by simp)
  | region o => obtain ⟨l', hl'⟩ := h; rw [hd] at hl'; simp at hl'

theorem AnchorRel.trace_eq {d : Draw} {o : Object} (h : AnchorRel d o) {s e : Loc} (hd : d.anchor = .trace s e) :
    ∃ k w c, o = .trace k w s e c := by
  cases o with
  | pad shape l' t => exact absurd (hd.symm.trans h : Anchor.trace s e = .pad l') (by simp)
  | trace k w b e' c =>
    have : Anchor.trace s e = .trace b e' := hd.symm.trans h
    injection this with t1 t2
    exact ⟨k, w, c, by rw [t1, t2]⟩
  | region o => obtain ⟨l', hl'⟩ := h; rw [hd] at hl'; simp at hl'

theorem Rel.beginLocation {b : Builder} {w : Wish} (h : Rel b w) {r : Ref} {l : Loc}
    (hl : b.beginLocation r = .ok l) : w.from_ r = l := by
  cases r with
  | loc l' => exact Except.ok.inj hl
  | draw k =>
    simp only [Builder.beginLocation] at hl
    split at hl
    · simp at hl
    rename_i d hd
    obtain ⟨o, ho, ha⟩ := h.anchor hd
    split at hl
    · rename_i l' hda
      obtain ⟨_, _, rfl⟩ := ha.pad_eq hda
      simp only [Wish.from_, ho]
      exact Except.ok.inj hl
    · rename_i s e hda
      obtain ⟨_, _, _, rfl⟩ := ha.trace_eq hda
      simp only [Wish.from_, ho]
      exact Except.ok.inj hl
    · simp at hl

theorem Rel.endLocation {b : Builder} {w : Wish} (h : Rel b w) {r : Ref} {l : Loc}
    (hl : b.endLocation r = .ok l) : w.to_ r = l := by
  cases r with
  | loc l' => exact Except.ok.inj hl
  | draw k =>
    simp only [Builder.endLocation] at hl
    split at hl
    · simp at hl
    rename_i d hd
    obtain ⟨o, ho, ha⟩ := h.anchor hd
    split at hl
    · rename_i l' hda
      obtain ⟨_, _, rfl⟩ := ha.pad_eq hda
      simp only [Wish.to_, ho]
      exact Except.ok.inj hl
    · rename_i s e hda
      obtain ⟨_, _, _, rfl⟩ := ha.trace_eq hda
      simp only [Wish.to_, ho]
      exact Except.ok.inj hl
    · simp at hl

theorem padLocation_err {b : Builder} {r : Ref} {e : Err} (h : b.padLocation r = .error e) : ¬ Harmless (some e) := by
  cases r with
  | loc l => simp [Builder.padLocation] at h
  | draw k =>
    simp only [Builder.padLocation] at h
    split at h
    · injection h with h; subst h; exact id
    · split at h
      · simp at h
      · injection h with h; subst h; exact id

theorem pack_harm {e : Err} (h : ∃ p, e = .pack p) : ¬ Harmless (some e) := by
  obtain ⟨p, rfl⟩ := h; exact id

/-- The builder after a successful drawing operation. -/
theorem Rel.drawn {b : Builder} {w : Wish} (h : Rel b w) {y : Style} {d : Draw} {o : Object} (ha : AnchorRel d o)
    (hmode : (y.mode.or b.plotMode).map (VState.drawTable · .multi) = (track (w.objects.foldl track modes0) o).1)
    (hc : Code ((styled b y).addDraw d) (w.objects ++ [o])) :
    Rel ((styled b y).addDraw d) { w with objects := w.objects ++ [o] } :=
  ⟨h.pads, h.customs, h.regions, List.rel_append h.anchors (.cons ha .nil), h.tracePads, by
    rw [List.foldl_append]; exact hmode, hc⟩

theorem addFlash_good {b : Builder} {w : Wish} (h : Rel b w) (p : Polarity) (pad : Nat) (r : Ref) (rot : ℚ)
    (mx my : Bool) (k : ℚ) : Good (b.addFlash p pad r rot mx my k) w (w.flash p pad r rot mx my k) := by
  unfold Builder.addFlash
  cases hq : b.given[pad]?.bind (b.pads[·]?) with
  | none => exact Good.err h
  | some q =>
    dsimp only
    rw [show b.createStateUpdates (some q.id) (some p) (some rot) (some mx) (some my) (some k) none =
      updates b ⟨q.id, p, rot, mx, my, k, none⟩ from rfl, updates_fst]
    rw [show (styled b ⟨q.id, p, rot, mx, my, k, none⟩).padLocation r = b.padLocation r by cases r <;> rfl]
    cases hl : b.padLocation r with
    | error e => exact Good.bad (padLocation_err hl)
    | ok l =>
      dsimp only
      cases hop : flashOp l with
      | error e => exact Good.bad (pack_harm (flashOp_err hop))
      | ok op =>
        apply Good.ok
        obtain ⟨j, hj, hjq⟩ := Option.bind_eq_some_iff.mp hq
        -- the pad given to the user
        obtain ⟨hpl, hpg⟩ := List.getElem?_eq_some_iff.mp hj
        have hlen := h.pads.length_eq
        have hpl' : pad < w.pads.length := hlen ▸ hpl
        obtain ⟨q', hq', hs⟩ := (List.forall₂_iff_get.mp h.pads).2 pad hpl hpl'
        have : q' = q := by
          rw [List.get_eq_getElem, hpg, hjq] at hq'
          exact (Option.some.inj hq').symm
        subst this
        have hws : w.pads[pad]? = some (w.pads[pad]) := List.getElem?_eq_some_iff.mpr ⟨hpl', rfl⟩
        simp only [Wish.flash, hws]
        rw [h.padLocation hl]
        refine h.drawn rfl ?_ ?_
        · exact h.mode
        · exact h.code.flash (List.mem_of_getElem? hjq) hs _ rfl rfl hop

theorem addTrace_good {b : Builder} {w : Wish} (h : Rel b w) (m : Plot) (width : ℚ) (s t : Ref) (c : Option Loc)
    (hc : m = .linear ↔ c = none) :
    Good (b.addTrace m width s t c) w (w.trace (VState.drawTable m .multi) width s t c) := by
  unfold Builder.addTrace
  obtain ⟨ha, hp⟩ := h.traceAperture width
  generalize hga : b.getTraceAperture width = a at *
  dsimp only
  cases hs : a.1.beginLocation s with
  | error e => exact Good.err ha
  | ok s' =>
    dsimp only
    cases ht : a.1.endLocation t with
    | error e => exact Good.err ha
    | ok t' =>
      dsimp only
      rw [show a.1.createStateUpdates (some a.2.id) (some .dark) (some 0) (some false) (some false) (some 1) (some m) =
        updates a.1 (plain a.2.id (some m)) from rfl, updates_fst]
      cases hop : traceOps (styled a.1 (plain a.2.id (some m))).currentLocation s' t'
          (c.map fun c => (c.1 - s'.1, c.2 - s'.2)) with
      | error e => exact Good.bad (pack_harm (traceOps_err hop))
      | ok ops =>
        apply Good.ok
        simp only [Wish.trace]
        rw [ha.beginLocation hs, ha.endLocation ht]
        refine ha.drawn rfl ?_ ?_
        · show Option.map _ (some m) = _
          simp only [track]
          split_ifs with he
          · exact he.symm
          · rfl
        · exact ha.code.trace ha.mode hp hc hop

theorem Rel.regionsSet {b : Builder} {w : Wish} (h : Rel b w) {k : Nat} {r : RegionCreator} {o : Option Outline}
    (hr : RegRel r o) : Rel { b with regions := b.regions.set k r } { w with regions := w.regions.set k o } := by
  refine ⟨h.pads, h.customs, ?_, h.anchors, h.tracePads, h.mode, ?_⟩
  · rw [List.forall₂_iff_get]
    have hf := List.forall₂_iff_get.mp h.regions
    refine ⟨by simp [hf.1], fun i h1 h2 => ?_⟩
    simp only [List.get_eq_getElem, List.getElem_set]
    split_ifs
    · exact hr
    · exact hf.2 i (by simpa using h1) (by simpa using h2)
  · exact h.code.same ⟨rfl, rfl, rfl, rfl, rfl, rfl, rfl, rfl⟩ ⟨fun p hp => ⟨p, hp, rfl, rfl⟩, fun m hm => hm⟩

theorem Rel.regionAt {b : Builder} {w : Wish} (h : Rel b w) {k : Nat} {r : RegionCreator}
    (hr : b.regions[k]? = some r) : ∃ o, w.regions[k]? = some o ∧ RegRel r o := by
  obtain ⟨hk, hr⟩ := List.getElem?_eq_some_iff.mp hr
  have hf := List.forall₂_iff_get.mp h.regions
  have hk' : k < w.regions.length := hf.1 ▸ hk
  refine ⟨w.regions[k], List.getElem?_eq_some_iff.mpr ⟨hk', rfl⟩, ?_⟩
  rw [← hr]
  exact hf.2 k hk hk'

theorem createRegion_good {b : Builder} {w : Wish} (h : Rel b w) (k : Nat) :
    Good (b.createRegion k) w (w.step (.regionCreate k)) := by
  unfold Builder.createRegion
  cases hr : b.regions[k]? with
  | none => exact Good.bad id
  | some r =>
    dsimp only
    by_cases hl : r.outline.length < 3
    · rw [if_pos hl]; exact Good.err h
    rw [if_neg hl]
    obtain ⟨ha, hp⟩ := h.traceAperture 1
    have hreg : (b.getTraceAperture 1).1.regions = b.regions := by
      unfold getTraceAperture
      split <;> rfl
    generalize hga : b.getTraceAperture 1 = a at *
    rw [show a.1.createStateUpdates (some a.2.id) (some .dark) (some 0) (some false) (some false) (some 1) none =
      updates a.1 (plain a.2.id none) from rfl, updates_fst]
    cases hm : moveOp r.begin with
    | error e => exact Good.bad (pack_harm (moveOp_err hm))
    | ok mv =>
      dsimp only
      cases hop : regionOps r with
      | error e => exact Good.bad (pack_harm (regionOps_err hop))
      | ok ops =>
        apply Good.ok
        simp only [Wish.step]
        obtain ⟨o, ho, hro⟩ := ha.regionAt (hreg ▸ hr)
        rw [ho]
        have hc := ha.code.region hp hro (not_lt.mp hl) (a.1.regions.set k { r with outline := RegionCreator.closed r }) hop
        have hset := ha.regionsSet (k := k) (r := { r with outline := RegionCreator.closed r }) (o := none) trivial
        refine ⟨hset.pads, hset.customs, hset.regions, List.rel_append hset.anchors (.cons ⟨r.begin, rfl⟩ .nil), hset.tracePads,
          ?_, hc⟩
        rw [List.foldl_append]
        refine ha.mode.trans ?_
        cases o <;> rfl

theorem addSegment_good {b : Builder} {w : Wish} (h : Rel b w) (k : Nat) (f : Loc → Segment)
    (p : DrawKind × Loc × Option Loc) (hf : ∀ l, PartOf l (f l) p) : Good (b.addSegment k f) w (w.part k p) := by
  unfold Builder.addSegment
  cases hr : b.regions[k]? with
  | none => exact Good.bad id
  | some r =>
    apply Good.ok
    simp only [Wish.part]
    obtain ⟨o, ho, hro⟩ := h.regionAt hr
    have hw : w.regions.modify k (fun o => o.map fun o => { o with parts := o.parts ++ [p] }) =
        w.regions.set k (o.map fun o => { o with parts := o.parts ++ [p] }) := by
      apply List.ext_getElem?
      intro i
      rw [List.getElem?_modify, List.getElem?_set]
      by_cases hik : k = i
      · subst hik
        obtain ⟨this, he⟩ := List.getElem?_eq_some_iff.mp ho
        simp [he, this]
      · simp [hik]
    rw [hw]
    refine h.regionsSet ?_
    cases o with
    | none => trivial
    | some o =>
      obtain ⟨h1, h2, h3⟩ := hro
      refine ⟨h1, h2.snoc ?_, ?_⟩
      · rw [h3]; exact hf _
      · show (f r.previousEnd).end_ = _
        rw [(hf r.previousEnd).end_eq]
        simp [Outline.tip]

theorem addPrimitive_good {b : Builder} {w : Wish} (h : Rel b w) (k : Nat) (p : Macro.Prim) :
    Good (b.addPrimitive k p) w { w with customs := w.customs.modify k (· ++ [p]) } := by
  unfold Builder.addPrimitive
  cases hr : b.customs[k]? with
  | none => exact Good.bad id
  | some c =>
    dsimp only
    by_cases hf : c.finalized
    · rw [if_pos hf]; exact Good.err h
    rw [if_neg hf]
    apply Good.ok
    refine ⟨h.pads, ?_, h.regions, h.anchors, h.tracePads, h.mode,
      h.code.same ⟨rfl, rfl, rfl, rfl, rfl, rfl, rfl, rfl⟩ ⟨fun p hp => ⟨p, hp, rfl, rfl⟩, fun m hm => hm⟩⟩
    dsimp only
    rw [← h.customs]
    apply List.ext_getElem?
    intro i
    rw [List.getElem?_map, List.getElem?_set, List.getElem?_modify, List.getElem?_map]
    by_cases hik : k = i
    · subst hik
      obtain ⟨this, he⟩ := List.getElem?_eq_some_iff.mp hr
      simp [he, this, Builder.givePad, Builder.newPad]
    · simp [hik]

theorem createCustom_good {b : Builder} {w : Wish} (h : Rel b w) (k : Nat) :
    Good (b.createCustom k) w (w.step (.customCreate k)) := by
  unfold Builder.createCustom
  cases hr : b.customs[k]? with
  | none => exact Good.bad id
  | some c =>
    dsimp only
    by_cases hf : c.finalized
    · rw [if_pos hf]; exact Good.err h
    rw [if_neg hf]
    apply Good.ok
    simp only [Wish.step]
    have hcw : w.customs[k]? = some c.primitives := by rw [← h.customs, List.getElem?_map, hr]; rfl
    rw [hcw]
    have h1 : Rel { b with macroIds := b.macroIds + 1, macros := b.macros ++ [('M' :: Text.natStr b.macroIds, c.primitives)] } w := by
      refine ⟨?_, h.customs, h.regions, h.anchors, h.tracePads, h.mode, ?_⟩
      · refine h.pads.imp ?_
        rintro i shape ⟨p, hp, hs⟩
        exact ⟨p, hp, hs.mono fun m hm => List.mem_append_left _ hm⟩
      · exact h.code.same ⟨rfl, rfl, rfl, rfl, rfl, rfl, rfl, rfl⟩
          ⟨fun p hp => ⟨p, hp, rfl, rfl⟩, fun m hm => List.mem_append_left _ hm⟩
    have h2 := h1.givePad (d := .macro ('M' :: Text.natStr b.macroIds) []) (shape := .custom c.primitives)
      (.inr ⟨_, _, rfl, List.mem_append_right _ (List.mem_singleton.mpr rfl), rfl⟩)
    refine ⟨h2.pads, ?_, h2.regions, h2.anchors, h2.tracePads, h2.mode,
      h2.code.same ⟨rfl, rfl, rfl, rfl, rfl, rfl, rfl, rfl⟩ ⟨fun p hp => ⟨p, hp, rfl, rfl⟩, fun m hm => hm⟩⟩
    rw [← h.customs]
    apply List.ext_getElem?
    intro i
    rw [List.getElem?_map, List.getElem?_set, List.getElem?_map]
    by_cases hik : k = i
    · subst hik
      obtain ⟨this, he⟩ := List.getElem?_eq_some_iff.mp hr
      simp [he, this, Builder.givePad, Builder.newPad]
    · simp [hik, Builder.givePad, Builder.newPad]

theorem prim_ok {s : CustomShape} {p : Macro.Prim} (h : s.prim = .ok p) : p = primitive s := by
  cases s with
  | outline cut ps r =>
    simp only [CustomShape.prim] at h
    split_ifs at h
    cases hl : ps.getLast? with
    | none => rw [hl] at h; simp at h
    | some l =>
      rw [hl] at h
      simp only [Except.ok.injEq] at h
      rw [← h]
      simp [primitive, hl, exposure, sign]
  | _ => exact (Except.ok.inj h).symm

theorem exec_good {b : Builder} {w : Wish} (h : Rel b w) (c : Call) : Good (exec b c) w (w.step c) := by
  have std : ∀ d, (∀ n ps, d ≠ ApDef.macro n ps) → Rel (b.givePad d) { w with pads := w.pads ++ [.standard d] } :=
    fun d hd => h.givePad (.inl ⟨hd, rfl⟩)
  cases c with
  | circle d hole => exact Good.ok (std _ (fun n ps => by simp))
  | rectangle a c hole => exact Good.ok (std _ (fun n ps => by simp))
  | roundedRectangle a c hole => exact Good.ok (std _ (fun n ps => by simp))
  | regularPolygon d n r hole => exact Good.ok (std _ (fun n ps => by simp))
  | custom =>
    apply Good.ok
    refine ⟨h.pads, ?_, h.regions, h.anchors, h.tracePads, h.mode,
      h.code.same ⟨rfl, rfl, rfl, rfl, rfl, rfl, rfl, rfl⟩ ⟨fun p hp => ⟨p, hp, rfl, rfl⟩, fun m hm => hm⟩⟩
    simp [exec, Wish.step, h.customs]
  | customShape k s =>
    simp only [exec, Wish.step]
    cases hp : s.prim with
    | error e => exact Good.err h
    | ok p => rw [← prim_ok hp]; exact addPrimitive_good h k p
  | customCreate k => exact createCustom_good h k
  | setFunction p v =>
    have := h.updatePad p (fun pad => { pad with aperFunction := some v }) fun p => ⟨rfl, rfl⟩
    exact ⟨fun _ => this, fun _ _ _ => this⟩
  | setTolerance p v =>
    have := h.updatePad p (fun pad => { pad with drillTolerance := some v }) fun p => ⟨rfl, rfl⟩
    exact ⟨fun _ => this, fun _ _ _ => this⟩
  | setCustom p n v =>
    have := h.updatePad p (fun pad => { pad with userAttributes := pad.userAttributes ++ [(n, v)] }) fun p => ⟨rfl, rfl⟩
    exact ⟨fun _ => this, fun _ _ _ => this⟩
  | addPad p a r mx my k => exact addFlash_good h _ _ _ _ _ _ _
  | addCutoutPad p a r mx my k => exact addFlash_good h _ _ _ _ _ _ _
  | lineTrace d s e => exact addTrace_good h .linear d s e none (by simp)
  | cwTrace d s e c => exact addTrace_good h .arc d s e (some c) (by simp)
  | ccwTrace d s e c => exact addTrace_good h .ccwArc d s e (some c) (by simp)
  | newRegion l =>
    apply Good.ok
    exact ⟨h.pads, h.customs, List.rel_append h.regions (.cons ⟨rfl, trivial, rfl⟩ .nil), h.anchors, h.tracePads, h.mode,
      h.code.same ⟨rfl, rfl, rfl, rfl, rfl, rfl, rfl, rfl⟩ ⟨fun p hp => ⟨p, hp, rfl, rfl⟩, fun m hm => hm⟩⟩
  | regionLine k t => exact addSegment_good h k _ _ fun l => rfl
  | regionCw k t c => exact addSegment_good h k _ _ fun l => ⟨rfl, rfl⟩
  | regionCcw k t c => exact addSegment_good h k _ _ fun l => ⟨rfl, rfl⟩
  | regionCreate k => exact createRegion_good h k

theorem execAll_rel (cs : List Call) : ∀ {b w}, Rel b w → (∀ e ∈ (execAll b cs).2, Harmless e) →
    Rel (execAll b cs).1 ((succeeded cs (execAll b cs).2).foldl Wish.step w) := by
  induction cs with
  | nil => intro b w h _; exact h
  | cons c cs ih =>
    intro b w h hh
    simp only [execAll] at hh ⊢
    have h1 := exec_good h c
    have hc := hh _ List.mem_cons_self
    have ht := fun e he => hh e (List.mem_cons_of_mem _ he)
    cases he : (exec b c).2 with
    | none => exact ih (h1.1 he) ht
    | some e => rw [he] at hc; exact ih (h1.2 e he hc) ht

end Verif.GerberBuilder
