import Verif.Lemmas.BoardCalls

/-!
# Lemmas about the Gerber builder: the header of the file, codes and attributes
-/

namespace Verif.GerberBuilder
open Verif.Visitor Verif.Coord Verif.Spec Verif.Spec.Board Builder

theorem natStr_inj {m n : Nat} (h : Text.natStr m = Text.natStr n) : m = n := by
  rw [← Text.natVal_natStr m, h, Text.natVal_natStr]

/-! ## Dictionaries filled in order -/

/-- Entries stored one after the other. -/
def fill {κ ν : Type} [DecidableEq κ] (d : Dict κ ν) (es : List (κ × ν)) : Dict κ ν :=
  es.foldl (fun d e => Dict.set d e.1 e.2) d

theorem fill_get? {κ ν : Type} [DecidableEq κ] (es : List (κ × ν)) : ∀ (d : Dict κ ν) (k : κ),
    (fill d es).get? k = ((es.filter (fun e => e.1 = k)).getLast?.map Prod.snd).or (d.get? k) := by
  induction es using List.reverseRecOn with
  | nil => intro d k; rfl
  | append_singleton es e ih =>
    intro d k
    unfold fill at ih ⊢
    rw [List.foldl_append, List.filter_append]
    simp only [List.foldl_cons, List.foldl_nil, Dict.get?_set]
    by_cases h : e.1 = k
    · simp [h]
    · simp [h, ih]

theorem fill_get?_mem {κ ν : Type} [DecidableEq κ] {es : List (κ × ν)} {e : κ × ν} (he : e ∈ es)
    (hu : ∀ e' ∈ es, e'.1 = e.1 → e' = e) (d : Dict κ ν) : (fill d es).get? e.1 = some e.2 := by
  rw [fill_get?]
  have hm : e ∈ es.filter (fun e' => e'.1 = e.1) := by simp [he]
  cases hl : (es.filter (fun e' => e'.1 = e.1)).getLast? with
  | none => rw [List.getLast?_eq_none_iff] at hl; rw [hl] at hm; simp at hm
  | some e' =>
    have := List.mem_of_getLast? hl
    rw [List.mem_filter] at this
    rw [hu e' this.1 (by simpa using this.2)]
    rfl

/-! ## Codes -/

/-- Commands other than definitions, attributes and settings. -/
def drawing : Leaf → Bool
  | .dnn _ => true | .lp _ => true | .lr _ => true | .lm _ => true | .ls _ => true
  | .g01 => true | .g02 => true | .g03 => true | .g36 => true | .g37 => true
  | .d01 .. => true | .d02 .. => true | .d03 .. => true
  | _ => false

/-- A command of the drawing part of the file, given the codes. -/
def Allowed (b : Builder) (l : Leaf) : Prop := drawing l = true ∧ ∀ id, l = .dnn id → ∃ q ∈ b.pads, q.id = id

/-- Codes of apertures and names of macros. -/
structure Ids (b : Builder) : Prop where
  next : b.nextId = 9 + b.pads.length
  pad : ∀ i p, b.pads[i]? = some p → p.id = 'D' :: Text.natStr (10 + i)
  macroCount : b.macroIds = b.macros.length
  mac : ∀ i m, b.macros[i]? = some m → m.1 = 'M' :: Text.natStr i
  uses : ∀ p ∈ b.pads, ∀ n ps, p.node = .macro n ps → ∃ m ∈ b.macros, m.1 = n
  trace : ∀ k p, b.tracePads.get? k = some p → ∃ q ∈ b.pads, q.id = p.id
  given : ∀ k ∈ b.given, k < b.pads.length
  draws : ∀ d ∈ b.draws, ∀ l ∈ d.nodes, Allowed b l

theorem Ids.init : Ids {} :=
  ⟨rfl, fun i p h => by simp at h, rfl, fun i p h => by simp at h, fun p h => by simp at h, fun k p h => by simp at h,
    fun k h => by simp at h, fun d h => by simp at h⟩

theorem Allowed.mono {b b' : Builder} {l : Leaf} (h : Allowed b l)
    (hp : ∀ p ∈ b.pads, ∃ q ∈ b'.pads, q.id = p.id) : Allowed b' l := by
  refine ⟨h.1, fun id hid => ?_⟩
  obtain ⟨q, hq, e⟩ := h.2 id hid
  obtain ⟨q', hq', e'⟩ := hp q hq
  exact ⟨q', hq', e'.trans e⟩

theorem Ids.newPad {b : Builder} (h : Ids b) (d : ApDef) (hd : ∀ n ps, d = .macro n ps → ∃ m ∈ b.macros, m.1 = n) :
    Ids (b.newPad d).1 := by
  refine ⟨?_, ?_, h.macroCount, h.mac, ?_, ?_, ?_, ?_⟩
  · show b.nextId + 1 = 9 + (b.pads ++ [_]).length
    rw [h.next]; simp; omega
  · intro i p hi
    rcases Nat.lt_trichotomy i b.pads.length with hl | hl | hl
    · exact h.pad i p (by rwa [show (b.newPad d).1.pads = b.pads ++ [_] from rfl, List.getElem?_append_left hl] at hi)
    · subst hl
      rw [show (b.newPad d).1.pads = b.pads ++ [_] from rfl, List.getElem?_append_right (le_refl _), Nat.sub_self] at hi
      injection hi with hi
      subst hi
      show 'D' :: Text.natStr (b.nextId + 1) = _
      rw [h.next, show 9 + b.pads.length + 1 = 10 + b.pads.length by omega]
    · have := (List.getElem?_eq_some_iff.mp hi).1
      simp [Builder.newPad] at this
      omega
  · intro p hp n ps hn
    rcases List.mem_append.mp hp with hp | hp
    · exact h.uses p hp n ps hn
    · rw [List.mem_singleton] at hp
      subst hp
      exact hd n ps hn
  · intro k p hk
    obtain ⟨q, hq, e⟩ := h.trace k p hk
    exact ⟨q, List.mem_append_left _ hq, e⟩
  · intro k hk
    have := h.given k hk
    simp [Builder.newPad]
    omega
  · intro d' hd' l hl
    exact (h.draws d' hd' l hl).mono fun p hp => ⟨p, List.mem_append_left _ hp, rfl⟩

theorem Ids.givePad {b : Builder} (h : Ids b) (d : ApDef) (hd : ∀ n ps, d = .macro n ps → ∃ m ∈ b.macros, m.1 = n) :
    Ids (b.givePad d) := by
  have h1 := h.newPad d hd
  refine ⟨h1.next, h1.pad, h1.macroCount, h1.mac, h1.uses, h1.trace, ?_, h1.draws⟩
  intro k hk
  rcases List.mem_append.mp hk with hk | hk
  · exact h1.given k hk
  · rw [List.mem_singleton] at hk
    subst hk
    simp [Builder.givePad, Builder.newPad]

theorem Ids.traceAperture {b : Builder} (h : Ids b) (w : ℚ) :
    Ids (b.getTraceAperture w).1 ∧ ∃ q ∈ (b.getTraceAperture w).1.pads, q.id = (b.getTraceAperture w).2.id := by
  unfold getTraceAperture
  cases ht : b.tracePads.get? w with
  | some pad => exact ⟨h, h.trace w pad ht⟩
  | none =>
    dsimp only
    have h1 := h.newPad (.circle w none) (fun n ps hn => by simp at hn)
    have hm : ({ id := 'D' :: Text.natStr (b.nextId + 1), node := .circle w none } : Pad) ∈ (b.newPad (.circle w none)).1.pads := by
      simp [Builder.newPad]
    refine ⟨⟨h1.next, h1.pad, h1.macroCount, h1.mac, h1.uses, ?_, h1.given, h1.draws⟩, _, hm, rfl⟩
    intro k p hk
    rw [Dict.get?_set] at hk
    split_ifs at hk
    · injection hk with hk
      subst hk
      exact ⟨_, hm, rfl⟩
    · exact h1.trace k p hk

theorem updates_allowed {b : Builder} (y : Style) (hy : ∃ q ∈ b.pads, q.id = y.id) {l : Leaf}
    (hl : l ∈ (updates b y).2) : Allowed b l := by
  unfold updates createStateUpdates at hl
  dsimp only at hl
  simp only [List.mem_append] at hl
  have dnn : ∀ id, l = .dnn id → id = y.id → Allowed b l := by
    rintro id rfl rfl
    exact ⟨rfl, fun id' h => by injection h with h; subst h; exact hy⟩
  have other : drawing l = true → (∀ id, l ≠ .dnn id) → Allowed b l := fun h1 h2 => ⟨h1, fun id h => absurd h (h2 id)⟩
  rcases hl with ((((hl | hl) | hl) | hl) | hl) | hl
  · unfold selectUpdate at hl
    dsimp only at hl
    split_ifs at hl
    · rw [List.mem_singleton] at hl; exact dnn _ hl rfl
    · simp at hl
  · unfold polarityUpdate at hl
    dsimp only at hl
    split_ifs at hl
    · rw [List.mem_singleton] at hl; subst hl; exact other rfl (fun _ => by simp)
    · simp at hl
  · unfold rotationUpdate at hl
    dsimp only at hl
    split_ifs at hl
    · rw [List.mem_singleton] at hl; subst hl; exact other rfl (fun _ => by simp)
    · simp at hl
  · unfold mirroringUpdate at hl
    dsimp only at hl
    split_ifs at hl
    · rw [List.mem_singleton] at hl; subst hl; exact other rfl (fun _ => by simp)
    · simp at hl
  · unfold scaleUpdate at hl
    dsimp only at hl
    split_ifs at hl
    · rw [List.mem_singleton] at hl; subst hl; exact other rfl (fun _ => by simp)
    · simp at hl
  · unfold modeUpdate at hl
    cases hm : y.mode with
    | none => rw [hm] at hl; simp at hl
    | some m =>
      rw [hm] at hl
      dsimp only at hl
      split_ifs at hl
      · rw [List.mem_singleton] at hl
        subst hl
        cases m <;> exact other rfl (fun _ => by simp [modeCommand])
      · simp at hl

theorem flashOp_allowed {b : Builder} {l : Loc} {op : Leaf} (h : flashOp l = .ok op) : Allowed b op := by
  unfold flashOp at h
  split at h
  · simp at h
  · split at h
    · simp at h
    · injection h with h; subst h; exact ⟨rfl, fun id h => by simp at h⟩

theorem moveOp_allowed {b : Builder} {l : Loc} {op : Leaf} (h : moveOp l = .ok op) : Allowed b op := by
  unfold moveOp at h
  split at h
  · simp at h
  · split at h
    · simp at h
    · injection h with h; subst h; exact ⟨rfl, fun id h => by simp at h⟩

theorem drawOp_allowed {b : Builder} {l : Loc} {o : Option Loc} {op : Leaf} (h : drawOp l o = .ok op) :
    Allowed b op := by
  unfold drawOp at h
  split at h
  · simp at h
  · split at h
    · simp at h
    · cases o with
      | none => injection h with h; subst h; exact ⟨rfl, fun id h => by simp at h⟩
      | some o =>
        dsimp only at h
        split at h
        · simp at h
        · split at h
          · simp at h
          · injection h with h; subst h; exact ⟨rfl, fun id h => by simp at h⟩

theorem modeCommand_allowed {b : Builder} (m : Plot) : Allowed b (modeCommand m) := by
  cases m <;> exact ⟨rfl, fun id h => by simp [modeCommand] at h⟩

theorem outlineOps_allowed {b : Builder} {segs : List Segment} : ∀ {m ops}, outlineOps m segs = .ok ops →
    ∀ l ∈ ops, Allowed b l := by
  induction segs with
  | nil => intro m ops h l hl; injection h with h; subst h; simp at hl
  | cons g gs ih =>
    intro m ops h l hl
    simp only [outlineOps] at h
    split at h
    · simp at h
    rename_i d hd
    split at h
    · simp at h
    rename_i ds hds
    injection h with h
    subst h
    rw [List.mem_append, List.mem_cons] at hl
    rcases hl with hl | rfl | hl
    · split_ifs at hl
      · rw [List.mem_singleton] at hl; subst hl; exact modeCommand_allowed _
      · simp at hl
    · exact drawOp_allowed hd
    · exact ih hds l hl

theorem Ids.addDraw {b : Builder} (h : Ids b) (y : Style) (rs : List RegionCreator) {d : Draw}
    (hd : ∀ l ∈ d.nodes, Allowed b l) : Ids ({ styled b y with regions := rs }.addDraw d) := by
  refine ⟨h.next, h.pad, h.macroCount, h.mac, h.uses, h.trace, h.given, ?_⟩
  intro d' hd' l hl
  rcases List.mem_append.mp hd' with hd' | hd'
  · exact h.draws d' hd' l hl
  · rw [List.mem_singleton] at hd'
    subst hd'
    exact hd l hl

theorem Ids.styled {b : Builder} (h : Ids b) (y : Style) : Ids (styled b y) :=
  ⟨h.next, h.pad, h.macroCount, h.mac, h.uses, h.trace, h.given, h.draws⟩

theorem Ids.addFlash {b : Builder} (h : Ids b) (p : Polarity) (pad : Nat) (r : Ref) (rot : ℚ) (mx my : Bool) (k : ℚ) :
    Ids (b.addFlash p pad r rot mx my k).1 := by
  unfold Builder.addFlash
  cases hq : b.given[pad]?.bind (b.pads[·]?) with
  | none => exact h
  | some q =>
    dsimp only
    rw [show b.createStateUpdates (some q.id) (some p) (some rot) (some mx) (some my) (some k) none =
      updates b ⟨q.id, p, rot, mx, my, k, none⟩ from rfl, updates_fst]
    obtain ⟨j, hj, hjq⟩ := Option.bind_eq_some_iff.mp hq
    cases hl : (GerberBuilder.styled b ⟨q.id, p, rot, mx, my, k, none⟩).padLocation r with
    | error e => exact h.styled _
    | ok l =>
      dsimp only
      cases hop : flashOp l with
      | error e => exact h.styled _
      | ok op =>
        refine h.addDraw _ _ ?_
        intro l' hl'
        rcases List.mem_append.mp hl' with hl' | hl'
        · exact updates_allowed _ ⟨q, List.mem_of_getElem? hjq, rfl⟩ hl'
        · rw [List.mem_singleton] at hl'
          subst hl'
          exact flashOp_allowed hop

theorem Ids.addTrace {b : Builder} (h : Ids b) (m : Plot) (width : ℚ) (s t : Ref) (c : Option Loc) :
    Ids (b.addTrace m width s t c).1 := by
  unfold Builder.addTrace
  obtain ⟨ha, hp⟩ := h.traceAperture width
  generalize hga : b.getTraceAperture width = a at *
  dsimp only
  cases hs : a.1.beginLocation s with
  | error e => exact ha
  | ok s' =>
    dsimp only
    cases ht : a.1.endLocation t with
    | error e => exact ha
    | ok t' =>
      dsimp only
      rw [show a.1.createStateUpdates (some a.2.id) (some .dark) (some 0) (some false) (some false) (some 1) (some m) =
        updates a.1 (plain a.2.id (some m)) from rfl, updates_fst]
      cases hop : traceOps (GerberBuilder.styled a.1 (plain a.2.id (some m))).currentLocation s' t'
          (c.map fun c => (c.1 - s'.1, c.2 - s'.2)) with
      | error e => exact ha.styled _
      | ok ops =>
        refine ha.addDraw _ _ ?_
        intro l' hl'
        rcases List.mem_append.mp hl' with hl' | hl'
        · exact updates_allowed _ hp hl'
        · unfold traceOps at hop
          split at hop
          · simp at hop
          rename_i ms hms
          split at hop
          · simp at hop
          rename_i dop hdop
          injection hop with hop
          subst hop
          rcases List.mem_append.mp hl' with hl' | hl'
          · split_ifs at hms
            · cases hmo : moveOp s' with
              | error e => rw [hmo] at hms; simp [Except.map] at hms
              | ok mv =>
                rw [hmo] at hms
                have : ms = [mv] := by simpa [Except.map] using hms.symm
                subst this
                rw [List.mem_singleton] at hl'
                subst hl'
                exact moveOp_allowed hmo
            · injection hms with hms; subst hms; simp at hl'
          · rw [List.mem_singleton] at hl'
            subst hl'
            exact drawOp_allowed hdop

theorem Ids.createRegion {b : Builder} (h : Ids b) (k : Nat) : Ids (b.createRegion k).1 := by
  unfold Builder.createRegion
  cases hr : b.regions[k]? with
  | none => exact h
  | some r =>
    dsimp only
    by_cases hl : r.outline.length < 3
    · rw [if_pos hl]; exact h
    rw [if_neg hl]
    obtain ⟨ha, hp⟩ := h.traceAperture 1
    generalize hga : b.getTraceAperture 1 = a at *
    rw [show a.1.createStateUpdates (some a.2.id) (some .dark) (some 0) (some false) (some false) (some 1) none =
      updates a.1 (plain a.2.id none) from rfl, updates_fst]
    have hs := ha.styled (plain a.2.id none)
    cases hm : moveOp r.begin with
    | error e => exact hs
    | ok mv =>
      dsimp only
      cases hop : regionOps r with
      | error e => exact ⟨hs.next, hs.pad, hs.macroCount, hs.mac, hs.uses, hs.trace, hs.given, hs.draws⟩
      | ok ops =>
        refine ha.addDraw _ _ ?_
        intro l' hl'
        have hl' : l' ∈ (updates a.1 (plain a.2.id none)).2 ++ ops := hl'
        rcases List.mem_append.mp hl' with hl' | hl'
        · exact updates_allowed _ hp hl'
        · unfold regionOps at hop
          rw [hm] at hop
          dsimp only at hop
          split at hop
          · simp at hop
          rename_i body hbody
          injection hop with hop
          subst hop
          simp only [List.cons_append, List.mem_cons, List.mem_append, List.not_mem_nil, or_false] at hl'
          rcases hl' with rfl | rfl | hl' | rfl | rfl
          · exact ⟨rfl, fun id h => by simp at h⟩
          · exact moveOp_allowed hm
          · exact outlineOps_allowed hbody l' hl'
          · exact ⟨rfl, fun id h => by simp at h⟩
          · exact moveOp_allowed hm

theorem Ids.updatePad {b : Builder} (h : Ids b) (pad : Nat) (f : Pad → Pad)
    (hf : ∀ p, (f p).id = p.id ∧ (f p).node = p.node) : Ids (b.updatePad pad f).1 := by
  unfold Builder.updatePad
  split
  · exact h
  rename_i k hk
  have hget : ∀ (i : Nat) (q : Pad), (b.pads.modify k f)[i]? = some q → ∃ p : Pad, b.pads[i]? = some p ∧ q.id = p.id ∧ q.node = p.node := by
    intro i q hi
    rw [List.getElem?_modify] at hi
    cases hp : b.pads[i]? with
    | none => rw [hp] at hi; simp at hi
    | some p =>
      rw [hp] at hi
      refine ⟨p, rfl, ?_⟩
      by_cases hik : k = i
      · simp [hik] at hi; rw [← hi]; exact hf p
      · simp [hik] at hi; rw [← hi]; exact ⟨rfl, rfl⟩
  have hmem : ∀ p ∈ b.pads, ∃ q ∈ b.pads.modify k f, q.id = p.id := by
    intro p hp
    obtain ⟨i, hi⟩ := List.mem_iff_getElem?.mp hp
    by_cases hik : k = i
    · refine ⟨f p, List.mem_iff_getElem?.mpr ⟨i, ?_⟩, (hf p).1⟩
      rw [List.getElem?_modify, hi]
      simp [hik]
    · refine ⟨p, List.mem_iff_getElem?.mpr ⟨i, ?_⟩, rfl⟩
      rw [List.getElem?_modify, hi]
      simp [hik]
  refine ⟨by simpa using h.next, ?_, h.macroCount, h.mac, ?_, ?_, ?_, ?_⟩
  · intro i q hi
    obtain ⟨p, hp, e, -⟩ := hget i q hi
    rw [e]
    exact h.pad i p hp
  · intro q hq n ps hn
    obtain ⟨i, hi⟩ := List.mem_iff_getElem?.mp hq
    obtain ⟨p, hp, -, e⟩ := hget i q hi
    exact h.uses p (List.mem_of_getElem? hp) n ps (e.symm.trans hn)
  · intro k' p hk'
    obtain ⟨q, hq, e⟩ := h.trace k' p hk'
    obtain ⟨q', hq', e'⟩ := hmem q hq
    exact ⟨q', hq', e'.trans e⟩
  · intro j hj
    simpa using h.given j hj
  · intro d hd l hl
    exact (h.draws d hd l hl).mono hmem

theorem Ids.keep {b b' : Builder} (h : Ids b) (h1 : b'.nextId = b.nextId) (h2 : b'.macroIds = b.macroIds)
    (h3 : b'.pads = b.pads) (h4 : b'.macros = b.macros) (h5 : b'.draws = b.draws) (h6 : b'.tracePads = b.tracePads)
    (h7 : b'.given = b.given) : Ids b' := by
  refine ⟨by rw [h1, h3]; exact h.next, by rw [h3]; exact h.pad, by rw [h2, h4]; exact h.macroCount,
    by rw [h4]; exact h.mac, by rw [h3, h4]; exact h.uses, by rw [h3, h6]; exact h.trace, by rw [h3, h7]; exact h.given, ?_⟩
  intro d hd l hl
  rw [h5] at hd
  exact (h.draws d hd l hl).mono fun p hp => ⟨p, by rw [h3]; exact hp, rfl⟩

theorem Ids.createCustom {b : Builder} (h : Ids b) (k : Nat) : Ids (b.createCustom k).1 := by
  unfold Builder.createCustom
  cases hr : b.customs[k]? with
  | none => exact h
  | some c =>
    dsimp only
    by_cases hf : c.finalized
    · rw [if_pos hf]; exact h
    rw [if_neg hf]
    have h1 : Ids { b with macroIds := b.macroIds + 1, macros := b.macros ++ [('M' :: Text.natStr b.macroIds, c.primitives)] } := by
      refine ⟨h.next, h.pad, by simp [h.macroCount], ?_, ?_, h.trace, h.given, h.draws⟩
      · intro i m hi
        dsimp only at hi
        rcases Nat.lt_trichotomy i b.macros.length with hl | hl | hl
        · rw [List.getElem?_append_left hl] at hi; exact h.mac i m hi
        · subst hl
          rw [List.getElem?_append_right (le_refl _), Nat.sub_self] at hi
          injection hi with hi
          subst hi
          rw [h.macroCount]
        · have := (List.getElem?_eq_some_iff.mp hi).1
          simp at this
          omega
      · intro p hp n ps hn
        obtain ⟨m, hm, e⟩ := h.uses p hp n ps hn
        exact ⟨m, List.mem_append_left _ hm, e⟩
    refine (h1.givePad (.macro ('M' :: Text.natStr b.macroIds) []) ?_).keep rfl rfl rfl rfl rfl rfl rfl
    intro n ps hn
    injection hn with hn _
    subst hn
    exact ⟨_, List.mem_append_right _ (List.mem_singleton.mpr rfl), rfl⟩

theorem exec_ids {b : Builder} (h : Ids b) (c : Call) : Ids (exec b c).1 := by
  cases c with
  | circle d hole => exact h.givePad _ (fun n ps hn => by simp at hn)
  | rectangle a c hole => exact h.givePad _ (fun n ps hn => by simp at hn)
  | roundedRectangle a c hole => exact h.givePad _ (fun n ps hn => by simp at hn)
  | regularPolygon d n r hole => exact h.givePad _ (fun n ps hn => by simp at hn)
  | custom => exact h.keep rfl rfl rfl rfl rfl rfl rfl
  | customShape k s =>
    simp only [exec]
    cases hp : s.prim with
    | error e => exact h
    | ok p =>
      dsimp only
      unfold Builder.addPrimitive
      split
      · exact h
      · split_ifs
        · exact h
        · exact h.keep rfl rfl rfl rfl rfl rfl rfl
  | customCreate k => exact h.createCustom k
  | setFunction p v => exact h.updatePad _ _ fun p => ⟨rfl, rfl⟩
  | setTolerance p v => exact h.updatePad _ _ fun p => ⟨rfl, rfl⟩
  | setCustom p n v => exact h.updatePad _ _ fun p => ⟨rfl, rfl⟩
  | addPad p a r mx my k => exact h.addFlash ..
  | addCutoutPad p a r mx my k => exact h.addFlash ..
  | lineTrace d s e => exact h.addTrace ..
  | cwTrace d s e c => exact h.addTrace ..
  | ccwTrace d s e c => exact h.addTrace ..
  | newRegion l => exact h.keep rfl rfl rfl rfl rfl rfl rfl
  | regionLine k t =>
    simp only [exec, addSegment]
    split
    · exact h
    · exact h.keep rfl rfl rfl rfl rfl rfl rfl
  | regionCw k t c =>
    simp only [exec, addSegment]
    split
    · exact h
    · exact h.keep rfl rfl rfl rfl rfl rfl rfl
  | regionCcw k t c =>
    simp only [exec, addSegment]
    split
    · exact h
    · exact h.keep rfl rfl rfl rfl rfl rfl rfl
  | regionCreate k => exact h.createRegion k

theorem execAll_ids (cs : List Call) : ∀ {b}, Ids b → Ids (execAll b cs).1 := by
  induction cs with
  | nil => intro b h; exact h
  | cons c cs ih => intro b h; exact ih (exec_ids h c)

theorem Ids.pad_unique {b : Builder} (h : Ids b) {p q : Pad} (hp : p ∈ b.pads) (hq : q ∈ b.pads) (e : p.id = q.id) :
    p = q := by
  obtain ⟨i, hi⟩ := List.mem_iff_getElem?.mp hp
  obtain ⟨j, hj⟩ := List.mem_iff_getElem?.mp hq
  have := h.pad i p hi
  rw [e, h.pad j q hj] at this
  injection this with _ this
  have : i = j := by have := natStr_inj this; omega
  subst this
  rw [hi] at hj
  exact Option.some.inj hj

theorem Ids.macro_unique {b : Builder} (h : Ids b) {p q : Name × List Macro.Prim} (hp : p ∈ b.macros)
    (hq : q ∈ b.macros) (e : p.1 = q.1) : p = q := by
  obtain ⟨i, hi⟩ := List.mem_iff_getElem?.mp hp
  obtain ⟨j, hj⟩ := List.mem_iff_getElem?.mp hq
  have := h.mac i p hi
  rw [e, h.mac j q hj] at this
  injection this with _ this
  have : i = j := (natStr_inj this).symm
  subst this
  rw [hi] at hj
  exact Option.some.inj hj

/-! ## The header -/

/-- The attributes written for a pad. -/
def Pad.attributes (p : Pad) : List (Name × Name) :=
  (p.aperFunction.toList.map fun v => (functionName, v)) ++ (p.drillTolerance.toList.map fun v => (toleranceName, v)) ++
    p.userAttributes

theorem Pad.nodes_eq (p : Pad) : p.nodes = (p.attributes.map fun a => Leaf.ta a.1 a.2) ++ .ad p.id p.node ::
    (if p.attributes = [] then [] else [.td none]) := by
  unfold Pad.nodes Pad.attributes
  simp only [List.map_append, List.map_map, Function.comp_def]
  congr 2
  cases p.aperFunction <;> cases p.drillTolerance <;> cases p.userAttributes <;> simp

theorem macros_run (ms : List (Name × List Macro.Prim)) : ∀ s : VState,
    Runs s (ms.map fun m => Leaf.am m.1 m.2) { s with macros := fill s.macros ms } [] := by
  induction ms with
  | nil => intro s; exact Runs.nil s
  | cons m ms ih => intro s; exact Runs.cons (e1 := []) rfl (ih _)

theorem attributes_run (as : List (Name × Name)) : ∀ s : VState,
    Runs s (as.map fun a => Leaf.ta a.1 a.2) { s with apertureAttrs := fill s.apertureAttrs as } [] := by
  induction as with
  | nil => intro s; exact Runs.nil s
  | cons m ms ih => intro s; exact Runs.cons (e1 := []) rfl (ih _)

/-- Only definitions of apertures. -/
def isDefine : Event → Bool
  | .define .. => true
  | _ => false

theorem pads_run (ps : List Pad) : ∀ s : VState, s.apertureAttrs = [] → s.objectAttrs = [] → ∃ ev,
    Runs s (ps.flatMap Pad.nodes)
      { s with apertures := fill s.apertures (ps.map fun p => (p.id, p.node)), perAperture := fill s.perAperture (ps.map fun p => (p.id, fill [] p.attributes)) } ev ∧ ∀ e ∈ ev, isDefine e = true := by
  induction ps with
  | nil => intro s _ _; exact ⟨[], Runs.nil s, fun e h => by simp at h⟩
  | cons p ps ih =>
    intro s h1 h2
    rw [List.flatMap_cons, Pad.nodes_eq]
    have ha := attributes_run p.attributes s
    rw [h1] at ha
    have hd : stepLeaf { s with apertureAttrs := fill [] p.attributes } (.ad p.id p.node) =
      ⟨{ s with apertureAttrs := fill [] p.attributes, apertures := Dict.set s.apertures p.id p.node, perAperture := Dict.set s.perAperture p.id (fill [] p.attributes) }, [.define p.id p.node { s with apertureAttrs := fill [] p.attributes, apertures := Dict.set s.apertures p.id p.node, perAperture := Dict.set s.perAperture p.id (fill [] p.attributes) }], none⟩ := rfl
    have ht : Runs { s with apertureAttrs := fill [] p.attributes, apertures := Dict.set s.apertures p.id p.node, perAperture := Dict.set s.perAperture p.id (fill [] p.attributes) }
        (if p.attributes = [] then [] else [.td none])
        { s with apertures := Dict.set s.apertures p.id p.node, perAperture := Dict.set s.perAperture p.id (fill [] p.attributes) } [] := by
      split_ifs with he
      · rw [he]
        have : s = { s with apertureAttrs := fill [] [] } := by
          show s = { s with apertureAttrs := [] }
          rw [← h1]
        have h3 : ({ s with apertures := Dict.set s.apertures p.id p.node, perAperture := Dict.set s.perAperture p.id (fill [] []) } : VState) = { s with apertureAttrs := fill [] [], apertures := Dict.set s.apertures p.id p.node, perAperture := Dict.set s.perAperture p.id (fill [] []) } := by
          show _ = ({ s with apertureAttrs := [], apertures := _, perAperture := _ } : VState)
          rw [← h1]
        rw [h3]
        exact Runs.nil _
      · apply Runs.single
        show (⟨_, [], none⟩ : Out) = _
        congr 1
        show ({ s with apertureAttrs := [], objectAttrs := [], apertures := _, perAperture := _ } : VState) = _
        rw [← h1]
        rw [show s.apertureAttrs = s.objectAttrs from h1.trans h2.symm]
    obtain ⟨ev, hr, hev⟩ := ih { s with apertures := Dict.set s.apertures p.id p.node, perAperture := Dict.set s.perAperture p.id (fill [] p.attributes) } h1 h2
    refine ⟨_, (ha.append (Runs.cons hd ht)).append hr, ?_⟩
    intro e he
    simp only [List.nil_append, List.append_nil, List.singleton_append, List.mem_cons] at he
    rcases he with rfl | he
    · rfl
    · exact hev e he

/-- The commands before the first drawing command. -/
def header (b : Builder) : List Leaf := [.fs format, .mo .metric] ++ b.padNodes ++ [.g75]

/-- The state after the header. -/
def afterHeader (b : Builder) : VState :=
  { format := some format, unit := .metric, quad := .multi, macros := fill [] b.macros, apertures := fill [] (b.pads.map fun p => (p.id, p.node)), perAperture := fill [] (b.pads.map fun p => (p.id, fill [] p.attributes)) }

theorem header_run (b : Builder) : ∃ ev, Runs {} (header b) (afterHeader b) ev ∧ ∀ e ∈ ev, isDefine e = true := by
  have h1 : Runs {} [.fs format, .mo .metric] { format := some format, unit := .metric } [] := rfl
  have h2 := macros_run b.macros { format := some format, unit := .metric }
  obtain ⟨ev, h3, hev⟩ := pads_run b.pads { format := some format, unit := .metric, macros := fill [] b.macros } rfl rfl
  have h4 : Runs { format := some format, unit := .metric, macros := fill [] b.macros, apertures := fill [] (b.pads.map fun p => (p.id, p.node)), perAperture := fill [] (b.pads.map fun p => (p.id, fill [] p.attributes)) } [.g75] (afterHeader b) [] := rfl
  refine ⟨_, (h1.append (h2.append h3)).append h4, ?_⟩
  simpa using hev

theorem header_start {b : Builder} (h : Ids b) : Start b (afterHeader b) := by
  refine ⟨rfl, ?_, ?_, rfl, rfl, rfl, rfl, rfl, rfl, rfl⟩
  · intro p hp
    refine fill_get?_mem (e := (p.id, p.node)) (List.mem_map.mpr ⟨p, hp, rfl⟩) ?_ []
    intro e he h1
    obtain ⟨q, hq, rfl⟩ := List.mem_map.mp he
    rw [h.pad_unique hq hp h1]
  · intro m hm
    exact fill_get?_mem hm (fun m' hm' e => h.macro_unique hm' hm e) []

theorem defines_reading {ev : List Event} (h : ∀ e ∈ ev, isDefine e = true) : ∀ c, reading c ev = [] ∧ pending c ev = c := by
  induction ev with
  | nil => intro c; exact ⟨rfl, rfl⟩
  | cons e ev ih =>
    intro c
    have he := h e List.mem_cons_self
    have ih := ih (fun e he => h e (List.mem_cons_of_mem _ he)) c
    cases e with
    | define id d s => exact ih
    | _ => simp [isDefine] at he

/-- Visiting a file whose commands run normally. -/
theorem onFile_runs (ignore : Bool) (ls : List Leaf) : ∀ {s s' ev}, Runs s ls s' ev → ∀ cs,
    onFile ignore s (ls.map Cmd.leaf ++ cs) =
      ⟨(onFile ignore s' cs).st, ev ++ (onFile ignore s' cs).ev, (onFile ignore s' cs).exn⟩ := by
  induction ls with
  | nil =>
    intro s s' ev h cs
    have h : Out.ok s = ⟨s', ev, none⟩ := h
    injection h with h1 h2
    subst h1 h2
    rfl
  | cons l ls ih =>
    intro s s' ev h cs
    have h : (stepLeaf s l).andThen (fun s => run s (ls.map Atom.leaf)) = ⟨s', ev, none⟩ := h
    cases he : (stepLeaf s l).exn with
    | some e => rw [Out.andThen_of_some he] at h; rw [h] at he; simp at he
    | none =>
      rw [Out.andThen_of_none he] at h
      injection h with h1 h2 h3
      have hr : Runs (stepLeaf s l).st ls s' (run (stepLeaf s l).st (ls.map Atom.leaf)).ev := by
        unfold Runs
        rw [← h1]
        generalize hrun : run (stepLeaf s l).st (ls.map Atom.leaf) = r at *
        obtain ⟨a, b, c⟩ := r
        dsimp only at h3 ⊢
        rw [h3]
      simp only [List.map_cons, List.cons_append, onFile, visit, he]
      rw [ih hr cs, ← h2]
      simp

/-- The state after the whole file, and what was reported. -/
theorem file_runs {b : Builder} {w : Wish} (h : Rel b w) (hi : Ids b) (ignore : Bool) :
    (processFile ignore (b.getCode.map Cmd.leaf)).exn = none ∧
    Aligned modes0 w.objects (reading [] (processFile ignore (b.getCode.map Cmd.leaf)).ev) := by
  obtain ⟨ev0, h0, hev0⟩ := header_run b
  obtain ⟨s, ev, h1, h2, h3, h4, h5, h6⟩ := h.code _ (header_start hi)
  have hall := h0.append h1
  have hcode : b.getCode = (header b ++ b.draws.flatMap Draw.nodes) ++ [.m02] := by
    unfold Builder.getCode header
    simp
  have := onFile_runs ignore _ hall [.leaf .m02]
  unfold processFile
  rw [hcode, List.map_append, List.map_cons, List.map_nil, this]
  have hm : onFile ignore s [.leaf .m02] = ⟨s, [], none⟩ := by cases ignore <;> rfl
  rw [hm]
  refine ⟨rfl, ?_⟩
  simp only [List.append_nil]
  obtain ⟨r1, r2⟩ := defines_reading hev0 []
  rw [reading_append, r1, r2]
  exact h6

end Verif.GerberBuilder
