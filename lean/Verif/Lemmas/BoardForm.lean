import Verif.Lemmas.BoardFile

/-!
# The commands of the objects of a board
-/

namespace Verif.GerberBuilder
open Verif.Coord Verif.Visitor Builder Verif.Spec Verif.Spec.Board

/-- Commands before an object that draw nothing and do not move. -/
def quiet : Leaf → Bool
  | .dnn _ => true | .lp _ => true | .lr _ => true | .lm _ => true | .ls _ => true
  | .g01 => true | .g02 => true | .g03 => true
  | _ => false

/-- The commands of an object. -/
inductive Form : Draw → Object → Prop
  | pad {d us x y shape l t} : d.nodes = us ++ [.d03 (some x) (some y)] → (∀ u ∈ us, quiet u = true) → Form d (.pad shape l t)
  | trace {d us ms x y k w b e c i j} : d.nodes = us ++ ms ++ [.d01 (some x) (some y) i j] → (∀ u ∈ us, quiet u = true) →
      (∀ m ∈ ms, ∃ x y, m = .d02 x y) → (k = .line → c = none) → (c ≠ none → ∃ ti tj, i = some ti ∧ j = some tj) →
      Form d (.trace k w b e c)
  | region {d us segs ops x y x' y' o} : d.nodes = us ++ .g36 :: .d02 x y :: ops ++ [.g37, .d02 x' y'] →
      (∀ u ∈ us, quiet u = true) → outlineOps none segs = .ok ops → segs ≠ [] → Form d (.region o)

/-- The apertures of a board are the pads asked for and circles for traces and regions. -/
def PadOf (macros : List (Name × List Macro.Prim)) (w : Wish) (node : ApDef) : Prop :=
  (∃ shape ∈ w.pads, HasShape macros node shape) ∨
  ∃ width, node = .circle width none ∧ (width = 1 ∨ ∃ k b e c, Object.trace k width b e c ∈ w.objects)

/-- What was made for a board. -/
structure Made (b : Builder) (w : Wish) : Prop where
  pads : ∀ p ∈ b.pads, PadOf b.macros w p.node
  draws : List.Forall₂ Form b.draws w.objects

theorem PadOf.mono {ms ms' : List (Name × List Macro.Prim)} {w w' : Wish} {d : ApDef} (h : PadOf ms w d) (hm : ∀ m ∈ ms, m ∈ ms')
    (hp : ∀ s ∈ w.pads, s ∈ w'.pads) (ho : ∀ o ∈ w.objects, o ∈ w'.objects) : PadOf ms' w' d := by
  rcases h with ⟨s, h1, h2⟩ | ⟨width, h1, h2⟩
  · exact .inl ⟨s, hp s h1, h2.mono hm⟩
  · refine .inr ⟨width, h1, h2.imp_right ?_⟩
    rintro ⟨k, b, e, c, h⟩
    exact ⟨k, b, e, c, ho _ h⟩

theorem updates_quiet (b : Builder) (y : Style) : ∀ l ∈ (updates b y).2, quiet l = true := by
  intro l hl
  unfold updates createStateUpdates at hl
  dsimp only at hl
  simp only [List.mem_append] at hl
  rcases hl with ((((hl | hl) | hl) | hl) | hl) | hl
  · unfold selectUpdate at hl
    dsimp only at hl
    split_ifs at hl
    · rw [List.mem_singleton] at hl; subst hl; rfl
    · simp at hl
  · unfold polarityUpdate at hl
    dsimp only at hl
    split_ifs at hl
    · rw [List.mem_singleton] at hl; subst hl; rfl
    · simp at hl
  · unfold rotationUpdate at hl
    dsimp only at hl
    split_ifs at hl
    · rw [List.mem_singleton] at hl; subst hl; rfl
    · simp at hl
  · unfold mirroringUpdate at hl
    dsimp only at hl
    split_ifs at hl
    · rw [List.mem_singleton] at hl; subst hl; rfl
    · simp at hl
  · unfold scaleUpdate at hl
    dsimp only at hl
    split_ifs at hl
    · rw [List.mem_singleton] at hl; subst hl; rfl
    · simp at hl
  · unfold modeUpdate at hl
    cases hm : y.mode with
    | none => rw [hm] at hl; simp at hl
    | some m =>
      rw [hm] at hl
      dsimp only at hl
      split_ifs at hl
      · rw [List.mem_singleton] at hl
        subst hl
        cases m <;> rfl
      · simp at hl

theorem flashOp_form {l : Loc} {op : Leaf} (h : flashOp l = .ok op) : ∃ x y, op = .d03 (some x) (some y) := by
  unfold flashOp at h
  split at h
  · simp at h
  · split at h
    · simp at h
    · injection h with h; exact ⟨_, _, h.symm⟩

theorem moveOp_form {l : Loc} {op : Leaf} (h : moveOp l = .ok op) : ∃ x y, op = .d02 (some x) (some y) := by
  unfold moveOp at h
  split at h
  · simp at h
  · split at h
    · simp at h
    · injection h with h; exact ⟨_, _, h.symm⟩

theorem drawOp_form {l : Loc} {o : Option Loc} {op : Leaf} (h : drawOp l o = .ok op) :
    ∃ x y i j, op = .d01 (some x) (some y) i j ∧ (o ≠ none → ∃ ti tj, i = some ti ∧ j = some tj) ∧ (o = none → i = none ∧ j = none) := by
  unfold drawOp at h
  split at h
  · simp at h
  · split at h
    · simp at h
    · cases o with
      | none => injection h with h; exact ⟨_, _, _, _, h.symm, fun h => absurd rfl h, fun _ => ⟨rfl, rfl⟩⟩
      | some o =>
        dsimp only at h
        split at h
        · simp at h
        · split at h
          · simp at h
          · injection h with h; exact ⟨_, _, _, _, h.symm, fun _ => ⟨_, _, rfl, rfl⟩, nofun⟩

theorem traceOps_form {cur : Option Loc} {s t : Loc} {o : Option Loc} {ops : List Leaf} (h : traceOps cur s t o = .ok ops) :
    ∃ ms x y i j, ops = ms ++ [.d01 (some x) (some y) i j] ∧ (∀ m ∈ ms, ∃ x y, m = .d02 x y) ∧
      (o ≠ none → ∃ ti tj, i = some ti ∧ j = some tj) := by
  unfold traceOps at h
  split at h
  · simp at h
  · rename_i ms hms
    split at h
    · simp at h
    · rename_i d hd
      injection h with h
      obtain ⟨x, y, i, j, rfl, h1, -⟩ := drawOp_form hd
      refine ⟨ms, x, y, i, j, h.symm, fun m hm => ?_, h1⟩
      split_ifs at hms
      · cases hv : moveOp s with
        | error e => rw [hv] at hms; simp [Except.map] at hms
        | ok v =>
          rw [hv] at hms
          injection hms with hms
          subst hms
          rw [List.mem_singleton] at hm
          subst hm
          obtain ⟨x, y, rfl⟩ := moveOp_form hv
          exact ⟨_, _, rfl⟩
      · injection hms with hms
        subst hms
        simp at hm

theorem Made.newPad {b : Builder} {w : Wish} (h : Made b w) {d : ApDef} (hd : PadOf b.macros w d) : Made (b.newPad d).1 w := by
  refine ⟨fun p hp => ?_, h.draws⟩
  rcases List.mem_append.1 hp with hp | hp
  · exact h.pads p hp
  · rw [List.mem_singleton] at hp; subst hp; exact hd

theorem Made.givePad {b : Builder} {w : Wish} (h : Made b w) {d : ApDef} {shape : Board.Shape} (hd : HasShape b.macros d shape) :
    Made (b.givePad d) { w with pads := w.pads ++ [shape] } := by
  refine ⟨fun p hp => ?_, h.draws⟩
  rcases List.mem_append.1 hp with hp | hp
  · exact (h.pads p hp).mono (fun _ h => h) (fun s hs => List.mem_append_left _ hs) (fun _ h => h)
  · rw [List.mem_singleton] at hp; subst hp
    exact .inl ⟨shape, by simp, hd⟩

theorem getTrace_keeps (b : Builder) (width : ℚ) : (b.getTraceAperture width).1.macros = b.macros ∧
    (b.getTraceAperture width).1.draws = b.draws ∧
    ∀ p ∈ (b.getTraceAperture width).1.pads, p ∈ b.pads ∨ p.node = .circle width none := by
  unfold getTraceAperture
  split
  · exact ⟨rfl, rfl, fun p hp => .inl hp⟩
  · refine ⟨rfl, rfl, fun p hp => ?_⟩
    rcases List.mem_append.1 hp with hp | hp
    · exact .inl hp
    · rw [List.mem_singleton] at hp; subst hp; exact .inr rfl

theorem addFlash_made {b : Builder} {w : Wish} (hr : Rel b w) (h : Made b w) (p : Polarity) (pad : Nat) (r : Ref) (rot : ℚ)
    (mx my : Bool) (k : ℚ) (ok : (b.addFlash p pad r rot mx my k).2 = none) :
    Made (b.addFlash p pad r rot mx my k).1 (w.flash p pad r rot mx my k) := by
  unfold Builder.addFlash at ok ⊢
  cases hq : b.given[pad]?.bind (b.pads[·]?) with
  | none => rw [hq] at ok; simp at ok
  | some q =>
    rw [hq] at ok
    dsimp only at ok ⊢
    rw [show b.createStateUpdates (some q.id) (some p) (some rot) (some mx) (some my) (some k) none =
      updates b ⟨q.id, p, rot, mx, my, k, none⟩ from rfl] at ok ⊢
    have hu := updates_quiet b ⟨q.id, p, rot, mx, my, k, none⟩
    have hf := updates_fst b ⟨q.id, p, rot, mx, my, k, none⟩
    generalize updates b ⟨q.id, p, rot, mx, my, k, none⟩ = u at *
    cases hl : u.1.padLocation r with
    | error e => rw [hl] at ok; simp at ok
    | ok l =>
      rw [hl] at ok
      dsimp only at ok ⊢
      cases hop : flashOp l with
      | error e => rw [hop] at ok; simp at ok
      | ok op =>
        dsimp only
        obtain ⟨x, y, rfl⟩ := flashOp_form hop
        obtain ⟨j, hj, -⟩ := Option.bind_eq_some_iff.mp hq
        obtain ⟨hpl, -⟩ := List.getElem?_eq_some_iff.mp hj
        have hpl' : pad < w.pads.length := hr.pads.length_eq ▸ hpl
        have hws : w.pads[pad]? = some (w.pads[pad]) := List.getElem?_eq_some_iff.mpr ⟨hpl', rfl⟩
        simp only [Wish.flash, hws]
        rw [hf]
        refine ⟨fun p hp => (h.pads p hp).mono (fun _ h => h) (fun _ h => h) fun o ho => List.mem_append_left _ ho, ?_⟩
        exact List.rel_append h.draws (.cons (.pad rfl hu) .nil)

theorem addTrace_made {b : Builder} {w : Wish} (h : Made b w) (m : Plot) (width : ℚ) (s t : Ref) (c : Option Loc)
    (hc : m = .linear ↔ c = none) (ok : (b.addTrace m width s t c).2 = none) :
    Made (b.addTrace m width s t c).1 (w.trace (VState.drawTable m .multi) width s t c) := by
  unfold Builder.addTrace at ok ⊢
  obtain ⟨k1, k2, k3⟩ := getTrace_keeps b width
  generalize hga : b.getTraceAperture width = a at *
  dsimp only at ok ⊢
  cases hs : a.1.beginLocation s with
  | error e => rw [hs] at ok; simp at ok
  | ok s' =>
    rw [hs] at ok
    dsimp only at ok ⊢
    cases ht : a.1.endLocation t with
    | error e => rw [ht] at ok; simp at ok
    | ok t' =>
      rw [ht] at ok
      dsimp only at ok ⊢
      rw [show a.1.createStateUpdates (some a.2.id) (some .dark) (some 0) (some false) (some false) (some 1) (some m) =
        updates a.1 (plain a.2.id (some m)) from rfl] at ok ⊢
      have hu := updates_quiet a.1 (plain a.2.id (some m))
      have hf := updates_fst a.1 (plain a.2.id (some m))
      generalize updates a.1 (plain a.2.id (some m)) = u at *
      cases hop : traceOps u.1.currentLocation s' t' (c.map fun c => (c.1 - s'.1, c.2 - s'.2)) with
      | error e => rw [hop] at ok; simp at ok
      | ok ops =>
        dsimp only
        obtain ⟨ms, x, y, i, j, rfl, g1, g2⟩ := traceOps_form hop
        rw [hf]
        refine ⟨fun p hp => ?_, ?_⟩
        · show PadOf a.1.macros _ _
          rw [k1]
          rcases k3 p hp with hp | hp
          · exact (h.pads p hp).mono (fun _ h => h) (fun _ h => h) fun o ho => List.mem_append_left _ ho
          · refine .inr ⟨width, hp, .inr ⟨_, _, _, _, List.mem_append_right _ (List.mem_singleton.2 rfl)⟩⟩
        · show List.Forall₂ Form (a.1.draws ++ [_]) _
          rw [k2]
          refine List.rel_append h.draws (.cons (.trace (ms := ms) (x := x) (y := y) (i := i) (j := j) ?_ hu g1 ?_ ?_) .nil)
          · show u.2 ++ (ms ++ _) = _
            rw [List.append_assoc]
          · intro hk
            refine hc.1 ?_
            cases m <;> simp [VState.drawTable] at hk ⊢
          · intro hn
            exact g2 (by cases c <;> simp at hn ⊢)

theorem createRegion_made {b : Builder} {w : Wish} (h : Made b w) (k : Nat) (ok : (b.createRegion k).2 = none) :
    Made (b.createRegion k).1 (w.step (.regionCreate k)) := by
  unfold Builder.createRegion at ok ⊢
  cases hr : b.regions[k]? with
  | none => rw [hr] at ok; simp at ok
  | some r =>
    rw [hr] at ok
    dsimp only at ok ⊢
    by_cases hl : r.outline.length < 3
    · rw [if_pos hl] at ok; simp at ok
    rw [if_neg hl] at ok ⊢
    obtain ⟨k1, k2, k3⟩ := getTrace_keeps b 1
    generalize hga : b.getTraceAperture 1 = a at *
    rw [show a.1.createStateUpdates (some a.2.id) (some .dark) (some 0) (some false) (some false) (some 1) none =
      updates a.1 (plain a.2.id none) from rfl] at ok ⊢
    have hu := updates_quiet a.1 (plain a.2.id none)
    have hf := updates_fst a.1 (plain a.2.id none)
    generalize updates a.1 (plain a.2.id none) = u at *
    cases hm : moveOp r.begin with
    | error e => rw [hm] at ok; simp at ok
    | ok mv =>
      rw [hm] at ok
      dsimp only at ok ⊢
      obtain ⟨x, y, rfl⟩ := moveOp_form hm
      cases hop : regionOps r with
      | error e => rw [hop] at ok; simp at ok
      | ok ops =>
        dsimp only
        unfold regionOps at hop
        rw [hm] at hop
        dsimp only at hop
        cases hol : outlineOps none (RegionCreator.closed r) with
        | error e => rw [hol] at hop; simp at hop
        | ok os =>
          rw [hol] at hop
          injection hop with hop
          subst hop
          rw [hf]
          refine ⟨fun p hp => ?_, ?_⟩
          · show PadOf a.1.macros _ _
            rw [k1]
            rcases k3 p hp with hp | hp
            · exact (h.pads p hp).mono (fun _ h => h) (fun _ h => h) fun o ho => List.mem_append_left _ ho
            · exact .inr ⟨1, hp, .inl rfl⟩
          · show List.Forall₂ Form (a.1.draws ++ [_]) _
            rw [k2]
            refine List.rel_append h.draws (.cons (.region (us := u.2) (ops := os) (x := some x) (y := some y)
              (x' := some x) (y' := some y) ?_ hu hol (closed_ne (by omega))) .nil)
            show u.2 ++ _ = _
            rw [List.append_assoc]

theorem exec_made {b : Builder} {w : Wish} (hr : Rel b w) (h : Made b w) (c : Call) (ok : (exec b c).2 = none) :
    Made (exec b c).1 (w.step c) := by
  have std : ∀ d, (∀ n ps, d ≠ ApDef.macro n ps) → Made (b.givePad d) { w with pads := w.pads ++ [.standard d] } :=
    fun d hd => h.givePad (.inl ⟨hd, rfl⟩)
  have upd : ∀ pad f, (∀ p : Pad, (f p).node = p.node) → Made (b.updatePad pad f).1 w := by
    intro pad f hf
    unfold Builder.updatePad
    split
    · exact h
    · rename_i k hk
      refine ⟨fun p hp => ?_, h.draws⟩
      obtain ⟨i, hi⟩ := List.mem_iff_getElem?.mp hp
      dsimp only at hi ⊢
      rw [List.getElem?_modify] at hi
      cases hb : b.pads[i]? with
      | none => rw [hb] at hi; simp at hi
      | some q =>
        rw [hb] at hi
        have hq := h.pads q (List.mem_of_getElem? hb)
        simp only [Option.map_eq_map, Option.map_some, Option.some.injEq] at hi
        split_ifs at hi
        · rw [← hi, hf]; exact hq
        · rw [← hi]; exact hq
  have seg : ∀ k f p, Made (b.addSegment k f).1 (w.part k p) := by
    intro k f p
    unfold Builder.addSegment
    split
    · exact ⟨h.pads, h.draws⟩
    · exact ⟨h.pads, h.draws⟩
  cases c with
  | circle d hole => exact std _ (fun n ps => by simp)
  | rectangle a c hole => exact std _ (fun n ps => by simp)
  | roundedRectangle a c hole => exact std _ (fun n ps => by simp)
  | regularPolygon d n r hole => exact std _ (fun n ps => by simp)
  | custom => exact ⟨h.pads, h.draws⟩
  | customShape k s =>
    simp only [exec, Wish.step] at ok ⊢
    cases hp : s.prim with
    | error e => rw [hp] at ok; simp at ok
    | ok p =>
      dsimp only
      unfold Builder.addPrimitive
      split
      · exact ⟨h.pads, h.draws⟩
      · split
        · exact ⟨h.pads, h.draws⟩
        · exact ⟨h.pads, h.draws⟩
  | customCreate k =>
    simp only [exec, Wish.step] at ok ⊢
    unfold Builder.createCustom at ok ⊢
    cases hk : b.customs[k]? with
    | none => rw [hk] at ok; simp at ok
    | some c =>
      rw [hk] at ok
      dsimp only at ok ⊢
      by_cases hf : c.finalized
      · rw [if_pos hf] at ok; simp at ok
      rw [if_neg hf]
      have hcw : w.customs[k]? = some c.primitives := by rw [← hr.customs, List.getElem?_map, hk]; rfl
      rw [hcw]
      have h1 : Made { b with macroIds := b.macroIds + 1, macros := b.macros ++ [('M' :: Text.natStr b.macroIds, c.primitives)] } w :=
        ⟨fun p hp => (h.pads p hp).mono (fun m hm => List.mem_append_left _ hm) (fun _ h => h) (fun _ h => h), h.draws⟩
      have h2 := h1.givePad (d := .macro ('M' :: Text.natStr b.macroIds) []) (shape := .custom c.primitives)
        (.inr ⟨_, _, rfl, List.mem_append_right _ (List.mem_singleton.mpr rfl), rfl⟩)
      exact ⟨h2.pads, h2.draws⟩
  | setFunction p v => exact upd _ _ fun _ => rfl
  | setTolerance p v => exact upd _ _ fun _ => rfl
  | setCustom p n v => exact upd _ _ fun _ => rfl
  | addPad p a r mx my k => exact addFlash_made hr h _ _ _ _ _ _ _ ok
  | addCutoutPad p a r mx my k => exact addFlash_made hr h _ _ _ _ _ _ _ ok
  | lineTrace d s e => exact addTrace_made h .linear d s e none (by simp) ok
  | cwTrace d s e c => exact addTrace_made h .arc d s e (some c) (by simp) ok
  | ccwTrace d s e c => exact addTrace_made h .ccwArc d s e (some c) (by simp) ok
  | newRegion l => exact ⟨h.pads, h.draws⟩
  | regionLine k t => exact seg _ _ _
  | regionCw k t c => exact seg _ _ _
  | regionCcw k t c => exact seg _ _ _
  | regionCreate k => exact createRegion_made h k ok

theorem execAll_made (cs : List Call) : ∀ {b w}, Rel b w → Made b w → (∀ e ∈ (execAll b cs).2, e = none) →
    Made (execAll b cs).1 (cs.foldl Wish.step w) := by
  induction cs with
  | nil => intro b w _ h _; exact h
  | cons c cs ih =>
    intro b w hr h hh
    simp only [execAll] at hh ⊢
    have hc := hh _ List.mem_cons_self
    exact ih ((exec_good hr c).1 hc) (exec_made hr h c hc) fun e he => hh e (List.mem_cons_of_mem _ he)

end Verif.GerberBuilder
