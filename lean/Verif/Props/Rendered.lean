import Verif.Lemmas.Bulk
import Verif.Spec.Solid
import Verif.Props.Correct
import Verif.Props.Enclosed
import Verif.Props.Vector

/-!
# C89: correct files are rendered by the backends
-/

namespace Verif.Props.Rendered
open Verif.Visitor Verif.Coord Verif.Geom Verif.Rvmc Verif.Vm Verif.Compiler Verif.Spec Verif.Props.State Verif.Macro
  Verif.Props.Compiler Verif.Props.FlashImage Verif.Props.Picture Verif.Lemmas.Picture Verif.Lemmas.Compiles Verif.Lemmas.Collinear
  Verif.Props.Correct Verif.Render Verif.ImageSpace Verif.Raster Verif.Sim
noncomputable section

/-- A paste, or a shape that does not lie on a line. -/
def Bulky (d : Compiler.Cmd) : Prop := ∀ s, d = .shape s → ¬ OnLine (areaOf s)

theorem base_bulky {c : CState} (hs : Synced c) (hb : Bulk (fun m => ∃ e k, Similar m e k) c) : ∀ (k : LayerId) b,
    c.buffers.get? k = some b → ∃ b0, c.buffers.get? k.base = some b0 ∧ ((∃ d ∈ b0, Bulky d) → ∃ d ∈ b, Bulky d) := by
  intro k
  induction k with
  | xform y m ih =>
    intro b hk
    obtain ⟨e, f, hm⟩ := hb.copied y m b hk
    obtain ⟨-, cmds, h1, rfl⟩ := hs.copy y m b hk
    obtain ⟨b0, h2, h3⟩ := ih cmds h1
    refine ⟨b0, h2, fun h => ?_⟩
    obtain ⟨d, hd, hB⟩ := h3 h
    refine ⟨retarget m d, List.mem_map.2 ⟨d, hd, rfl⟩, fun s hs => ?_⟩
    cases d with
    | shape s' => cases hs; exact bulky_transform hm (hB s' rfl)
    | paste => cases hs
  | _ => intro b hb; exact ⟨b, hb, id⟩

/-- What has an area is not drawn by shapes that lie on lines. -/
theorem shows_bulky {c : CState} {b : List Compiler.Cmd} {os : List (Painted (Vec ℝ))} (h : ShowsAll within (layersOf c) b os)
    (ha : HasArea os) : ∃ d ∈ b, Bulky d := by
  by_contra hn
  push Not at hn
  have flat : ∀ d ∈ b, ∃ s, d = .shape s ∧ OnLine (areaOf s) := by
    intro d hd
    have := hn d hd
    unfold Bulky at this
    push Not at this
    exact this
  have pts : ∀ o ∈ os, OnLine o.points := by
    clear ha hn
    induction b generalizing os with
    | nil => cases h; nofun
    | cons d b ih =>
      obtain ⟨s, rfl, hs⟩ := flat d (List.mem_cons_self ..)
      cases h with
      | shape _ points _ os ins more =>
        cases ins
        intro o ho
        rcases List.mem_cons.1 ho with rfl | ho
        · exact hs
        · exact ih more (fun d hd => flat d (List.mem_cons_of_mem _ hd)) o ho
  obtain ⟨v, r, hr, hall⟩ := ha
  obtain ⟨p, p1, p2, p3⟩ := disc_not_covered (os.map Painted.points) (by
    intro S hS
    obtain ⟨o, ho, rfl⟩ := List.mem_map.1 hS
    exact pts o ho) v hr
  obtain ⟨x, o, y, rfl, h1, -⟩ := hall p p1 p2
  exact p3 o.points (List.mem_map.2 ⟨o, by simp, rfl⟩) h1

theorem seen_bulky {c : CState} {k : LayerId} {objects : List (Painted (Vec ℝ))} {b : List Compiler.Cmd} (hs : Seen c k objects)
    (hb : c.buffers.get? k = some b) (ha : HasArea objects) : ∃ d ∈ b, Bulky d := by
  obtain ⟨os, h1, h2⟩ := hs
  obtain ⟨b', hb', h3⟩ := shows_inv h1
  rw [hb] at hb'
  cases hb'
  obtain ⟨v, r, hr, hall⟩ := ha
  exact shows_bulky h3 ⟨v, r, hr, fun p p1 p2 => (h2.covered p).2 (hall p p1 p2)⟩

/-- Every layer has a command that does not lie on a line. -/
theorem _root_.Verif.Props.Correct.Whole.bulky {env : Env} {h : List Atom} {s : Sheet} {c : CState} (W : Whole env h s c)
    (hp : Pictured h s) (ha : Avoids h)
    {picture : List (Painted (Vec ℝ))} (hl : s.drawn.getLast? = some picture) (hfull : HasArea picture)
    (hflash : ∀ p x y q id d objects, h = p ++ .leaf (.d03 x y) :: q → selected p = some id →
      s.tools id = some (.single d objects) → HasArea objects)
    {order : List LayerId} (hf : Fit (Given h) (FlashedIn h) c order) : ∀ k ∈ order, ∃ d ∈ bufferOf c k, Bulky d := by
  have hB := bulk h c W.ran W.done W.nested ha
  intro k hk
  obtain ⟨⟨b, hb⟩, hkind⟩ := hf.kinds k hk
  have e : bufferOf c k = b := by simp [bufferOf, hb]
  rw [e]
  obtain ⟨b0, hb0, hbase⟩ := base_bulky W.tidy.synced hB k b hb
  rcases hkind with rfl | h0 | ⟨-, i, hi, ⟨d, hd⟩, p, x, y, q, e1, e2⟩
  · obtain ⟨front, e1, -⟩ := W.tidy.stack
    have hd := W.agrees.drawn
    rw [e1] at hd
    exact seen_bulky (forall₂_last hd hl) hb hfull
  · obtain ⟨n, t, hn⟩ := (base_level k).2 h0
    rw [hn] at hb0
    obtain ⟨s, h1, h2⟩ := hB.full n t b0 hb0
    exact hbase ⟨_, h1, fun s' e => by cases e; exact h2⟩
  · rw [hi] at hb0
    obtain ⟨d', objects, ht⟩ := tool_single hp ha.once W.nested i d hd
    exact hbase (seen_bulky (W.agrees.single i d' objects ht).1 hb0 (hflash p x y q i d' objects e1 e2 ht))

/-! ### Pillow -/

theorem wide_roomy : Roomy Wide where
  left a b h := ⟨lt_of_le_of_lt (min_le_left _ _) (lt_of_lt_of_le h.1 (le_max_left _ _)),
    lt_of_le_of_lt (min_le_left _ _) (lt_of_lt_of_le h.2 (le_max_left _ _))⟩
  right a b h := ⟨lt_of_le_of_lt (min_le_right _ _) (lt_of_lt_of_le h.1 (le_max_right _ _)),
    lt_of_le_of_lt (min_le_right _ _) (lt_of_lt_of_le h.2 (le_max_right _ _))⟩
  moved a v w h := by
    obtain ⟨h1, h2⟩ := h
    exact ⟨by simp only [Box.translate, Box.translateBack]; linarith, by simp only [Box.translate, Box.translateBack]; linarith⟩

theorem pillow_able (Ra : Raster) {dpmm : ℤ} (hd : 0 < dpmm) (fuel : ℕ) :
    Able (pillow Ra dpmm fuel) Wide (fun s => ∃ pts, pillowVertices dpmm fuel s = .ok pts) where
  create o b h := by
    have px : ∀ x : ℝ, 0 < x → ¬ toPixel dpmm x < 0 := by
      intro x hx
      have h0 : (0 : ℝ) ≤ x * dpmm := mul_nonneg hx.le (by exact_mod_cast hd.le)
      rw [toPixel, truncate, if_pos h0, not_lt]
      exact Int.floor_nonneg.2 h0
    have h1 : b.width > 0 := abs_pos.2 (sub_ne_zero.2 h.1.ne')
    have h2 : b.height > 0 := abs_pos.2 (sub_ne_zero.2 h.2.ne')
    show ∃ k, pillowCreate dpmm b = .ok k
    rw [pillowCreate, if_pos (And.intro h1 h2), if_neg (not_or.2 ⟨px _ h1, px _ h2⟩)]
    exact ⟨_, rfl⟩
  shape e s h := by
    obtain ⟨pts, h⟩ := h
    exact ⟨_, by simp only [pillow, pillowShape, h]; rfl⟩
  paste _ _ _ _ := ⟨_, rfl⟩

/-- Finitely many loops that end, end with the same fuel. -/
theorem same_fuel {α : Type} (Q : ℕ → α → Prop) : ∀ (l : List α), (∀ a ∈ l, ∃ n, ∀ more, n ≤ more → Q more a) →
    ∃ n, ∀ more, n ≤ more → ∀ a ∈ l, Q more a := by
  intro l
  induction l with
  | nil => intro _; exact ⟨0, fun _ _ _ h => nomatch h⟩
  | cons a l ih =>
    intro h
    obtain ⟨n, hn⟩ := h a (List.mem_cons_self ..)
    obtain ⟨m, hm⟩ := ih fun b hb => h b (List.mem_cons_of_mem _ hb)
    refine ⟨max n m, fun more hmore b hb => ?_⟩
    rcases List.mem_cons.1 hb with rfl | hb
    · exact hn more (le_trans (le_max_left _ _) hmore)
    · exact hm more (le_trans (le_max_right _ _) hmore) b hb

/-- The shapes of the layers that are made. -/
def shapesOf (env : Env) (c : CState) : List Shape :=
  (layerOrder env c).flatMap fun k => (bufferOf c k).filterMap fun d => match d with | .shape s => some s | .paste .. => none

theorem mem_shapesOf {env : Env} {c : CState} {k : LayerId} {s : Shape} (hk : k ∈ layerOrder env c) (hs : .shape s ∈ bufferOf c k) :
    s ∈ shapesOf env c := by
  simp only [shapesOf, List.mem_flatMap, List.mem_filterMap]
  exact ⟨k, hk, _, hs, rfl⟩

theorem shapesOf_mem {env : Env} {c : CState} {s : Shape} (h : s ∈ shapesOf env c) : ∃ k b, c.buffers.get? k = some b ∧ .shape s ∈ b := by
  simp only [shapesOf, List.mem_flatMap, List.mem_filterMap] at h
  obtain ⟨k, -, d, hd, e⟩ := h
  cases d with
  | paste => cases e
  | shape s' =>
    cases e
    unfold bufferOf at hd
    cases hb : c.buffers.get? k with
    | none => rw [hb] at hd; cases hd
    | some b => rw [hb] at hd; exact ⟨k, b, hb, hd⟩

/-- **C89** (pixels; partial: likewise, and for outlines that go round once, see C82).  A file whose coordinates can be read, that
selects no aperture before its definition and repeats blocks at least once, whose picture and flashed apertures have an area, is
rendered to an image by the Pillow backend, at every resolution; its pixels away from outlines show its picture.  The loops of
the rendering end: `fuel` bounds the number of their steps. -/
theorem c89_raster_partial (env : Env) (hiter : ∀ l, (env.iter l).Perm l) (hdepth : 3 ≤ env.depth) (file : List Visitor.Cmd)
    (s : Sheet) (picture : List (Painted (Vec ℝ))) (hs : Pictured (executed true file) s) (hp : s.drawn.getLast? = some picture)
    (ha : Avoids (executed true file)) (ho : PlainOutlines (executed true file)) (he : Executable (executed true file))
    (hfull : HasArea picture)
    (hflash : ∀ p x y q id d objects, executed true file = p ++ .leaf (.d03 x y) :: q → selected p = some id →
      s.tools id = some (.single d objects) → HasArea objects)
    (Ra : Raster) (fail : Bool) (style : Console.Style) (dpmm : ℤ) (hd : 0 < dpmm) :
    ∃ fuel, ∀ more, fuel ≤ more → ∃ space image, renderWithPillow env false Ra more fail style dpmm file = .ok (space, image) ∧
      ∀ ρ : ℝ, 0 ≤ ρ → FillsEvenOdd ρ Ra.fill →
        ∃ c layers, compiled env (executed true file) = .ok c ∧ (∀ l ∈ layers, c.buffers.get? l.id = some l.cmds) ∧
          ∀ column row, (column, row) ∈ image.frame → ∀ P,
            P = pixelPlace (lowerLeft ⟨space.minX, space.minY, space.maxX, space.maxY⟩) dpmm
              (towardZero (|space.maxY - space.minY| * dpmm)) column row →
            AwayFromOutlines layers dpmm ρ .main P →
            (Covered picture P → image.pixel (column, row) = style.foreground) ∧
            (¬ Covered picture P → image.pixel (column, row) = style.background) := by
  have hn : Nested (executed true file) := c17_files_nested true file _ [] (List.append_nil _).symm
  obtain ⟨c, W⟩ := whole hdepth hs hn ha he (executed_runs _ file)
  have hc : compile env false file = .ok ((layerOrder env c).flatMap fun id => layerCommands id (bufferOf c id)) := by
    rw [compile, file_is_run]; exact W.program hiter hdepth
  have hf := W.fit ha hiter
  have hne := W.bulky hs ha hp hfull hflash hf
  have hk := SoundLayers.kept hs c W.ran W.done hn ha ho
  have sound : ∀ k ∈ layerOrder env c, ∀ g, .shape g ∈ bufferOf c k → Sound g := by
    intro k hk' g hg
    obtain ⟨k', b, hb, hg'⟩ := shapesOf_mem (mem_shapesOf hk' hg)
    exact hk k' b hb g hg'
  obtain ⟨fuel, hfuel⟩ := same_fuel (fun n g => ∃ pts, pillowVertices dpmm n g = .ok pts) (shapesOf env c) (by
    intro g hg
    obtain ⟨k', b, hb, hg'⟩ := shapesOf_mem hg
    obtain ⟨fuel, _, -, h⟩ := Arcs.c54_pillow_outline_partial g (hk k' b hb g hg').1 dpmm
    exact ⟨fuel, fun more hm => (h more hm).imp fun _ h => h.1⟩)
  refine ⟨fuel, fun more hmore => ?_⟩
  obtain ⟨e, hr⟩ := runs wide_roomy (pillow_able Ra hd more) fail hf (by
    intro k hk'
    refine ⟨fun g hg => hfuel more hmore g (mem_shapesOf hk' hg), ?_⟩
    obtain ⟨d, hd, hB⟩ := hne k hk'
    refine ⟨d, hd, fun g hg => ?_⟩
    subst hg
    exact wide_of_bulky (sound k hk' g hd).1 (hB g rfl))
  have hst : ∃ st, finalState file = .ok st := by
    unfold finalState
    rw [file_is_run]
    simp only [Bool.not_false, W.ran]
    exact ⟨_, rfl⟩
  obtain ⟨st, hst⟩ := hst
  have hren : ∃ space image, renderWithPillow env false Ra more fail style dpmm file = .ok (space, image) := by
    simp only [renderWithPillow, hc, hr, hst, getImage]
    exact ⟨_, _, rfl⟩
  obtain ⟨space, image, hren⟩ := hren
  exact ⟨space, image, hren, fun ρ hρ hfill =>
    Enclosed.c82_plain_partial env false Ra more fail style dpmm hd file space image hren ρ hρ hfill s picture hs hp ha ho⟩

theorem pad_executable : Executable Enclosed.padAtoms := by
  refine ⟨?_, ?_, ?_⟩
  · intro p a q axis t e h
    have := throughout (P := fun _ a => ∀ axis, gives axis a = none ∧ givesOffset axis a = none) (rest := Enclosed.padAtoms) (done := [])
      (by
        refine ⟨?_, ?_, ?_, ?_, ?_, trivial⟩
        all_goals
          intro axis
          cases axis <;> exact ⟨rfl, rfl⟩) p a q e axis
    rcases h with h | h <;> simp [this] at h
  · intro p id q e
    exact throughout (P := fun p a => ∀ id, a = .leaf (.dnn id) → ∃ a ∈ p, stores id a ≠ none) (rest := Enclosed.padAtoms)
      (done := []) (by simp [Throughout, Enclosed.padAtoms, stores]) p _ q e id rfl
  · intro p r q e
    exact throughout (P := fun p a => ∀ r, a = .srClose r → r.xRepeats ≠ 0 ∧ r.yRepeats ≠ 0) (rest := Enclosed.padAtoms)
      (done := []) (by simp [Throughout, Enclosed.padAtoms]) p _ q e r rfl

/-- The picture of a pad and the pad itself have an area. -/
theorem pad_area : ∃ s picture, Pictured Enclosed.padAtoms s ∧ s.drawn.getLast? = some picture ∧ HasArea picture ∧
    ∀ id d objects, s.tools id = some (.single d objects) → HasArea objects := by
  have a5 := at_run (h := Enclosed.padAtoms) (by decide +kernel)
  have e1 : (run {} Enclosed.padAtoms).st.currentX = 0 := by decide +kernel
  have e2 : (run {} Enclosed.padAtoms).st.currentY = 0 := by decide +kernel
  rw [e1, e2, Rat.cast_zero] at a5
  have h1 := Pictured.other (l := .mo .metric) .start rfl
  have h2 := Pictured.other (l := .fs {}) h1 rfl
  have h3 := Pictured.aperture (id := ['D','1','0']) (d := .rect 4 2 none) h2 rfl (.standard nofun (.rect (by norm_num) (by norm_num)))
  have h4 := Pictured.other (l := .dnn ['D','1','0']) h3 rfl
  have h5 := Pictured.flash (x := none) (y := none) h4 rfl rfl rfl a5
  refine ⟨_, _, h5, rfl, ⟨⟨0, 0⟩, 1 / 2, by norm_num, fun p hx hy => ?_⟩, ?_⟩
  · refine ⟨[], _, [], rfl, ⟨p, ⟨[], _, [], rfl, ?_, nofun, rfl⟩, ?_⟩, nofun, rfl⟩
    · show Rectangle _ _ _
      rw [abs_le] at hx hy
      norm_num [Rectangle, point] at hx hy ⊢
      refine ⟨?_, ?_, ?_, ?_⟩ <;> linarith
    · ext <;> simp [placedIn, placed, rotCcw, latest, List.findSome?, setsMirroring, setsRotation, setsScaling]
  · intro id d objects h
    change (if id = ['D','1','0'] then _ else _) = _ at h
    split at h
    · cases h
      refine ⟨⟨0, 0⟩, 1 / 2, by norm_num, fun p hx hy => ⟨[], _, [], rfl, ?_, nofun, rfl⟩⟩
      show Rectangle _ _ _
      rw [abs_le] at hx hy
      norm_num [Rectangle, point] at hx hy ⊢
      refine ⟨?_, ?_, ?_, ?_⟩ <;> linarith
    · cases h

/-- A pad is rendered. -/
example (style : Console.Style) : ∃ fuel, ∀ more, fuel ≤ more → ∃ space image,
    renderWithPillow env0 false Pixels.exactRaster more false style 20 (.leaf (.mo .metric) :: Image.padFile) = .ok (space, image) := by
  obtain ⟨s, picture, h1, h2, h3, h4⟩ := pad_area
  obtain ⟨fuel, h⟩ := c89_raster_partial env0 (fun _ => .refl _) (by decide) (.leaf (.mo .metric) :: Image.padFile) s picture h1 h2
    Enclosed.pad_avoids Enclosed.pad_outlines pad_executable h3 (fun _ _ _ _ id d objects _ _ => h4 id d objects) Pixels.exactRaster
    false style 20 (by norm_num)
  exact ⟨fuel, fun more hm => (h more hm).imp fun space => Exists.imp fun image h => h.1⟩

end
end Verif.Props.Rendered
