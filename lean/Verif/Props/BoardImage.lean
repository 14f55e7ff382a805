import Verif.Lemmas.BoardImage
import Verif.Props.Dump
import Verif.Props.Enclosed

/-!
# C83: a board made with the builder, printed, parsed and rendered, shows the objects asked for
-/

namespace Verif.Props.BoardImage
open Verif.Visitor Verif.Geom Verif.Compiler Verif.Console Verif.Raster Verif.ImageSpace Verif.Spec Verif.Spec.Board Verif.GerberBuilder
  Verif.View Verif.Grammar Verif.Dump Verif.BoardPicture Verif.Render Verif.Props.Picture Verif.Props.FlashImage Verif.Props.Image Verif.Props.State

/-! ### The text -/

theorem render_nodes (env : Env) (ignore : Bool) (Ra : Raster) (fuel : ℕ) (fail : Bool) (style : Console.Style) (dpmm : ℤ)
    (file : List Syntax.Node) :
    renderWithPillow env ignore Ra fuel fail style dpmm (commands (Rewrite.nodes signed file)) =
      renderWithPillow env ignore Ra fuel fail style dpmm (commands file) := by
  have h1 : ∀ cs, compile env ignore (Rewrite.cmds signed cs) = compile env ignore cs := Rewrite.compile_map keeps_signed env ignore
  rw [Rewrite.commands_nodes]
  unfold renderWithPillow finalState
  rw [h1, Rewrite.processFile_map]
  cases (compile env ignore (commands file)) with
  | error => rfl
  | ok prog =>
    dsimp only
    cases Vm.run (pillow Ra dpmm fuel) fail .main prog with
    | error => rfl
    | ok result =>
      dsimp only [Rewrite.out]
      cases (processFile false (commands file)).exn <;> rfl

theorem compiled_nodes (env : Env) (ignore : Bool) (file : List Syntax.Node) :
    compiled env (executed (!ignore) (commands (Rewrite.nodes signed file))) = compiled env (executed (!ignore) (commands file)) := by
  unfold compiled
  rw [← file_is_run, ← file_is_run, Rewrite.commands_nodes, Rewrite.processFile_map]
  exact Rewrite.feed_map keeps_signed env _ _

/-- **C83** (partial: the calls are written as C66 needs it and make no thermals; traces of the same kind are not separated by a
region that ends in another kind (C34); shapes have a size and are drawn as prescribed, pads are not scaled by zero, and regions go round once).  A board made with the builder, printed, parsed, compiled and rendered, shows the
objects asked for. Let `picture` be what the calls ask for, an object for each, in their order.  Let the library fill polygons by
the even-odd rule, for pixels more than `ρ` pixels away from their sides.  Then a pixel whose place is more than `n + 2 + ρ` pixels
away from every outline that is pasted through `n` layers has the foreground colour if the picture covers this place, and the
background colour otherwise. -/
theorem c83_board_partial (rd : Peg.Text → Option Peg.Text) (cs : List Call) (hok : ∀ e ∈ (execAll {} cs).2, e = none)
    (hw : ∀ c ∈ cs, Writable c) (ht : ∀ c ∈ cs, ¬ IsThermal c) (hst : Steady (wishOf cs).objects)
    (hs : ∀ s ∈ (wishOf cs).pads, FineShape s) (ho : ∀ o ∈ (wishOf cs).objects, PlainObject o)
    (picture : List (Painted (Vec ℝ))) (hp : List.Forall₂ Asked (wishOf cs).objects picture) :
    ∃ f, parseCode rd (dumps (execAll {} cs).1) = .file f ∧
      ∀ env ignore Ra fuel fail style (dpmm : ℤ) space image, 0 < dpmm →
        renderWithPillow env ignore Ra fuel fail style dpmm (commands f) = .ok (space, image) →
        ∀ ρ : ℝ, 0 ≤ ρ → FillsEvenOdd ρ Ra.fill →
        ∃ c layers, compiled env (executed (!ignore) (commands f)) = .ok c ∧ (∀ l ∈ layers, c.buffers.get? l.id = some l.cmds) ∧
          ∀ column row, (column, row) ∈ image.frame → ∀ P,
            P = pixelPlace (lowerLeft ⟨space.minX, space.minY, space.maxX, space.maxY⟩) dpmm
              (towardZero (|space.maxY - space.minY| * dpmm)) column row →
            AwayFromOutlines layers dpmm ρ .main P →
            (Covered picture P → image.pixel (column, row) = style.foreground) ∧
            (¬ Covered picture P → image.pixel (column, row) = style.background) := by
  have hi := execAll_ids cs Ids.init
  have hr := execAll_rel cs Rel.init fun e he => by rw [hok e he]; trivial
  rw [Props.Board.succeeded_all cs hok] at hr
  have hm := execAll_made cs Rel.init (w := {}) ⟨nofun, .nil⟩ hok
  have hh := Props.Dump.holds_plain hw ht
  have hu := (Props.Board.c37_codes cs).1
  obtain ⟨s, I⟩ := board_pictured hr hi hm hs ho hst hp
  have ha := board_avoids hi hu hh hm hs ho I.conds
  refine ⟨_, parse_dumps rd hi hh, fun env ignore Ra fuel fail style dpmm space image hd h ρ hρ hf => ?_⟩
  rw [render_nodes, commands_file hi hh] at h
  rw [compiled_nodes, commands_file hi hh]
  have e := board_executed hi (!ignore)
  obtain ⟨prog, -, hc, -⟩ := Props.Pixels.rendered h
  have hexn := Props.Picture.compile_exn hc
  have hn := c17_files_nested (!ignore) ((execAll {} cs).1.getCode.map Cmd.leaf) _ [] (List.append_nil _).symm
  obtain ⟨c, h1⟩ : ∃ c, compiled env (executed (!ignore) ((execAll {} cs).1.getCode.map Cmd.leaf)) = .ok c := by
    obtain ⟨c, -, h1, -⟩ := Props.Enclosed.c82_image_partial env ignore Ra fuel fail style dpmm hd _ space image h ρ hρ hf s picture
      (by rw [e]; exact I.pic) (by rw [I.drawn]; rfl) (by rw [e]; exact ha)
    exact ⟨c, h1⟩
  have hout := board_outlines hi hm hs ho I.conds ha (by rw [← e]; exact hn) (by rw [← e]; exact hexn) (by rw [← e]; exact h1)
  exact Props.Enclosed.c82_plain_partial env ignore Ra fuel fail style dpmm hd _ space image h ρ hρ hf s picture
    (by rw [e]; exact I.pic) (by rw [I.drawn]; rfl) (by rw [e]; exact ha) (by rw [e]; exact hout)

/-! ### A sample -/

section
open Verif.GerberBuilder.Builder Verif.Props.Compiler Verif.Props.Pixels Verif.Props.Raster Verif.Vm Verif.Rvmc

theorem written {q : ℚ} (n k : ℕ) (h : |q| = n / 10 ^ k) (h' : q = 0 ∨ (1 / 10000 ≤ |q| ∧ |q| < 10 ^ 16)) : Written q := ⟨⟨n, k, h⟩, h'⟩

/-- The calls of the example: a rectangular pad, turned by a right angle and placed in the origin, and a line. -/
def sample : List Call :=
  [.rectangle 4 2 none, .addPad 0 (.loc (0, 0)) 90 false false 1, .lineTrace (1 / 2) (.loc (0, 0)) (.loc (3, 1))]

theorem fine_rect : FineShape (.standard (.rect 4 2 none)) :=
  ⟨nofun, .rect _ _ _ (by norm_num) (by norm_num), _, .standard nofun (.rect (by norm_num) (by norm_num))⟩

/-- Non-vacuity of C83: calls that meet the hypotheses, and the picture asked for. -/
example : (∀ e ∈ (execAll {} sample).2, e = none) ∧ (∀ c ∈ sample, Writable c) ∧ (∀ c ∈ sample, ¬ IsThermal c) ∧
    Steady (wishOf sample).objects ∧ (∀ s ∈ (wishOf sample).pads, FineShape s) ∧ (∀ o ∈ (wishOf sample).objects, PlainObject o) ∧
    ∃ picture, List.Forall₂ Asked (wishOf sample).objects picture := by
  have e : (wishOf sample).objects = [.pad (.standard (.rect 4 2 none)) (0, 0) { rotation := 90 }, .trace .line (1 / 2) (0, 0) (3, 1) none] := rfl
  have e' : (wishOf sample).pads = [.standard (.rect 4 2 none)] := rfl
  refine ⟨by decide +kernel, ?_, ?_, ?_, ?_, ?_, ?_⟩
  · simp only [sample, List.mem_cons, List.not_mem_nil, or_false, forall_eq_or_imp, forall_eq, Writable]
    exact ⟨⟨written 4 0 (by norm_num) (by norm_num), written 2 0 (by norm_num) (by norm_num), by intro q h; simp at h⟩,
      ⟨written 90 0 (by norm_num) (by norm_num), written 1 0 (by norm_num) (by norm_num)⟩, written 5 1 (by norm_num) (by norm_num)⟩
  · simp [sample, IsThermal]
  · rw [e]
    intro before between after k w b e c w' b' e' c' h _ r hl
    have := List.mem_of_getLast? hl
    rw [List.mem_filter] at this
    have hm : r ∈ [Object.pad (.standard (.rect 4 2 none)) (0, 0) { rotation := 90 }, .trace .line (1 / 2) (0, 0) (3, 1) none] := by
      rw [h]; simp [this.1]
    fin_cases hm <;> cases this.2
  · rw [e']; simp only [List.mem_singleton, forall_eq]; exact fine_rect
  · rw [e]
    simp only [List.mem_cons, List.not_mem_nil, or_false, forall_eq_or_imp, forall_eq]
    exact ⟨.pad (by norm_num), .line (by norm_num)⟩
  · rw [e]
    exact ⟨_, .cons (.pad (.standard nofun (.rect (by norm_num) (by norm_num)))) (.cons .line .nil)⟩

/-- A board with a pad. -/
def padBoard : List Call := [.rectangle 4 2 none, .addPad 0 (.loc (0, 0)) 0 false false 1]

theorem padBoard_code : (execAll {} padBoard).1.getCode = [.fs format, .mo .metric, .ad ['D','1','0'] (.rect 4 2 none), .g75, .dnn ['D','1','0'],
    .d03 (some ['0']) (some ['0']), .m02] := by
  have h1 : packed .x 0 = .ok ['0'] := by decide +kernel
  have h2 : packed .y 0 = .ok ['0'] := by decide +kernel
  have h3 : Text.natStr 10 = ['1', '0'] := by decide +kernel
  have h4 : mirroringOf false false = .none := rfl
  simp [h4, padBoard, execAll, GerberBuilder.exec, addFlash, givePad, newPad, padLocation, flashOp, h1, h2, h3, createStateUpdates, selectUpdate, polarityUpdate,
    rotationUpdate, mirroringUpdate, scaleUpdate, modeUpdate, addDraw, getCode, padNodes, Pad.nodes_eq, Pad.attributes, Draw.nodes]

theorem padBoard_compiles : ∃ prog, compile env0 false ((execAll {} padBoard).1.getCode.map Cmd.leaf) = .ok prog ∧
    ∃ e, Vm.run (pillow exactRaster 20 1) false .main prog = .ok (some e) ∧ e.box = ⟨-2, -1, 2, 1⟩ ∧ e.content.width = 80 ∧
      e.content.height = 40 := by
  rw [padBoard_code]
  have hx : (format.unpack .x ['0']) = .ok 0 := by decide +kernel
  have hy : (format.unpack .y ['0']) = .ok 0 := by decide +kernel
  eval_compiler [compile, finish, file_is_run, executed, isStop, atomsOf, atomsOfAll, Compiler.convert, resolve_step, resolve.loop,
    dependsOn, Draw.sources, List.dedup_cons_of_mem, List.dedup_cons_of_notMem, rect_same, VState.dispatch, VState.putX, VState.putY, hx, hy]
  obtain ⟨pts, h1⟩ := Props.Painting.pillow_rect 20 1 ⟨0, 0⟩ 4 2 false
  have hm : ((⟨-2, -1, 2, 1⟩ : Box ℝ).translate ⟨0, 0⟩).translateBack ⟨0, 0⟩ = ⟨-2, -1, 2, 1⟩ := by
    simp [Box.translate, Box.translateBack]
  simp [layerCommands, Vm.run, Vm.exec, Vm.step, onStart, Machine.init, Dict.get?_set, onDraw, record, onEnd, deferredBox, commandBox,
    boxLoop, bind, Except.bind, pure, Except.pure, replay, paint, target, pillow, settle, pillowShape, h1, rect_box, create_ok, hm]
  exact ⟨rfl, rfl⟩

theorem padBoard_rendered (style : Console.Style) :
    ∃ space p, renderWithPillow env0 false exactRaster 1 false style 20 ((execAll {} padBoard).1.getCode.map Cmd.leaf) = .ok (space, p) ∧
      space = ⟨.metric, -2, -1, 2, 1, 20⟩ ∧ p.width = 80 ∧ p.height = 40 := by
  obtain ⟨prog, h1, e, h2, h3, h4, h5⟩ := padBoard_compiles
  obtain ⟨p, g1, -⟩ := getImage_frame (resultImage (some e)) style
  obtain ⟨st, hs, hu⟩ : ∃ st, finalState ((execAll {} padBoard).1.getCode.map Cmd.leaf) = .ok st ∧ st.unit = .metric := by
    have h := (Props.Board.aligned_ok padBoard (by decide +kernel) false).1
    refine ⟨(Props.Board.processed false padBoard).st, ?_, by decide +kernel⟩
    unfold finalState
    dsimp only
    rw [h]
  refine ⟨Space.ofBox .metric e.box 20, p, ?_, ?_⟩
  · unfold renderWithPillow
    simp only [h1, h2, hs, g1, hu]
    rfl
  · have hp : p = compose (Picture.new e.content.width e.content.height style.foreground) (Picture.new e.content.width e.content.height style.background)
        (toMask (resultImage (some e))) := by
      have := g1
      simp only [getImage, Option.some.injEq] at this
      exact this.symm
    rw [hp]
    refine ⟨?_, ?_, ?_⟩
    · rw [h3]; rfl
    · exact h4
    · exact h5

theorem padBoard_compiled : ∃ c, compiled env0 (boardAtoms (execAll {} padBoard).1) = .ok c ∧ ∀ id cmds, c.buffers.get? id = some cmds →
    (id = .main → cmds = [.paste (.xform (.ap ['D','1','0']) (transformMatrix {})) ⟨0, 0⟩ false]) ∧
    (id ≠ .main → cmds = [.shape (Shape.newRectangle ⟨0, 0⟩ 4 2 false)]) := by
  rw [← board_executed (execAll_ids _ Ids.init) true, padBoard_code]
  have hx : (format.unpack .x ['0']) = .ok 0 := by decide +kernel
  have hy : (format.unpack .y ['0']) = .ok 0 := by decide +kernel
  eval_compiler [executed, isStop, atomsOf, atomsOfAll, rect_same, VState.dispatch, VState.putX, VState.putY, hx, hy]
  intro id cmds h
  split at h
  · next e =>
    cases h
    exact ⟨fun _ => rfl, fun he => absurd e.symm he⟩
  · next e =>
    refine ⟨fun he => absurd he.symm e, fun _ => ?_⟩
    split at h
    · cases h; rfl
    · split at h
      · cases h; rfl
      · cases h

/-- A pixel of the image of the board. -/
example (rd : Peg.Text → Option Peg.Text) (style : Console.Style) : ∃ f space image, parseCode rd (dumps (execAll {} padBoard).1) = .file f ∧
    renderWithPillow env0 false exactRaster 1 false style 20 (commands f) = .ok (space, image) ∧ image.pixel (40, 19) = style.foreground := by
  have hi := execAll_ids padBoard Ids.init
  have e : (wishOf padBoard).objects = [.pad (.standard (.rect 4 2 none)) (0, 0) {}] := rfl
  have e' : (wishOf padBoard).pads = [.standard (.rect 4 2 none)] := rfl
  have hw : ∀ c ∈ padBoard, Writable c := by
    simp only [padBoard, List.mem_cons, List.not_mem_nil, or_false, forall_eq_or_imp, forall_eq, Writable]
    exact ⟨⟨written 4 0 (by norm_num) (by norm_num), written 2 0 (by norm_num) (by norm_num), by intro q h; simp at h⟩,
      ⟨written 0 0 (by norm_num) (by norm_num), written 1 0 (by norm_num) (by norm_num)⟩⟩
  have ht : ∀ c ∈ padBoard, ¬ IsThermal c := by simp [padBoard, IsThermal]
  have hh := Props.Dump.holds_plain hw ht
  obtain ⟨f, h1, h2⟩ := c83_board_partial rd padBoard (by decide +kernel) hw ht (by
      rw [e]
      intro before between after k w b e c w' b' e' c' h
      have := congrArg List.length h
      simp at this
      omega) (by rw [e']; simp only [List.mem_singleton, forall_eq]; exact fine_rect)
    (by rw [e]; simp only [List.mem_singleton, forall_eq]; exact .pad (by norm_num)) _
    (by rw [e]; exact .cons (.pad (.standard nofun (.rect (by norm_num) (by norm_num)))) .nil)
  obtain ⟨space, image, g1, g2, g3, g4⟩ := padBoard_rendered style
  have hf : f = Rewrite.nodes signed (file (execAll {} padBoard).1) := by
    have := h1.symm.trans (parse_dumps rd hi hh)
    cases this
    rfl
  have g1' : renderWithPillow env0 false exactRaster 1 false style 20 (commands f) = .ok (space, image) := by
    rw [hf, render_nodes, commands_file hi hh, g1]
  obtain ⟨c, layers, h3, h4, h5⟩ := h2 env0 false exactRaster 1 false style 20 space image (by norm_num) g1' 0 le_rfl (fun _ _ _ => Iff.rfl)
  refine ⟨f, space, image, h1, g1', (h5 40 19 ⟨by norm_num, by rw [g3]; norm_num, by norm_num, by rw [g4]; norm_num⟩ ⟨0, 0⟩ ?_ ?_).1 ?_⟩
  · have : towardZero (|(1 : ℝ) - -1| * (20 : ℤ)) = 40 := by unfold towardZero; norm_num
    rw [g2]
    simp only [this]
    norm_num [pixelPlace, lowerLeft]
  · obtain ⟨c', k1, k2⟩ := padBoard_compiled
    rw [hf, compiled_nodes, commands_file hi hh, board_executed hi] at h3
    have : Except.ok c' = Except.ok c := k1.symm.trans h3
    cases this
    exact Props.Enclosed.pad_away h4 k2
  · refine ⟨[], _, [], rfl, ⟨⟨0, 0⟩, ⟨[], _, [], rfl, ?_, nofun, rfl⟩, ?_⟩, nofun, rfl⟩
    · show Rectangle _ _ _
      norm_num [Rectangle, Spec.point]
    · have : onGrid (0, 0) = (0, 0) := by decide +kernel
      rw [this]
      ext <;> simp [placed, vec, rotCcw]

end

end Verif.Props.BoardImage
