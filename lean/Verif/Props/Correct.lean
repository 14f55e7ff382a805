import Verif.Lemmas.Ordered

/-!
# C89: correct files are compiled and rendered
-/

namespace Verif.Props.Correct
open Verif.Visitor Verif.Coord Verif.Geom Verif.Rvmc Verif.Vm Verif.Compiler Verif.Spec Verif.Props.State Verif.Macro
  Verif.Props.Compiler Verif.Props.FlashImage Verif.Props.MacroShape Verif.Props.Stroke Verif.Props.Repeat
  Verif.Props.Picture Verif.Lemmas.Picture Verif.Lemmas.Compiles
noncomputable section

theorem executed_runs (resume : Bool) : ∀ (file : List Visitor.Cmd), ∀ a ∈ executed resume file, isStop a = false := by
  intro file
  induction file with
  | nil => intro a ha; cases ha
  | cons c cs ih =>
    intro a ha
    simp only [executed] at ha
    split at ha
    · rcases List.mem_append.1 ha with ha | ha
      · simpa using List.mem_takeWhile_imp ha
      · cases resume
        · cases ha
        · exact ih a ha
    · next h =>
      rcases List.mem_append.1 ha with ha | ha
      · by_contra hs
        exact h (List.any_eq_true.2 ⟨a, ha, by simpa using hs⟩)
      · exact ih a ha

/-- What is known after all commands of a file. -/
structure Whole (env : Env) (h : List Atom) (s : Sheet) (c : CState) : Prop where
  ran : (run {} h).exn = none
  done : compiled env h = .ok c
  nested : Nested h
  tidy : Tidy h c
  agrees : Agrees h c s
  leveled : Leveled (Given h) c
  marked : Marked (Given h) (FlashedIn h) (ThermalIn h) c
  main : ∃ b, c.buffers.get? .main = some b

theorem whole {env : Env} (hdepth : 3 ≤ env.depth) {h : List Atom} {s : Sheet} (hs : Pictured h s) (hn : Nested h)
    (ha : Avoids h) (he : Executable h) (hstop : ∀ a ∈ h, isStop a = false) : ∃ c, Whole env h s c := by
  obtain ⟨hr, c, hc⟩ := compiles hs hdepth hn ha he hstop
  have T := tidy h hr c hc ha.once hn ha.thermals
  have A := agrees hs c hr hc hn ha
  refine ⟨c, hr, hc, hn, T, A, leveled hr hc hn ha.once, marked hr hc hn ha.once, ?_⟩
  obtain ⟨front, e, -⟩ := T.stack
  exact stack_buffers A _ (by rw [e]; simp)

theorem Whole.program {env : Env} {h : List Atom} {s : Sheet} {c : CState} (W : Whole env h s c)
    (hiter : ∀ l, (env.iter l).Perm l) (hdepth : 3 ≤ env.depth) :
    finish env (run {} h) = .ok ((layerOrder env c).flatMap fun id => layerCommands id (bufferOf c id)) := by
  obtain ⟨b, hb⟩ := W.main
  have e : bufferOf c .main = b := by simp [bufferOf, hb]
  have hd := W.done
  unfold compiled at hd
  simp only [finish, hd, W.ran, convert, resolve_main W.tidy.synced W.leveled hiter hdepth hb, bind, Except.bind, pure, Except.pure,
    layerOrder, e]
  rfl

/-- **C89** (partial: for the files whose picture is prescribed by `Pictured` and that avoid the constructs refuted
elsewhere, see C74).  A file whose coordinates can be read, that selects no aperture before its definition and repeats
blocks at least once is compiled: nothing is raised, whatever the clock, the order of sets and the recursion limit (of at
least 3). -/
theorem c89_compiles_partial (env : Env) (hiter : ∀ l, (env.iter l).Perm l) (hdepth : 3 ≤ env.depth)
    (ignore : Bool) (file : List Visitor.Cmd) (s : Sheet) (hs : Pictured (executed (!ignore) file) s)
    (ha : Avoids (executed (!ignore) file)) (he : Executable (executed (!ignore) file)) :
    ∃ prog, compile env ignore file = .ok prog := by
  obtain ⟨c, W⟩ := whole hdepth hs (c17_files_nested (!ignore) file _ [] (List.append_nil _).symm) ha he (executed_runs _ file)
  exact ⟨_, by rw [compile, file_is_run]; exact W.program hiter hdepth⟩

/-! ### Execution -/

theorem Whole.fit {env : Env} {h : List Atom} {s : Sheet} {c : CState} (W : Whole env h s c) (ha : Avoids h)
    (hiter : ∀ l, (env.iter l).Perm l) : Fit (Given h) (FlashedIn h) c (layerOrder env c) :=
  order_fit W.tidy.synced W.leveled W.marked (fun _ _ _ => thermal_once ha.thermals) hiter W.main

theorem runs {κ : Type} {B : Backend κ} {Room : Box ℝ → Prop} {shapes : Shape → Prop} (hR : Roomy Room) (hB : Able B Room shapes)
    (fail : Bool) {env : Env} {D F : Name → Prop} {c : CState} (hf : Fit D F c (layerOrder env c))
    (hok : ∀ k ∈ layerOrder env c, (∀ s, .shape s ∈ bufferOf c k → shapes s) ∧ ∃ d ∈ bufferOf c k, Fills Room d) :
    ∃ e, Vm.run B fail .main ((layerOrder env c).flatMap fun id => layerCommands id (bufferOf c id)) = .ok (some e) := by
  obtain ⟨L, h1, h2, -⟩ := exec_succeeds hR hB fail (bufferOf c) (layerOrder env c) [] hf.once (fun _ _ => rfl) hok
    (fun p k q e s hs => .inl (hf.after p k q e s hs))
  obtain ⟨e, he, -⟩ := h2 .main (by simp [layerOrder])
  refine ⟨e, ?_⟩
  unfold Vm.run
  have : Vm.exec B fail ((layerOrder env c).flatMap fun id => layerCommands id (bufferOf c id)) Machine.init = .ok ⟨false, L, []⟩ := h1
  simp only [this, bind, Except.bind, he]
  rfl

theorem painting_able (outline : Shape → Except VErr (Set (Vec ℝ))) :
    Able (painting outline) (fun _ => True) (fun s => ∃ points, outline s = .ok points) where
  create _ _ _ := ⟨_, rfl⟩
  shape e s h := by
    obtain ⟨points, h⟩ := h
    exact ⟨_, by simp only [painting, h, bind, Except.bind]; rfl⟩
  paste _ _ _ _ := ⟨_, rfl⟩

theorem tool_single {h : List Atom} {s : Sheet} (hp : Pictured h s) : DefinedOnce h → Nested h → ∀ id d, .leaf (.ad id d) ∈ h →
    ∃ d' objects, s.tools id = some (.single d' objects) := by
  have add : ∀ (s : Sheet) os, (s.add os).tools = s.tools := by
    intro s os; unfold Sheet.add; split <;> rfl
  induction hp with
  | start => intro _ _ id d h; cases h
  | @aperture h s i d' figures h1 _ _ ih =>
    intro ho hn id d hm
    simp only [Sheet.define]
    by_cases e : id = i
    · rw [if_pos e]; exact ⟨_, _, rfl⟩
    · rw [if_neg e]
      refine ih (once_prefix ho) (nested_prefix hn) id d ?_
      simpa [e] using hm
  | @blockClose h s i body rest h1 _ _ ih =>
    intro ho hn id d hm
    simp only [Sheet.define]
    by_cases e : id = i
    · subst e
      exact (opened_once ho hm (closed_opened hn (by simp))).elim
    · rw [if_neg e]
      exact ih (once_prefix ho) (nested_prefix hn) id d (by simpa using hm)
  | other h1 hsil ih =>
    intro ho hn id d hm
    refine ih (once_prefix ho) (nested_prefix hn) id d ?_
    rcases List.mem_append.1 hm with hm | hm
    · exact hm
    · rw [List.mem_singleton] at hm
      rw [← hm] at hsil
      cases hsil
  | _ =>
    intro ho hn id d hm
    rename_i ih
    try rw [add]
    exact ih (once_prefix ho) (nested_prefix hn) id d (by simpa using hm)

theorem seen_full {c : CState} {k : LayerId} {objects : List (Painted (Vec ℝ))} {b : List Compiler.Cmd} (hs : Seen c k objects)
    (hb : c.buffers.get? k = some b) {v : Vec ℝ} (hv : Covered objects v) : b ≠ [] := by
  rintro rfl
  obtain ⟨os, h1, h2⟩ := hs
  obtain ⟨b', hb', h3⟩ := shows_inv h1
  rw [hb] at hb'
  cases hb'
  cases h3
  obtain ⟨p, o, q, e, -⟩ := (h2.covered v).2 hv
  simp at e

/-- No layer is empty. -/
theorem Whole.full {env : Env} {h : List Atom} {s : Sheet} {c : CState} (W : Whole env h s c) (hp : Pictured h s) (ha : Avoids h)
    {picture : List (Painted (Vec ℝ))} (hl : s.drawn.getLast? = some picture) (hfull : ∃ v, Covered picture v)
    (hflash : ∀ p x y q id d objects, h = p ++ .leaf (.d03 x y) :: q → selected p = some id →
      s.tools id = some (.single d objects) → ∃ v, Covered objects v)
    {order : List LayerId} (hf : Fit (Given h) (FlashedIn h) c order) : ∀ k ∈ order, bufferOf c k ≠ [] := by
  intro k hk
  obtain ⟨⟨b, hb⟩, hkind⟩ := hf.kinds k hk
  have e : bufferOf c k = b := by simp [bufferOf, hb]
  rw [e]
  obtain ⟨b0, hb0, hbase⟩ := base_full W.tidy.synced k b hb
  rcases hkind with rfl | h0 | ⟨-, i, hi, ⟨d, hd⟩, p, x, y, q, e1, e2⟩
  · obtain ⟨front, e1, -⟩ := W.tidy.stack
    have hd := W.agrees.drawn
    rw [e1] at hd
    have s1 := forall₂_last hd hl
    obtain ⟨v, hv⟩ := hfull
    exact seen_full s1 hb hv
  · obtain ⟨n, t, hn⟩ := (base_level k).2 h0
    rw [hn] at hb0
    exact hbase (W.marked.full n t b0 hb0)
  · rw [hi] at hb0
    obtain ⟨d', objects, ht⟩ := tool_single hp ha.once W.nested i d hd
    obtain ⟨v, hv⟩ := hflash p x y q i d' objects e1 e2 ht
    exact hbase (seen_full (W.agrees.single i d' objects ht).1 hb0 hv)

/-- **C89** (partial: likewise, with exact areas for the shapes).  When moreover the apertures that it flashes and its picture
are not empty, its program is executed to the end, and shows the picture that its commands describe. -/
theorem c89_renders_partial (env : Env) (hiter : ∀ l, (env.iter l).Perm l) (hdepth : 3 ≤ env.depth)
    (ignore : Bool) (file : List Visitor.Cmd) (s : Sheet) (picture : List (Painted (Vec ℝ)))
    (hs : Pictured (executed (!ignore) file) s) (hp : s.drawn.getLast? = some picture)
    (ha : Avoids (executed (!ignore) file)) (he : Executable (executed (!ignore) file)) (hfull : ∃ v, Covered picture v)
    (hflash : ∀ p x y q id d objects, executed (!ignore) file = p ++ .leaf (.d03 x y) :: q → selected p = some id →
      s.tools id = some (.single d objects) → ∃ v, Covered objects v) (fail : Bool) :
    ∃ prog e, compile env ignore file = .ok prog ∧ Vm.run (painting within) fail .main prog = .ok (some e) ∧
      e.origin = ⟨0, 0⟩ ∧ ∀ v, Covered e.content v ↔ Covered picture v := by
  obtain ⟨c, W⟩ := whole hdepth hs (c17_files_nested (!ignore) file _ [] (List.append_nil _).symm) ha he (executed_runs _ file)
  have hc : compile env ignore file =
      .ok ((layerOrder env c).flatMap fun id => layerCommands id (bufferOf c id)) := by rw [compile, file_is_run]; exact W.program hiter hdepth
  have hf := W.fit ha hiter
  have hne := W.full hs ha hp hfull hflash hf
  obtain ⟨e, hr⟩ := runs (B := painting within) (Room := fun _ => True) (shapes := fun s => ∃ points, within s = .ok points)
    ⟨fun _ _ _ => trivial, fun _ _ _ => trivial, fun _ _ _ _ => trivial⟩ (painting_able within) fail hf (by
      intro k hk
      refine ⟨fun s _ => ⟨_, rfl⟩, ?_⟩
      obtain ⟨d, hd⟩ := List.exists_mem_of_ne_nil _ (hne k hk)
      exact ⟨d, hd, fun _ _ => trivial⟩)
  exact ⟨_, e, hc, hr, c74_picture_partial env ignore file _ hc fail e hr s picture hs hp ha⟩

/-! ### Non-vacuity -/

/-- The sample of C74 up to its draw: an aperture, a block, a repetition and a draw. -/
theorem sample_start : executed true (sampleFile.take 7) = sampleAtoms.take 12 := rfl

theorem sample_executable : Executable (sampleAtoms.take 12) := by
  refine ⟨?_, ?_, ?_⟩
  · intro p a q axis t e
    have := throughout (P := fun p a => ∀ axis t, (gives axis a = some t ∨ givesOffset axis a = some t) →
      ∃ f v, FormatInForce p f ∧ f.unpack axis t = .ok v) (rest := sampleAtoms.take 12) (done := []) (by
        refine ⟨?_, ?_, ?_, ?_, ?_, ?_, ?_, ?_, ?_, ?_, ?_, ?_, trivial⟩
        all_goals
          intro axis t h
          cases axis
          all_goals
            first
            | (simp only [gives, givesOffset] at h; rcases h with h | h <;> cases h; done)
            | (simp only [gives, givesOffset] at h
               rcases h with h | h
               · cases h
                 exact ⟨{}, _, .inl rfl, unpack5⟩
               · cases h)) p _ q e axis t
    exact this
  · intro p id q e
    have := throughout (P := fun p a => ∀ id, a = .leaf (.dnn id) → ∃ a ∈ p, stores id a ≠ none) (rest := sampleAtoms.take 12)
      (done := []) (by simp [Throughout, sampleAtoms, stores]) p _ q e id rfl
    exact this
  · intro p r q e
    have := throughout (P := fun p a => ∀ r, a = .srClose r → r.xRepeats ≠ 0 ∧ r.yRepeats ≠ 0) (rest := sampleAtoms.take 12)
      (done := []) (by simp [Throughout, sampleAtoms]) p _ q e r rfl
    exact this

theorem sample_drawn : ∃ s picture, Pictured (sampleAtoms.take 12) s ∧ s.drawn.getLast? = some picture ∧
    (∃ v, Covered picture v) ∧ ∀ id d objects, s.tools id = some (.single d objects) → ∃ v, Covered objects v := by
  obtain ⟨p4, a4⟩ := sample_at 5 (by decide +kernel)
  obtain ⟨p8, a8⟩ := sample_at 9 (by decide +kernel)
  obtain ⟨q11, b11⟩ := sample_at 11 (by decide +kernel)
  obtain ⟨p11, a11⟩ := sample_at 12 (by decide +kernel)
  have h1 := Pictured.other (l := .fs {}) .start rfl
  have h2 := Pictured.aperture (id := ['D','1','0']) (d := .circle 1 none) h1 rfl (.standard nofun (.circle (by norm_num)))
  have h3 := Pictured.blockOpen (id := ['D','1','1']) h2 rfl
  have h4 := Pictured.other (l := .dnn ['D','1','0']) h3 rfl
  have h5 := Pictured.flash (x := none) (y := none) h4 rfl rfl rfl a4
  have h6 := Pictured.blockClose (id := ['D','1','1']) h5 rfl rfl
  have h7 := Pictured.other (l := .dnn ['D','1','1']) h6 rfl
  have h8 := Pictured.repeatOpen (p := ⟨0, 2, 1, 5, 5⟩) h7 rfl
  have h9 := Pictured.flashBlock (x := none) (y := none) h8 rfl rfl rfl a8
  have h10 := Pictured.repeatClose (p := ⟨0, 2, 1, 5, 5⟩) h9 rfl rfl
  have h11 := Pictured.other (l := .dnn ['D','1','0']) h10 rfl
  have h12 := Pictured.stroke (x := some ['5']) (y := none) (i := none) (j := none) h11 rfl rfl rfl (by norm_num) rfl b11 a11
  refine ⟨_, _, h12, rfl, ⟨q11, _, _, [], rfl, ?_, nofun, rfl⟩, ?_⟩
  · exact ⟨q11, ⟨0, by norm_num, by norm_num, by ext <;> simp⟩, by
      have : q11 - q11 = ⟨0, 0⟩ := by ext <;> simp
      rw [this]
      simp [vlen, latest, setsScaling, List.findSome?]⟩
  · intro id d objects h
    change (if id = ['D','1','1'] then _ else if id = ['D','1','0'] then _ else _) = _ at h
    split at h
    · cases h
    · split at h
      · cases h
        refine ⟨⟨0, 0⟩, [], _, [], rfl, ?_, nofun, rfl⟩
        show Disc _ _ _
        norm_num [Disc, point]
      · cases h

example : ∃ prog e, compile env0 false (sampleFile.take 7) = .ok prog ∧
    Vm.run (painting within) false .main prog = .ok (some e) := by
  obtain ⟨s, picture, h1, h2, h3, h4⟩ := sample_drawn
  obtain ⟨prog, e, k1, k2, -⟩ := c89_renders_partial env0 (fun _ => .refl _) (by decide) false (sampleFile.take 7) s picture
    (by rw [Bool.not_false, sample_start]; exact h1) h2
    (by rw [Bool.not_false, sample_start]; exact Avoids.before (q := sampleAtoms.drop 12) sample_avoids)
    (by rw [Bool.not_false, sample_start]; exact sample_executable) h3
    (fun _ _ _ _ id d objects _ _ => h4 id d objects) false
  exact ⟨prog, e, k1, k2⟩

end
end Verif.Props.Correct
