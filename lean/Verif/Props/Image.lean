import Verif.Spec.Image
import Verif.Lemmas.Vm
import Verif.Props.Painting
import Verif.Props.Resolve
import Verif.Props.Compiler
import Verif.Spec.Drawing

/-!
# C64: the image of a file
-/

namespace Verif.Props.Image
open Verif.Geom Verif.Rvmc Verif.Vm Verif.Spec Verif.Render Verif.Compiler Verif.Props.Painting

variable {ι : Type} [DecidableEq ι] {outline : Shape → Except VErr (Set (Vec ℝ))}

theorem shows_more {ls ms : List (Spec.Layer ι)} (hs : ls ⊆ ms) {id : ι} {os : List (Painted (Vec ℝ))}
    (h : Shows outline ls id os) : Shows outline ms id os :=
  Shows.rec (motive_1 := fun id os _ => Shows outline ms id os) (motive_2 := fun ds os _ => ShowsAll outline ms ds os)
    (fun l os mem _ ih => .layer l os (hs mem) ih) .nil (fun s points ds os inside _ ih => .shape s points ds os inside ih)
    (fun source center negative objects ds os _ _ ih1 ih2 => .paste source center negative objects ds os ih1 ih2) h

theorem target_ok {κ : Type} {L : Dict ι (Vm.Layer ι κ)} {id : ι} {e : Eager κ} (h : target L id = .ok e) :
    L.get? id = some (.eager e) := by
  unfold target at h
  split at h
  · cases h; assumption
  · cases h
  · cases h

/-- Drawing commands replayed on a layer. -/
theorem replay_shows {ls : List (Spec.Layer ι)} {id : ι} : ∀ (ds : List (Draw ι)) (L L' : Dict ι (Vm.Layer ι _)) (e : Eager _),
    replay (painting outline) id ds L = .ok L' → L.get? id = some (.eager e) → id ∉ Draw.sources ds →
    (∀ k e, k ≠ id → L.get? k = some (.eager e) → e.origin = ⟨0, 0⟩ ∧ Shows outline ls k e.content) →
    ∃ os, L'.get? id = some (.eager { e with content := e.content ++ os }) ∧ ShowsAll outline ls ds os ∧
      ∀ k, k ≠ id → L'.get? k = L.get? k
  | [], L, L', e, h, he, _, _ => by
    cases h
    exact ⟨[], by simpa using he, .nil, fun _ _ => rfl⟩
  | .shape s :: ds, L, L', e, h, he, hs, hL => by
    obtain ⟨L1, h1, h2⟩ := Vm.bind_ok.1 h
    obtain ⟨e', h3, h4⟩ := Vm.bind_ok.1 h1
    have := target_ok h3
    rw [he] at this; cases this
    obtain ⟨c, h5, h6⟩ := Vm.bind_ok.1 h4
    cases h6
    obtain ⟨pts, h7, h8⟩ := Vm.bind_ok.1 h5
    cases h8
    obtain ⟨os, i1, i2, i3⟩ := replay_shows ds _ L' _ h2 (Dict.get?_set_self _ _ _) (by simpa [Draw.sources] using hs) (by
      intro k e' hk hg
      rw [Dict.get?_set, if_neg (Ne.symm hk)] at hg
      exact hL k e' hk hg)
    refine ⟨⟨!s.negative, pts⟩ :: os, by simpa using i1, .shape _ _ _ _ h7 i2, ?_⟩
    intro k hk
    rw [i3 k hk, Dict.get?_set, if_neg (Ne.symm hk)]
  | .paste src ctr neg :: ds, L, L', e, h, he, hs, hL => by
    obtain ⟨L1, h1, h2⟩ := Vm.bind_ok.1 h
    simp only [Draw.sources, List.filterMap_cons, List.mem_cons, not_or] at hs
    simp only [paint] at h1
    split at h1
    · cases h1
    · cases h1
    · next e0 hsrc =>
      obtain ⟨e', h3, h4⟩ := Vm.bind_ok.1 h1
      have := target_ok h3
      rw [he] at this; cases this
      obtain ⟨c, h5, h6⟩ := Vm.bind_ok.1 h4
      cases h6
      cases h5
      obtain ⟨ho, hsh⟩ := hL src e0 (Ne.symm hs.1) hsrc
      obtain ⟨os, i1, i2, i3⟩ := replay_shows ds _ L' _ h2 (Dict.get?_set_self _ _ _) hs.2 (by
        intro k e' hk hg
        rw [Dict.get?_set, if_neg (Ne.symm hk)] at hg
        exact hL k e' hk hg)
      have hz : ∀ p : Vec ℝ, p - ctr + e0.origin = p - ctr := by intro p; rw [ho]; ext <;> simp
      simp only [hz] at i1
      refine ⟨⟨!neg, {p | Covered e0.content (p - ctr)}⟩ :: os, by simpa using i1, .paste _ _ _ _ _ _ hsh i2, ?_⟩
      intro k hk
      rw [i3 k hk, Dict.get?_set, if_neg (Ne.symm hk)]

/-- Commands recorded on a layer of unknown size. -/
theorem exec_draws {κ : Type} (B : Backend κ) (fail : Bool) {id : ι} {origin : Vec ℝ} : ∀ (ds pre : List (Draw ι))
    (cs : List (Command ι)) (m m' : Machine ι κ) (rest : List ι), m.deferring = true → m.stack = id :: rest →
    m.layers.get? id = some (.deferred origin pre) → exec B fail (ds.map .draw ++ cs) m = .ok m' →
    ∃ n, exec B fail cs n = .ok m' ∧ n.deferring = true ∧ n.stack = id :: rest ∧
      n.layers.get? id = some (.deferred origin (pre ++ ds)) ∧ ∀ k, k ≠ id → n.layers.get? k = m.layers.get? k
  | [], pre, cs, m, m', rest, hd, hs, hl, h => ⟨m, h, hd, hs, by simpa using hl, fun _ _ => rfl⟩
  | d :: ds, pre, cs, m, m', rest, hd, hs, hl, h => by
    simp only [List.map_cons, List.cons_append, exec, Vm.step] at h
    obtain ⟨m1, h1, h2⟩ := Vm.bind_ok.1 h
    simp only [onDraw, hs, hd, if_true, record, hl] at h1
    cases h1
    obtain ⟨n, i1, i2, i3, i4, i5⟩ := exec_draws B fail ds (pre ++ [d]) cs _ m' rest rfl rfl (Dict.get?_set_self _ _ _) h2
    refine ⟨n, i1, i2, i3, by simpa using i4, ?_⟩
    intro k hk
    rw [i5 k hk, Dict.get?_set, if_neg (Ne.symm hk)]

/-- The layers pasted by commands whose box is known are themselves of known size. -/
theorem boxes_sources {κ : Type} {L : Dict ι (Vm.Layer ι κ)} {ds : List (Draw ι)} {b : Option (Box ℝ)}
    (h : deferredBox L ds = .ok b) {k : ι} (hk : k ∈ Draw.sources ds) : ∃ e, L.get? k = some (.eager e) := by
  have one : ∀ (d : Draw ι) (b : Box ℝ), commandBox L d = .ok b → k ∈ Draw.sources [d] → ∃ e, L.get? k = some (.eager e) := by
    intro d b hb hm
    cases d with
    | shape s => simp [Draw.sources] at hm
    | paste src ctr neg =>
      simp only [Draw.sources, List.filterMap_cons, List.filterMap_nil, List.mem_singleton] at hm
      subst hm
      simp only [commandBox] at hb
      split at hb
      · cases hb
      · cases hb
      · exact ⟨_, by assumption⟩
  have split : ∀ (d : Draw ι) (ds : List (Draw ι)), Draw.sources (d :: ds) = Draw.sources [d] ++ Draw.sources ds := by
    intro d ds
    show List.filterMap _ ([d] ++ ds) = _
    rw [List.filterMap_append]; rfl
  have all : ∀ (ds : List (Draw ι)) (b0 b : Box ℝ), boxLoop L ds b0 = .ok b → k ∈ Draw.sources ds →
      ∃ e, L.get? k = some (.eager e) := by
    intro ds
    induction ds with
    | nil => intro _ _ _ hm; simp [Draw.sources] at hm
    | cons d ds ih =>
      intro b0 b hb hm
      obtain ⟨b1, h1, h2⟩ := Vm.bind_ok.1 hb
      rw [split, List.mem_append] at hm
      rcases hm with hm | hm
      · exact one d b1 h1 hm
      · exact ih _ _ h2 hm
  cases ds with
  | nil => simp [Draw.sources] at hk
  | cons d ds =>
    obtain ⟨b1, h1, h2⟩ := Vm.bind_ok.1 h
    obtain ⟨b2, h3, -⟩ := Vm.bind_ok.1 h2
    rw [split, List.mem_append] at hk
    rcases hk with hk | hk
    · exact one d b1 h1 hk
    · exact all ds _ _ h3 hk

/-- Complete layers executed one after the other: every layer of known size holds the objects drawn on it. -/
theorem exec_program (fail : Bool) : ∀ (todo done : List (Spec.Layer ι)) (m m' : Machine ι _), m.stack = [] →
    (∀ k e, m.layers.get? k = some (.eager e) → e.origin = ⟨0, 0⟩ ∧ Shows outline done k e.content) →
    (∀ l ∈ done, m.layers.get? l.id ≠ none) → (done.map Spec.Layer.id).Nodup →
    exec (painting outline) fail (program todo) m = .ok m' →
    (∀ k e, m'.layers.get? k = some (.eager e) → e.origin = ⟨0, 0⟩ ∧ Shows outline (done ++ todo) k e.content) ∧
      ((done ++ todo).map Spec.Layer.id).Nodup
  | [], done, m, m', hs, hm, _, hn, h => by
    cases h
    simpa using ⟨hm, hn⟩
  | l :: todo, done, m, m', hs, hm, hst, hn, h => by
    have e0 : program (l :: todo) = .start l.id none ⟨0, 0⟩ :: (l.cmds.map .draw ++ .stop :: program todo) := by
      simp [program]
    rw [e0] at h
    simp only [exec, Vm.step] at h
    obtain ⟨m1, h1, h2⟩ := Vm.bind_ok.1 h
    cases hg : m.layers.get? l.id with
    | some x => simp only [onStart, hg] at h1; cases h1
    | none =>
      simp only [onStart, hg] at h1
      cases h1
      have hfresh : l.id ∉ done.map Spec.Layer.id := by
        intro hm'
        obtain ⟨l', h3, h4⟩ := List.mem_map.1 hm'
        exact hst l' h3 (by rw [h4]; exact hg)
      obtain ⟨n, i1, i2, i3, i4, i5⟩ := exec_draws _ fail l.cmds [] _ _ m' m.stack rfl rfl (Dict.get?_set_self _ _ _) h2
      simp only [exec, Vm.step] at i1
      obtain ⟨n1, j1, j2⟩ := Vm.bind_ok.1 i1
      have hother : ∀ k, k ≠ l.id → n.layers.get? k = m.layers.get? k := by
        intro k hk
        rw [i5 k hk, Dict.get?_set, if_neg (Ne.symm hk)]
      have hn' : ((done ++ [l]).map Spec.Layer.id).Nodup := by
        rw [List.map_append, List.nodup_append]
        refine ⟨hn, by simp, ?_⟩
        intro a ha b hb
        simp only [List.map_cons, List.map_nil, List.mem_singleton] at hb
        rintro rfl
        exact hfresh (hb ▸ ha)
      have fin : n1.stack = [] → (∀ k, k ≠ l.id → n1.layers.get? k = m.layers.get? k) →
          (∃ x, n1.layers.get? l.id = some x ∧ ∀ e, x = .eager e →
            e.origin = ⟨0, 0⟩ ∧ Shows outline (done ++ [l]) l.id e.content) →
          (∀ k e, m'.layers.get? k = some (.eager e) → e.origin = ⟨0, 0⟩ ∧ Shows outline (done ++ l :: todo) k e.content) ∧
            ((done ++ l :: todo).map Spec.Layer.id).Nodup := by
        intro q1 q2 ⟨x, q3, q4⟩
        have := exec_program fail todo (done ++ [l]) n1 m' q1 (by
          intro k e he
          by_cases hk : k = l.id
          · subst hk
            rw [q3] at he
            exact q4 e (Option.some.inj he)
          · rw [q2 k hk] at he
            obtain ⟨g1, g2⟩ := hm k e he
            exact ⟨g1, shows_more (by simp) g2⟩) (by
          intro l' hl'
          by_cases hk : l'.id = l.id
          · rw [hk, q3]; simp
          · rw [q2 _ hk]
            rcases List.mem_append.1 hl' with hl' | hl'
            · exact hst l' hl'
            · simp only [List.mem_singleton] at hl'
              exact absurd (by rw [hl']) hk) hn' j2
        simpa using this
      simp only [onEnd, i3, i4, List.nil_append] at j1
      obtain ⟨b, k1, k2⟩ := Vm.bind_ok.1 j1
      cases b with
      | none =>
        simp only at k2
        split at k2
        · cases k2
        · cases k2
          exact fin hs hother ⟨_, i4, by intro e he; cases he⟩
      | some box =>
        simp only at k2
        obtain ⟨c, k3, k4⟩ := Vm.bind_ok.1 k2
        obtain ⟨L, k5, k6⟩ := Vm.bind_ok.1 k4
        cases k6
        cases k3
        have hself : l.id ∉ Draw.sources l.cmds := by
          intro hx
          obtain ⟨e, he⟩ := boxes_sources k1 hx
          rw [i4] at he; cases he
        obtain ⟨os, r1, r2, r3⟩ := replay_shows (ls := done ++ [l]) l.cmds _ L _ k5 (Dict.get?_set_self _ _ _) hself (by
          intro k e hk he
          rw [Dict.get?_set, if_neg (Ne.symm hk), hother k hk] at he
          obtain ⟨g1, g2⟩ := hm k e he
          exact ⟨g1, shows_more (by simp) g2⟩)
        have hset : (settle L m.stack : Machine ι _) = ⟨false, L, []⟩ := by rw [hs]; rfl
        rw [hset] at fin
        refine fin rfl ?_ ⟨_, r1, ?_⟩
        · intro k hk
          show L.get? k = _
          rw [r3 k hk, Dict.get?_set, if_neg (Ne.symm hk), hother k hk]
        · intro e he
          cases he
          refine ⟨rfl, ?_⟩
          simpa using Shows.layer l os (by simp) r2

theorem resolve_known {deps : ι → Option (List ι)} (n : Nat) : ∀ (id : ι) (o r : List ι), resolve deps n id o = .ok r →
    (∀ x ∈ o, deps x ≠ none) → ∀ x ∈ r, deps x ≠ none := by
  induction n with
  | zero => intro id o r h; simp [resolve] at h
  | succ n ih =>
    intro id o r h ho
    obtain ⟨ds, o', hd, hl, rfl⟩ := resolve_succ_ok.1 h
    have key : ∀ (ds : List ι) (o o' : List ι), resolve.loop (resolve deps n) id ds o = .ok o' →
        (∀ x ∈ o, deps x ≠ none) → ∀ x ∈ o', deps x ≠ none := by
      intro ds
      induction ds with
      | nil => intro o o' h ho; cases h; exact ho
      | cons d ds ihd =>
        intro o o' h ho
        obtain ⟨o1, h1, h2, h3⟩ := loop_cons_ok.1 h
        exact ihd o1 o' h3 (ih d o o1 h1 ho)
    intro x hx
    rcases List.mem_append.1 hx with hx | hx
    · exact key ds o o' hl ho x hx
    · simp only [List.mem_singleton] at hx
      rw [hx, hd]; simp

/-- A compiled program consists of the layers that the history of the file has drawn. -/
theorem compile_layers {env : Env} {ignore : Bool} {file : List Visitor.Cmd} {prog : List (Command LayerId)}
    (h : compile env ignore file = .ok prog) :
    ∃ c layers, compiled env (executed (!ignore) file) = .ok c ∧ prog = program layers ∧
      ∀ l ∈ layers, c.buffers.get? l.id = some l.cmds := by
  unfold compile finish at h
  obtain ⟨c, h1, h2⟩ := Vm.bind_ok.1 h
  rw [Props.State.file_is_run] at h1 h2
  split at h2
  · cases h2
  · obtain ⟨order, h3, h4⟩ := Vm.bind_ok.1 h2
    cases h4
    refine ⟨c, order.map (fun id => ⟨id, (c.buffers.get? id).getD []⟩), h1, ?_, ?_⟩
    · simp [program, layerCommands, List.flatMap_map]
    · intro l hl
      obtain ⟨id, hid, rfl⟩ := List.mem_map.1 hl
      have := resolve_known _ _ _ _ h3 (by simp) id hid
      cases hg : c.buffers.get? id with
      | none => simp [dependsOn, hg] at this
      | some b => simp

/-- **C64.** The image of a file.  Whatever file compiles and is rendered (with polygons for the shapes): the program
consists of the layers drawn while the commands of the file were executed, each once, and a point is covered in the result
exactly when the last object on the main layer that contains it is dark, pasted layers being objects. -/
theorem c64_image (env : Env) (ignore : Bool) (file : List Visitor.Cmd) (prog : List (Command LayerId))
    (hc : compile env ignore file = .ok prog) (G : Geos) (count : ℝ → ℤ) (fuel : ℕ) (fail : Bool)
    (e : Eager (List (Set (Vec ℝ)))) (hr : Vm.run (shapely G count fuel) fail .main prog = .ok (some e)) :
    ∃ c layers objects, compiled env (executed (!ignore) file) = .ok c ∧
      (∀ l ∈ layers, c.buffers.get? l.id = some l.cmds) ∧ (layers.map Spec.Layer.id).Nodup ∧
      Shows (shapelyOutline G count fuel) layers LayerId.main objects ∧
      ∀ p, p ∈ shapelyResult e ↔ Covered objects p := by
  obtain ⟨c, layers, h1, rfl, h2⟩ := compile_layers hc
  obtain ⟨o, h3, h4, -, h5⟩ := Props.Painting.c55_shapely G count fuel fail _ _ e hr
  unfold Vm.run at h3
  obtain ⟨m, h6, h7⟩ := Vm.bind_ok.1 h3
  obtain ⟨k1, k2⟩ := exec_program fail layers [] Machine.init m rfl (by intro k e h; cases h) (by simp) (by simp) h6
  have hg : m.layers.get? .main = some (.eager o) := by
    revert h7
    cases m.layers.get? LayerId.main with
    | none => intro h7; cases fail <;> cases h7
    | some x =>
      cases x with
      | deferred _ _ => intro h7; cases h7
      | eager e => intro h7; cases h7; rfl
  obtain ⟨k3, k4⟩ := k1 _ _ hg
  refine ⟨c, layers, o.content, h1, h2, by simpa using k2, by simpa using k4, fun p => ?_⟩
  rw [h5 p, ← h4, k3]
  have : p + (⟨0, 0⟩ : Vec ℝ) = p := by ext <;> simp
  rw [this]

/-- **C64** (the specification determines the image). Layers with different names show one list of objects each. -/
theorem c64_determined {ls : List (Spec.Layer ι)} (hn : (ls.map Spec.Layer.id).Nodup) {id : ι} {os os' : List (Painted (Vec ℝ))}
    (h : Shows outline ls id os) (h' : Shows outline ls id os') : os = os' := by
  refine Shows.rec (motive_1 := fun id os _ => ∀ os', Shows outline ls id os' → os = os')
    (motive_2 := fun ds os _ => ∀ os', ShowsAll outline ls ds os' → os = os') ?_ ?_ ?_ ?_ h os' h'
  · intro l os mem _ ih os' h'
    generalize hi : l.id = i at h'
    cases h' with
    | layer l' os'' mem' drawn' =>
      have : l = l' := List.inj_on_of_nodup_map hn mem mem' hi
      subst this
      exact ih _ drawn'
  · intro os' h'; cases h'; rfl
  · intro s points ds os inside _ ih os' h'
    cases h' with
    | shape _ points' _ os'' inside' more' =>
      rw [inside] at inside'; cases inside'
      rw [ih _ more']
  · intro source center negative objects ds os _ _ ih1 ih2 os' h'
    cases h' with
    | paste _ _ _ objects' _ os'' pasted' more' => rw [ih1 _ pasted', ih2 _ more']

/-! ### A sample -/

/-- Outlines of lines are polygons. -/
theorem lines_ok (count : ℝ → ℤ) (fuel : ℕ) : ∀ (gs : List Segment) (points : List (Vec ℝ)),
    (∀ g ∈ gs, ∃ l, g = .line l) →
    ∃ pts, shapelyLoop count fuel gs points = .ok pts ∧ points.length + gs.length ≤ pts.length
  | [], points, _ => ⟨points, rfl, by simp⟩
  | g :: gs, points, h => by
    obtain ⟨l, rfl⟩ := h g (by simp)
    obtain ⟨pts, h1, h2⟩ := lines_ok count fuel gs (addStart points l.start ++ [l.stop]) (fun g hg => h g (by simp [hg]))
    refine ⟨pts, h1, ?_⟩
    have : points.length ≤ (addStart points l.start).length := by
      unfold addStart; split <;> simp
    simp only [List.length_append, List.length_cons, List.length_nil] at h2 ⊢
    omega

/-- A rectangular pad. -/
def padFile : List Visitor.Cmd :=
  [.leaf (.fs {}), .leaf (.ad ['D','1','0'] (.rect 4 2 none)), .leaf (.dnn ['D','1','0']), .leaf (.d03 none none)]

open Visitor Props.Compiler Props.State in
/-- Non-vacuity of C64: a file with a pad compiles and is rendered. -/
example (G : Geos) : ∃ prog, compile env0 false padFile = .ok prog ∧
    ∃ e, Vm.run (shapely G shapelyCount 1) false .main prog = .ok (some e) := by
  eval_compiler [compile, finish, file_is_run, executed, isStop, atomsOf, atomsOfAll, padFile, convert, resolve_step, resolve.loop,
    dependsOn, Draw.sources, List.dedup_cons_of_mem, List.dedup_cons_of_notMem]
  generalize hT : transformMatrix {} = M
  obtain ⟨pts, h1, h2⟩ := lines_ok shapelyCount 1 ((Shape.newRectangle ⟨0, 0⟩ 4 2 false).transform M).segments [] (by
    intro g hg
    simp only [Shape.transform, Shape.newRectangle, Shape.ln, Shape.segments, List.map_cons, List.map_nil, Segment.transform,
      List.mem_cons, List.not_mem_nil, or_false] at hg
    rcases hg with rfl | rfl | rfl | rfl <;> exact ⟨_, rfl⟩)
  have h3 : ¬ (pts ++ pts.head?.toList).length < 4 := by
    have : (Shape.newRectangle ⟨0, 0⟩ 4 2 false).segments.length = 4 := rfl
    simp [Shape.transform, Shape.newRectangle, Shape.segments] at h2 ⊢
    omega
  have h4 : ¬ (pts.length + pts.head?.toList.length < 4) := by simpa using h3
  simp [layerCommands, Vm.run, exec, Vm.step, onStart, Machine.init, Dict.get?_set, onDraw, record, onEnd, deferredBox, commandBox,
    boxLoop, bind, Except.bind, pure, Except.pure, replay, paint, target, shapely, settle, shapelyShape, shapelyVertices, h1,
    addPolygon, h4]

end Verif.Props.Image
