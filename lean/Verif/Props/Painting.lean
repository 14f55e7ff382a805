import Verif.Lemmas.Sim
import Verif.Lemmas.Render
import Verif.Spec.Render

/-!
# C55: painting
-/

namespace Verif.Props.Painting
open Verif.Geom Verif.Rvmc Verif.Vm Verif.Spec Verif.Render

theorem covered_nil {α : Type} (p : α) : ¬ Covered ([] : List (Painted α)) p := by
  rintro ⟨b, o, a, h, -⟩; simp at h

/-- The last object decides for the points it contains. -/
theorem covered_snoc {α : Type} (objs : List (Painted α)) (o : Painted α) (p : α) :
    Covered (objs ++ [o]) p ↔ (p ∈ o.points ∧ o.dark = true) ∨ (p ∉ o.points ∧ Covered objs p) := by
  constructor
  · rintro ⟨b, x, a, h, hx, ha, hd⟩
    rcases List.eq_nil_or_concat a with rfl | ⟨a', y, rfl⟩
    · have : b ++ [x] = objs ++ [o] := h.symm
      obtain ⟨rfl, hxo⟩ := List.append_inj' this rfl
      simp only [List.cons.injEq, and_true] at hxo
      subst hxo
      exact .inl ⟨hx, hd⟩
    · have : (b ++ x :: a') ++ [y] = objs ++ [o] := by rw [h]; simp
      obtain ⟨rfl, hyo⟩ := List.append_inj' this rfl
      simp only [List.cons.injEq, and_true] at hyo
      subst hyo
      exact .inr ⟨ha y (by simp), b, x, a', rfl, hx, fun o' ho' => ha o' (by simp [ho']), hd⟩
  · rintro (⟨h1, h2⟩ | ⟨h1, b, x, a, rfl, hx, ha, hd⟩)
    · exact ⟨objs, o, [], rfl, h1, by simp, h2⟩
    · refine ⟨b, x, a ++ [o], by simp, hx, ?_, hd⟩
      intro o' ho'
      rcases List.mem_append.mp ho' with h | h
      · exact ha o' h
      · simp only [List.mem_singleton] at h; rwa [h]

/-! ### Shapely -/

/-- The points of a layer's geometries. -/
def union (shapes : List (Set (Vec ℝ))) : Set (Vec ℝ) := {p | ∃ (i : ℕ) (g : Set (Vec ℝ)), shapes[i]? = some g ∧ p ∈ g}

theorem mem_union_append (shapes more : List (Set (Vec ℝ))) (p : Vec ℝ) :
    p ∈ union (shapes ++ more) ↔ p ∈ union shapes ∨ p ∈ union more := by
  have h : ∀ l : List (Set (Vec ℝ)), p ∈ union l ↔ ∃ g ∈ l, p ∈ g := by
    intro l
    constructor
    · rintro ⟨i, g, h, hp⟩; exact ⟨g, List.mem_of_getElem? h, hp⟩
    · rintro ⟨g, h, hp⟩; obtain ⟨i, hi⟩ := List.mem_iff_getElem?.mp h; exact ⟨i, g, hi, hp⟩
  rw [h, h, h]
  simp only [List.mem_append, or_and_right, exists_or]

theorem union_eq (e : Eager (List (Set (Vec ℝ)))) : shapelyResult e = union e.content := by
  ext p
  constructor
  · rintro ⟨g, h, hp⟩; obtain ⟨i, hi⟩ := List.mem_iff_getElem?.mp h; exact ⟨i, g, hi, hp⟩
  · rintro ⟨i, g, h, hp⟩; exact ⟨g, List.mem_of_getElem? h, hp⟩

/-- Members at the given indices lose the points of the geometry. -/
theorem subtractAt_get (L : List ℕ) (g : Set (Vec ℝ)) (shapes : List (Set (Vec ℝ))) (i : ℕ) :
    (subtractAt L g shapes)[i]? = (shapes[i]?).map (fun x => {p | p ∈ x ∧ (i ∈ L → p ∉ g)}) := by
  induction L generalizing shapes with
  | nil => simp [subtractAt]
  | cons j L ih =>
    have : subtractAt (j :: L) g shapes = subtractAt L g (shapes.modify j (· \ g)) := rfl
    rw [this, ih, List.getElem?_modify]
    cases shapes[i]? with
    | none => simp
    | some x =>
      by_cases hij : j = i
      · subst hij
        simp only [if_true, Option.map_eq_map, Option.map_some, Option.some.injEq]
        ext p
        simp only [List.mem_cons, true_or, true_implies, Set.mem_ofPred_eq, Set.mem_sdiff]
        constructor
        · rintro ⟨⟨h1, h2⟩, -⟩; exact ⟨h1, h2⟩
        · rintro ⟨h1, h2⟩; exact ⟨⟨h1, h2⟩, fun _ => h2⟩
      · have hne : i ≠ j := fun h => hij h.symm
        simp only [if_neg hij, List.mem_cons, hne, false_or, Option.map_eq_map, Option.map_some, id_eq]

theorem mem_query (G : Geos) (shapes : List (Set (Vec ℝ))) (g x : Set (Vec ℝ)) (i : ℕ) (h : shapes[i]? = some x)
    (p : Vec ℝ) (hp : p ∈ x) (hg : p ∈ g) : i ∈ G.query shapes g := by
  unfold Geos.query
  obtain ⟨hi, hx⟩ := List.getElem?_eq_some_iff.mp h
  rw [List.mem_filter]
  refine ⟨by simpa using hi, ?_⟩
  have : shapes.getD i ∅ = x := by rw [List.getD_eq_getElem?_getD, h]; rfl
  rw [this]
  by_contra hne
  have := G.meets_complete x g (by simpa using hne)
  have : p ∈ x ∩ g := ⟨hp, hg⟩
  simp_all

theorem addGeometry_union (G : Geos) (shapes : List (Set (Vec ℝ))) (g : Set (Vec ℝ)) (neg : Bool) (p : Vec ℝ) :
    p ∈ union (addGeometry G shapes g neg) ↔ (p ∈ g ∧ neg = false) ∨ (p ∉ g ∧ p ∈ union shapes) := by
  unfold addGeometry
  cases neg
  · simp only [Bool.false_eq_true, if_false, mem_union_append]
    have : p ∈ union [g] ↔ p ∈ g := by
      constructor
      · rintro ⟨i, x, h, hp⟩
        cases i with
        | zero => simp at h; rwa [h]
        | succ i => simp at h
      · intro h; exact ⟨0, g, rfl, h⟩
    rw [this]
    by_cases h : p ∈ g <;> simp [h]
  · simp only [if_true]
    constructor
    · rintro ⟨i, x, h, hp⟩
      rw [subtractAt_get] at h
      obtain ⟨y, hy, rfl⟩ := Option.map_eq_some_iff.mp h
      obtain ⟨h1, h2⟩ := hp
      have h3 : p ∉ g := fun hg => h2 (mem_query G shapes g y i hy p h1 hg) hg
      exact .inr ⟨h3, i, y, hy, h1⟩
    · rintro (⟨-, h⟩ | ⟨h, i, x, hx, hp⟩)
      · cases h
      · exact ⟨i, {p | p ∈ x ∧ (i ∈ G.query shapes g → p ∉ g)}, by rw [subtractAt_get, hx]; rfl, hp, fun _ => h⟩

theorem subtractAll_get (qs : List (List ℕ × Set (Vec ℝ))) (acc : List (Set (Vec ℝ))) (i : ℕ) :
    (qs.foldl (fun acc q => subtractAt q.1 q.2 acc) acc)[i]? =
      (acc[i]?).map (fun x => {p | p ∈ x ∧ ∀ q ∈ qs, i ∈ q.1 → p ∉ q.2}) := by
  induction qs generalizing acc with
  | nil => simp
  | cons q qs ih =>
    rw [List.foldl_cons, ih, subtractAt_get, Option.map_map]
    congr 1
    funext x
    ext p
    simp only [Function.comp_apply, Set.mem_ofPred_eq, List.mem_cons, forall_eq_or_imp, and_assoc]

theorem pasteGeometries_union (G : Geos) (shapes moved : List (Set (Vec ℝ))) (neg : Bool) (p : Vec ℝ) :
    p ∈ union (pasteGeometries G shapes moved neg) ↔
      (p ∈ union moved ∧ neg = false) ∨ (p ∉ union moved ∧ p ∈ union shapes) := by
  unfold pasteGeometries
  cases neg
  · simp only [Bool.false_eq_true, if_false, mem_union_append]
    by_cases h : p ∈ union moved <;> simp [h]
  · simp only [if_true]
    constructor
    · rintro ⟨i, x, h, hp⟩
      rw [subtractAll_get] at h
      obtain ⟨y, hy, rfl⟩ := Option.map_eq_some_iff.mp h
      obtain ⟨h1, h2⟩ := hp
      refine .inr ⟨?_, i, y, hy, h1⟩
      rintro ⟨j, g, hg, hpg⟩
      have hm := List.mem_of_getElem? hg
      exact h2 _ (List.mem_map_of_mem hm) (mem_query G shapes g y i hy p h1 hpg) hpg
    · rintro (⟨-, h⟩ | ⟨h, i, x, hx, hp⟩)
      · cases h
      · refine ⟨i, {p | p ∈ x ∧ ∀ q ∈ moved.map (fun g => (G.query shapes g, g)), i ∈ q.1 → p ∉ q.2},
          by rw [subtractAll_get, hx]; rfl, hp, fun q hq _ hpq => h ?_⟩
        obtain ⟨g, hg, rfl⟩ := List.mem_map.mp hq
        obtain ⟨j, hj⟩ := List.mem_iff_getElem?.mp hg
        exact ⟨j, g, hj, hpq⟩

/-- The points of a shape: the polygon of its vertices. -/
noncomputable def shapelyOutline (G : Geos) (count : ℝ → ℤ) (fuel : ℕ) (s : Shape) : Except VErr (Set (Vec ℝ)) :=
  match shapelyVertices count fuel s with
  | .error x => .error (arcErr x)
  | .ok pts => if pts.length < 4 then .error .backend else .ok (G.region pts)

/-- A layer of the code shows what the objects on it cover. -/
def Shows (e : Eager (List (Set (Vec ℝ)))) (o : Eager (List (Painted (Vec ℝ)))) : Prop :=
  e.origin = o.origin ∧ e.box = o.box ∧ ∀ p, p ∈ union e.content ↔ Covered o.content (p + e.origin)

theorem vec_add_sub (p o : Vec ℝ) : p - (-o) = p + o := by ext <;> simp

theorem shapely_simulates (G : Geos) (count : ℝ → ℤ) (fuel : ℕ) :
    Simulates (shapely G count fuel) (painting (shapelyOutline G count fuel)) Shows where
  same h := ⟨h.1, h.2.1⟩
  create {o b c₁} h := by
    cases h
    refine ⟨[], rfl, rfl, rfl, fun p => ?_⟩
    constructor
    · rintro ⟨i, g, h, -⟩; simp at h
    · intro h; exact (covered_nil _ h).elim
  shape {e₁ e₂ s c₁} hR h := by
    obtain ⟨h1, h2, h3⟩ := hR
    simp only [shapely, shapelyShape] at h
    split at h
    · cases h
    · rename_i pts hv
      unfold addPolygon at h
      split_ifs at h with hlen
      cases h
      refine ⟨e₂.content ++ [⟨!s.negative, G.region pts⟩], ?_, h1, h2, fun p => ?_⟩
      · simp only [painting, shapelyOutline, hv, if_neg hlen, bind, Except.bind, pure, Except.pure]
      · simp only
        rw [addGeometry_union, covered_snoc, G.region_move, h3]
        simp only [Set.mem_ofPred_eq, vec_add_sub, Bool.not_eq_true']
  paste {e₁ e₂ s₁ s₂ c n c₁} hR hS h := by
    obtain ⟨h1, h2, h3⟩ := hR
    obtain ⟨g1, g2, g3⟩ := hS
    cases h
    refine ⟨_, rfl, h1, h2, fun p => ?_⟩
    simp only [shapelyPaste]
    rw [pasteGeometries_union, covered_snoc, h3]
    have hm : p ∈ union (s₁.content.map (fun g => {p | p - (-e₁.origin + c) ∈ g})) ↔
        Covered s₂.content (p + e₁.origin - c + s₂.origin) := by
      have e1 : p + e₁.origin - c + s₂.origin = (p - (-e₁.origin + c)) + s₁.origin := by
        rw [g1]; ext <;> simp <;> ring
      rw [e1, ← g3]
      constructor
      · rintro ⟨i, g, hg, hp⟩
        rw [List.getElem?_map] at hg
        obtain ⟨y, hy, rfl⟩ := Option.map_eq_some_iff.mp hg
        exact ⟨i, y, hy, hp⟩
      · rintro ⟨i, g, hg, hp⟩
        exact ⟨i, _, by rw [List.getElem?_map, hg]; rfl, hp⟩
    simp only [hm, Set.mem_ofPred_eq, Bool.not_eq_true']

/-- **C55.** Whatever program the Shapely backend renders, with any nesting and pasting of layers: a point is covered in
the result exactly when the last object drawn on the main layer that contains it is dark.  The objects are the polygons of
the shapes, and for each pasted layer what is covered on it.  (Results are relative to the origin of the main layer.) -/
theorem c55_shapely {ι : Type} [DecidableEq ι] (G : Geos) (count : ℝ → ℤ) (fuel : ℕ) (fail : Bool) (main : ι)
    (prog : List (Command ι)) (e : Eager (List (Set (Vec ℝ)))) (h : run (shapely G count fuel) fail main prog = .ok (some e)) :
    ∃ o, run (painting (shapelyOutline G count fuel)) fail main prog = .ok (some o) ∧ o.origin = e.origin ∧ o.box = e.box ∧
      ∀ p, p ∈ shapelyResult e ↔ Covered o.content (p + e.origin) := by
  obtain ⟨o, h1, h2, h3, h4⟩ := run_sim (shapely_simulates G count fuel) h
  exact ⟨o, h1, h2.symm, h3.symm, fun p => by rw [union_eq]; exact h4 p⟩

/-- Shapes drawn one after the other on a layer of known size. -/
theorem exec_shapes {ι κ : Type} [DecidableEq ι] (B : Backend κ) (fail : Bool) (main : ι) :
    ∀ (shapes : List Shape) (m m' : Machine ι κ) (e : Eager κ), m.deferring = false → m.stack = [main] →
      m.layers.get? main = some (.eager e) → exec B fail (shapes.map (fun s => .draw (.shape s)) ++ [.stop]) m = .ok m' →
      ∃ e', m'.layers.get? main = some (.eager e') ∧ e'.origin = e.origin ∧ e'.box = e.box ∧
        shapes.foldlM (fun c s => B.shape { e with content := c } s) e.content = .ok e'.content
  | [], m, m', e, hd, hs, hl, h => by
    simp only [List.map_nil, List.nil_append, exec, step, onEnd, hs, hl] at h
    cases h
    exact ⟨e, hl, rfl, rfl, rfl⟩
  | s :: shapes, m, m', e, hd, hs, hl, h => by
    simp only [List.map_cons, List.cons_append, exec, step] at h
    obtain ⟨m1, h1, h⟩ := bind_eq_ok h
    rw [onDraw_cons B _ m main [] hs, hd, if_neg (by simp)] at h1
    obtain ⟨L, h2, h3⟩ := bind_eq_ok h1
    cases h3
    simp only [paint, target, hl] at h2
    obtain ⟨e1, h4, h2⟩ := bind_eq_ok h2
    cases h4
    obtain ⟨c, h5, h2⟩ := bind_eq_ok h2
    cases h2
    obtain ⟨e', a1, a2, a3, a4⟩ := exec_shapes B fail main shapes
      { m with layers := m.layers.set main (.eager { e with content := c }) } m' { e with content := c } hd hs
      (Dict.get?_set_self _ _ _) (by rw [hd]; exact h)
    refine ⟨e', a1, a2, a3, ?_⟩
    rw [List.foldlM_cons]
    change Except.bind (B.shape e s) _ = _
    rw [h5]
    exact a4

theorem painting_shapes (outline : Shape → Except VErr (Set (Vec ℝ))) (o : Eager (List (Painted (Vec ℝ)))) :
    ∀ (shapes : List Shape) (acc objs : List (Painted (Vec ℝ))),
      shapes.foldlM (fun c s => (painting outline).shape { o with content := c } s) acc = .ok objs →
      ∃ new, objs = acc ++ new ∧ List.Forall₂ (fun s x => outline s = .ok x.points ∧ x.dark = !s.negative) shapes new
  | [], acc, objs, h => by cases h; exact ⟨[], by simp, .nil⟩
  | s :: shapes, acc, objs, h => by
    rw [List.foldlM_cons] at h
    obtain ⟨c, h1, h⟩ := bind_eq_ok h
    obtain ⟨pts, h2, h3⟩ := bind_eq_ok h1
    cases h3
    obtain ⟨new, rfl, h4⟩ := painting_shapes outline o shapes _ objs h
    exact ⟨⟨!s.negative, pts⟩ :: new, by simp, .cons ⟨h2, rfl⟩ h4⟩

/-- **C55.** A list of dark and clear shapes drawn on one layer: a point is covered in the result exactly when the last
shape whose polygon contains it is dark. -/
theorem c55_shapes {ι : Type} [DecidableEq ι] (G : Geos) (count : ℝ → ℤ) (fuel : ℕ) (fail : Bool) (main : ι)
    (box : Box ℝ) (origin : Vec ℝ) (shapes : List Shape) (e : Eager (List (Set (Vec ℝ))))
    (h : run (shapely G count fuel) fail main
      (.start main (some box) origin :: (shapes.map (fun s => .draw (.shape s)) ++ [.stop])) = .ok (some e)) :
    ∃ objects, List.Forall₂ (fun s x => shapelyOutline G count fuel s = .ok x.points ∧ x.dark = !s.negative) shapes objects ∧
      ∀ p, p ∈ shapelyResult e ↔ Covered objects (p + origin) := by
  obtain ⟨o, h1, h2, h3, h4⟩ := c55_shapely G count fuel fail main _ e h
  unfold run at h1
  obtain ⟨m, h5, h1⟩ := bind_eq_ok h1
  simp only [exec, step, onStart, Machine.init, Dict.get?_nil] at h5
  obtain ⟨m1, h6, h5⟩ := bind_eq_ok h5
  obtain ⟨c, h7, h6⟩ := bind_eq_ok h6
  cases h7
  cases h6
  obtain ⟨o', a1, a2, a3, a4⟩ := exec_shapes _ fail main shapes _ m ⟨origin, box, []⟩ rfl rfl
    (Dict.get?_set_self _ _ _) h5
  rw [a1] at h1
  cases h1
  obtain ⟨new, hnew, hf⟩ := painting_shapes _ _ _ _ _ a4
  have ho : e.origin = origin := by rw [← h2, a2]
  refine ⟨new, hf, fun p => ?_⟩
  rw [h4 p, hnew, ho]; rfl

/-! A case: a dark square and a smaller clear one. -/

/-- Polygons approximated by their bounding boxes satisfy what is assumed of the geometry library. -/
def boxGeos : Geos where
  region pts := {p | (∃ a ∈ pts, a.x ≤ p.x) ∧ (∃ a ∈ pts, p.x ≤ a.x) ∧ (∃ a ∈ pts, a.y ≤ p.y) ∧ ∃ a ∈ pts, p.y ≤ a.y}
  meets _ _ := true
  region_move pts v := by
    ext p
    simp only [Set.mem_ofPred_eq, List.mem_map, exists_exists_and_eq_and, Vec.add_x, Vec.add_y, Vec.sub_x, Vec.sub_y,
      le_sub_iff_add_le, sub_le_iff_le_add]
  meets_complete _ _ h := by cases h

theorem rect_vertices (count : ℝ → ℤ) (fuel : ℕ) (c : Vec ℝ) (w h : ℝ) (neg : Bool) :
    ∃ pts, shapelyVertices count fuel (Shape.newRectangle c w h neg) = .ok pts ∧ ¬ pts.length < 4 := by
  refine ⟨_, rfl, ?_⟩
  have hle : ∀ (l : List (Vec ℝ)) (p : Vec ℝ), l.length ≤ (addStart l p).length := by
    intro l p; unfold addStart; split_ifs <;> simp
  have h1 : ∀ (l : List (Vec ℝ)) (p q : Vec ℝ), l.length < (addStart l p ++ [q]).length := by
    intro l p q; have := hle l p; simp only [List.length_append, List.length_singleton]; omega
  rw [List.length_append]
  set l1 := addStart [] (⟨c.x - w / 2, c.y - h / 2⟩ : Vec ℝ) ++ [⟨c.x + w / 2, c.y - h / 2⟩] with e1
  have a : 0 < l1.length := h1 [] _ _
  set l2 := addStart l1 ⟨c.x + w / 2, c.y - h / 2⟩ ++ [⟨c.x + w / 2, c.y + h / 2⟩] with e2
  have b : l1.length < l2.length := h1 l1 _ _
  set l3 := addStart l2 ⟨c.x + w / 2, c.y + h / 2⟩ ++ [⟨c.x - w / 2, c.y + h / 2⟩] with e3
  have d : l2.length < l3.length := h1 l2 _ _
  have f := h1 l3 ⟨c.x - w / 2, c.y + h / 2⟩ ⟨c.x - w / 2, c.y - h / 2⟩
  dsimp only at f ⊢
  omega

example : ∃ e, run (shapely boxGeos shapelyCount 1) false "main"
    (.start "main" (some ⟨-2, -2, 2, 2⟩) ⟨0, 0⟩ ::
      ([Shape.newRectangle ⟨0, 0⟩ 4 4 false, Shape.newRectangle ⟨0, 0⟩ 2 2 true].map (fun s => .draw (.shape s)) ++
        [.stop])) = .ok (some e) := by
  obtain ⟨p, hp, lp⟩ := rect_vertices shapelyCount 1 ⟨0, 0⟩ 4 4 false
  obtain ⟨q, hq, lq⟩ := rect_vertices shapelyCount 1 ⟨0, 0⟩ 2 2 true
  refine ⟨⟨⟨0, 0⟩, ⟨-2, -2, 2, 2⟩, addGeometry boxGeos (addGeometry boxGeos [] (boxGeos.region (p.map (· + (-⟨0, 0⟩)))) false)
    (boxGeos.region (q.map (· + (-⟨0, 0⟩)))) true⟩, ?_⟩
  simp only [List.map_cons, List.map_nil, List.cons_append, List.nil_append, run, exec, step, onStart, Machine.init,
    Dict.get?_nil, shapely, bind, Except.bind, pure, Except.pure]
  rw [onDraw_cons _ _ _ "main" [] rfl]
  simp only [Bool.false_eq_true, if_false, paint, target, Dict.get?_set_self, bind, Except.bind, shapelyShape, hp,
    addPolygon, if_neg lp, pure, Except.pure]
  rw [onDraw_cons _ _ _ "main" [] rfl]
  simp only [Bool.false_eq_true, if_false, paint, target, Dict.get?_set_self, bind, Except.bind, shapelyShape, hq,
    addPolygon, if_neg lq, pure, Except.pure, onEnd, settle]
  rfl

/-! ### Pillow -/

theorem toPixel_eq (dpmm : ℤ) (x : ℝ) : toPixel dpmm x = towardZero (x * dpmm) := by
  unfold toPixel truncate towardZero
  split_ifs
  · rfl
  · rw [Int.floor_neg, neg_neg]

theorem corner_eq (b : Box ℝ) : corner b = lowerLeft b := by
  have h : ∀ x y : ℝ, (y + x) / 2 - |y - x| / 2 = min x y := by
    intro x y
    rcases le_total x y with h | h
    · rw [abs_of_nonneg (by linarith), min_eq_left h]; ring
    · rw [abs_of_nonpos (by linarith), min_eq_right h]; ring
  unfold corner lowerLeft Box.center Box.width Box.height
  ext
  · exact h _ _
  · exact h _ _

/-- The vertices of a shape. -/
noncomputable def pillowOutline (dpmm : ℤ) (fuel : ℕ) (s : Shape) : Except VErr (List (Vec ℝ)) :=
  match pillowVertices dpmm fuel s with
  | .error x => .error (arcErr x)
  | .ok pts => .ok pts

/-- An image of the code shows what the objects on it cover. -/
def Lights (dpmm : ℤ) (e : Eager Bitmap) (o : Eager (List (Painted (ℤ × ℤ)))) : Prop :=
  e.origin = o.origin ∧ e.box = o.box ∧ e.content.frame = imageOf dpmm e.box ∧
    e.content.height = towardZero (|e.box.maxY - e.box.minY| * dpmm) ∧
    ∀ q, q ∈ e.content.lit ↔ q ∈ e.content.frame ∧ Covered o.content q

theorem paint_frame (i : Bitmap) (px : Set (ℤ × ℤ)) (v : Bool) : (i.paint px v).frame = i.frame := rfl

theorem mem_paint (i : Bitmap) (px : Set (ℤ × ℤ)) (v : Bool) (q : ℤ × ℤ) (hq : q ∈ i.lit → q ∈ i.frame) :
    q ∈ (i.paint px v).lit ↔ q ∈ i.frame ∧ ((q ∈ px ∧ v = true) ∨ (q ∉ px ∧ q ∈ i.lit)) := by
  unfold Bitmap.paint
  cases v
  · simp only [Bool.false_eq_true, if_false, Set.mem_sdiff, Set.mem_inter_iff, not_and]
    constructor
    · rintro ⟨h1, h2⟩; exact ⟨hq h1, .inr ⟨fun h => h2 h (hq h1), h1⟩⟩
    · rintro ⟨h1, ⟨-, h⟩ | ⟨h2, h3⟩⟩
      · cases h
      · exact ⟨h3, fun h => (h2 h).elim⟩
  · simp only [if_true, Set.mem_union, Set.mem_inter_iff]
    constructor
    · rintro (h | ⟨h1, h2⟩)
      · by_cases hp : q ∈ px
        · exact ⟨hq h, .inl ⟨hp, trivial⟩⟩
        · exact ⟨hq h, .inr ⟨hp, h⟩⟩
      · exact ⟨h2, .inl ⟨h1, trivial⟩⟩
    · rintro ⟨h1, ⟨h2, -⟩ | ⟨-, h2⟩⟩
      · exact .inr ⟨h2, h1⟩
      · exact .inl h2

theorem pixel_offset (dpmm : ℤ) (e src : Eager Bitmap) (c : Vec ℝ) :
    pillowOffset dpmm e src c = pixel dpmm (c + lowerLeft src.box - src.origin - lowerLeft e.box) := by
  have hs := corner_eq src.box
  unfold pillowOffset pixel
  rw [toPixel_eq, toPixel_eq, corner_eq]
  have hx : (lowerLeft src.box).x = src.box.center.x - src.box.width / 2 := by rw [← hs]; rfl
  have hy : (lowerLeft src.box).y = src.box.center.y - src.box.height / 2 := by rw [← hs]; rfl
  simp only [Vec.sub_x, Vec.sub_y, Vec.add_x, Vec.add_y, hx, hy]
  congr 3 <;> ring

theorem pillow_simulates (Ra : Raster) (dpmm : ℤ) (fuel : ℕ) :
    Simulates (pillow Ra dpmm fuel) (pixelPainting dpmm (pillowOutline dpmm fuel) Ra.fill) (Lights dpmm) where
  same h := ⟨h.1, h.2.1⟩
  create {o b c₁} h := by
    simp only [pillow, pillowCreate] at h
    split_ifs at h
    cases h
    refine ⟨[], rfl, rfl, rfl, ?_, ?_, fun q => ?_⟩
    · unfold Bitmap.frame imageOf
      simp only [toPixel_eq]
      rfl
    · simp only [toPixel_eq]; rfl
    · simp only [Set.mem_empty_iff_false, false_iff, not_and]
      exact fun _ => covered_nil _
  shape {e₁ e₂ s c₁} hR h := by
    obtain ⟨h1, h2, h3, h4, h5⟩ := hR
    simp only [pillow, pillowShape] at h
    split at h
    · cases h
    · rename_i pts hv
      cases h
      refine ⟨e₂.content ++ [⟨!s.negative, Ra.fill (pts.map (fun p => pixel dpmm (p - lowerLeft e₂.box)))⟩],
        by simp only [pixelPainting, pillowOutline, hv, bind, Except.bind, pure, Except.pure],
        h1, h2, h3, h4, fun q => ?_⟩
      have hpts : pts.map (fun p => (toPixel dpmm (p.x - (corner e₁.box).x), toPixel dpmm (p.y - (corner e₁.box).y))) =
          pts.map (fun p => pixel dpmm (p - lowerLeft e₂.box)) := by
        apply List.map_congr_left
        intro p _
        rw [toPixel_eq, toPixel_eq, corner_eq, h2]; rfl
      simp only [pillowPolygon, hpts]
      rw [mem_paint _ _ _ _ (fun h => ((h5 q).mp h).1), covered_snoc, paint_frame, h5]
      simp only
      constructor
      · rintro ⟨a, b | ⟨b, -, c⟩⟩
        · exact ⟨a, .inl b⟩
        · exact ⟨a, .inr ⟨b, c⟩⟩
      · rintro ⟨a, b | ⟨b, c⟩⟩
        · exact ⟨a, .inl b⟩
        · exact ⟨a, .inr ⟨b, a, c⟩⟩
  paste {e₁ e₂ s₁ s₂ c n c₁} hR hS h := by
    obtain ⟨h1, h2, h3, h4, h5⟩ := hR
    obtain ⟨g1, g2, g3, g4, g5⟩ := hS
    cases h
    refine ⟨_, rfl, h1, h2, h3, h4, fun q => ?_⟩
    rw [covered_snoc]
    simp only [pillowPaste, pixel_offset]
    rw [← h2, ← g1, ← g2]
    generalize pixel dpmm (c + lowerLeft s₁.box - s₁.origin - lowerLeft e₁.box) = off
    have hb : (e₁.content.paste (if n then s₁.content.invert else s₁.content) s₁.content off).frame = e₁.content.frame := rfl
    rw [hb]
    simp only [Bitmap.paste, Set.mem_ofPred_eq]
    generalize hr : (q.1 - off.1, q.2 - off.2) = r
    have hmask : (r ∈ s₁.content.frame ∧ r ∈ s₁.content.lit) ↔ (r ∈ imageOf dpmm s₁.box ∧ Covered s₂.content r) := by
      rw [g5, ← g3]; tauto
    rw [h5]
    split_ifs with hc hn
    · obtain ⟨c1, c2, c3⟩ := hc
      have hin := hmask.mp ⟨c2, c3⟩
      subst hn
      simp only [Bitmap.invert, Set.mem_sdiff, c3, not_true_eq_false, and_false, false_iff, Bool.not_true,
        Bool.false_eq_true, false_or]
      rintro ⟨-, h, -⟩
      exact h hin
    · obtain ⟨c1, c2, c3⟩ := hc
      have hin := hmask.mp ⟨c2, c3⟩
      have hnf : (!n) = true := by simpa using hn
      exact ⟨fun _ => ⟨c1, .inl ⟨hin, hnf⟩⟩, fun _ => c3⟩
    · constructor
      · rintro ⟨c1, c2⟩
        exact ⟨c1, .inr ⟨fun h => hc ⟨c1, hmask.mpr h⟩, c2⟩⟩
      · rintro ⟨c1, ⟨h, -⟩ | ⟨-, h⟩⟩
        · exact (hc ⟨c1, hmask.mpr h⟩).elim
        · exact ⟨c1, h⟩

/-- **C55.** Whatever program the Pillow backend renders: a pixel of the resulting image, whose first row is the top, is
set exactly when it is inside of the image and the last object drawn on the main layer that contains it is dark. -/
theorem c55_pillow {ι : Type} [DecidableEq ι] (Ra : Raster) (dpmm : ℤ) (fuel : ℕ) (fail : Bool) (main : ι)
    (prog : List (Command ι)) (e : Eager Bitmap) (h : run (pillow Ra dpmm fuel) fail main prog = .ok (some e)) :
    ∃ o, run (pixelPainting dpmm (pillowOutline dpmm fuel) Ra.fill) fail main prog = .ok (some o) ∧
      o.origin = e.origin ∧ o.box = e.box ∧
      ∀ column row, (column, row) ∈ (pillowResult e).lit ↔
        (column, towardZero (|e.box.maxY - e.box.minY| * dpmm) - 1 - row) ∈ imageOf dpmm e.box ∧
        Covered o.content (column, towardZero (|e.box.maxY - e.box.minY| * dpmm) - 1 - row) := by
  obtain ⟨o, h1, h2, h3, h4, h5, h6⟩ := run_sim (pillow_simulates Ra dpmm fuel) h
  refine ⟨o, h1, h2.symm, h3.symm, fun i j => ?_⟩
  simp only [pillowResult, Bitmap.flip, Set.mem_ofPred_eq]
  rw [h6, h4, h5]

theorem pillow_rect (dpmm : ℤ) (fuel : ℕ) (c : Vec ℝ) (w h : ℝ) (neg : Bool) :
    ∃ pts, pillowVertices dpmm fuel (Shape.newRectangle c w h neg) = .ok pts := ⟨_, rfl⟩

example (Ra : Raster) : ∃ e, run (pillow Ra 20 1) false "main"
    [.start "main" (some ⟨-2, -2, 2, 2⟩) ⟨0, 0⟩, .draw (.shape (Shape.newRectangle ⟨0, 0⟩ 4 4 false)),
      .draw (.paste "main" ⟨1, 1⟩ true), .stop] = .ok (some e) := by
  obtain ⟨p, hp⟩ := pillow_rect 20 1 ⟨0, 0⟩ 4 4 false
  have h80 : toPixel 20 ((⟨-2, -2, 2, 2⟩ : Box ℝ).width) = 80 := by
    unfold toPixel truncate Box.width
    norm_num
  have h80' : toPixel 20 ((⟨-2, -2, 2, 2⟩ : Box ℝ).height) = 80 := by
    unfold toPixel truncate Box.height
    norm_num
  have hc : pillowCreate 20 ⟨-2, -2, 2, 2⟩ = .ok ⟨80, 80, ∅⟩ := by
    unfold pillowCreate
    rw [if_pos (by unfold Box.width Box.height; norm_num), h80, h80', if_neg (by norm_num)]
  have hv : pillowOutline 20 1 (Shape.newRectangle ⟨0, 0⟩ 4 4 false) = .ok p := by unfold pillowOutline; rw [hp]
  let e0 : Eager Bitmap := ⟨⟨0, 0⟩, ⟨-2, -2, 2, 2⟩, ⟨80, 80, ∅⟩⟩
  let e1 : Eager Bitmap := { e0 with content := pillowPolygon Ra 20 e0 p false }
  refine ⟨{ e1 with content := pillowPaste 20 e1 e1 ⟨1, 1⟩ true }, ?_⟩
  simp only [run, exec, step, onStart, Machine.init, Dict.get?_nil, pillow, bind, Except.bind, pure, Except.pure, hc]
  rw [onDraw_cons _ _ _ "main" [] rfl]
  simp only [Bool.false_eq_true, if_false, paint, target, Dict.get?_set_self, bind, Except.bind, pillowShape, hp,
    pure, Except.pure]
  rw [onDraw_cons _ _ _ "main" [] rfl]
  simp only [Bool.false_eq_true, if_false, paint, target, Dict.get?_set_self, bind, Except.bind,
    pure, Except.pure, onEnd, settle]
  rfl

end Verif.Props.Painting
