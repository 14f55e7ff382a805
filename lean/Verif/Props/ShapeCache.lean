import Verif.Spec.ShapeCache
import Mathlib.Tactic.NormNum

/-!
# C72: asking for the box of a shape has no effect
-/

namespace Verif.Props.ShapeCache

open Verif.Geom Verif.ShapeCache Verif.Spec

/-- What is stored is right, and objects that can still be transformed have nothing stored. -/
structure Good (objects : List Object) (as : List Action) : Prop where
  right : ∀ (i : Nat) (o : Object), objects[i]? = some o → ∀ b, o.cached = some b → b = o.shape.outerBox
  fresh : ∀ (i : Nat) (o : Object), objects[i]? = some o → ∀ m, .transform i m ∈ as → o.cached = none

theorem outerBox_shape (o : Object) : o.outerBox.2.shape = o.shape := by unfold Object.outerBox; split <;> rfl

theorem outerBox_right (o : Object) (h : ∀ b, o.cached = some b → b = o.shape.outerBox) : o.outerBox.1 = o.shape.outerBox := by
  unfold Object.outerBox; split
  · next b hb => exact h b hb
  · rfl

theorem outerBox_cached (o : Object) (h : ∀ b, o.cached = some b → b = o.shape.outerBox) :
    ∀ b, o.outerBox.2.cached = some b → b = o.outerBox.2.shape.outerBox := by
  unfold Object.outerBox; split
  · next b hb => exact h
  · next hb => intro b hb; simpa using hb.symm

theorem get_append {α : Type} (l : List α) (x : α) (i : Nat) (o : α) (h : (l ++ [x])[i]? = some o) : l[i]? = some o ∨ o = x := by
  rw [List.getElem?_append] at h
  split at h
  · exact .inl h
  · next hi =>
    cases hk : i - l.length with
    | zero => rw [hk] at h; simp at h; exact .inr h.symm
    | succ k => rw [hk] at h; simp at h

theorem answers_eq (as : List Action) (hf : TransformsFirst as) (objects : List Object) (hg : Good objects as) :
    answers objects as = boxesOf (objects.map (·.shape)) as := by
  induction as generalizing objects with
  | nil => rfl
  | cons a as ih =>
    have tail {os : List Object} (h : Good os (a :: as)) : Good os as :=
      ⟨h.right, fun i o hi m hm => h.fresh i o hi m (List.mem_cons_of_mem _ hm)⟩
    cases a with
    | new shape =>
      simp only [answers, boxesOf, act, boxOf, valueAfter]
      rw [ih hf]
      · simp
      · constructor
        · intro i o hi b hb
          rcases get_append _ _ _ _ hi with hi | rfl
          · exact hg.right i o hi b hb
          · cases hb
        · intro i o hi m hm
          rcases get_append _ _ _ _ hi with hi | rfl
          · exact (tail hg).fresh i o hi m hm
          · rfl
    | outerBox i =>
      simp only [answers, boxesOf, act, boxOf, valueAfter]
      cases ho : objects[i]? with
      | none =>
        simp only [List.getElem?_map, ho, Option.map_none]
        rw [ih hf.2 _ (tail hg)]
      | some o =>
        simp only [List.getElem?_map, ho, Option.map_some]
        rw [outerBox_right o (hg.right i o ho), ih hf.2]
        · congr 2
          rw [List.map_set, outerBox_shape]
          have : (objects.map (·.shape))[i]? = some o.shape := by simp [ho]
          exact List.ext_getElem? fun k => by
            rw [List.getElem?_set]; split
            · next h => subst h; rw [this]; split <;> simp_all
            · rfl
        · constructor
          · intro k p hk b hb
            rw [List.getElem?_set] at hk
            split at hk
            · split at hk
              · cases hk; exact outerBox_cached o (hg.right i o ho) b hb
              · cases hk
            · exact hg.right k p hk b hb
          · intro k p hk m hm
            rw [List.getElem?_set] at hk
            split at hk
            · next h => subst h; exact absurd hm (hf.1 m)
            · exact (tail hg).fresh k p hk m hm
    | transform i m =>
      simp only [answers, boxesOf, act, boxOf, valueAfter]
      cases ho : objects[i]? with
      | none =>
        simp only [List.getElem?_map, ho, Option.map_none, Option.toList_none, List.append_nil]
        rw [ih hf _ (tail hg)]
      | some o =>
        simp only [List.getElem?_map, ho, Option.map_some, Option.toList_some]
        have hc : o.cached = none := hg.fresh i o ho m (List.mem_cons_self ..)
        rw [ih hf]
        · simp [Object.transform]
        · constructor
          · intro k p hk b hb
            rcases get_append _ _ _ _ hk with hk | rfl
            · exact hg.right k p hk b hb
            · simp [Object.transform, hc] at hb
          · intro k p hk m' hm
            rcases get_append _ _ _ _ hk with hk | rfl
            · exact (tail hg).fresh k p hk m' hm
            · exact hc

/-- **C72** (partial: no shape is transformed after its box was asked for). In every history of creating and transforming
shapes and asking for their boxes, every answer is the bounding box of the shape.  The compiler works like this: it
transforms shapes and never asks for boxes, which only the virtual machines do.  Missing: `c72_false_stale`. -/
theorem c72_boxes_partial (as : List Action) (h : TransformsFirst as) : answers [] as = boxesOf [] as :=
  answers_eq as h [] ⟨fun i o hi => by simp at hi, fun i o hi => by simp at hi⟩

/-- A unit square. -/
noncomputable def square : Shape := Shape.newRectangle ⟨0, 0⟩ 2 2 false

/-- The box of the square. -/
theorem square_box : square.outerBox = ⟨-1, -1, 1, 1⟩ := by
  simp only [square, Shape.newRectangle, Shape.outerBox, Shape.ln, List.foldl, Segment.outerBox, Line.outerBox,
    Box.fromVectors, Box.union, Box.extend]
  norm_num

/-- The box of the square moved to the right. -/
theorem moved_box : (square.transform (Mat.newTranslate 5 0)).outerBox = ⟨4, -1, 6, 1⟩ := by
  simp only [square, Shape.newRectangle, Shape.outerBox, Shape.ln, Shape.transform, List.map, List.foldl, Segment.transform,
    Line.transform, Segment.outerBox, Line.outerBox, Box.fromVectors, Box.union, Box.extend, Mat.newTranslate, Mat.apply, Mat.ofRows]
  norm_num

/-- **C72 does not hold** if a shape is transformed after its box was asked for: the copy keeps the box of the original. -/
theorem c72_false_stale :
    answers [] [.new square, .outerBox 0, .transform 0 (Mat.newTranslate 5 0), .outerBox 1] =
      [none, some ⟨-1, -1, 1, 1⟩, none, some ⟨-1, -1, 1, 1⟩] ∧
    boxesOf [] [.new square, .outerBox 0, .transform 0 (Mat.newTranslate 5 0), .outerBox 1] =
      [none, some ⟨-1, -1, 1, 1⟩, none, some ⟨4, -1, 6, 1⟩] := by
  constructor
  · simp [answers, act, Object.outerBox, Object.transform, square_box]
  · simp [boxesOf, boxOf, valueAfter, square_box, moved_box]

/-- A history that `c72_boxes_partial` is about. -/
example : TransformsFirst [.new square, .transform 0 (Mat.newTranslate 5 0), .outerBox 0, .outerBox 1, .outerBox 0] ∧
    answers [] [.new square, .transform 0 (Mat.newTranslate 5 0), .outerBox 0, .outerBox 1, .outerBox 0] =
      [none, none, some ⟨-1, -1, 1, 1⟩, some ⟨4, -1, 6, 1⟩, some ⟨-1, -1, 1, 1⟩] := by
  have h : TransformsFirst [.new square, .transform 0 (Mat.newTranslate 5 0), .outerBox 0, .outerBox 1, .outerBox 0] := by
    simp [TransformsFirst]
  refine ⟨h, ?_⟩
  rw [c72_boxes_partial _ h]
  simp [boxesOf, boxOf, valueAfter, square_box, moved_box]

end Verif.Props.ShapeCache
