import Verif.Lemmas.ReadCommands

/-!
# Spellings of attributes are read as these attributes
-/

namespace Verif.Reading

open Verif.Text Verif.Fmt Verif.Peg Verif.Syntax Verif.Grammar Verif.Spec
open Verif.Math hiding P

variable (date : Text → Option Text)

/-- Any number of fields. -/
macro "more" fs:ident : tactic => `(tactic| rcases $fs:ident with _ | ⟨_, _⟩ <;> first
  | refine all_fieldsNil ?_
  | refine all_fieldsMore (by simp) fun _ _ _ => ?_)

theorem read_taUser (n : Text) (fs : List Text) :
    All (commandText date (.taUser n fs)) fun w => ∀ r, attributes date (w ++ r) = .ok (.taUser n fs) r := by
  parts
  spell
  more fs
  all_goals
    spell
    intro r
    run [attributes, ta, taUser]

theorem read_taOther (fs : List Text) :
    All (commandText date (.taFunction none fs)) fun w => ∀ r, attributes date (w ++ r) = .ok (.taFunction none fs) r := by
  parts
  refine all_provided.2 fun hf => ?_
  refine all_mul.2 (all_mul.2 (all_mul.2 ?_))
  spell
  cases fs with
  | nil =>
    refine all_fieldsNil ?_
    spell
    intro r
    run [attributes, ta, taUser, taFunction]
  | cons f fs =>
    refine all_fieldsNone (hf f rfl) fun _ _ _ _ _ => ?_
    clear hf
    spell
    intro r
    run [attributes, ta, taUser, taFunction]

theorem read_taFunction (w : Text) (fs : List Text) :
    All (commandText date (.taFunction (some w) fs)) fun t => ∀ r, attributes date (t ++ r) = .ok (.taFunction (some w) fs) r := by
  parts
  refine all_mul.2 (all_mul.2 (all_mul.2 ?_))
  spell
  refine all_choice.2 fun hw _ _ => ?_
  replace hw : w ∈ Syntax.aperFunctions := hw
  spell
  more fs
  all_goals
    spell
    intro r
    run [attributes, ta, taUser, taFunction, oneOf_function]

theorem read_taDrill (p m : Option ℚ) :
    All (commandText date (.taDrill p m)) fun t => ∀ r, attributes date (t ++ r) = .ok (.taDrill p m) r := by
  cases p <;> cases m <;> parts <;> refine all_provided.2 fun hc => ?_
  all_goals
    spell
    intro r
    first
      | (simp at hc; done)
      | run [attributes, ta, taUser, taFunction, taDrill]

theorem read_taFlash (s m x f z : Text) (cs : List Text) :
    All (commandText date (.taFlash s m x (some f) (some z) cs)) fun t => ∀ r,
      attributes date (t ++ r) = .ok (.taFlash s m x (some f) (some z) cs) r := by
  parts
  spell
  refine all_choice.2 fun hm _ _ => ?_
  spell
  · refine all_choice.2 fun hx _ _ => ?_
    spell
    simp only [List.mem_cons, List.not_mem_nil, or_false] at hm hx
    more cs
    all_goals
      spell
      intro r
      rcases hm with rfl | rfl <;> rcases hx with rfl | rfl <;>
        run [attributes, ta, taUser, taFunction, taDrill, taFlash]
  · subst x
    simp only [List.mem_cons, List.not_mem_nil, or_false] at hm
    more cs
    all_goals
      spell
      intro r
      rcases hm with rfl | rfl <;>
        run [attributes, ta, taUser, taFunction, taDrill, taFlash]

theorem read_td (t : Option Text) :
    All (commandText date (.td t)) fun w => ∀ r, attributes date (w ++ r) = .ok (.td t) r := by
  cases t <;> parts <;> spell <;> intro r <;> run [attributes, ta, taUser, taFunction, taDrill, taFlash, td]

/-! ## Attributes of files -/

theorem read_tfUser (n : Text) (fs : List Text) :
    All (commandText date (.tfUser n fs)) fun w => ∀ r, attributes date (w ++ r) = .ok (.tfUser n fs) r := by
  parts
  spell
  more fs
  all_goals
    spell
    intro r
    run [attributes, ta, taUser, taFunction, taDrill, taFlash, td, tf, tfUser]

/-- The name of a standard attribute. -/
macro "dotted" : tactic => `(tactic| (refine all_dotCase (by decide) fun _ _ => ?_; simp only [AnyUp]; intros))

theorem read_tfPart (p : Text) (fs : List Text) :
    All (commandText date (.tfPart p fs)) fun w => ∀ r, attributes date (w ++ r) = .ok (.tfPart p fs) r := by
  parts
  refine all_provided.2 fun hp => ?_
  replace hp : p ∈ Syntax.parts := hp
  spell
  dotted
  spell
  more fs
  all_goals
    spell
    intro r
    run [attributes, ta, taUser, taFunction, taDrill, taFlash, td, tf, tfUser, tfPart]

theorem read_tfFunction (p : Text) (fs : List Text) :
    All (commandText date (.tfFunction p fs)) fun w => ∀ r, attributes date (w ++ r) = .ok (.tfFunction p fs) r := by
  parts
  refine all_provided.2 fun hp => ?_
  replace hp : p ∈ Syntax.fileFunctions := hp
  spell
  dotted
  spell
  more fs
  all_goals
    spell
    intro r
    run [attributes, ta, taUser, taFunction, taDrill, taFlash, td, tf, tfUser, tfPart, tfFunction]

theorem read_tfPolarity (p : Text) :
    All (commandText date (.tfPolarity p)) fun w => ∀ r, attributes date (w ++ r) = .ok (.tfPolarity p) r := by
  parts
  refine all_provided.2 fun hp => ?_
  spell
  dotted
  spell
  intro r
  run [attributes, ta, taUser, taFunction, taDrill, taFlash, td, tf, tfUser, tfPart, tfFunction, tfPolarity]

theorem read_tfSame (i : Option Text) :
    All (commandText date (.tfSame i)) fun w => ∀ r, attributes date (w ++ r) = .ok (.tfSame i) r := by
  cases i <;> parts <;> spell <;> dotted <;> spell <;> intro r <;>
    run [attributes, ta, taUser, taFunction, taDrill, taFlash, td, tf, tfUser, tfPart, tfFunction, tfPolarity, tfSame]

theorem read_tfDate (d : Text) :
    All (commandText date (.tfDate d)) fun w => ∀ r, attributes date (w ++ r) = .ok (.tfDate d) r := by
  parts
  refine all_ex.2 fun w hw => ?_
  spell
  dotted
  spell
  intro r
  run [attributes, ta, taUser, taFunction, taDrill, taFlash, td, tf, tfUser, tfPart, tfFunction, tfPolarity, tfSame, tfDate]

theorem read_tfSoftware (a b c : Option Text) :
    All (commandText date (.tfSoftware a b c)) fun w => ∀ r, attributes date (w ++ r) = .ok (.tfSoftware a b c) r := by
  cases a <;> cases b <;> cases c <;> parts <;> refine all_provided.2 fun hc => ?_
  all_goals
    spell
    dotted
    spell
    intro r
    first
      | (simp at hc; done)
      | run [attributes, ta, taUser, taFunction, taDrill, taFlash, td, tf, tfUser, tfPart, tfFunction, tfPolarity, tfSame, tfDate, tfSoftware, upTo3]

theorem read_tfProject (a b c : Option Text) :
    All (commandText date (.tfProject a b c)) fun w => ∀ r, attributes date (w ++ r) = .ok (.tfProject a b c) r := by
  cases a <;> cases b <;> cases c <;> parts <;> refine all_provided.2 fun hc => ?_
  all_goals
    spell
    dotted
    spell
    intro r
    first
      | (simp at hc; done)
      | run [attributes, ta, taUser, taFunction, taDrill, taFlash, td, tf, tfUser, tfPart, tfFunction, tfPolarity, tfSame, tfDate, tfSoftware, tfProject, upTo3]

theorem read_tfMd5 (h : Text) :
    All (commandText date (.tfMd5 h)) fun w => ∀ r, attributes date (w ++ r) = .ok (.tfMd5 h) r := by
  parts
  refine all_provided.2 fun hc => ?_
  spell
  dotted
  spell
  intro r
  run [attributes, ta, taUser, taFunction, taDrill, taFlash, td, tf, tfUser, tfPart, tfFunction, tfPolarity, tfSame, tfDate, tfSoftware, tfProject, tfMd5, upTo3]

/-! ## Attributes of objects -/

theorem ta_to {b b' s : Text} (hb : Blank b) (hb' : Blank b') : attributes date (b ++ '%' :: (b' ++ 'T' :: 'O' :: s)) =
    to_ (b ++ '%' :: (b' ++ 'T' :: 'O' :: s)) := by
  have h1 : ta (b ++ '%' :: (b' ++ 'T' :: 'O' :: s)) = .fail := by run [ta, taUser, taFunction, taDrill, taFlash]
  have h2 : td (b ++ '%' :: (b' ++ 'T' :: 'O' :: s)) = .fail := by run [td]
  have h3 : tf date (b ++ '%' :: (b' ++ 'T' :: 'O' :: s)) = .fail := by
    run [tf, tfUser, tfPart, tfFunction, tfPolarity, tfSame, tfDate, tfSoftware, tfProject, tfMd5]
  unfold attributes
  rw [firstOf, orElse_fail h1, firstOf, orElse_fail h2, firstOf, orElse_fail h3, firstOf]
  unfold orElse
  cases to_ (b ++ '%' :: (b' ++ 'T' :: 'O' :: s)) <;> rfl

/-- Run the elements for attributes of objects. -/
macro "runTo" : tactic => `(tactic| (
  simp only [List.append_assoc, List.cons_append, List.nil_append]
  rw [ta_to date (by assumption) (by assumption)]
  run [to_, toUser, toN, toP, toText, toLiteral, toRot, toMount, toHeight, toSup, floatText]))

theorem read_toUser (n : Text) (fs : List Text) :
    All (commandText date (.toUser n fs)) fun w => ∀ r, attributes date (w ++ r) = .ok (.toUser n fs) r := by
  parts
  spell
  more fs
  all_goals
    spell
    intro r
    runTo

theorem read_toN (fs : List Text) :
    All (commandText date (.toN fs)) fun w => ∀ r, attributes date (w ++ r) = .ok (.toN fs) r := by
  parts
  spell
  dotted
  spell
  more fs
  all_goals
    spell
    intro r
    runTo

theorem read_toP (x n : Text) (f : Option Text) :
    All (commandText date (.toP x n f)) fun w => ∀ r, attributes date (w ++ r) = .ok (.toP x n f) r := by
  cases f <;> parts <;> spell <;> dotted <;> spell <;> intro r <;> runTo

theorem read_toText (k : ToKind) (v : Text) :
    All (commandText date (.toText k v)) fun w => ∀ r, attributes date (w ++ r) = .ok (.toText k v) r := by
  cases k <;> parts <;> simp only [objectName] <;> spell <;> dotted <;> spell <;> intro r <;> runTo

theorem floatText_number {w : Text} {q : ℚ} (h : NumberText w q) : pDouble w = some (q, []) := by
  have := read_number h (r := []) (by intro x t e; cases e)
  rwa [List.append_nil] at this

theorem read_toRot (q : ℚ) :
    All (commandText date (.toRot q)) fun w => ∀ r, attributes date (w ++ r) = .ok (.toRot q) r := by
  parts
  refine all_ex.2 fun w hw => ?_
  have hw' := floatText_number hw
  spell
  dotted
  spell
  intro r
  runTo

theorem read_toHeight (q : ℚ) :
    All (commandText date (.toHeight q)) fun w => ∀ r, attributes date (w ++ r) = .ok (.toHeight q) r := by
  parts
  refine all_ex.2 fun w hw => ?_
  have hw' := floatText_number hw
  spell
  dotted
  spell
  intro r
  runTo

theorem read_toMount (m : Text) :
    All (commandText date (.toMount m)) fun w => ∀ r, attributes date (w ++ r) = .ok (.toMount m) r := by
  parts
  refine all_provided.2 fun hm => ?_
  replace hm : m ∈ Syntax.mounts := hm
  spell
  dotted
  spell
  intro r
  runTo

theorem read_toSup (a b : Text) (cs : List Text) :
    All (commandText date (.toSup a b cs)) fun w => ∀ r, attributes date (w ++ r) = .ok (.toSup a b cs) r := by
  parts
  spell
  dotted
  spell
  more cs
  all_goals
    spell
    intro r
    runTo

end Verif.Reading
