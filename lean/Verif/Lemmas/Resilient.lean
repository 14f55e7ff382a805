import Verif.Model.Resilient
import Verif.Lemmas.RoundTrip

/-!
# Commands read a part of the text
-/

namespace Verif.Grammar

open Verif.Text Verif.Fmt Verif.Peg Verif.Syntax
open Verif.Math hiding P

theorem eats_dCodes (b : Bool) : Eats (dCodes b) := by
  apply Eats.firstOf
  simp only [List.mem_cons, List.not_mem_nil, or_false, forall_eq_or_imp, forall_eq]
  refine ⟨?_, ?_, ?_, ?_⟩
  · exact eats_command (by sufs)
  all_goals exact eats_command (by sufs)

theorem eats_gCodes : Eats gCodes := by
  apply Eats.firstOf
  intro p hp
  simp only [List.mem_append, List.mem_map, List.mem_singleton] at hp
  rcases hp with (rfl | ⟨c, _, rfl⟩) | ⟨c, _, rfl⟩
  · exact eats_one (eats_command (by sufs))
  · exact eats_one (eats_command (by sufs))
  · exact .after (suf_codeRe _ _) fun _ => .after (suf_followedBy _) fun _ => (eats_dCodes _).mapP

theorem eats_load : Eats load := by
  apply Eats.firstOf
  simp only [List.mem_cons, List.not_mem_nil, or_false, forall_eq_or_imp, forall_eq]
  exact ⟨eats_extended (by sufs), eats_extended (by sufs), eats_extended (by sufs), eats_extended (by sufs),
    eats_extended (by sufs)⟩

theorem eats_mCodes : Eats mCodes := by
  apply Eats.firstOf
  simp only [List.mem_cons, List.not_mem_nil, or_false, forall_eq_or_imp, forall_eq]
  exact ⟨eats_command (by sufs), eats_command (by sufs), eats_command (by sufs)⟩

theorem eats_properties : Eats properties := by
  apply Eats.firstOf
  simp only [List.mem_cons, List.not_mem_nil, or_false, forall_eq_or_imp, forall_eq]
  have hb : Suf boolean := by unfold boolean; sufs
  exact ⟨eats_extended (by sufs), eats_extended (by sufs), eats_extended (by sufs),
    ((eats_extended (by sufs)).andThen fun _ => by sufs), eats_extended (by sufs), eats_extended (by sufs), eats_extended (by sufs),
    eats_extended (by sufs), eats_extended (by sufs)⟩

theorem eats_attributes (rd : Text → Option Text) : Eats (attributes rd) := by
  apply Eats.firstOf
  simp only [List.mem_cons, List.not_mem_nil, or_false, forall_eq_or_imp, forall_eq]
  refine ⟨?_, eats_extended (by sufs), ?_, ?_⟩
  · apply Eats.firstOf
    simp only [List.mem_cons, List.not_mem_nil, or_false, forall_eq_or_imp, forall_eq]
    exact ⟨eats_extended (by unfold userName; sufs), eats_extended (by sufs), eats_extended (by sufs), eats_extended (by sufs)⟩
  · have hu : Suf upTo3 := by unfold upTo3; sufs
    apply Eats.firstOf
    simp only [List.mem_cons, List.not_mem_nil, or_false, forall_eq_or_imp, forall_eq]
    exact ⟨eats_extended (by unfold userName; sufs), ((eats_extended (by sufs)).andThen fun _ => by sufs),
      ((eats_extended (by sufs)).andThen fun _ => by sufs), ((eats_extended (by sufs)).andThen fun _ => by sufs), eats_extended (by sufs),
      (eats_extended (by sufs)).convert, eats_extended (by sufs), eats_extended (by sufs),
      ((eats_extended (by sufs)).andThen fun _ => by sufs)⟩
  · apply Eats.firstOf
    simp only [List.mem_cons, List.not_mem_nil, or_false, forall_eq_or_imp, forall_eq]
    have ht (k : ToKind) : Eats (toText k) := eats_extended (by sufs)
    exact ⟨eats_extended (by unfold userName; sufs), eats_extended (by sufs), eats_extended (by sufs), ht _,
      (eats_extended (by sufs)).convert, ht _, ht _, ht _, ((eats_extended (by sufs)).andThen fun _ => by sufs), ht _, ht _, ht _,
      (eats_extended (by sufs)).convert, ht _, ht _, eats_extended (by sufs)⟩

theorem eats_addAperture : Eats addAperture := by
  have hx : Suf xDouble := by unfold xDouble; sufs
  apply Eats.firstOf
  simp only [List.mem_cons, List.not_mem_nil, or_false, forall_eq_or_imp, forall_eq]
  exact ⟨eats_extended (by sufs), eats_extended (by sufs), eats_extended (by sufs),
    ((eats_extended (by sufs)).andThen fun _ => by sufs), eats_extended (by unfold Peg.name; sufs)⟩

theorem suf_primitive : Suf primitive := by
  have hp : Suf point := by unfold point; sufs
  apply Suf.firstOf
  simp only [List.mem_cons, List.not_mem_nil, or_false, forall_eq_or_imp, forall_eq]
  refine ⟨?_, ?_, ?_, ?_, ?_, ?_, ?_, ?_, ?_, ?_, ?_⟩ <;> exact (eats_command (by sufs)).suf

theorem eats_macro : Eats macro_ := by
  have := suf_primitive
  exact (eats_lit (by simp)).andThen fun _ => by unfold Peg.name; sufs

theorem suf_bodyItem (rd : Text → Option Text) {ab : P Node} (h : Suf ab) : Suf (bodyItem rd ab) := by
  apply Suf.firstOf
  simp only [List.mem_cons, List.not_mem_nil, or_false, forall_eq_or_imp, forall_eq]
  refine ⟨(eats_one (eats_dCodes _)).suf, eats_gCodes.suf, (eats_one eats_load).suf, (eats_one eats_properties).suf,
    (eats_one (eats_attributes rd)).suf, (eats_one eats_addAperture).suf, ?_, h.mapP, (eats_one eats_macro).suf,
    (eats_one eats_mCodes).suf⟩
  intro s a r e; cases e

theorem eats_apertureBlock (rd : Text → Option Text) : ∀ k, Eats (apertureBlock rd k)
  | 0 => by intro s a r e; cases e
  | k + 1 => by
    have := suf_bodyItem rd (eats_apertureBlock rd k).suf
    exact (eats_extended (by sufs)).andThen fun _ => this.many.andThen fun _ => (eats_extended (suf_lit _)).suf.before (.ret _)

theorem eats_aperture (rd : Text → Option Text) (k : Nat) : Eats (aperture rd k) := by
  apply Eats.firstOf
  simp only [List.mem_cons, List.not_mem_nil, or_false, forall_eq_or_imp, forall_eq]
  refine ⟨eats_apertureBlock rd k, eats_macro, ?_, eats_addAperture⟩
  have := suf_bodyItem rd (eats_apertureBlock rd k).suf
  exact (eats_extended (by sufs)).andThen fun _ => this.many.andThen fun _ => (eats_extended (suf_lit _)).suf.before (.ret _)

/-- A command is not empty. -/
theorem eats_rootItem (rd : Text → Option Text) (k : Nat) : Eats (rootItem rd k) := by
  apply Eats.firstOf
  simp only [List.mem_cons, List.not_mem_nil, or_false, forall_eq_or_imp, forall_eq]
  exact ⟨eats_one (eats_dCodes _), eats_gCodes, eats_one eats_load, eats_one (eats_aperture rd k),
    eats_one (eats_attributes rd), eats_one eats_properties, eats_one eats_mCodes⟩

end Verif.Grammar
