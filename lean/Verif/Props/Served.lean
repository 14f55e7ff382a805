import Verif.Lemmas.Server

/-!
# Which documents the language server answers for (C48)
-/

namespace Verif.Props.Server
open Verif.Server

theorem dotG_iff (name : List Char) : hasDotG name = true ↔ ∃ stem rest, name = stem ++ '.' :: 'g' :: rest := by
  fun_induction hasDotG name with
  | case1 rest => exact ⟨fun _ => ⟨[], rest, rfl⟩, fun _ => rfl⟩
  | case2 c cs hne ih =>
    rw [ih]
    constructor
    · rintro ⟨s, r, rfl⟩; exact ⟨c :: s, r, rfl⟩
    · rintro ⟨s, r, h⟩
      cases s with
      | nil =>
        simp only [List.nil_append, List.cons.injEq] at h
        exact absurd h.2 (hne r h.1)
      | cons d s =>
        simp only [List.cons_append, List.cons.injEq] at h
        exact ⟨s, r, h.2⟩
  | case3 => simp

/-- Documents are served whose file name contains `.g`, in any directory. -/
theorem c48_served (dir name : List Char) (hs : '/' ∉ name) (hn : name ≠ [] ∧ name ≠ ['.']) :
    supported (dir ++ '/' :: name) = true ↔ ∃ stem rest, name = stem ++ '.' :: 'g' :: rest := by
  have h1 : (dir ++ '/' :: name).splitOn '/' = dir.splitOn '/' ++ [name] := by
    rw [List.splitOn_append_cons_of_beq _ _ (by simp), List.splitOn_eq_singleton hs]
  have h2 : lastPart (dir ++ '/' :: name) = some name := by
    unfold lastPart
    rw [h1, List.filter_append, List.filter_cons, if_pos (by simpa using hn)]
    simp
  unfold supported
  rw [h2]
  exact dotG_iff name

example : supported "file:///boards/my.board/top.gbr".toList = true := by decide +kernel

/-- Capital letters do not match the pattern: a file `TOP.GBR` is not served. -/
example : supported "file:///boards/TOP.GBR".toList = false := by decide +kernel

end Verif.Props.Server
