import Verif.Lemmas.ReadCodes

/-!
# Spellings of macros are read as these macros
-/

namespace Verif.Reading

open Verif.Text Verif.Fmt Verif.Peg Verif.Syntax Verif.Grammar Verif.Spec
open Verif.Math hiding P

variable (date : Text → Option Text)

theorem read_code0 (t : Text) : All (primText (.code0 t)) fun w => ∀ r, primitive (w ++ r) = .ok (.code0 t) r := by
  parts
  spell
  intro r
  run [primitive, assignment, code0]

theorem read_code1 (e d x y : Expr) (o : Option Expr) :
    All (primText (.code1 e d x y o)) fun w => ∀ r, primitive (w ++ r) = .ok (.code1 e d x y o) r := by
  cases o <;> parts <;> spell <;> intro r <;> run [primitive, assignment, code0, code1]

theorem read_code2 (a b c d e f g : Expr) :
    All (primText (.code2 a b c d e f g)) fun w => ∀ r, primitive (w ++ r) = .ok (.code2 a b c d e f g) r := by
  parts
  spell
  intro r
  run [primitive, assignment, code0, code1, code2]

theorem read_code5 (a b c d e f : Expr) :
    All (primText (.code5 a b c d e f)) fun w => ∀ r, primitive (w ++ r) = .ok (.code5 a b c d e f) r := by
  parts
  spell
  intro r
  run [primitive, assignment, code0, code1, code2, code4, code5]

theorem read_code6 (a b c d e f g h i : Expr) :
    All (primText (.code6 a b c d e f g h i)) fun w => ∀ r, primitive (w ++ r) = .ok (.code6 a b c d e f g h i) r := by
  parts
  spell
  intro r
  run [primitive, assignment, code0, code1, code2, code4, code5, code6]

theorem read_code7 (a b c d e f : Expr) :
    All (primText (.code7 a b c d e f)) fun w => ∀ r, primitive (w ++ r) = .ok (.code7 a b c d e f) r := by
  parts
  spell
  intro r
  run [primitive, assignment, code0, code1, code2, code4, code5, code6, code7]

theorem read_code20 (a b c d e f g : Expr) :
    All (primText (.code20 a b c d e f g)) fun w => ∀ r, primitive (w ++ r) = .ok (.code20 a b c d e f g) r := by
  parts
  spell
  intro r
  run [primitive, assignment, code0, code1, code2, code4, code5, code6, code7, code20]

theorem read_code21 (a b c d e f : Expr) :
    All (primText (.code21 a b c d e f)) fun w => ∀ r, primitive (w ++ r) = .ok (.code21 a b c d e f) r := by
  parts
  spell
  intro r
  run [primitive, assignment, code0, code1, code2, code4, code5, code6, code7, code20, code21]

theorem read_code22 (a b c d e f : Expr) :
    All (primText (.code22 a b c d e f)) fun w => ∀ r, primitive (w ++ r) = .ok (.code22 a b c d e f) r := by
  parts
  spell
  intro r
  run [primitive, assignment, code0, code1, code2, code4, code5, code6, code7, code20, code21, code22]

theorem all_points {ps : List (Expr × Expr)} {e : Expr} {Q : Text → Prop} (hne : ps ≠ [])
    (h : ∀ x y, (∀ b r, Blank b → many1 point (x ++ (y ++ (b ++ '*' :: r))) = .ok ps (y ++ (b ++ '*' :: r))) →
      (∀ r, After 6 (x ++ (y ++ r))) → (∀ b r, Blank b → cs expr (y ++ (b ++ '*' :: r)) = .ok e (b ++ '*' :: r)) → Q (x ++ y)) :
    All (params ((ps.map fun p => [p.1, p.2]).flatten ++ [e])) Q := by
  unfold params
  rw [Written.listed_append]
  change All (params _ * params [e]) Q
  rw [← Written.listed_points]
  refine all_mul.2 fun x hx => ?_
  simp only [params, listed]
  rw [mul_one]
  unfold after
  refine all_mul.2 (all_word.2 fun b hb => all_expr fun w hw => ?_)
  have hp : ∀ (a : Expr × Expr), All (params [a.1, a.2]) fun w => ∀ r, After 6 r → point (w ++ r) = .ok a r := by
    intro a
    parts
    spell
    intro r hr
    run [point]
  have hF : ∀ (a : Expr × Expr), All (params [a.1, a.2]) fun w => ∀ r, After 6 (w ++ r) := by
    intro a
    parts
    spell
    intro r
    run [point]
  have key (b' r : Text) (hb' : Blank b') := run_listed (p := point) (F := After 6) (r := b ++ ',' :: (w ++ (b' ++ '*' :: r)))
    hp hF (by
      intro a ha
      have : All (params [a.1, a.2]) fun w => w ≠ [] := by
        parts
        spell
        simp
      exact this [] ha rfl) (after_comma hb) (by run [point]) ps x hx
  obtain ⟨p, ps, rfl⟩ := List.exists_cons_of_ne_nil hne
  refine h x (b ++ [','] ++ w) (fun b' r hb' => ?_) (fun r => ?_) fun b' r hb' => ?_
  · have := (key b' r hb').1.many1
    simpa using this
  · obtain ⟨u, hu, v, hv, rfl⟩ := Language.mem_mul.1 hx
    have := hF p u hu (v ++ (b ++ [','] ++ w ++ r))
    simpa using this
  · run [cs]

theorem read_code4 (a b c d : Expr) (ps : List (Expr × Expr)) (e : Expr) :
    All (primText (.code4 a b c d ps e)) fun w => ∀ r, primitive (w ++ r) = .ok (.code4 a b c d ps e) r := by
  simp only [primText, starred]
  refine all_provided.2 fun hne => ?_
  have : params ([a, b, c, d] ++ (ps.map fun p => [p.1, p.2]).flatten ++ [e]) =
      params [a, b, c, d] * params ((ps.map fun p => [p.1, p.2]).flatten ++ [e]) := by
    unfold params
    rw [List.append_assoc, Written.listed_append]
  rw [this]
  refine all_mul.2 (all_mul.2 (all_word.2 fun _ _ => all_mul.2 ?_))
  parts
  spell
  refine all_points hne fun x y h1 h2 h3 => ?_
  spell
  intro r
  simp only [cs, comma, Peg.before, Peg.andThen] at h3
  run [primitive, assignment, code0, code1, code2, code4]

theorem read_prim : ∀ p : Prim, All (primText p) fun w => ∀ r, primitive (w ++ r) = .ok p r
  | .assign _ _ => read_assign _ _
  | .code0 _ => read_code0 _
  | .code1 .. => read_code1 _ _ _ _ _
  | .code2 .. => read_code2 _ _ _ _ _ _ _
  | .code4 .. => read_code4 _ _ _ _ _ _
  | .code5 .. => read_code5 _ _ _ _ _ _
  | .code6 .. => read_code6 _ _ _ _ _ _ _ _ _
  | .code7 .. => read_code7 _ _ _ _ _ _
  | .code20 .. => read_code20 _ _ _ _ _ _ _
  | .code21 .. => read_code21 _ _ _ _ _ _
  | .code22 .. => read_code22 _ _ _ _ _ _

theorem all_prims {ps : List Prim} {Q : Text → Prop}
    (h : ∀ x, (∀ b r, Blank b → many primitive (x ++ (b ++ '%' :: r)) = .ok ps (b ++ '%' :: r)) → Q x) : All (listed primText ps) Q := by
  intro x hx
  refine h x fun b r hb => ?_
  refine (run_listed (p := primitive) (F := fun _ => True) (fun a w hw r _ => read_prim a w hw r) (fun _ _ _ _ => trivial) ?_ trivial ?_
    ps x hx).1.many
  · intro a ha
    have := read_prim a [] ha []
    have hp : primitive [] = .fail := rfl
    rw [List.nil_append, hp] at this
    cases this
  · run [primitive, assignment, code0, code1, code2, code4, code5, code6, code7, code20, code21, code22]

theorem read_am (n : Text) (ps : List Prim) : All (commandText date (.am n ps)) fun w => ∀ r, macro_ (w ++ r) = .ok (.am n ps) r := by
  simp only [commandText]
  spell
  refine all_prims fun x hx => ?_
  spell
  intro r
  run [macro_]

end Verif.Reading
