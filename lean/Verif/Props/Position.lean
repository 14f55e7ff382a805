import Verif.Model.Finder

/-!
# C46: text positions
-/

namespace Verif.Props.Position
open Verif.Finder

/-- Lexicographic order on (line, column). -/
def Before (a b : Position) : Prop := a.line < b.line ∨ a.line = b.line ∧ a.column < b.column

/-- **C46** (partial): `==`, `<` and `>` agree with the lexicographic order, for all pairs of positions.
Missing: `!=`, `<=`, `>=`, which do not (`c46_false_*`). -/
theorem c46_order_partial (a b : Position) :
    (a.eq b = true ↔ a = b) ∧ (a.lt b = true ↔ Before a b) ∧ (a.gt b = true ↔ Before b a) := by
  obtain ⟨l, c⟩ := a
  obtain ⟨m, d⟩ := b
  refine ⟨?_, ?_, ?_⟩
  · simp [Position.eq]
  · simp [Position.lt, Before]
  · simp [Position.gt, Before]
    constructor
    · rintro (h | ⟨rfl, h⟩)
      · exact .inl h
      · exact .inr ⟨rfl, h⟩
    · rintro (h | ⟨rfl, h⟩)
      · exact .inl h
      · exact .inr ⟨rfl, h⟩

/-- **C46** (partial): the three comparisons are mutually exclusive and cover all cases. -/
theorem c46_trichotomy_partial (a b : Position) :
    (a.lt b = true ∧ a.eq b = false ∧ a.gt b = false) ∨ (a.lt b = false ∧ a.eq b = true ∧ a.gt b = false) ∨
      (a.lt b = false ∧ a.eq b = false ∧ a.gt b = true) := by
  obtain ⟨l, c⟩ := a
  obtain ⟨m, d⟩ := b
  simp only [Position.lt, Position.eq, Position.gt]
  rcases Int.lt_trichotomy l m with h | rfl | h
  · left; simp [h]; omega
  · rcases Int.lt_trichotomy c d with h | rfl | h
    · left; simp [h]; omega
    · right; left; simp
    · right; right; simp [h]; omega
  · right; right; simp [h]; omega

example : Before ⟨1, 7⟩ ⟨2, 3⟩ := .inl (by decide)

/-- **C46** is false for `!=`: two different positions on the same line are not "not equal". -/
theorem c46_false_ne : ∃ a b : Position, a ≠ b ∧ a.ne b = false := ⟨⟨1, 2⟩, ⟨1, 3⟩, by decide, by decide⟩

/-- **C46** is false for `>=`: (1, 2) is before (1, 3), yet `>=` holds. -/
theorem c46_false_ge : ∃ a b : Position, Before a b ∧ a.ge b = true := ⟨⟨1, 2⟩, ⟨1, 3⟩, .inr (by decide), by decide⟩

/-- **C46** is false for `<=`: (1, 3) is after (1, 2), yet `<=` holds. -/
theorem c46_false_le : ∃ a b : Position, Before b a ∧ a.le b = true := ⟨⟨1, 3⟩, ⟨1, 2⟩, .inr (by decide), by decide⟩

/-- **C46** (what `!=`, `<=` and `>=` decide instead). -/
theorem c46_actual (a b : Position) :
    (a.ne b = true ↔ a.line ≠ b.line ∧ a.column ≠ b.column) ∧ (a.ge b = true ↔ b.line ≤ a.line) ∧
      (a.le b = true ↔ a.line ≤ b.line) := by
  refine ⟨by simp [Position.ne], ?_, ?_⟩
  · simp [Position.ge]; omega
  · simp [Position.le]; omega

/-- **C46** (editor positions). Converting from the zero based position of an editor and back is the identity, both
ways, and keeps the order. -/
theorem c46_editor (p : Position) (l c l' c' : Int) :
    (Position.fromVscode l c).toLspt = (l, c) ∧ Position.fromVscode p.toLspt.1 p.toLspt.2 = p ∧
      (Before (Position.fromVscode l c) (Position.fromVscode l' c') ↔ l < l' ∨ l = l' ∧ c < c') := by
  refine ⟨by simp [Position.fromVscode, Position.toLspt], by simp [Position.fromVscode, Position.toLspt], ?_⟩
  simp [Before, Position.fromVscode]

/-- **C46** (offsets). Moving a position moves its line and its column by the given amounts. -/
theorem c46_offset (p : Position) (l c : Int) :
    (p.offset l c).line = p.line + l ∧ (p.offset l c).column = p.column + c ∧
      (p.offset l c).toLspt = (p.toLspt.1 + l, p.toLspt.2 + c) := by
  refine ⟨rfl, rfl, ?_⟩
  simp only [Position.offset, Position.toLspt, Prod.mk.injEq]
  constructor <;> omega

end Verif.Props.Position
