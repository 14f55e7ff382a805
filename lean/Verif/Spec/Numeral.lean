import Mathlib.Data.Rat.Floor
import Mathlib.Algebra.Order.Field.Basic

/-!
# Specification vocabulary for numerals

Independent of the model: positional value of a digit text, and correct rounding as a relation.
-/

namespace Verif.Spec

/-- The text consists of ASCII decimal digits. -/
def Digits (s : List Char) : Prop := ∀ c ∈ s, '0' ≤ c ∧ c ≤ '9'

instance (s : List Char) : Decidable (Digits s) := by unfold Digits; infer_instance

/-- Positional (base ten) value of a digit text, most significant digit first. -/
def numeral : List Char → Nat
  | [] => 0
  | c :: cs => (c.toNat - '0'.toNat) * 10 ^ cs.length + numeral cs

/-- The values of unsigned finite decimals. -/
def Decimal (q : ℚ) : Prop := ∃ n k : ℕ, q = n / 10 ^ k

/-- `n` is `q` correctly rounded to an integer: nearest, ties to the even neighbour. -/
def RoundsTo (q : ℚ) (n : ℤ) : Prop :=
  |q - n| < 1 / 2 ∨ (|q - n| = 1 / 2 ∧ Even n)

/-- The signs a number may be written with. -/
inductive Sign | none | plus | minus
  deriving DecidableEq, Repr

/-- How the sign is written. -/
def Sign.text : Sign → List Char
  | .none => []
  | .plus => ['+']
  | .minus => ['-']

/-- The factor the sign stands for. -/
def Sign.factor : Sign → ℚ
  | .minus => -1
  | _ => 1

end Verif.Spec
