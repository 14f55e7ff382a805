import Verif.Spec.Numeral

/-!
# Conventional meaning of arithmetic texts

Independent of the model: an arithmetic text is read with the usual precedences — parentheses first, then the
signs, then multiplication and division from left to right, then addition and subtraction from left to right.
Blanks may appear before every token.  `x` and `X` are the multiplication signs.
-/

namespace Verif.Spec

/-- The four usual precedence levels. -/
inductive Level | primary | signed | product | sum
  deriving DecidableEq, Repr

/-- A possibly empty text of blanks. -/
def Blank (w : List Char) : Prop := ∀ c ∈ w, c = ' ' ∨ c = '\n' ∨ c = '\t' ∨ c = '\r'

/-- `Means ρ l s v`: read at precedence level `l`, the text `s` denotes `v` when the variables have the values
given by `ρ`. -/
inductive Means (ρ : List Char → Option ℚ) : Level → List Char → ℚ → Prop
  /-- `12`, `12.5`, `.5` -/
  | number {w i} : Blank w → Digits i → i ≠ [] → Means ρ .primary (w ++ i) (numeral i)
  | decimal {w i f} : Blank w → Digits i → Digits f → f ≠ [] →
      Means ρ .primary (w ++ i ++ '.' :: f) (numeral i + numeral f / 10 ^ f.length)
  | var {w d v} : Blank w → Digits d → d ≠ [] → ρ ('$' :: d) = some v → Means ρ .primary (w ++ '$' :: d) v
  | paren {w s w' v} : Blank w → Blank w' → Means ρ .sum s v → Means ρ .primary (w ++ '(' :: s ++ w' ++ [')']) v
  | primary {s v} : Means ρ .primary s v → Means ρ .signed s v
  | minus {w s v} : Blank w → Means ρ .signed s v → Means ρ .signed (w ++ '-' :: s) (-v)
  | plus {w s v} : Blank w → Means ρ .signed s v → Means ρ .signed (w ++ '+' :: s) v
  | signed {s v} : Means ρ .signed s v → Means ρ .product s v
  | times {s t w x a b} : Means ρ .product s a → Blank w → x = 'x' ∨ x = 'X' → Means ρ .signed t b →
      Means ρ .product (s ++ w ++ x :: t) (a * b)
  | over {s t w a b} : Means ρ .product s a → Blank w → Means ρ .signed t b → b ≠ 0 →
      Means ρ .product (s ++ w ++ '/' :: t) (a / b)
  | product {s v} : Means ρ .product s v → Means ρ .sum s v
  | add {s t w a b} : Means ρ .sum s a → Blank w → Means ρ .product t b →
      Means ρ .sum (s ++ w ++ '+' :: t) (a + b)
  | sub {s t w a b} : Means ρ .sum s a → Blank w → Means ρ .product t b →
      Means ρ .sum (s ++ w ++ '-' :: t) (a - b)

end Verif.Spec
