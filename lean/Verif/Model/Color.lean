import Verif.Model.Text
import Mathlib.Algebra.Order.Floor.Ring
import Mathlib.Data.Rat.Floor

/-!
# Colours (vm/types/color.py)
-/

namespace Verif.Color
open Verif.Text

/-- color.py 38-54: four channels; pydantic enforces `0 ≤ channel ≤ 255`. -/
structure Color where
  red : Fin 256
  green : Fin 256
  blue : Fin 256
  alpha : Fin 256
  deriving DecidableEq, Repr

/-- `InvalidHexColorLiteralError`, pydantic's `ValidationError`, `ValueError`. -/
inductive Err | invalidHex | validation | valueError
  deriving DecidableEq, Repr

/-- color.py 18 (`ChannelField = Field(ge=0, le=255)`). -/
def channel (n : Int) : Except Err (Fin 256) :=
  if h : 0 ≤ n ∧ n ≤ 255 then .ok ⟨n.toNat, by omega⟩ else .error .validation

/-- Construction of the pydantic model from integers. -/
def build (r g b a : Int) : Except Err Color :=
  match channel r, channel g, channel b, channel a with
  | .ok r, .ok g, .ok b, .ok a => .ok ⟨r, g, b, a⟩
  | _, _, _, _ => .error .validation

/-- The character class `[A-Fa-f0-9]` of color.py 72-77 with the value `int(_, base=16)` gives it. -/
def hexVal (c : Char) : Option Nat :=
  if '0' ≤ c ∧ c ≤ '9' then some (c.toNat - 48)
  else if 'a' ≤ c ∧ c ≤ 'f' then some (c.toNat - 87)
  else if 'A' ≤ c ∧ c ≤ 'F' then some (c.toNat - 55)
  else none

/-- One `{2}` group and its value in base 16 (color.py 83-93). -/
def hexByte (a b : Char) : Option Nat :=
  match hexVal a, hexVal b with
  | some x, some y => some (x * 16 + y)
  | _, _ => none

/-- The part of the pattern after `#?`: `$` matches at the end and before a final newline (color.py 70-79). -/
def fromHexBody : List Char → Except Err Color
  | [a, b, c, d, e, f] => six a b c d e f
  | [a, b, c, d, e, f, '\n'] => six a b c d e f
  | [a, b, c, d, e, f, g, h] => eight a b c d e f g h
  | [a, b, c, d, e, f, g, h, '\n'] => eight a b c d e f g h
  | _ => .error .invalidHex
where
  /-- Without the optional group the alpha text is `"FF"`. -/
  six (a b c d e f : Char) : Except Err Color :=
    match hexByte a b, hexByte c d, hexByte e f with
    | some r, some g, some b => build r g b 255
    | _, _, _ => .error .invalidHex
  /-- All four groups. -/
  eight (a b c d e f g h : Char) : Except Err Color :=
    match hexByte a b, hexByte c d, hexByte e f, hexByte g h with
    | some r, some g, some b, some a => build r g b a
    | _, _, _, _ => .error .invalidHex

/-- color.py 56-95 (`from_hex`).  A leading `#` is consumed by `#?`; it is not a hexadecimal digit, so not consuming
it cannot match either. -/
def fromHex : List Char → Except Err Color
  | '#' :: s => fromHexBody s
  | s => fromHexBody s

/-- color.py 97-118 (`from_rgba`). -/
def fromRgba (r g b : Int) (a : Int := 255) : Except Err Color := build r g b a

/-- The digit printed by `:x`. -/
def hexDigit (n : Nat) : Char := if n < 10 then Char.ofNat (48 + n) else Char.ofNat (87 + n)

/-- `f"{n:02x}"` for `n < 256`. -/
def hex2 (n : Nat) : List Char := [hexDigit (n / 16), hexDigit (n % 16)]

/-- color.py 196-205 (`to_hex`). -/
def Color.toHex (c : Color) : List Char :=
  '#' :: (hex2 c.red ++ hex2 c.green ++ hex2 c.blue ++ hex2 c.alpha)

/-- Python's `%` on exact numbers. -/
def pyMod (a b : ℚ) : ℚ := a - b * ⌊a / b⌋

/-- Python's `round` on any number: half to even. -/
def pyRound (q : ℚ) : Int := if q < 0 then -(roundHalfEven (-q) : Int) else roundHalfEven q

/-- color.py 148-168: the sector of the hue. -/
def sector (h : Int) (c x : ℚ) : ℚ × ℚ × ℚ :=
  if h < 60 then (c, x, 0)
  else if h < 120 then (x, c, 0)
  else if h < 180 then (0, c, x)
  else if h < 240 then (0, x, c)
  else if h < 300 then (x, 0, c)
  else (c, 0, x)

/-- color.py 120-177 (`from_hsv`); after `hue %= 360` the last branch (`raise`) is unreachable. -/
def fromHsv (hue : Int) (saturation value : ℚ) (alpha : Int := 255) : Except Err Color :=
  let h := hue % 360
  let s := saturation / 100
  let v := value / 100
  let c := v * s
  let x := c * (1 - |pyMod ((h : ℚ) / 60) 2 - 1|)
  let m := v - c
  let p := sector h c x
  build (pyRound ((p.1 + m) * 255)) (pyRound ((p.2.1 + m) * 255)) (pyRound ((p.2.2 + m) * 255)) alpha

/-- color.py 187-194 (`as_rgba_float`). -/
def Color.asRgbaFloat (c : Color) : ℚ × ℚ × ℚ × ℚ :=
  (c.red / 255, c.green / 255, c.blue / 255, c.alpha / 255)

end Verif.Color
