import Verif.Model.Text

/-!
# Model of `CoordinateFormat` (gerber/ast/state_tracking_visitor.py 99-246)
-/

namespace Verif.Coord
open Verif.Text

/-- gerber/ast/nodes/enums.py 8-18 (`Zeros`). -/
inductive Zeros | skipLeading | skipTrailing | skipLeadingImplied
  deriving DecidableEq, Repr

/-- gerber/ast/nodes/enums.py 26-33 (`CoordinateNotation`). -/
inductive Notation | absolute | incremental
  deriving DecidableEq, Repr

/-- Errors of packing and unpacking: `PackedCoordinateTooShortError`, `PackedCoordinateTooLongError`
(gerber/ast/errors.py 65-88) and the `ValueError`s of `float(...)` and of the two-element unpacking of `split`. -/
inductive Err | tooShort | tooLong | valueError
  deriving DecidableEq, Repr

/-- state_tracking_visitor.py 99-109 (`CoordinateFormat` fields). -/
structure CoordinateFormat where
  zeros : Zeros := .skipLeading
  notation_ : Notation := .absolute
  xIntegral : Nat := 2
  xDecimal : Nat := 6
  yIntegral : Nat := 2
  yDecimal : Nat := 6
  deriving DecidableEq, Repr

/-- state_tracking_visitor.py 166-186 (`_unpack_preprocess`): `true` is the sign `-`. -/
def unpackPreprocess (coordinate : List Char) (integer decimal : Nat) : Except Err (Bool × List Char) :=
  match coordinate with
  | [] => .error .tooShort
  | c :: rest =>
    let (neg, s) := if c = '+' then (false, rest) else if c = '-' then (true, rest) else (false, c :: rest)
    if s.length > integer + decimal then .error .tooLong
    else if s.length = 0 then .error .tooShort
    else .ok (neg, s)

/-- `float(f"{sign}{padded[:integer]}.{padded[integer:]}")`.  Simplification: any non-digit character is a
`ValueError` (Python's `float` also accepts `_`, exponents and blanks, which the grammar never passes here). -/
def floatPadded (neg : Bool) (integer : Nat) (padded : List Char) : Except Err ℚ :=
  if padded.all isDigit then .ok (floatOf neg (padded.take integer) (padded.drop integer))
  else .error .valueError

/-- state_tracking_visitor.py 138-150 (`_unpack_skip_trailing`). -/
def unpackSkipTrailing (integer decimal : Nat) (coordinate : List Char) : Except Err ℚ :=
  match unpackPreprocess coordinate integer decimal with
  | .error e => .error e
  | .ok (neg, s) => floatPadded neg integer (ljust0 (integer + decimal) s)

/-- state_tracking_visitor.py 152-164 (`_unpack_skip_leading`). -/
def unpackSkipLeading (integer decimal : Nat) (coordinate : List Char) : Except Err ℚ :=
  match unpackPreprocess coordinate integer decimal with
  | .error e => .error e
  | .ok (neg, s) => floatPadded neg integer (rjust0 (integer + decimal) s)

/-- state_tracking_visitor.py 204-213 and 228-237: the common head of both packers, which prints the number, splits
off the sign and checks the integer part.  With `decimal = 0` the printed text has no `.` and the two-element
unpacking of `split(".")` raises `ValueError`. -/
def packHead (integer decimal : Nat) (v : ℚ) : Except Err (List Char × List Char × List Char) :=
  if decimal = 0 then .error .valueError
  else
    let (intStr, decStr) := fixedParts decimal v
    let (sign, intStr) := match intStr with
      | '-' :: rest => (['-'], rest)
      | '+' :: rest => (['+'], rest)
      | s => ([], s)
    if intStr.length > integer then .error .tooLong
    else .ok (sign, intStr, decStr)

/-- state_tracking_visitor.py 198-220 (`_pack_skip_leading`). -/
def packSkipLeading (integer decimal : Nat) (v : ℚ) : Except Err (List Char) :=
  match packHead integer decimal v with
  | .error e => .error e
  | .ok (sign, intStr, decStr) => .ok (sign ++ orZero (lstrip0 (intStr ++ decStr)))

/-- state_tracking_visitor.py 222-246 (`_pack_skip_trailing`). -/
def packSkipTrailing (integer decimal : Nat) (v : ℚ) : Except Err (List Char) :=
  match packHead integer decimal v with
  | .error e => .error e
  | .ok (sign, intStr, decStr) =>
    .ok (sign ++ orZero (rstrip0 (rjust0 integer intStr ++ decStr)))

/-- Axis of a coordinate. -/
inductive Axis | x | y
  deriving DecidableEq, Repr

namespace CoordinateFormat

/-- Integer digits of an axis. -/
def integral (f : CoordinateFormat) : Axis → Nat
  | .x => f.xIntegral
  | .y => f.yIntegral

/-- Decimal digits of an axis. -/
def decimal (f : CoordinateFormat) : Axis → Nat
  | .x => f.xDecimal
  | .y => f.yDecimal

/-- state_tracking_visitor.py 111-126: the `unpack_x`/`unpack_y` slots chosen by `__init__`. -/
def unpack (f : CoordinateFormat) (a : Axis) (s : List Char) : Except Err ℚ :=
  match f.zeros with
  | .skipLeading | .skipLeadingImplied => unpackSkipLeading (f.integral a) (f.decimal a) s
  | .skipTrailing => unpackSkipTrailing (f.integral a) (f.decimal a) s

/-- state_tracking_visitor.py 111-126: the `pack_x`/`pack_y` slots chosen by `__init__`. -/
def pack (f : CoordinateFormat) (a : Axis) (v : ℚ) : Except Err (List Char) :=
  match f.zeros with
  | .skipLeading | .skipLeadingImplied => packSkipLeading (f.integral a) (f.decimal a) v
  | .skipTrailing => packSkipTrailing (f.integral a) (f.decimal a) v

end CoordinateFormat
end Verif.Coord
