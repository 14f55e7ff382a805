import Verif.Model.Expr
import Lean.Elab.Command

/-!
# The pyparsing combinators used by the grammar

`pyparsing` is outside the repository; this file models the part of it that
gerber/parser/pyparsing/grammar.py uses: a parser element consumes a prefix of the text or fails, `|` and `MatchFirst`
are ordered choice without backtracking into an earlier success, `ZeroOrMore` is greedy, and every token except
`CharsNotIn` skips leading blanks.  A parse action that raises (pydantic's `ValidationError`) aborts the whole parse:
no further alternative is tried.
-/

namespace Verif.Peg

open Verif.Text Verif.Fmt Verif.Math

/-- Texts are character lists. -/
abbrev Text := List Char

/-- `t!"abc"` is the character list `['a', 'b', 'c']`. -/
macro:max "t!" s:str : term => do
  let cs := s.getString.toList.map (fun c => Lean.Syntax.mkCharLit c)
  `([$(cs.toArray),*])

/-- Outcome of a parser element: `ParseException` (tried alternatives go on), an exception of a parse action, or a value
and the unread text. -/
inductive Res (α : Type)
  | fail
  | raised
  | ok (value : α) (rest : Text)

/-- A parser element. -/
abbrev P (α : Type) := Text → Res α

/-- An element that reads nothing. -/
def ret {α : Type} (a : α) : P α := fun s => .ok a s

/-- A failing parse action (`ValidationError`). -/
def raise {α : Type} : P α := fun _ => .raised

/-- `pp.And`: one element after the other. -/
def andThen {α β : Type} (p : P α) (f : α → P β) : P β := fun s =>
  match p s with
  | .ok a r => f a r
  | .fail => .fail
  | .raised => .raised

@[inherit_doc] infixr:55 " ~> " => andThen

/-- `p + q` keeping the value of `q` only. -/
def before {α β : Type} (p : P α) (q : P β) : P β := p ~> fun _ => q

@[inherit_doc] infixr:55 " ≫ " => before

/-- Apply a function to the value. -/
def mapP {α β : Type} (f : α → β) (p : P α) : P β := p ~> fun a => ret (f a)

/-- `p | q`. -/
def orElse {α : Type} (p q : P α) : P α := fun s =>
  match p s with
  | .ok a r => .ok a r
  | .fail => q s
  | .raised => .raised

/-- `pp.MatchFirst`. -/
def firstOf {α : Type} : List (P α) → P α
  | [] => fun _ => .fail
  | p :: ps => orElse p (firstOf ps)

/-- `pp.Opt`. -/
def opt {α : Type} (p : P α) : P (Option α) := fun s =>
  match p s with
  | .ok a r => .ok (some a) r
  | .fail => .ok none s
  | .raised => .raised

/-- `pp.ZeroOrMore`; `fuel` bounds the number of repetitions (every repeated element of the grammar reads at least one
character). -/
def manyFuel {α : Type} (p : P α) : Nat → P (List α)
  | 0 => ret []
  | n + 1 => fun s =>
    match p s with
    | .ok a r => mapP (a :: ·) (manyFuel p n) r
    | .fail => .ok [] s
    | .raised => .raised

/-- `pp.ZeroOrMore`. -/
def many {α : Type} (p : P α) : P (List α) := fun s => manyFuel p s.length s

/-- `pp.OneOrMore`. -/
def many1 {α : Type} (p : P α) : P (List α) := p ~> fun a => many p ~> fun as => ret (a :: as)

/-! ## Tokens -/

/-- Remove the prefix `w`. -/
def strip : Text → Text → Option Text
  | [], s => some s
  | _ :: _, [] => none
  | a :: w, c :: s => if a = c then strip w s else none

/-- `pp.Literal`. -/
def lit (w : Text) : P Unit := fun s =>
  match strip w (skip s) with
  | some r => .ok () r
  | none => .fail

/-- Remove the prefix `w`, comparing without case. -/
def stripCaseless : Text → Text → Option Text
  | [], s => some s
  | _ :: _, [] => none
  | a :: w, c :: s => if a.toUpper = c.toUpper then stripCaseless w s else none

/-- `pp.CaselessLiteral`.  Simplification: only ASCII letters are folded. -/
def clit (w : Text) : P Unit := fun s =>
  match stripCaseless w (skip s) with
  | some r => .ok () r
  | none => .fail

/-- The first of the words that is a prefix of the text (`pp.one_of`, whose words are ordered so that no word hides a
longer one). -/
def oneOfIn : List Text → Text → Option (Text × Text)
  | [], _ => none
  | w :: ws, s => match strip w s with
    | some r => some (w, r)
    | none => oneOfIn ws s

/-- `pp.one_of`. -/
def oneOf (ws : List Text) : P Text := fun s =>
  match oneOfIn ws (skip s) with
  | some (w, r) => .ok w r
  | none => .fail

/-- `pp.FollowedBy(pp.one_of(…))` for single characters. -/
def followedBy (cs : List Char) : P Unit := fun s =>
  match skip s with
  | c :: _ => if c ∈ cs then .ok () s else .fail
  | [] => .fail

/-- `string`, grammar.py 278-281: `CharsNotIn("%*")`, at least one character, leading blanks are kept. -/
def string : P Text := fun s =>
  let t := s.takeWhile (fun c => c != '%' && c != '*')
  if t.isEmpty then .fail else .ok t (s.dropWhile (fun c => c != '%' && c != '*'))

/-- Characters allowed inside a name, grammar.py 290 and 295: `[._a-zA-Z0-9]`. -/
def isNameChar (c : Char) : Bool :=
  c == '.' || c == '_' || ('a' ≤ c && c ≤ 'z') || ('A' ≤ c && c ≤ 'Z') || isDigit c

/-- First character of a user attribute name, grammar.py 295: `[_a-zA-Z$]`. -/
def isUserStart (c : Char) : Bool := c == '_' || ('a' ≤ c && c ≤ 'z') || ('A' ≤ c && c ≤ 'Z') || c == '$'

/-- First character of a name, grammar.py 290: `[._a-zA-Z$]`. -/
def isNameStart (c : Char) : Bool := c == '.' || isUserStart c

/-- A regular expression `[first][._a-zA-Z0-9]*`. -/
def nameRe (first : Char → Bool) : P Text := fun s =>
  match skip s with
  | c :: r => if first c then .ok (c :: r.takeWhile isNameChar) (r.dropWhile isNameChar) else .fail
  | [] => .fail

/-- `name`, grammar.py 288-291. -/
def name : P Text := nameRe isNameStart

/-- `user_name`, grammar.py 293-296. -/
def userName : P Text := nameRe isUserStart

/-- Characters of a field, grammar.py 301: `[^%*,]`. -/
def isFieldChar (c : Char) : Bool := c != '%' && c != '*' && c != ','

/-- `field`, grammar.py 298-301: `[^%*,]*`, possibly empty. -/
def field : P Text := fun s => .ok ((skip s).takeWhile isFieldChar) ((skip s).dropWhile isFieldChar)

/-- `double` converted to a number, grammar.py 303-308. -/
def double : P ℚ := fun s =>
  match pDouble (skip s) with
  | some (q, r) => .ok q r
  | none => .fail

/-- `double` kept as text, grammar.py 303-308. -/
def doubleText : P Text := fun s =>
  match pDouble (skip s) with
  | some (_, r) => .ok ((skip s).take ((skip s).length - r.length)) r
  | none => .fail

/-- Sign characters. -/
def isSign (c : Char) : Bool := c == '+' || c == '-'

/-- `integer` kept as text, grammar.py 310-313: `[+-]?[0-9]+`. -/
def integer : P Text := fun s =>
  match skip s with
  | c :: r =>
    if isSign c then
      if (digits r).1.isEmpty then .fail else .ok (c :: (digits r).1) (digits r).2
    else if (digits (c :: r)).1.isEmpty then .fail else .ok (digits (c :: r)).1 (digits (c :: r)).2
  | [] => .fail

/-- `aperture_id`, grammar.py 320-323: `D[0]*[1-9][0-9]+`. -/
def apertureId : P Text := fun s =>
  match skip s with
  | c :: r =>
    if c = 'D' ∧ 2 ≤ (lstrip0 (digits r).1).length then .ok ('D' :: (digits r).1) (digits r).2 else .fail
  | [] => .fail

/-- The regular expressions `G0*91`, `D0*1`, `M0*2`, …: a letter, zeros, the code (which does not begin with a zero). -/
def codeRe (letter : Char) (code : Text) : P Unit := fun s =>
  match skip s with
  | c :: r => if c = letter then
      match strip code (lstrip0 r) with
      | some r' => .ok () r'
      | none => .fail
    else .fail
  | [] => .fail

/-- The regular expression `M0*0`, grammar.py 1382. -/
def mZeros : P Unit := fun s =>
  match skip s with
  | 'M' :: '0' :: r => .ok () (lstrip0 r)
  | _ => .fail

/-- One digit, `[0-9]`, grammar.py 1759-1763. -/
def digit : P Nat := fun s =>
  match skip s with
  | c :: r => if isDigit c then .ok (digitVal c) r else .fail
  | [] => .fail

/-- `expression`, grammar.py 1398-1483. -/
def expr : P Expr := fun s =>
  match parse (skip s) with
  | some (e, r) => .ok e r
  | none => .fail

end Verif.Peg
