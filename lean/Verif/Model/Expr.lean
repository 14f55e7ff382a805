import Verif.Model.Fmt

/-!
# Macro expressions: grammar, printer, evaluator

`Grammar.expression` (gerber/parser/pyparsing/grammar.py 1398-1483), the formatter callbacks
(gerber/formatter/formatter.py 1089-1205) and `ExpressionEvalVisitor`
(gerber/ast/expression_eval_visitor.py 26-112).  pyparsing's `|` is ordered choice, `[1, ...]` is greedy
repetition without backtracking, and every token skips leading blanks.
-/

namespace Verif.Math

open Verif.Text Verif.Fmt

/-- Binary operator nodes `Add`, `Sub`, `Mul`, `Div`: gerber/ast/nodes/math/operators/binary/*.py. -/
inductive Op | add | sub | mul | div
  deriving DecidableEq, Repr

/-- Expression nodes, gerber/ast/nodes/math/*.py.  Simplification: constants are exact rationals and source
positions are dropped. -/
inductive Expr
  | const (value : ℚ)
  | var (name : List Char)
  | paren (inner : Expr)
  | neg (operand : Expr)
  | pos (operand : Expr)
  | bin (op : Op) (head : Expr) (tail : List Expr)

/-! ## Evaluation -/

/-- Exceptions of the evaluation: `KeyError` of the scope lookup, `ZeroDivisionError` of `/=`. -/
inductive EvalErr | keyError | zeroDivision
  deriving DecidableEq, Repr

/-- One step of the `total op= self.return_value` loops, expression_eval_visitor.py 47-49, 59-61, 71-73, 83-85. -/
def Op.step : Op → ℚ → ℚ → Except EvalErr ℚ
  | .add, a, b => .ok (a + b)
  | .sub, a, b => .ok (a - b)
  | .mul, a, b => .ok (a * b)
  | .div, a, b => if b = 0 then .error .zeroDivision else .ok (a / b)

mutual
/-- `ExpressionEvalVisitor`, expression_eval_visitor.py 36-112 (`Parenthesis` is visited by the default visitor,
gerber/ast/ast_visitor.py, which visits the inner node). -/
def eval (scope : List Char → Option ℚ) : Expr → Except EvalErr ℚ
  | .const c => .ok c
  | .var n => match scope n with
    | some v => .ok v
    | none => .error .keyError
  | .paren e => eval scope e
  | .neg e => match eval scope e with
    | .ok v => .ok (-v)
    | .error x => .error x
  | .pos e => eval scope e
  | .bin op h t => match eval scope h with
    | .ok v => evalTail scope op v t
    | .error x => .error x
/-- The loop over `node.tail`, expression_eval_visitor.py 47-49 and its three siblings. -/
def evalTail (scope : List Char → Option ℚ) (op : Op) : ℚ → List Expr → Except EvalErr ℚ
  | total, [] => .ok total
  | total, e :: es => match eval scope e with
    | .ok v => match op.step total v with
      | .ok total' => evalTail scope op total' es
      | .error x => .error x
    | .error x => .error x
end

/-! ## Printing -/

/-- The operator signs written by the formatter, formatter.py 1097, 1113, 1129, 1145. -/
def Op.char : Op → Char
  | .add => '+'
  | .sub => '-'
  | .mul => 'x'
  | .div => '/'

mutual
/-- `on_add … on_variable`, formatter.py 1089-1205; `ex` is the explicit-parenthesis option, `fd` the number
formatting in force (`_fmt_double`). -/
def print (fd : ℚ → List Char) (ex : Bool) : Expr → List Char
  | .const c => fd c
  | .var n => n
  | .paren e => (if ex then [] else ['(']) ++ print fd ex e ++ (if ex then [] else [')'])
  | .neg e => '-' :: print fd ex e
  | .pos e => '+' :: print fd ex e
  | .bin op h t =>
    (if ex then ['('] else []) ++ print fd ex h ++ printTail fd ex op t ++ (if ex then [')'] else [])
/-- The loop over `node.tail`, formatter.py 1096-1098 and its three siblings. -/
def printTail (fd : ℚ → List Char) (ex : Bool) (op : Op) : List Expr → List Char
  | [] => []
  | e :: es => op.char :: print fd ex e ++ printTail fd ex op es
end

/-! ## Parsing -/

/-- A parser consumes a prefix of the text. -/
abbrev P (α : Type) := List Char → Option (α × List Char)

/-- The blanks pyparsing skips before every token (`ParserElement.DEFAULT_WHITE_CHARS`). -/
def isBlank (c : Char) : Bool := c == ' ' || c == '\n' || c == '\t' || c == '\r'

/-- Skip leading blanks. -/
def skip (s : List Char) : List Char := s.dropWhile isBlank

/-- `variable`, grammar.py 1492-1499: the regex `\$[0-9]+`. -/
def pVar : P Expr := fun s =>
  match skip s with
  | '$' :: r =>
    if (digits r).1.isEmpty then none else some (.var ('$' :: (digits r).1), (digits r).2)
  | _ => none

/-- `constant`, grammar.py 1485-1490. -/
def pConst : P Expr := fun s => (pDouble (skip s)).map (fun p => (.const p.1, p.2))

/-- The parenthesised alternative of `factor`, grammar.py 1405. -/
def pParen (inner : P Expr) : P Expr := fun s =>
  match skip s with
  | '(' :: r => match inner r with
    | some (e, r') => match skip r' with
      | ')' :: r'' => some (.paren e, r'')
      | _ => none
    | none => none
  | _ => none

/-- `factor`, grammar.py 1402-1406. -/
def pFactor (inner : P Expr) : P Expr := fun s =>
  (pVar s).orElse fun _ => (pConst s).orElse fun _ => pParen inner s

/-- A prefix operator level: `match_expr | last_expr` of grammar.py 1410-1417 (`-`) and 1420-1427 (`+`).
`fuel` bounds the number of stacked operators. -/
def pUnary (sign : Char) (node : Expr → Expr) (last : P Expr) : Nat → P Expr
  | 0, s => last s
  | n + 1, s =>
    match skip s with
    | c :: r =>
      if c = sign then
        match pUnary sign node last n r with
        | some (e, r') => some (node e, r')
        | none => last s
      else last s
    | [] => last s

/-- Greedy repetition `(op_expr + last_expr)[...]`, grammar.py 1435-1437 and its siblings.
`fuel` bounds the number of repetitions. -/
def pMany (isOp : Char → Bool) (last : P Expr) : Nat → List Char → List Expr × List Char
  | 0, s => ([], s)
  | n + 1, s =>
    match skip s with
    | c :: r =>
      if isOp c then
        match last r with
        | some (e, r') => let p := pMany isOp last n r'; (e :: p.1, p.2)
        | none => ([], s)
      else ([], s)
    | [] => ([], s)

/-- A binary operator level: `match_expr | last_expr` of grammar.py 1430-1440 and its siblings 1443-1453,
1456-1466, 1469-1479.  The look-ahead `FollowedBy(last + op + last)` succeeds exactly when the head and one
repetition can be parsed. -/
def pBin (op : Op) (isOp : Char → Bool) (last : P Expr) : P Expr := fun s =>
  match last s with
  | some (h, r) =>
    match pMany isOp last r.length r with
    | ([], _) => some (h, r)
    | (t :: ts, r') => some (.bin op h (t :: ts), r')
  | none => none

/-- Everything between `factor` and the complete expression, grammar.py 1408-1481, innermost level first:
unary `-`, unary `+`, `/`, `x` or `X`, binary `-`, binary `+`. -/
def pLevels (inner : P Expr) : P Expr :=
  let neg : P Expr := fun s => pUnary '-' .neg (pFactor inner) s.length s
  let pos : P Expr := fun s => pUnary '+' .pos neg s.length s
  let div := pBin .div (· == '/') pos
  let mul := pBin .mul (fun c => c == 'x' || c == 'X') div
  let sub := pBin .sub (· == '-') mul
  pBin .add (· == '+') sub

/-- `expression`, grammar.py 1398-1483; `fuel` bounds the nesting of parentheses. -/
def pExpr : Nat → P Expr
  | 0 => fun _ => none
  | n + 1 => pLevels (pExpr n)

/-- The expression parser on a whole text: fuel large enough for every nesting. -/
def parse : P Expr := fun s => pExpr (s.length + 1) s

end Verif.Math
