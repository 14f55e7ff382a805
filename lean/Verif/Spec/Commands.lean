import Verif.Model.Formatter
import Verif.Spec.Expr

/-!
# Specification of what formatting must preserve
-/

namespace Verif.Spec

open Verif.Text Verif.Peg Verif.Syntax Verif.Formatter
open Verif.Math hiding P

/-! ## Parts of a command -/

/-- The expressions of a node of a macro body. -/
def primExprs : Prim → List Expr
  | .assign _ e => [e]
  | .code0 _ => []
  | .code1 a b c d r => [a, b, c, d] ++ r.toList
  | .code2 a b c d e f r => [a, b, c, d, e, f, r]
  | .code4 a b c d ps r => [a, b, c, d] ++ (ps.map (fun p => [p.1, p.2])).flatten ++ [r]
  | .code5 a b c d e r => [a, b, c, d, e, r]
  | .code6 a b c d e f g h r => [a, b, c, d, e, f, g, h, r]
  | .code7 a b c d e r => [a, b, c, d, e, r]
  | .code20 a b c d e f r => [a, b, c, d, e, f, r]
  | .code21 a b c d e r => [a, b, c, d, e, r]
  | .code22 a b c d e r => [a, b, c, d, e, r]

/-- The expressions of a node. -/
def exprs : Node → List Expr
  | .am _ ps => (ps.map primExprs).flatten
  | _ => []

/-- The numbers of a node outside of expressions. -/
def numbers : Node → List ℚ
  | .adc _ d h => [d] ++ h.toList
  | .adr _ w h o => [w, h] ++ o.toList
  | .ado _ w h o => [w, h] ++ o.toList
  | .adp _ d _ r h => [d] ++ r.toList ++ h.toList
  | .adMacro _ _ ps => ps.getD []
  | .taDrill p m => p.toList ++ m.toList
  | .toRot a => [a]
  | .toHeight a => [a]
  | .lr a => [a]
  | .ls a => [a]
  | .of_ a b => a.toList ++ b.toList
  | .sf a b => [a, b]
  | _ => []

mutual
/-- The node and all nodes inside of it. -/
def inside : Node → List Node
  | .ab i ns => .ab i ns :: insideAll ns
  | .sr x y i j ns => .sr x y i j ns :: insideAll ns
  | n => [n]
/-- All nodes, also those inside of blocks. -/
def insideAll : List Node → List Node
  | [] => []
  | n :: ns => inside n ++ insideAll ns
end

/-- The numbers written in an expression. -/
def constants : Expr → List ℚ
  | .const c => [c]
  | .var _ => []
  | .paren e => constants e
  | .neg e => constants e
  | .pos e => constants e
  | .bin _ h t => constants h ++ constantsAll t
where
  /-- The numbers written in several expressions. -/
  constantsAll : List Expr → List ℚ
  | [] => []
  | e :: es => constants e ++ constantsAll es

/-! ## Commands whose printed form can be read back -/

/-- A macro with this name and these parameters looks like a standard aperture. -/
def Shadowed (n : Text) (ps : Option (List ℚ)) : Prop :=
  ∃ l, ps = some l ∧ (n = t!"C" ∧ l.length ≤ 2 ∨ (n = t!"R" ∨ n = t!"O") ∧ 2 ≤ l.length ∧ l.length ≤ 3 ∨
    n = t!"P" ∧ 2 ≤ l.length ∧ l.length ≤ 4)

/-- Commands whose printed form says everything: not a step and repeat with only some of its parameters, not a
GenerationSoftware or ProjectId attribute with missing fields, not a macro aperture that looks like a standard one. -/
def Regular : Node → Prop
  | .sr x y i j _ => (x = none ∧ y = none ∧ i = none ∧ j = none) ∨
      (x.isSome = true ∧ y.isSome = true ∧ i.isSome = true ∧ j.isSome = true)
  | .tfSoftware a b c => a.isSome = true ∧ b.isSome = true ∧ c.isSome = true
  | .tfProject a b c => a.isSome = true ∧ b.isSome = true ∧ c.isSome = true
  | .adMacro _ n ps => ¬ Shadowed n ps
  | _ => True

/-- Python writes numbers of this size without an exponent. -/
def PlainNumber (q : ℚ) : Prop := q = 0 ∨ (1 / 10000 ≤ |q| ∧ |q| < 10 ^ 16)

/-- The options print this number exactly. -/
def Exact (u : Options) (q : ℚ) : Prop := PlainNumber q ∧ ∀ d, u.places = some d → ∃ m : ℤ, q = m / 10 ^ d

/-- The command can be printed with the options without loss. -/
def Printable (u : Options) (n : Node) : Prop :=
  Regular n ∧ (∀ q ∈ numbers n, Exact u q) ∧ ∀ e ∈ exprs n, ∀ q ∈ constants e, Exact u q

/-- Reading a creation date again gives the same date: what is written for a date has no tab and none of the characters
`%`, `*` and `,`, does not begin with a blank, and is read as the same date.  (`rd` reads a date and gives what `isoformat` writes
for it.) -/
def StableDates (rd : Text → Option Text) : Prop :=
  ∀ t d, rd t = some d → rd d = some d ∧ (∀ c ∈ d, c ≠ '%' ∧ c ≠ '*' ∧ c ≠ ',' ∧ c ≠ '\t') ∧ ∀ c r, d = c :: r → ¬ Blank [c]

/-! ## Options that only change the layout -/

/-- The indentation consists of blanks. -/
def BlankIndent (c : Char) : Indent → Prop
  | .count n => n = 0 ∨ Blank [c]
  | .text t => Blank t

/-- All indentations are made of blanks and the line end is one of the two that the options allow; expressions are printed as they were
written; there is no rounding to integers. -/
structure BlankLayout (u : Options) : Prop where
  macroBody : BlankIndent u.indentChar u.macroBody
  macroParam : BlankIndent u.indentChar u.macroParam
  abIndent : BlankIndent u.indentChar u.abIndent
  srIndent : BlankIndent u.indentChar u.srIndent
  d01 : BlankIndent u.indentChar u.d01Indent
  d02 : BlankIndent u.indentChar u.d02Indent
  d03 : BlankIndent u.indentChar u.d03Indent
  lf : u.lf = ['\n'] ∨ u.lf = ['\r', '\n']
  explicit : u.explicit = false
  places : u.places ≠ some 0

/-- The options do not remove commands and do not separate G codes from their D codes. -/
structure Faithful (u : Options) : Prop where
  separate : u.separate = false
  removeG54 : u.removeG54 = false
  removeG55 : u.removeG55 = false

/-- Blocks and D codes are not indented. -/
def Flat (u : Options) : Prop :=
  u.strip = true ∨ ∀ i ∈ [u.abIndent, u.srIndent, u.d01Indent, u.d02Indent, u.d03Indent], i = .count 0 ∨ i = .text []

/-! ## Step and repeat -/

/-- A step and repeat header with exactly the parameters that are present. -/
def header (x y i j : Option Text) : Text :=
  let part := fun (letter : Char) (v : Option Text) => (v.map (letter :: ·)).getD []
  t!"%SR" ++ part 'X' x ++ part 'Y' y ++ part 'I' i ++ part 'J' j ++ t!"*%"

/-! ## Commands up to line breaks -/

/-- The node with the flag `is_standalone`. -/
def withFlag (s : Bool) : Node → Node
  | .dnn i _ => .dnn i s
  | .d01 x y i j _ => .d01 x y i j s
  | .d02 x y _ => .d02 x y s
  | .d03 x y _ => .d03 x y s
  | n => n

/-- The options remove this G code. -/
def Removed (u : Options) (c : GCode) : Bool := (decide (c = .g54) && u.removeG54) || (decide (c = .g55) && u.removeG55)

mutual
/-- The command, without the G codes in `drop` and without the information whether an asterisk separates a G code from
the D code after it. -/
def bare (drop : GCode → Bool) : Node → List Node
  | .ab i ns => [.ab i (bareAll drop ns)]
  | .sr x y i j ns => [.sr x y i j (bareAll drop ns)]
  | .g c _ => if drop c then [] else [.g c true]
  | n => [withFlag true n]
/-- The commands, as in `bare`. -/
def bareAll (drop : GCode → Bool) : List Node → List Node
  | [] => []
  | n :: ns => bare drop n ++ bareAll drop ns
end

end Verif.Spec
