import Verif.Model.Grammar
import Verif.Model.State

/-!
# Parsed files as they are seen by the state tracking visitor

The parser (`Verif.Syntax`) and the visitors (`Verif.Visitor`) work on the same Python objects; the two models keep what
each of them looks at.  Here a parsed node is turned into the command that the visitors handle.
Simplifications: the identity of a Python object (`id(node)`, used to name layers) is its number among the `SR` and
`Code7` nodes of the file; the value of an attribute is the list of its fields, written one after the other.
-/

namespace Verif.View

open Verif.Peg Verif.Syntax Verif.Visitor

/-- gerber/ast/nodes/aperture/SR_open.py 25-37: `int` of a text; then `repeats > 0` is asserted.
Simplification: a text that is no integer (`ValueError` of `int`) is treated as 0, which fails the assertion. -/
def repeats : Option Text → Nat
  | none => 1
  | some ('+' :: t) => (pyInt t).getD 0
  | some t => (pyInt t).getD 0

/-- SR_open.py 39-47: `float` of a text, 0 if there is none. -/
def delta : Option Text → ℚ
  | none => 0
  | some t => (Grammar.floatText t).getD 0

/-- Fields of an attribute as one text. -/
def fieldsOf : List Text → Text
  | [] => []
  | f :: fs => ',' :: f ++ fieldsOf fs

/-- `attribute_name` of the object attributes with one field: gerber/ast/nodes/attribute/TO.py 102, 144, 165, 186, 228,
249, 270, 312, 333. -/
def toName : ToKind → Text
  | .c => t!".C"
  | .cMfr => t!".CMfr"
  | .cMpn => t!".CMNP"
  | .cVal => t!".CVal"
  | .cFtp => t!".CFtp"
  | .cPgN => t!".CPgN"
  | .cPgD => t!".CPgD"
  | .cLbN => t!".CLbN"
  | .cLbD => t!".CLbD"

/-- The G codes. -/
def gLeaf : GCode → Leaf
  | .g01 => .g01
  | .g02 => .g02
  | .g03 => .g03
  | .g36 => .g36
  | .g37 => .g37
  | .g54 => .g54
  | .g55 => .g55
  | .g70 => .g70
  | .g71 => .g71
  | .g74 => .g74
  | .g75 => .g75
  | .g90 => .g90
  | .g91 => .g91

/-- A node of a macro body; `n` is the number of the next `SR` or `Code7` node. -/
def prim (n : Nat) : Syntax.Prim → Macro.Prim × Nat
  | .assign v e => (.assign v e, n)
  | .code0 _ => (.code0, n)
  | .code1 a b c d r => (.code1 a b c d r, n)
  | .code2 a b c d e f r => (.code2 a b c d e f r, n)
  | .code4 a b c d ps r => (.code4 a b c d ps r, n)
  | .code5 a b c d e r => (.code5 a b c d e r, n)
  | .code6 a b c d e f g h r => (.code6 a b c d e f g h r, n)
  | .code7 a b c d e r => (.code7 n a b c d e r, n + 1)
  | .code20 a b c d e f r => (.code20 a b c d e f r, n)
  | .code21 a b c d e r => (.code21 a b c d e r, n)
  | .code22 a b c d e r => (.code22 a b c d e r, n)

/-- The nodes of a macro body. -/
def prims (n : Nat) : List Syntax.Prim → List Macro.Prim × Nat
  | [] => ([], n)
  | p :: ps =>
    let a := prim n p
    let b := prims a.2 ps
    (a.1 :: b.1, b.2)

/-- Nodes without a body: the fields of the classes in gerber/ast/nodes (the citations are at `Verif.Syntax.Node`) and
`attribute_name` of the attributes, gerber/ast/nodes/attribute/T{A,F,O}.py.  Blocks and macros are handled by `cmd`. -/
def leaf : Node → Leaf
  | .adc i d h => .ad i (.circle d h)
  | .adr i w h o => .ad i (.rect w h o)
  | .ado i w h o => .ad i (.obround w h o)
  | .adp i d v r h => .ad i (.polygon d v.toNat r h)
  | .adMacro i m ps => .ad i (.macro m (ps.getD []))
  | .taUser n fs => .ta n (fieldsOf fs)
  | .taFunction f fs => .ta t!".AperFunction" (fieldsOf (f.toList ++ fs))
  | .taDrill p m => .ta t!".DrillTolerance" (fieldsOf ((p.toList ++ m.toList).map Fmt.strFloat))
  | .taFlash s m r f z cs => .ta t!".FlashText" (fieldsOf ([s, m, r, f.getD [], z.getD []] ++ cs))
  | .td n => .td n
  | .tfUser n fs => .tf n (fieldsOf fs)
  | .tfPart p fs => .tf t!".Part" (fieldsOf (p :: fs))
  | .tfFunction p fs => .tf t!".FileFunction" (fieldsOf (p :: fs))
  | .tfPolarity p => .tf t!".FilePolarity" (fieldsOf [p])
  | .tfSame i => .tf t!".SameCoordinates" (fieldsOf i.toList)
  | .tfDate d => .tf t!".CreationDate" (fieldsOf [d])
  | .tfSoftware a b c => .tf t!".GenerationSoftware" (fieldsOf [a.getD [], b.getD [], c.getD []])
  | .tfProject a b c => .tf t!".ProjectId" (fieldsOf [a.getD [], b.getD [], c.getD []])
  | .tfMd5 t => .tf t!".MD5" (fieldsOf [t])
  | .toUser n fs => .to n (fieldsOf fs)
  | .toN fs => .to t!".N" (fieldsOf fs)
  | .toP r n f => .to t!".P" (fieldsOf ([r, n] ++ f.toList))
  | .toText k v => .to (toName k) (fieldsOf [v])
  | .toRot a => .to t!".CRot" (fieldsOf [Fmt.strFloat a])
  | .toHeight a => .to t!".CHgt" (fieldsOf [Fmt.strFloat a])
  | .toMount m => .to t!".CMnt" (fieldsOf [m])
  | .toSup a b fs => .to t!".CSup" (fieldsOf (a :: b :: fs))
  | .dnn i _ => .dnn i
  | .d01 x y i j _ => .d01 x y i j
  | .d02 x y _ => .d02 x y
  | .d03 x y _ => .d03 x y
  | .g c _ => gLeaf c
  | .g04 _ => .g04
  | .lm m => .lm m
  | .ln n => .ln n
  | .lp p => .lp p
  | .lr r => .lr r
  | .ls k => .ls k
  | .m00 => .m00
  | .m01 => .m01
  | .m02 => .m02
  | .as_ a => .as_ a
  | .fs z m a b c d => .fs { zeros := z, notation_ := m, xIntegral := a, xDecimal := b, yIntegral := c, yDecimal := d }
  | .in_ n => .in_ n
  | .ip p => .ip p
  | .ir n => .ir n
  | .mi a b => .mi (if a then 1 else 0) (if b then 1 else 0)
  | .mo u => .mo u
  | .of_ a b => .of_ a b
  | .sf a b => .sf (some a) (some b)
  | .ab .. => .g04
  | .sr .. => .g04
  | .am .. => .g04

mutual
/-- A node; `n` is the number of the next `SR` or `Code7` node. -/
def cmd (n : Nat) : Node → Visitor.Cmd × Nat
  | .ab i ns => (.ab i (cmds n ns).1, (cmds n ns).2)
  | .sr x y i j ns => (.sr ⟨n, repeats x, repeats y, delta i, delta j⟩ (cmds (n + 1) ns).1, (cmds (n + 1) ns).2)
  | .am name ps => (.leaf (.am name (prims n ps).1), (prims n ps).2)
  | m => (.leaf (leaf m), n)
/-- Several nodes. -/
def cmds (n : Nat) : List Node → List Visitor.Cmd × Nat
  | [] => ([], n)
  | m :: ms => ((cmd n m).1 :: (cmds (cmd n m).2 ms).1, (cmds (cmd n m).2 ms).2)
end

/-- The commands of a parsed file. -/
def commands (file : List Node) : List Visitor.Cmd := (cmds 0 file).1

end Verif.View
