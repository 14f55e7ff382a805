import Verif.Model.Expr

/-!
# Aperture macro nodes (gerber/ast/nodes/primitives/*.py, gerber/ast/nodes/math/assignment.py)
-/

namespace Verif.Macro
open Verif.Math

/-- The nodes that may appear in an `AM` body: `Code0` … `Code22` and `Assignment`.  `Code7` carries the identity of
the node (`id(node)`), which the compiler uses to name a layer. -/
inductive Prim
  | code0
  | code1 (exposure diameter centerX centerY : Expr) (rotation : Option Expr)
  | code2 (exposure width startX startY endX endY rotation : Expr)
  | code4 (exposure numberOfPoints startX startY : Expr) (points : List (Expr × Expr)) (rotation : Expr)
  | code5 (exposure vertices centerX centerY diameter rotation : Expr)
  | code6 (centerX centerY outer ringThickness gap maxRings crossThickness crossLength rotation : Expr)
  | code7 (node : Nat) (centerX centerY outer inner gap rotation : Expr)
  | code20 (exposure width startX startY endX endY rotation : Expr)
  | code21 (exposure width height centerX centerY rotation : Expr)
  | code22 (exposure width height xLowerLeft yLowerLeft rotation : Expr)
  | assign (variable_ : List Char) (expression : Expr)

end Verif.Macro
