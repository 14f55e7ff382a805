import Verif.Model.Metadata
import Verif.Spec.History

/-!
# The attributes a program carries
-/

namespace Verif.Spec
open Verif.Visitor Verif.Compiler Verif.Metadata
noncomputable section

/-- The compiler after a history, with (`inc`) or without metadata. -/
def compiledWith (inc : Bool) (env : Env) (h : List Atom) : Except CErr MState :=
  Metadata.feed env inc (run {} h).ev MState.init

/-- The object attributes in force after a history, each with its latest value, and no others. -/
def IsObjectInfo (h : List Atom) (info : Option (Dict Name Name)) : Prop :=
  ∃ d, info = some d ∧ ∀ n, d.get? n = latest (setsObjectAttr n) none h

/-- The aperture attributes in force after a history. -/
def IsApertureInfo (h : List Atom) (info : Option (Dict Name Name)) : Prop :=
  ∃ d, info = some d ∧ ∀ n, d.get? n = latest (setsApertureAttr n) none h

/-- The file attributes in force after a history. -/
def IsFileInfo (h : List Atom) (info : Option (Dict Name Name)) : Prop :=
  ∃ d, info = some d ∧ ∀ n, d.get? n = latest (setsFileAttr n) none h

/-- Executing `a` after `h` appends the commands `new`, with their metadata, to the layer being drawn, and changes no
other layer. -/
def Writes (env : Env) (h : List Atom) (a : Atom) (new : List Tagged) : Prop :=
  ∃ c c', compiledWith true env h = .ok c ∧ compiledWith true env (h ++ [a]) = .ok c' ∧ c'.stack = c.stack ∧
    (∀ id b, c.stack.head? = some id → c.buffers.get? id = some b → c'.buffers.get? id = some (b ++ new)) ∧
    (∀ id b, c.stack.head? ≠ some id → c.buffers.get? id = some b → c'.buffers.get? id = some b)

/-- Moirés and thermals. -/
def isTarget : Macro.Prim → Bool
  | .code6 .. => true
  | .code7 .. => true
  | _ => false

/-- Definitions that use a macro with a moiré or a thermal; `body` gives the macros. -/
def hasTarget (body : Name → Option (List Macro.Prim)) : ApDef → Bool
  | .macro name _ => ((body name).getD []).any isTarget
  | _ => false

/-- The metadata of a command of a file: none, the object attributes in force at a `D01` or `D03` of the file, or the
aperture attributes in force at an `AD`. -/
def ComesFrom (h : List Atom) (info : Option (Dict Name Name)) : Prop :=
  info = none ∨ ∃ pre a post, h = pre ++ a :: post ∧
    (((∃ x y i j, a = .leaf (.d01 x y i j)) ∨ ∃ x y, a = .leaf (.d03 x y)) ∧ IsObjectInfo pre info ∨
      (∃ id d, a = .leaf (.ad id d)) ∧ IsApertureInfo pre info)

end
end Verif.Spec
