import Verif.Model.Walk

/-!
# What walking over a syntax tree means

The nodes that a node holds, in the order of the source, and the tour over a tree: a node is entered, the nodes it holds
are toured one after the other, and it is left.
-/

namespace Verif.Spec
open Verif.Walk Verif.Syntax Verif.Math
open Verif.Peg (Text)

/-- A node that may be missing. -/
def present (a : Axis) : Option Text → List Item
  | none => []
  | some t => [.coord a t]

/-- The nodes directly in a node, in the order of the source. -/
def heldIn : Item → List Item
  | .file ns => ns.map fun | .node n => .node n | .invalid t => .invalid t
  | .node (.ab id ns) => .abOpen id :: ns.map .node ++ [.abClose]
  | .node (.sr x y i j ns) => .srOpen x y i j :: ns.map .node ++ [.srClose]
  | .node (.am name ps) => .amOpen name :: ps.map .prim ++ [.amClose]
  | .node (.d01 x y i j _) => present .x x ++ present .y y ++ present .i i ++ present .j j
  | .node (.d02 x y _) => present .x x ++ present .y y
  | .node (.d03 x y _) => present .x x ++ present .y y
  | .prim (.assign n e) => [.expr (.var n), .expr e]
  | .prim (.code1 a b c d r) => [.expr a, .expr b, .expr c, .expr d] ++ r.toList.map .expr
  | .prim (.code2 a b c d e f g) => [.expr a, .expr b, .expr c, .expr d, .expr e, .expr f, .expr g]
  | .prim (.code4 a b c d ps r) =>
    [.expr a, .expr b, .expr c, .expr d] ++ ps.map (fun p => .point p.1 p.2) ++ [.expr r]
  | .prim (.code5 a b c d e f) => [.expr a, .expr b, .expr c, .expr d, .expr e, .expr f]
  | .prim (.code6 a b c d e f g h i) =>
    [.expr a, .expr b, .expr c, .expr d, .expr e, .expr f, .expr g, .expr h, .expr i]
  | .prim (.code7 a b c d e f) => [.expr a, .expr b, .expr c, .expr d, .expr e, .expr f]
  | .prim (.code20 a b c d e f g) => [.expr a, .expr b, .expr c, .expr d, .expr e, .expr f, .expr g]
  | .prim (.code21 a b c d e f) => [.expr a, .expr b, .expr c, .expr d, .expr e, .expr f]
  | .prim (.code22 a b c d e f) => [.expr a, .expr b, .expr c, .expr d, .expr e, .expr f]
  | .point x y => [.expr x, .expr y]
  | .expr (.paren e) => [.expr e]
  | .expr (.neg e) => [.expr e]
  | .expr (.pos e) => [.expr e]
  | .expr (.bin _ h t) => .expr h :: t.map .expr
  | _ => []

/-- The nodes that have a method in common with others: aperture definitions, attributes, expressions and coordinates. -/
def Grouped : Item → Bool
  | .node (.adc ..) | .node (.adr ..) | .node (.ado ..) | .node (.adp ..) | .node (.adMacro ..) => true
  | .node (.taUser ..) | .node (.taFunction ..) | .node (.taDrill ..) | .node (.taFlash ..) => true
  | .node (.tfUser ..) | .node (.tfPart ..) | .node (.tfFunction ..) | .node (.tfPolarity ..) | .node (.tfSame ..)
  | .node (.tfDate ..) | .node (.tfSoftware ..) | .node (.tfProject ..) | .node (.tfMd5 ..) => true
  | .node (.toUser ..) | .node (.toN ..) | .node (.toP ..) | .node (.toText ..) | .node (.toRot ..)
  | .node (.toHeight ..) | .node (.toMount ..) | .node (.toSup ..) => true
  | .expr _ => true
  | .coord .. => true
  | _ => false

/-- What happens on a tour. -/
inductive Moment
  /-- The method of the node begins. -/
  | enter (i : Item)
  /-- The method of its group is called. -/
  | group (i : Item)
  /-- The end of the file is announced. -/
  | fileEnds (i : Item)
  /-- The method of the node ends. -/
  | leave (i : Item)

/-- The file ends after its nodes. -/
def ending : Item → List Moment
  | .file ns => [.fileEnds (.file ns)]
  | _ => []

mutual
/-- The tour over a node: what it holds is toured if `opens` says so. -/
inductive Tour (opens : Item → Bool) : Item → List Moment → Prop
  | shut (i : Item) : opens i = false → Tour opens i [.enter i, .leave i]
  | opened (i : Item) (inner : List Moment) : opens i = true → Tours opens (heldIn i) inner →
      Tour opens i (.enter i :: (if Grouped i then [.group i] else []) ++ inner ++ ending i ++ [.leave i])
/-- One tour after the other. -/
inductive Tours (opens : Item → Bool) : List Item → List Moment → Prop
  | nil : Tours opens [] []
  | cons (i : Item) (is : List Item) (t ts : List Moment) : Tour opens i t → Tours opens is ts →
      Tours opens (i :: is) (t ++ ts)
end

mutual
/-- A node and everything in it in the order of the source. -/
inductive SourceOrder : Item → List Item → Prop
  | mk (i : Item) (inner : List Item) : AllSourceOrder (heldIn i) inner → SourceOrder i (i :: inner)
/-- Several nodes. -/
inductive AllSourceOrder : List Item → List Item → Prop
  | nil : AllSourceOrder [] []
  | cons (i : Item) (is : List Item) (l ls : List Item) : SourceOrder i l → AllSourceOrder is ls →
      AllSourceOrder (i :: is) (l ++ ls)
end

/-- A visitor whose methods do something on entering and on leaving, and call the inherited method in between if `opens`
says so. -/
def touring {σ ε : Type} (opens : Item → Bool) (act : Moment → σ → σ) : Visitor σ ε where
  on i super := fun s =>
    if opens i then
      match super (act (.enter i) s) with
      | (s, none) => (act (.leave i) s, none)
      | (s, some e) => (s, some e)
    else (act (.leave i) (act (.enter i) s), none)
  group i := fun s => (act (.group i) s, none)
  endOfFile i := fun s => (act (.fileEnds i) s, none)
  onException _ _ s := (s, .ok true)

/-- What remains of a list of moments. -/
def played {σ : Type} (act : Moment → σ → σ) (t : List Moment) (s : σ) : σ := t.foldl (fun s m => act m s) s

/-- No method but those for the file and its end changes what `view` shows of the state. -/
structure Indifferent {σ ε α : Type} (v : Visitor σ ε) (view : σ → α) : Prop where
  /-- A method that calls the inherited one keeps what that one keeps. -/
  on : ∀ i super s, (∀ ns, i ≠ .file ns) → (∀ s, view (super s).1 = view s) → view (v.on i super s).1 = view s
  /-- So do the methods of groups. -/
  group : ∀ i s, view (v.group i s).1 = view s
  /-- And the handler of exceptions. -/
  onException : ∀ i e s, view (v.onException i e s).1 = view s

end Verif.Spec
