import Mathlib.Algebra.Order.Field.Basic
import Mathlib.Algebra.Order.Ring.Abs

/-!
# Vectors, boxes and matrices (vm/types/vector.py, vm/types/box.py, vm/types/matrix.py)

Coordinates range over an arbitrary type `K` (a linearly ordered field for most uses, extended reals for boxes with
infinite bounds).  Simplification: exact arithmetic instead of IEEE doubles.
-/

namespace Verif.Geom

/-- vm/types/vector.py 17-21 (`Vector`). -/
@[ext] structure Vec (K : Type*) where
  x : K
  y : K
  deriving DecidableEq, Repr

namespace Vec
variable {K : Type*}

/-- vector.py 40-48 (`__add__` with a `Vector`). -/
instance [Add K] : Add (Vec K) := ⟨fun a b => ⟨a.x + b.x, a.y + b.y⟩⟩
/-- vector.py 50-58 (`__sub__` with a `Vector`). -/
instance [Sub K] : Sub (Vec K) := ⟨fun a b => ⟨a.x - b.x, a.y - b.y⟩⟩
/-- vector.py 110-112 (`__neg__`). -/
instance [Neg K] : Neg (Vec K) := ⟨fun a => ⟨-a.x, -a.y⟩⟩
/-- vector.py 60-68 (`__mul__` with a number). -/
def scale [Mul K] (a : Vec K) (k : K) : Vec K := ⟨a.x * k, a.y * k⟩
/-- vector.py 70-78 (`__truediv__` with a number). -/
def divBy [Div K] (a : Vec K) (k : K) : Vec K := ⟨a.x / k, a.y / k⟩

@[simp] theorem add_x [Add K] (a b : Vec K) : (a + b).x = a.x + b.x := rfl
@[simp] theorem add_y [Add K] (a b : Vec K) : (a + b).y = a.y + b.y := rfl
@[simp] theorem sub_x [Sub K] (a b : Vec K) : (a - b).x = a.x - b.x := rfl
@[simp] theorem sub_y [Sub K] (a b : Vec K) : (a - b).y = a.y - b.y := rfl
@[simp] theorem neg_x [Neg K] (a : Vec K) : (-a).x = -a.x := rfl
@[simp] theorem neg_y [Neg K] (a : Vec K) : (-a).y = -a.y := rfl

end Vec

/-- vm/types/box.py 18-24 (`Box`). -/
@[ext] structure Box (K : Type*) where
  minX : K
  minY : K
  maxX : K
  maxY : K
  deriving DecidableEq, Repr

namespace Box
variable {K : Type*}

/-- box.py 18-24: `Box()` with its default (inverted infinite) bounds. -/
def empty [Top K] [Bot K] : Box K := ⟨⊤, ⊤, ⊥, ⊥⟩

/-- box.py 35-39: one step of the loop of `from_vectors`. -/
def extend [LinearOrder K] (b : Box K) (v : Vec K) : Box K :=
  ⟨min b.minX v.x, min b.minY v.y, max b.maxX v.x, max b.maxY v.y⟩

/-- box.py 26-46 (`from_vectors`); the first vector is separate because the code asserts there is one. -/
def fromVectors [LinearOrder K] (v : Vec K) (vs : List (Vec K)) : Box K :=
  vs.foldl extend ⟨v.x, v.y, v.x, v.y⟩

/-- box.py 48-58 (`from_center_width_height`). -/
def fromCenterWidthHeight [Field K] (c : Vec K) (w h : K) : Box K :=
  ⟨c.x - w / 2, c.y - h / 2, c.x + w / 2, c.y + h / 2⟩

/-- box.py 60-63 (`width`). -/
def width [Lattice K] [AddGroup K] (b : Box K) : K := |b.maxX - b.minX|
/-- box.py 65-68 (`height`). -/
def height [Lattice K] [AddGroup K] (b : Box K) : K := |b.maxY - b.minY|
/-- box.py 70-76 (`center`). -/
def center [Field K] (b : Box K) : Vec K := ⟨(b.maxX + b.minX) / 2, (b.maxY + b.minY) / 2⟩

/-- box.py 80-86 (`Box.__add__` with a `Box`). -/
def union [LinearOrder K] (a b : Box K) : Box K :=
  ⟨min a.minX b.minX, min a.minY b.minY, max a.maxX b.maxX, max a.maxY b.maxY⟩

/-- box.py 88-94 (`Box.__add__` with a `Vector`). -/
def translate [Add K] (a : Box K) (v : Vec K) : Box K :=
  ⟨a.minX + v.x, a.minY + v.y, a.maxX + v.x, a.maxY + v.y⟩

/-- box.py 106-114 (`Box.__sub__` with a `Vector`). -/
def translateBack [Sub K] (a : Box K) (v : Vec K) : Box K :=
  ⟨a.minX - v.x, a.minY - v.y, a.maxX - v.x, a.maxY - v.y⟩

end Box

/-- vm/types/matrix.py 22-33 (`Matrix3x3`). -/
@[ext] structure Mat (K : Type*) where
  m : Fin 3 → Fin 3 → K

namespace Mat
variable {K : Type*} [Field K]

/-- A matrix from its nine entries, row by row. -/
def ofRows (a b c d e f g h i : K) : Mat K :=
  ⟨fun r k => match r, k with
    | 0, 0 => a | 0, 1 => b | 0, 2 => c
    | 1, 0 => d | 1, 1 => e | 1, 2 => f
    | 2, 0 => g | 2, 1 => h | 2, 2 => i⟩

/-- matrix.py 35-44 (`new_translate`). -/
def newTranslate (x y : K) : Mat K := ofRows 1 0 x 0 1 y 0 0 1

/-- matrix.py 46-70 (`new_rotate`), given the cosine and the sine of the angle. -/
def newRotateCS (c s : K) : Mat K := ofRows c (-s) 0 s c 0 0 0 1

/-- matrix.py 72-81 (`new_reflect`). -/
def newReflect (x y : Bool) : Mat K :=
  ofRows (if x then -1 else 1) 0 0 0 (if y then -1 else 1) 0 0 0 1

/-- matrix.py 83-92 (`new_scale`). -/
def newScale (x y : K) : Mat K := ofRows x 0 0 0 y 0 0 0 1

/-- matrix.py 95-107 (`__matmul__` with a matrix): the triple loop. -/
def matmul (a b : Mat K) : Mat K :=
  ⟨fun i j => [0, 1, 2].foldl (fun acc k => acc + a.m i k * b.m k j) 0⟩

/-- matrix.py 109-112 (`__matmul__` with a vector) and vector.py 156-158 (`Vector.transform`). -/
def apply (a : Mat K) (v : Vec K) : Vec K :=
  ⟨a.m 0 0 * v.x + a.m 0 1 * v.y + a.m 0 2, a.m 1 0 * v.x + a.m 1 1 * v.y + a.m 1 2⟩

end Mat
end Verif.Geom
