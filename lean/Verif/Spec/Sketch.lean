import Verif.Model.RvmcFigures
import Verif.Spec.MacroShape
import Verif.Spec.Stroke
import Verif.Spec.Render

/-!
# What is asked for with the RVMC builder
-/

namespace Verif.Spec
open Verif.Rvmc Verif.Geom Verif.RvmcBuilder Real
noncomputable section

/-- The points of a rectangle with its sides along the axes. -/
def Bar (c : Vec ℝ) (w h : ℝ) : Set (Vec ℝ) := {p | |p.x - c.x| ≤ w / 2 ∧ |p.y - c.y| ≤ h / 2}

/-- The points of a stripe of width `w` along the segment from `s` to `e`, with flat ends: their foot on the line is between
`s` and `e`, their distance from the line is at most `w / 2`. -/
def Stripe (s e : Vec ℝ) (w : ℝ) : Set (Vec ℝ) :=
  {p | 0 ≤ (p.x - s.x) * (e.x - s.x) + (p.y - s.y) * (e.y - s.y) ∧
    (p.x - s.x) * (e.x - s.x) + (p.y - s.y) * (e.y - s.y) ≤ (e.x - s.x) ^ 2 + (e.y - s.y) ^ 2 ∧
    |(e.x - s.x) * (p.y - s.y) - (e.y - s.y) * (p.x - s.x)| ≤ w / 2 * vlen (e - s)}

/-- The corners of a regular polygon, the first one turned by `r` degrees from the right. -/
def regularCorners (c : Vec ℝ) (d : ℝ) (n : ℕ) (r : ℝ) : List (Vec ℝ) :=
  (List.range n).map fun (k : ℕ) => c + rotCcw (r * π / 180) ⟨d / 2 * cos (2 * π * k / n), d / 2 * sin (2 * π * k / n)⟩

/-- The parts of a figure: a cross consists of two bars, an X of two stripes along diagonals. -/
def parts : Mark → List (Set (Vec ℝ))
  | .circle c d => [{p | vlen (p - c) ≤ d / 2}]
  | .rectangle c w h => [Bar c w h]
  | .obround c w h => [{p | Swept (c - ⟨(w - min w h) / 2, (h - min w h) / 2⟩) (c + ⟨(w - min w h) / 2, (h - min w h) / 2⟩) (min w h) p}]
  | .polygon c d n r => [{p | Polygon (regularCorners c d n.toNat r) p}]
  | .line a b t => [Stripe a b t]
  | .cross c w h t => [Bar c w t, Bar c t h]
  | .x c l t => [Stripe (c + ⟨l / 2, l / 2⟩) (c - ⟨l / 2, l / 2⟩) t, Stripe (c + ⟨-l / 2, l / 2⟩) (c - ⟨-l / 2, l / 2⟩) t]

/-- Sizes are not negative, stripes lead somewhere, polygons have at least three corners and are turned by less than one of
their steps. -/
def Plausible : Mark → Prop
  | .circle _ d => 0 ≤ d
  | .rectangle _ w h => 0 ≤ w ∧ 0 ≤ h
  | .obround _ w h => 0 ≤ w ∧ 0 ≤ h
  | .polygon _ _ n r => 3 ≤ n ∧ 0 ≤ r ∧ r < 360 / n
  | .line a b t => 0 ≤ t ∧ a ≠ b
  | .cross _ w h t => 0 ≤ w ∧ 0 ≤ h ∧ 0 ≤ t
  | .x _ l t => 0 < l ∧ 0 ≤ t

/-- A layer: its name, whether its size is to be found out, its origin, and what is drawn on it. -/
structure Plate (ι : Type) where
  name : ι
  auto : Bool
  origin : Vec ℝ
  objects : List (Painted (Vec ℝ))

/-- Layers in the order in which they were begun, and the ones that are open, innermost first. -/
structure Plates (ι : Type) where
  plates : List (Plate ι)
  opened : List ℕ

/-- What has been asked for by the calls of a script that uses the builder as it is meant to be used: one main layer; layers
nested in the innermost open one, with new names; figures on open layers; finished layers pasted on the innermost open one; and
something drawn on every layer whose size is to be found out. -/
inductive AskedFor {ι : Type} (main : ι) : List (Deed ι) → Plates ι → Prop
  | layer (box origin) : AskedFor main [.layer box origin] ⟨[⟨main, box.isNone, origin, []⟩], [0]⟩
  | nested {h d} (r rest id box origin) : AskedFor main h d → d.opened = r :: rest → (∀ l ∈ d.plates, l.name ≠ id) →
      AskedFor main (h ++ [.nested r id box origin]) ⟨d.plates ++ [⟨id, box.isNone, origin, []⟩], d.plates.length :: d.opened⟩
  | mark {h d} (r l figure negative) : AskedFor main h d → r ∈ d.opened → d.plates[r]? = some l → Plausible figure →
      AskedFor main (h ++ [.mark r figure negative])
        { d with plates := d.plates.set r { l with objects := l.objects ++ (parts figure).map (Painted.mk !negative) } }
  | paste {h d} (r rest l src source center negative) : AskedFor main h d → d.opened = r :: rest → d.plates[r]? = some l →
      d.plates[src]? = some source → src ∉ d.opened →
      AskedFor main (h ++ [.paste r src center negative])
        { d with plates := d.plates.set r { l with objects := l.objects ++
          [⟨!negative, {p | Covered source.objects (p - center + source.origin)}⟩] } }
  | leave {h d} (k rest l) : AskedFor main h d → d.opened = k :: rest → d.plates[k]? = some l →
      (l.auto = true → l.objects ≠ []) → AskedFor main (h ++ [.leave]) { d with opened := rest }
  | getRvmc {h d} : AskedFor main h d → d.opened = [] → AskedFor main (h ++ [.getRvmc]) d

/-- Figures with round sides or corners on a circle have a size. -/
def Ample : Mark → Prop
  | .circle _ d => 0 < d
  | .obround _ w h => 0 < w ∧ 0 < h
  | .polygon _ d _ _ => 0 < d
  | _ => True

/-- An outline that is drawn on the `r`-th layer or on one that is pasted on it, and how far it is moved. -/
inductive OutlineAt {ι : Type} (h : List (Deed ι)) (d : Plates ι) : ℕ → Shape → Vec ℝ → Prop
  | mark (r figure negative shapes s) : Deed.mark r figure negative ∈ h → figure.shapes negative = .ok shapes → s ∈ shapes →
      OutlineAt h d r s ⟨0, 0⟩
  | paste (r src center negative source s v) : Deed.paste r src center negative ∈ h → d.plates[src]? = some source →
      OutlineAt h d src s v → OutlineAt h d r s (v + center - source.origin)

end
end Verif.Spec
