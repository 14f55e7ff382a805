import Verif.Spec.Sketch
import Verif.Spec.Enclosed

/-!
# Images of what is asked for with the RVMC builder
-/

namespace Verif.Spec
open Verif.Rvmc Verif.Geom Verif.RvmcBuilder
noncomputable section

/-- The parts of the figure have an area. -/
def Broad : Mark → Prop
  | .circle _ d => 0 < d
  | .rectangle _ w h => 0 < w ∧ 0 < h
  | .obround _ w h => 0 < w ∧ 0 < h
  | .polygon _ d _ _ => 0 < d
  | .line _ _ t => 0 < t
  | .cross _ w h t => 0 < w ∧ 0 < h ∧ 0 < t
  | .x _ _ t => 0 < t

/-- An outline that is drawn on the `r`-th layer (`n = 0`) or on one that is pasted on it, through `n` layers, and how far it is
moved. -/
inductive OutlineThrough {ι : Type} (h : List (Deed ι)) (d : Plates ι) : ℕ → ℕ → Shape → Vec ℝ → Prop
  | mark (r figure negative shapes s) : Deed.mark r figure negative ∈ h → figure.shapes negative = .ok shapes → s ∈ shapes →
      OutlineThrough h d r 0 s ⟨0, 0⟩
  | paste (r src center negative source n s v) : Deed.paste r src center negative ∈ h → d.plates[src]? = some source →
      OutlineThrough h d src n s v → OutlineThrough h d r (n + 1) s (v + center - source.origin)

/-- The point is more than `n + 2 + ρ` pixels away from every outline that is drawn on the `r`-th layer through `n` layers. -/
def AwayFromFigures {ι : Type} (h : List (Deed ι)) (d : Plates ι) (dpmm ρ : ℝ) (r : ℕ) (p : Vec ℝ) : Prop :=
  ∀ n s v, OutlineThrough h d r n s v → ∀ w, OnRim s w → ¬ Close ((n + 2 + ρ) / dpmm) p (w + v)

end
end Verif.Spec
