import Verif.Model.Composite
import Mathlib.Tactic.Linarith
import Mathlib.Tactic.Positivity
import Mathlib.Tactic.NormNum

/-!
# C53: composite views contain all of every layer
-/

namespace Verif.Props.Composite
open Verif.Api

theorem maxBy_ge (key : SubImage → ℚ) (i : SubImage) (is : List SubImage) :
    ∀ j ∈ i :: is, key j ≤ key (maxBy key i is) := by
  induction is generalizing i with
  | nil => intro j hj; simp only [List.mem_singleton] at hj; subst hj; exact le_refl _
  | cons k is ih =>
    intro j hj
    simp only [maxBy]
    have hb := ih (if key i < key k then k else i)
    have h0 := hb _ (List.mem_cons_self ..)
    rcases List.mem_cons.1 hj with rfl | hj
    · refine le_trans ?_ h0
      split
      · rename_i h; exact h.le
      · exact le_refl _
    · rcases List.mem_cons.1 hj with rfl | hj
      · refine le_trans ?_ h0
        split
        · exact le_refl _
        · rename_i h; exact not_lt.1 h
      · exact hb j (List.mem_cons_of_mem _ hj)

theorem maxBy_mem (key : SubImage → ℚ) (i : SubImage) (is : List SubImage) : maxBy key i is ∈ i :: is := by
  induction is generalizing i with
  | nil => simp [maxBy]
  | cons k is ih =>
    simp only [maxBy]
    have := ih (if key i < key k then k else i)
    by_cases h : key i < key k
    · rw [if_pos h] at this ⊢; exact List.mem_cons_of_mem _ this
    · rw [if_neg h] at this ⊢
      rcases List.mem_cons.1 this with h | h
      · rw [h]; simp
      · simp [h]

theorem trunc_mono {a b : ℚ} (h : a ≤ b) : trunc a ≤ trunc b := by
  unfold trunc
  split
  · rename_i ha
    rw [if_pos (le_trans ha h)]; exact Int.floor_le_floor h
  · rename_i ha
    split
    · rename_i hb
      have h1 : ⌈a⌉ ≤ 0 := by rw [Int.ceil_le]; push_cast; linarith
      have h2 : 0 ≤ ⌊b⌋ := Int.floor_nonneg.2 hb
      omega
    · exact Int.ceil_le_ceil h

/-- The size of an interval is at most the distance of the ends, except for an interval with zero inside, where one
pixel more is possible. -/
theorem trunc_sub {a b : ℚ} (h : b ≤ a) : trunc (a - b) ≤ trunc a - trunc b + 1 ∧
    (0 ≤ b ∨ a ≤ 0 → trunc (a - b) ≤ trunc a - trunc b) := by
  have h0 : trunc (a - b) = ⌊a - b⌋ := by unfold trunc; rw [if_pos (by linarith)]
  rw [h0]
  have f := Int.floor_le (a - b)
  have key : (0 ≤ b ∨ a ≤ 0 → ⌊a - b⌋ ≤ trunc a - trunc b) := by
    rintro (hb | ha)
    · unfold trunc
      rw [if_pos hb, if_pos (le_trans hb h)]
      have := Int.floor_le b
      have h2 : ⌊a - b⌋ + ⌊b⌋ ≤ ⌊a⌋ := by rw [Int.le_floor]; push_cast; linarith
      omega
    · have hta : trunc a = ⌈a⌉ := by
        unfold trunc; split
        · rename_i h0
          have : a = 0 := le_antisymm ha h0
          subst this; simp
        · rfl
      have htb : trunc b = ⌈b⌉ := by
        unfold trunc; split
        · rename_i h0
          have : b = 0 := le_antisymm (le_trans h ha) h0
          subst this; simp
        · rfl
      rw [hta, htb]
      have := Int.le_ceil a
      have h2 : ⌈b⌉ ≤ ⌈a⌉ - ⌊a - b⌋ := by rw [Int.ceil_le]; push_cast; linarith
      omega
  refine ⟨?_, key⟩
  by_cases hb : 0 ≤ b
  · have := key (.inl hb); omega
  · by_cases ha : a ≤ 0
    · have := key (.inr ha); omega
    · have hta : trunc a = ⌊a⌋ := by unfold trunc; rw [if_pos (by linarith)]
      have htb : trunc b = ⌈b⌉ := by unfold trunc; rw [if_neg hb]
      rw [hta, htb]
      have h1 := Int.lt_floor_add_one a
      have h2 := Int.ceil_lt_add_one b
      have h3 := Int.le_ceil b
      have h4 : ⌊a - b⌋ < ⌊a⌋ - ⌈b⌉ + 2 := by
        rw [Int.floor_lt]; push_cast; linarith
      omega

theorem toMm_eq (u : Unit') (v : ℚ) : toMm u v = v * toMm u 1 := by unfold toMm; split <;> ring

theorem toMm_one (u : Unit') : 1 ≤ toMm u 1 := by unfold toMm; split <;> norm_num

theorem pixels_mono {d : Nat} {u : Unit'} {a b : ℚ} (h : a ≤ b) : pixels d u a ≤ pixels d u b := by
  unfold pixels
  rw [toMm_eq u a, toMm_eq u b]
  have := toMm_one u
  exact trunc_mono (mul_le_mul_of_nonneg_right (mul_le_mul_of_nonneg_right h (by linarith)) (by positivity))

theorem size_le {d : Nat} (u : Unit') {a b : ℚ} (h : b ≤ a) : trunc ((a - b) * d) ≤ pixels d u a - pixels d u b + 1 ∧
    (0 ≤ b ∨ a ≤ 0 → trunc ((a - b) * d) ≤ pixels d u a - pixels d u b) := by
  have k := toMm_one u
  have dn : (0 : ℚ) ≤ d := by positivity
  have kd : (0 : ℚ) ≤ toMm u 1 * d := mul_nonneg (by linarith) dn
  have e : ∀ v, toMm u v * d = v * (toMm u 1 * d) := fun v => by rw [toMm_eq u v]; ring
  have le : (a - b) * d ≤ a * (toMm u 1 * d) - b * (toMm u 1 * d) := by
    rw [← sub_mul]
    refine mul_le_mul_of_nonneg_left ?_ (by linarith)
    nlinarith
  have t := trunc_mono le
  obtain ⟨h1, h2⟩ := trunc_sub (mul_le_mul_of_nonneg_right h kd)
  unfold pixels
  rw [e a, e b]
  refine ⟨by omega, fun h3 => ?_⟩
  have := h2 (h3.imp (fun h => mul_nonneg h kd) fun h => mul_nonpos_of_nonpos_of_nonneg h kd)
  omega

/-- A pasted sub-image lies in the composite image, at most `missing` pixels stick out at the right or the bottom. -/
def FitsUpTo (c : Composite) (dpmm : Nat) (missing : Int) (p : SubImage × Int × Int) : Prop :=
  0 ≤ p.2.1 ∧ 0 ≤ p.2.2 ∧ p.2.1 + p.1.width dpmm ≤ c.width + missing ∧ p.2.2 + p.1.height dpmm ≤ c.height + missing

/-- **C53** (partial: files in one unit). For every non-empty list of files in one unit and every resolution,
the composite image exists, contains every file once, in order, at a non-negative offset, and at most one row and
one column of pixels of a file are cut off; none of a file whose image does not extend to both sides of an axis.
Missing: the row and column (`c53_false_straddling`), files in different units (`c53_false_units`), and views without files
(`c53_false_empty`). -/
theorem c53_fits_partial (dpmm : Nat) (images : List SubImage) (hne : images ≠ [])
    (u : Unit') (hmm : ∀ i ∈ images, i.unit = u) (hbox : ∀ i ∈ images, i.minX ≤ i.maxX ∧ i.minY ≤ i.maxY) :
    ∃ c, composite dpmm images = some c ∧ c.pasted.map Prod.fst = images ∧
      (∀ p ∈ c.pasted, FitsUpTo c dpmm 1 p) ∧
      ∀ p ∈ c.pasted, (0 ≤ p.1.minX ∨ p.1.maxX ≤ 0) → (0 ≤ p.1.minY ∨ p.1.maxY ≤ 0) → FitsUpTo c dpmm 0 p := by
  cases images with
  | nil => exact absurd rfl hne
  | cons i is =>
    refine ⟨_, rfl, by simp [Function.comp_def], ?_⟩
    have hx := maxBy_ge (·.maxX) i is
    have hy := maxBy_ge (·.maxY) i is
    have hnx := maxBy_ge (fun j => -j.minX) i is
    have hny := maxBy_ge (fun j => -j.minY) i is
    have ux := hmm _ (maxBy_mem (·.maxX) i is)
    have uy := hmm _ (maxBy_mem (·.maxY) i is)
    have unx := hmm _ (maxBy_mem (fun j => -j.minX) i is)
    have uny := hmm _ (maxBy_mem (fun j => -j.minY) i is)
    generalize maxBy (·.maxX) i is = mx at *
    generalize maxBy (·.maxY) i is = my at *
    generalize maxBy (fun j => -j.minX) i is = nx at *
    generalize maxBy (fun j => -j.minY) i is = ny at *
    rw [ux, uy, unx, uny]
    have all : ∀ j ∈ i :: is, ∀ m : Int,
        (j.width dpmm ≤ pixels dpmm u j.maxX - pixels dpmm u j.minX + m) →
        (j.height dpmm ≤ pixels dpmm u j.maxY - pixels dpmm u j.minY + m) →
        FitsUpTo
          { width := pixels dpmm u mx.maxX - pixels dpmm u nx.minX
            height := pixels dpmm u my.maxY - pixels dpmm u ny.minY
            pasted := (i :: is).map fun j => (j, |pixels dpmm u nx.minX - pixels dpmm j.unit j.minX|,
              |pixels dpmm u my.maxY - pixels dpmm j.unit j.maxY|) } dpmm m
          (j, |pixels dpmm u nx.minX - pixels dpmm j.unit j.minX|,
              |pixels dpmm u my.maxY - pixels dpmm j.unit j.maxY|) := by
      intro j hj m hw hh
      have a1 := pixels_mono (d := dpmm) (u := u) (hx j hj)
      have a2 := pixels_mono (d := dpmm) (u := u) (hy j hj)
      have a3 := pixels_mono (d := dpmm) (u := u) (show nx.minX ≤ j.minX by have := hnx j hj; linarith)
      have a4 := pixels_mono (d := dpmm) (u := u) (show ny.minY ≤ j.minY by have := hny j hj; linarith)
      rw [hmm j hj]
      refine ⟨abs_nonneg _, abs_nonneg _, ?_, ?_⟩
      · simp only
        rw [abs_of_nonpos (by omega)]
        omega
      · simp only
        rw [abs_of_nonneg (by omega)]
        omega
    constructor
    · intro p hp
      obtain ⟨j, hj, rfl⟩ := List.mem_map.1 hp
      exact all j hj _ (size_le u (hbox j hj).1).1 (size_le u (hbox j hj).2).1
    · intro p hp h1 h2
      obtain ⟨j, hj, rfl⟩ := List.mem_map.1 hp
      exact all j hj 0 (by rw [add_zero]; exact (size_le u (hbox j hj).1).2 h1)
        (by rw [add_zero]; exact (size_le u (hbox j hj).2).2 h2)

/-- **C53** (aligned files). When all coordinates fall on whole pixels every file fits completely. -/
theorem c53_aligned_partial (dpmm : Nat) (images : List SubImage) (hne : images ≠ [])
    (hmm : ∀ i ∈ images, i.unit = .mm) (hbox : ∀ i ∈ images, i.minX ≤ i.maxX ∧ i.minY ≤ i.maxY)
    (hint : ∀ i ∈ images, ∃ a b c d : Int, i.minX * dpmm = a ∧ i.maxX * dpmm = b ∧ i.minY * dpmm = c ∧ i.maxY * dpmm = d) :
    ∃ c, composite dpmm images = some c ∧ ∀ p ∈ c.pasted, FitsUpTo c dpmm 0 p := by
  obtain ⟨c, h1, h2, h3, -⟩ := c53_fits_partial dpmm images hne .mm hmm hbox
  refine ⟨c, h1, ?_⟩
  have tr : ∀ z : Int, trunc (z : ℚ) = z := by intro z; unfold trunc; split <;> simp
  cases images with
  | nil => exact absurd rfl hne
  | cons i is =>
    simp only [composite, Option.some.injEq] at h1
    subst h1
    intro p hp
    obtain ⟨j, hj, rfl⟩ := List.mem_map.1 hp
    have hx := maxBy_ge (·.maxX) i is j hj
    have hy := maxBy_ge (·.maxY) i is j hj
    have hnx := maxBy_ge (fun j => -j.minX) i is j hj
    have hny := maxBy_ge (fun j => -j.minY) i is j hj
    have ux := hmm _ (maxBy_mem (·.maxX) i is)
    have uy := hmm _ (maxBy_mem (·.maxY) i is)
    have unx := hmm _ (maxBy_mem (fun j => -j.minX) i is)
    have uny := hmm _ (maxBy_mem (fun j => -j.minY) i is)
    simp only [FitsUpTo]
    generalize maxBy (·.maxX) i is = mx at *
    generalize maxBy (·.maxY) i is = my at *
    generalize maxBy (fun j => -j.minX) i is = nx at *
    generalize maxBy (fun j => -j.minY) i is = ny at *
    rw [ux, uy, unx, uny, hmm j hj]
    have a1 := pixels_mono (d := dpmm) (u := .mm) hx
    have a2 := pixels_mono (d := dpmm) (u := .mm) hy
    have a3 := pixels_mono (d := dpmm) (u := .mm) (show nx.minX ≤ j.minX by linarith)
    have a4 := pixels_mono (d := dpmm) (u := .mm) (show ny.minY ≤ j.minY by linarith)
    obtain ⟨a, b, c, d, e1, e2, e3, e4⟩ := hint j hj
    have w : j.width dpmm = pixels dpmm .mm j.maxX - pixels dpmm .mm j.minX := by
      simp only [SubImage.width, pixels, toMm, if_true]
      rw [sub_mul, e1, e2, tr, tr, ← Int.cast_sub, tr]
    have h : j.height dpmm = pixels dpmm .mm j.maxY - pixels dpmm .mm j.minY := by
      simp only [SubImage.height, pixels, toMm, if_true]
      rw [sub_mul, e3, e4, tr, tr, ← Int.cast_sub, tr]
    refine ⟨abs_nonneg _, abs_nonneg _, ?_, ?_⟩
    · rw [abs_of_nonpos (by omega)]
      omega
    · rw [abs_of_nonneg (by omega)]
      omega

example : (∀ i ∈ [(⟨.mm, -1, -1, 3, 2⟩ : SubImage), ⟨.mm, 0, 0, 5, 1⟩], i.unit = .mm) ∧
    (∀ i ∈ [(⟨.mm, -1, -1, 3, 2⟩ : SubImage), ⟨.mm, 0, 0, 5, 1⟩], i.minX ≤ i.maxX ∧ i.minY ≤ i.maxY) := by
  decide +kernel

/-- The length in millimetres of a length in a unit: an inch has 25.4 mm. -/
def millimetres : Unit' → ℚ → ℚ
  | .mm, v => v
  | .inch, v => v * 254 / 10

theorem toMm_millimetres (u : Unit') (v : ℚ) : toMm u v = millimetres u v := by
  cases u
  · rfl
  · simp only [toMm, millimetres, reduceCtorEq, if_false]; ring

theorem trunc_near (a : ℚ) : |a - trunc a| < 1 := by
  unfold trunc
  split
  · have h1 := Int.floor_le a
    have h2 := Int.lt_floor_add_one a
    rw [abs_lt]; constructor <;> linarith
  · have h1 := Int.le_ceil a
    have h2 := Int.ceil_lt_add_one a
    rw [abs_lt]; constructor <;> linarith

/-- **C53** (partial: files in one unit). Every file is pasted, up to two pixels, as far from the left and the upper edge as
its box is in millimetres from the leftmost and the topmost one. -/
theorem c53_placed_partial (dpmm : Nat) (images : List SubImage) (hne : images ≠ []) (u : Unit') (hmm : ∀ i ∈ images, i.unit = u) :
    ∃ c left top, composite dpmm images = some c ∧
      (∃ i ∈ images, i.minX = left) ∧ (∀ i ∈ images, left ≤ i.minX) ∧ (∃ i ∈ images, i.maxY = top) ∧ (∀ i ∈ images, i.maxY ≤ top) ∧
      ∀ p ∈ c.pasted, |(p.2.1 : ℚ) - millimetres u (p.1.minX - left) * dpmm| < 2 ∧
        |(p.2.2 : ℚ) - millimetres u (top - p.1.maxY) * dpmm| < 2 := by
  cases images with
  | nil => exact absurd rfl hne
  | cons i is =>
    have hy := maxBy_ge (·.maxY) i is
    have hnx := maxBy_ge (fun j => -j.minX) i is
    have my := maxBy_mem (·.maxY) i is
    have mx := maxBy_mem (fun j => -j.minX) i is
    refine ⟨_, (maxBy (fun j => -j.minX) i is).minX, (maxBy (·.maxY) i is).maxY, rfl, ⟨_, mx, rfl⟩,
      fun j hj => by have := hnx j hj; linarith, ⟨_, my, rfl⟩, hy, ?_⟩
    intro p hp
    obtain ⟨j, hj, rfl⟩ := List.mem_map.1 hp
    have far (a b : ℚ) (h : b ≤ a) : |((|pixels dpmm u b - pixels dpmm u a| : ℤ) : ℚ) - millimetres u (a - b) * dpmm| < 2 := by
      have m := pixels_mono (d := dpmm) (u := u) h
      rw [abs_of_nonpos (by omega : pixels dpmm u b - pixels dpmm u a ≤ 0)]
      have e : millimetres u (a - b) = toMm u a - toMm u b := by
        rw [← toMm_millimetres, toMm_eq u (a - b), toMm_eq u a, toMm_eq u b, sub_mul]
      have h1 := abs_lt.1 (trunc_near (toMm u a * dpmm))
      have h2 := abs_lt.1 (trunc_near (toMm u b * dpmm))
      rw [e, sub_mul, abs_lt]
      unfold pixels
      push_cast
      constructor <;> linarith [h1.1, h1.2, h2.1, h2.2]
    simp only
    rw [hmm j hj, hmm _ mx, hmm _ my]
    refine ⟨far _ _ (by have := hnx j hj; linarith), ?_⟩
    rw [abs_sub_comm (pixels dpmm u (maxBy (·.maxY) i is).maxY)]
    exact far _ _ (hy j hj)

/-- Two files in inches, the second half an inch further to the right: at ten pixels per millimetre 127 pixels. -/
example : (composite 10 [⟨.inch, 0, 0, 1, 1⟩, ⟨.inch, 1 / 2, 0, 1, 1⟩]).map (fun c => c.pasted.map Prod.snd) = some [(0, 0), (127, 0)] := by
  decide +kernel

/-- **C53** for files in inches shows them too small: the picture of a file is drawn with ten pixels for an inch, not for a
millimetre, the offsets are those in millimetres. -/
theorem c53_false_inches :
    (composite 10 [⟨.inch, 0, 0, 1, 1⟩]).map (fun c => (c.width, c.height)) = some (254, 254) ∧
      SubImage.width 10 ⟨.inch, 0, 0, 1, 1⟩ = 10 ∧ SubImage.height 10 ⟨.inch, 0, 0, 1, 1⟩ = 10 := by
  decide +kernel

/-- **C53** is false: an image from -0.9 mm to 0.9 mm at one pixel per millimetre is one pixel wide, the composite
image of it alone has no pixels. -/
theorem c53_false_straddling :
    composite 1 [⟨.mm, -9 / 10, -9 / 10, 9 / 10, 9 / 10⟩] =
      some { width := 0, height := 0, pasted := [(⟨.mm, -9 / 10, -9 / 10, 9 / 10, 9 / 10⟩, 0, 0)] } ∧
    SubImage.width 1 ⟨.mm, -9 / 10, -9 / 10, 9 / 10, 9 / 10⟩ = 1 := by
  decide +kernel

/-- **C53** is false for files in different units: the sizes are compared without conversion, a file in inches is
pasted completely outside of the image. -/
theorem c53_false_units :
    composite 10 [⟨.mm, 0, 0, 10, 10⟩, ⟨.inch, 1 / 2, 0, 1, 1⟩] =
      some { width := 100, height := 100, pasted := [(⟨.mm, 0, 0, 10, 10⟩, 0, 0), (⟨.inch, 1 / 2, 0, 1, 1⟩, 127, 154)] } := by
  decide +kernel

/-- **C53** is false for a view without files: rendering fails. -/
theorem c53_false_empty (dpmm : Nat) : composite dpmm [] = none := rfl

end Verif.Props.Composite
