import Verif.Spec.Raster
import Verif.Props.Image
import Verif.Props.Vm

/-!
# C78: the colours of raster images
-/

namespace Verif.Props.Raster
open Verif.Geom Verif.Rvmc Verif.Vm Verif.Spec Verif.Render Verif.Compiler Verif.Props.Painting Verif.Props.Image
open Verif.Raster Verif.Color Verif.Console

/-! ### From layers to pixels -/

section
variable {ι κ : Type} [DecidableEq ι]

/-- One complete layer. -/
theorem layer_step {B : Backend κ} {fail : Bool} {l : Spec.Layer ι} {cs : List (Command ι)} {m m' : Machine ι κ} (hs : m.stack = [])
    (h : exec B fail (.start l.id none ⟨0, 0⟩ :: (l.cmds.map .draw ++ .stop :: cs)) m = .ok m') :
    m.layers.get? l.id = none ∧ ∃ n n1 : Machine ι κ, exec B fail cs n1 = .ok m' ∧ n1.stack = [] ∧
      (∀ k, k ≠ l.id → n.layers.get? k = m.layers.get? k) ∧ (∀ k, k ≠ l.id → n1.layers.get? k = m.layers.get? k) ∧
      n.layers.get? l.id = some (.deferred ⟨0, 0⟩ l.cmds) ∧
      (n1.layers.get? l.id = some (.deferred ⟨0, 0⟩ l.cmds) ∧ l.cmds = [] ∨
        ∃ box c, deferredBox n.layers l.cmds = .ok (some box) ∧ B.create ⟨0, 0⟩ box = .ok c ∧
          replay B l.id l.cmds (n.layers.set l.id (.eager ⟨⟨0, 0⟩, box, c⟩)) = .ok n1.layers) := by
  simp only [exec, Vm.step] at h
  obtain ⟨m1, h1, h2⟩ := Vm.bind_ok.1 h
  cases hg : m.layers.get? l.id with
  | some x => simp only [onStart, hg] at h1; cases h1
  | none =>
    simp only [onStart, hg] at h1
    cases h1
    obtain ⟨n, i1, i2, i3, i4, i5⟩ := exec_draws _ fail l.cmds [] _ _ m' m.stack rfl rfl (Dict.get?_set_self _ _ _) h2
    simp only [exec, Vm.step] at i1
    obtain ⟨n1, j1, j2⟩ := Vm.bind_ok.1 i1
    have hother : ∀ k, k ≠ l.id → n.layers.get? k = m.layers.get? k := by
      intro k hk
      rw [i5 k hk, Dict.get?_set, if_neg (Ne.symm hk)]
    simp only [List.nil_append] at i4
    simp only [onEnd, i3, i4] at j1
    obtain ⟨b, k1, k2⟩ := Vm.bind_ok.1 j1
    cases b with
    | none =>
      have he : l.cmds = [] := by
        cases hl : l.cmds with
        | nil => rfl
        | cons d ds =>
          rw [hl] at k1
          obtain ⟨b1, -, q⟩ := Vm.bind_ok.1 k1
          obtain ⟨b2, -, q⟩ := Vm.bind_ok.1 q
          cases q
      simp only at k2
      split at k2
      · cases k2
      · cases k2
        exact ⟨rfl, n, _, j2, hs, hother, hother, i4, .inl ⟨i4, he⟩⟩
    | some box =>
      simp only at k2
      obtain ⟨c, k3, k4⟩ := Vm.bind_ok.1 k2
      obtain ⟨L, k5, k6⟩ := Vm.bind_ok.1 k4
      cases k6
      have hset : (settle L m.stack : Machine ι κ) = ⟨false, L, []⟩ := by rw [hs]; rfl
      rw [hset] at j2
      refine ⟨rfl, n, _, j2, rfl, hother, ?_, i4, .inr ⟨box, c, k1, k3, k5⟩⟩
      intro k hk
      obtain ⟨-, q⟩ := Vm.replay_ok k5 (Dict.get?_set_self _ _ _)
      rw [q k hk, Dict.get?_set, if_neg (Ne.symm hk), hother k hk]

/-- Layers stay as they are once they are complete. -/
theorem exec_keeps {B : Backend κ} {fail : Bool} : ∀ (todo : List (Spec.Layer ι)) (m m' : Machine ι κ), m.stack = [] →
    exec B fail (program todo) m = .ok m' → ∀ k x, m.layers.get? k = some x → m'.layers.get? k = some x
  | [], m, m', hs, h, k, x, hk => by cases h; exact hk
  | l :: todo, m, m', hs, h, k, x, hk => by
    have e0 : program (l :: todo) = .start l.id none ⟨0, 0⟩ :: (l.cmds.map .draw ++ .stop :: program todo) := by
      simp [program]
    rw [e0] at h
    obtain ⟨h0, n, n1, h1, h2, -, h4, -⟩ := layer_step hs h
    refine exec_keeps todo n1 m' h2 h1 k x ?_
    rw [h4 k (by rintro rfl; rw [h0] at hk; cases hk)]
    exact hk

variable {dpmm : ℤ} {outline : Shape → Except VErr (List (Vec ℝ))} {fill : List (ℤ × ℤ) → Set (ℤ × ℤ)}

theorem pixels_more {boxes : ι → Box ℝ} {ls ms : List (Spec.Layer ι)} (hs : ls ⊆ ms) {id : ι} {os : List (Painted (ℤ × ℤ))}
    (h : ShowsPixels dpmm outline fill ls boxes id os) : ShowsPixels dpmm outline fill ms boxes id os :=
  ShowsPixels.rec (motive_1 := fun id os _ => ShowsPixels dpmm outline fill ms boxes id os)
    (motive_2 := fun box ds os _ => ShowsAllPixels dpmm outline fill ms boxes box ds os)
    (fun l os mem _ ih => .layer l os (hs mem) ih) (fun box => .nil box)
    (fun box s points ds os inside _ ih => .shape box s points ds os inside ih)
    (fun box source center negative objects ds os shift moved _ _ ih1 ih2 =>
      .paste box source center negative objects ds os shift moved ih1 ih2) h

/-- Drawing commands replayed on the image of a layer. -/
theorem replay_pixels {boxes : ι → Box ℝ} {ls : List (Spec.Layer ι)} {id : ι} : ∀ (ds : List (Draw ι)) (L L' : Dict ι (Vm.Layer ι _)) (e : Eager _),
    replay (pixelPainting dpmm outline fill) id ds L = .ok L' → L.get? id = some (.eager e) → id ∉ Draw.sources ds →
    (∀ k e, k ≠ id → L.get? k = some (.eager e) →
      e.origin = ⟨0, 0⟩ ∧ e.box = boxes k ∧ ShowsPixels dpmm outline fill ls boxes k e.content) →
    ∃ os, L'.get? id = some (.eager { e with content := e.content ++ os }) ∧
      ShowsAllPixels dpmm outline fill ls boxes e.box ds os
  | [], L, L', e, h, he, _, _ => by
    cases h
    exact ⟨[], by simpa using he, .nil _⟩
  | .shape s :: ds, L, L', e, h, he, hs, hL => by
    obtain ⟨L1, h1, h2⟩ := Vm.bind_ok.1 h
    obtain ⟨e', h3, h4⟩ := Vm.bind_ok.1 h1
    have := target_ok h3
    rw [he] at this; cases this
    obtain ⟨c, h5, h6⟩ := Vm.bind_ok.1 h4
    cases h6
    obtain ⟨pts, h7, h8⟩ := Vm.bind_ok.1 h5
    cases h8
    obtain ⟨os, i1, i2⟩ := replay_pixels ds _ L' _ h2 (Dict.get?_set_self _ _ _) (by simpa [Draw.sources] using hs) (by
      intro k e' hk hg
      rw [Dict.get?_set, if_neg (Ne.symm hk)] at hg
      exact hL k e' hk hg)
    exact ⟨_ :: os, by simpa using i1, .shape _ _ _ _ _ h7 i2⟩
  | .paste src ctr neg :: ds, L, L', e, h, he, hs, hL => by
    obtain ⟨L1, h1, h2⟩ := Vm.bind_ok.1 h
    simp only [Draw.sources, List.filterMap_cons, List.mem_cons, not_or] at hs
    simp only [paint] at h1
    split at h1
    · cases h1
    · cases h1
    · next e0 hsrc =>
      obtain ⟨e', h3, h4⟩ := Vm.bind_ok.1 h1
      have := target_ok h3
      rw [he] at this; cases this
      obtain ⟨c, h5, h6⟩ := Vm.bind_ok.1 h4
      cases h6
      cases h5
      obtain ⟨ho, hb, hsh⟩ := hL src e0 (Ne.symm hs.1) hsrc
      obtain ⟨os, i1, i2⟩ := replay_pixels ds _ L' _ h2 (Dict.get?_set_self _ _ _) hs.2 (by
        intro k e' hk hg
        rw [Dict.get?_set, if_neg (Ne.symm hk)] at hg
        exact hL k e' hk hg)
      have hz : ctr + lowerLeft e0.box - e0.origin - lowerLeft e.box = ctr + lowerLeft (boxes src) - lowerLeft e.box := by
        rw [ho, hb]; ext <;> simp
      rw [hz, hb] at i1
      exact ⟨_ :: os, by simpa using i1, .paste _ _ _ _ _ _ _ _ rfl hsh i2⟩

/-- The smallest box around commands. -/
theorem deferred_smallest {L : Dict ι (Vm.Layer ι κ)} {ds : List (Draw ι)} {box : Box ℝ} (h : deferredBox L ds = .ok (some box)) :
    (∀ d ∈ ds, ∃ b, BoxOf L.get? d b) ∧ ∀ X, BoxIn box X ↔ ∀ d ∈ ds, ∀ b, BoxOf L.get? d b → BoxIn b X := by
  cases ds with
  | nil => cases h
  | cons d ds =>
    obtain ⟨b0, h3, h4⟩ := Vm.bind_ok.1 h
    obtain ⟨b, h5, h6⟩ := Vm.bind_ok.1 h4
    cases h6
    obtain ⟨j1, j2⟩ := Props.Vm.boxLoop_spec h5
    have hb := Props.Vm.commandBox_spec h3
    refine ⟨?_, ?_⟩
    · intro d' hd'
      rcases List.mem_cons.1 hd' with rfl | hd'
      · exact ⟨b0, (hb b0).2 rfl⟩
      · exact j1 d' hd'
    · intro X
      simp only [j2 X, List.mem_cons, forall_eq_or_imp, hb, forall_eq]

/-- The boxes of the layers of a machine. -/
def boxesOf (L : Dict ι (Vm.Layer ι κ)) (k : ι) : Box ℝ :=
  match L.get? k with
  | some (.eager e) => e.box
  | _ => ⟨0, 0, 0, 0⟩

/-- Complete layers executed one after the other: every layer of known size holds the objects drawn on it. -/
theorem exec_pixels (fail : Bool) (boxes : ι → Box ℝ) : ∀ (todo done : List (Spec.Layer ι)) (m m' : Machine ι _), m.stack = [] →
    (∀ k e, m'.layers.get? k = some (.eager e) → e.box = boxes k) →
    (∀ k e, m.layers.get? k = some (.eager e) → e.origin = ⟨0, 0⟩ ∧ ShowsPixels dpmm outline fill done boxes k e.content) →
    (∀ l ∈ done, m.layers.get? l.id ≠ none) → (done.map Spec.Layer.id).Nodup → SmallestBoxes done boxes →
    exec (pixelPainting dpmm outline fill) fail (program todo) m = .ok m' →
    (∀ k e, m'.layers.get? k = some (.eager e) → e.origin = ⟨0, 0⟩ ∧
      ShowsPixels dpmm outline fill (done ++ todo) boxes k e.content) ∧
      ((done ++ todo).map Spec.Layer.id).Nodup ∧ SmallestBoxes (done ++ todo) boxes
  | [], done, m, m', hs, _, hm, _, hn, hb, h => by
    cases h
    simpa using ⟨hm, hn, hb⟩
  | l :: todo, done, m, m', hs, hbox, hm, hst, hn, hb, h => by
    have hkeep := exec_keeps _ m m' hs h
    have e0 : program (l :: todo) = .start l.id none ⟨0, 0⟩ :: (l.cmds.map .draw ++ .stop :: program todo) := by
      simp [program]
    rw [e0] at h
    obtain ⟨h0, n, n1, h1, h2, h3, h4, h5, h6⟩ := layer_step hs h
    have hkeep1 := exec_keeps _ n1 m' h2 h1
    have hfresh : l.id ∉ done.map Spec.Layer.id := by
      intro hm'
      obtain ⟨l', h3, h4⟩ := List.mem_map.1 hm'
      exact hst l' h3 (by rw [h4]; exact h0)
    have hn' : ((done ++ [l]).map Spec.Layer.id).Nodup := by
      rw [List.map_append, List.nodup_append]
      refine ⟨hn, by simp, ?_⟩
      intro a ha b hb
      simp only [List.map_cons, List.map_nil, List.mem_singleton] at hb
      rintro rfl
      exact hfresh (hb ▸ ha)
    have hearlier : ∀ k e, k ≠ l.id → n.layers.get? k = some (.eager e) →
        e.origin = ⟨0, 0⟩ ∧ e.box = boxes k ∧ ShowsPixels dpmm outline fill (done ++ [l]) boxes k e.content := by
      intro k e hk he
      rw [h3 k hk] at he
      obtain ⟨g1, g2⟩ := hm k e he
      exact ⟨g1, hbox k e (hkeep k _ he), pixels_more (by simp) g2⟩
    have fin : (∃ x, n1.layers.get? l.id = some x ∧ (∀ e, x = .eager e →
          e.origin = ⟨0, 0⟩ ∧ ShowsPixels dpmm outline fill (done ++ [l]) boxes l.id e.content)) →
        SmallestBoxes [l] boxes →
        (∀ k e, m'.layers.get? k = some (.eager e) → e.origin = ⟨0, 0⟩ ∧
          ShowsPixels dpmm outline fill (done ++ l :: todo) boxes k e.content) ∧
          ((done ++ l :: todo).map Spec.Layer.id).Nodup ∧ SmallestBoxes (done ++ l :: todo) boxes := by
      intro ⟨x, q3, q4⟩ q5
      have := exec_pixels fail boxes todo (done ++ [l]) n1 m' h2 hbox (by
        intro k e he
        by_cases hk : k = l.id
        · subst hk
          rw [q3] at he
          exact q4 e (Option.some.inj he)
        · rw [h4 k hk] at he
          obtain ⟨g1, g2⟩ := hm k e he
          exact ⟨g1, pixels_more (by simp) g2⟩) (by
        intro l' hl'
        by_cases hk : l'.id = l.id
        · rw [hk, q3]; simp
        · rw [h4 _ hk]
          rcases List.mem_append.1 hl' with hl' | hl'
          · exact hst l' hl'
          · simp only [List.mem_singleton] at hl'
            exact absurd (by rw [hl']) hk) hn' (by
        intro l' hl'
        rcases List.mem_append.1 hl' with hl' | hl'
        · exact hb l' hl'
        · exact q5 l' hl') h1
      simpa using this
    rcases h6 with ⟨q1, q2⟩ | ⟨box, c, q1, q2, q3⟩
    · refine fin ⟨_, q1, by intro e he; cases he⟩ ?_
      intro l' hl' hne
      simp only [List.mem_singleton] at hl'
      rw [hl'] at hne
      exact absurd q2 hne
    · cases q2
      have hself : l.id ∉ Draw.sources l.cmds := by
        intro hx
        obtain ⟨e, he⟩ := boxes_sources q1 hx
        rw [h5] at he; cases he
      obtain ⟨os, r1, r2⟩ := replay_pixels (ls := done ++ [l]) l.cmds _ _ _ q3 (Dict.get?_set_self _ _ _) hself (by
        intro k e hk he
        rw [Dict.get?_set, if_neg (Ne.symm hk)] at he
        exact hearlier k e hk he)
      have hbx : box = boxes l.id := hbox _ _ (hkeep1 _ _ r1)
      refine fin ⟨_, r1, ?_⟩ ?_
      · intro e he
        cases he
        refine ⟨rfl, ?_⟩
        simp only [List.nil_append] at r2 ⊢
        exact .layer l os (by simp) (hbx ▸ r2)
      · intro l' hl' _ X
        simp only [List.mem_singleton] at hl'
        subst hl'
        obtain ⟨s1, s2⟩ := deferred_smallest q1
        rw [← hbx, s2 X]
        refine forall₂_congr fun d hd => ?_
        obtain ⟨b, hbd⟩ := s1 d hd
        cases d with
        | shape s => simp [BoxOf, DrawIn]
        | paste src ctr neg =>
          obtain ⟨e, he, -⟩ := id hbd
          have hne : src ≠ l'.id := by rintro rfl; rw [h5] at he; cases he
          obtain ⟨g1, g2, -⟩ := hearlier src e hne he
          simp only [BoxOf, DrawIn, he, ← g2, Option.some.injEq, Vm.Layer.eager.injEq]
          constructor
          · intro hX
            have := hX _ ⟨e, rfl, rfl⟩
            simpa [g1] using this
          · rintro hX b ⟨e', rfl, rfl⟩
            simpa [g1] using hX

end

/-! ### Bytes -/

theorem div255_bounds {a : ℕ} (h : a ≤ 255 * 255) : 255 * div255 a ≤ a + 127 ∧ a ≤ 255 * div255 a + 127 := by
  unfold div255
  simp only [Nat.shiftRight_eq_div_pow]
  omega

theorem blendByte_val (mask old new : Fin 256) :
    (blendByte mask old new).1 = div255 (old.1 * (255 - mask.1) + new.1 * mask.1) := by
  have h1 : old.1 * (255 - mask.1) ≤ 255 * (255 - mask.1) := Nat.mul_le_mul_right _ (by omega)
  have h2 : new.1 * mask.1 ≤ 255 * mask.1 := Nat.mul_le_mul_right _ (by omega)
  have h3 : old.1 * (255 - mask.1) + new.1 * mask.1 ≤ 255 * 255 := by
    have := mask.2
    omega
  obtain ⟨h4, -⟩ := div255_bounds h3
  show div255 _ % 256 = _
  omega

theorem blendByte_zero (old new : Fin 256) : blendByte 0 old new = old := by
  apply Fin.ext
  rw [blendByte_val]
  unfold div255
  simp only [Nat.shiftRight_eq_div_pow, Fin.val_zero]
  omega

theorem blendByte_full (old new : Fin 256) : blendByte 255 old new = new := by
  apply Fin.ext
  rw [blendByte_val]
  have : ((255 : Fin 256) : ℕ) = 255 := rfl
  unfold div255
  simp only [Nat.shiftRight_eq_div_pow, this]
  omega

theorem blend_zero (old new : Color) : blend 0 old new = old := by simp [blend, blendByte_zero]

theorem blend_full (old new : Color) : blend 255 old new = new := by simp [blend, blendByte_full]

/-- **C78** (mixed colours). Where a picture is pasted with a mask, each byte is the nearest to the mean of the old and the
new one, weighted with the mask: no byte overflows and the rounding is right. -/
theorem c78_mean (mask old new : Fin 256) : NearestMean mask.1 old.1 new.1 (blendByte mask old new).1 := by
  have h1 : old.1 * (255 - mask.1) ≤ 255 * (255 - mask.1) := Nat.mul_le_mul_right _ (by omega)
  have h2 : new.1 * mask.1 ≤ 255 * mask.1 := Nat.mul_le_mul_right _ (by omega)
  have h3 : old.1 * (255 - mask.1) + new.1 * mask.1 ≤ 255 * 255 := by
    have := mask.2
    omega
  obtain ⟨h4, h5⟩ := div255_bounds h3
  rw [NearestMean, blendByte_val, abs_lt]
  have hm : ((255 - mask.1 : ℕ) : ℚ) = 255 - (mask.1 : ℚ) := by
    rw [Nat.cast_sub (by omega)]; rfl
  have h6 : (255 * div255 (old.1 * (255 - mask.1) + new.1 * mask.1) : ℚ) ≤ old.1 * (255 - mask.1) + new.1 * mask.1 + 127 := by
    rw [← hm]; exact_mod_cast h4
  have h7 : (old.1 * (255 - mask.1) + new.1 * mask.1 : ℚ) ≤ 255 * div255 (old.1 * (255 - mask.1) + new.1 * mask.1) + 127 := by
    rw [← hm]; exact_mod_cast h5
  constructor
  · rw [lt_sub_iff_add_lt, lt_div_iff₀ (by norm_num)]
    linarith
  · rw [sub_lt_iff_lt_add, div_lt_iff₀ (by norm_num)]
    linarith

/-! ### Colours of an image -/

theorem paste_in {i image : Picture} {at' : ℤ × ℤ} {mask : ℤ × ℤ → Fin 256} {q : ℤ × ℤ}
    (h : ((q.1 - at'.1, q.2 - at'.2) : ℤ × ℤ) ∈ image.frame) : (i.paste image at' mask).pixel q =
      blend (mask (q.1 - at'.1, q.2 - at'.2)) (i.pixel q) (image.pixel (q.1 - at'.1, q.2 - at'.2)) := by
  simp only [Picture.paste]
  rw [if_pos h]

theorem paste_out {i image : Picture} {at' : ℤ × ℤ} {mask : ℤ × ℤ → Fin 256} {q : ℤ × ℤ}
    (h : ((q.1 - at'.1, q.2 - at'.2) : ℤ × ℤ) ∉ image.frame) : (i.paste image at' mask).pixel q = i.pixel q := by
  simp only [Picture.paste]
  rw [if_neg h]

theorem getImage_frame (i : Bitmap) (style : Style) :
    ∃ p, getImage (some i) style = some p ∧ p.frame = i.frame ∧
      ∀ q ∈ i.frame, (q ∈ i.lit → p.pixel q = style.foreground) ∧ (q ∉ i.lit → p.pixel q = style.background) := by
  refine ⟨_, rfl, rfl, fun q hq => ?_⟩
  have hq' : ((q.1 - ((0, 0) : ℤ × ℤ).1, q.2 - ((0, 0) : ℤ × ℤ).2) : ℤ × ℤ) = q := by simp
  have hf : q ∈ (Picture.new i.width i.height style.foreground).frame := hq
  rw [compose, paste_in (by rw [hq']; exact hf), hq']
  constructor
  · intro h; rw [toMask, if_pos h, blend_full]; rfl
  · intro h; rw [toMask, if_neg h, blend_zero]; rfl

theorem flip_frame (i : Bitmap) : i.flip.frame = i.frame := rfl

/-- **C78** (the image of a program). Whatever program the Pillow backend renders and whatever the style: the image has the
size of the box of the main layer, and each pixel has the foreground colour if the last object drawn there is dark, and the
background colour otherwise. -/
theorem c78_program {ι : Type} [DecidableEq ι] (Ra : Raster) (dpmm : ℤ) (fuel : ℕ) (fail : Bool) (main : ι)
    (prog : List (Command ι)) (e : Eager Bitmap) (h : run (pillow Ra dpmm fuel) fail main prog = .ok (some e)) (style : Style) :
    ∃ o p, run (pixelPainting dpmm (pillowOutline dpmm fuel) Ra.fill) fail main prog = .ok (some o) ∧
      getImage (some (resultImage (some e))) style = some p ∧ o.box = e.box ∧ p.frame = imageOf dpmm e.box ∧
      ∀ column row, (column, row) ∈ p.frame →
        (Covered o.content (column, towardZero (|e.box.maxY - e.box.minY| * dpmm) - 1 - row) →
          p.pixel (column, row) = style.foreground) ∧
        (¬ Covered o.content (column, towardZero (|e.box.maxY - e.box.minY| * dpmm) - 1 - row) →
          p.pixel (column, row) = style.background) := by
  obtain ⟨o, h1, h2, h3, h4, h5, h6⟩ := run_sim (pillow_simulates Ra dpmm fuel) h
  obtain ⟨p, g1, g2, g3⟩ := getImage_frame (resultImage (some e)) style
  have hf : (resultImage (some e)).frame = imageOf dpmm e.box := h4
  refine ⟨o, p, h1, g1, h3.symm, g2.trans hf, fun i j hij => ?_⟩
  rw [g2] at hij
  obtain ⟨k1, k2⟩ := g3 _ hij
  have hlit : (i, j) ∈ (resultImage (some e)).lit ↔ Covered o.content (i, towardZero (|e.box.maxY - e.box.minY| * dpmm) - 1 - j) := by
    show (i, e.content.height - 1 - j) ∈ e.content.lit ↔ _
    rw [h6, h5, and_iff_right]
    rw [hf] at hij
    obtain ⟨r1, r2, r3, r4⟩ := hij
    rw [h4]
    simp only at r1 r2 r3 r4
    exact ⟨r1, r2, by simp only; omega, by simp only; omega⟩
  exact ⟨fun hc => k1 (hlit.2 hc), fun hc => k2 (fun h => hc (hlit.1 h))⟩

/-- **C78** (the image of a file). Whatever file compiles and is rendered with Pillow, at whatever resolution and in whatever
style: the program consists of the layers drawn while the commands of the file were executed, each with the smallest box
around what is drawn on it; the image has the size of the box of the main layer; a pixel has the foreground colour if the
last object drawn there, pasted layers being objects, is dark, and the background colour otherwise. -/
theorem c78_image (env : Env) (ignore : Bool) (file : List Visitor.Cmd) (prog : List (Command LayerId))
    (hc : compile env ignore file = .ok prog) (Ra : Raster) (dpmm : ℤ) (fuel : ℕ) (fail : Bool)
    (e : Eager Bitmap) (hr : Vm.run (pillow Ra dpmm fuel) fail .main prog = .ok (some e)) (style : Style) :
    ∃ c layers boxes objects p, compiled env (executed (!ignore) file) = .ok c ∧
      (∀ l ∈ layers, c.buffers.get? l.id = some l.cmds) ∧ (layers.map Spec.Layer.id).Nodup ∧ SmallestBoxes layers boxes ∧
      ShowsPixels dpmm (pillowOutline dpmm fuel) Ra.fill layers boxes LayerId.main objects ∧
      boxes .main = e.box ∧ getImage (some (resultImage (some e))) style = some p ∧ p.frame = imageOf dpmm (boxes .main) ∧
      ∀ column row, (column, row) ∈ p.frame →
        (Covered objects (column, towardZero (|(boxes .main).maxY - (boxes .main).minY| * dpmm) - 1 - row) →
          p.pixel (column, row) = style.foreground) ∧
        (¬ Covered objects (column, towardZero (|(boxes .main).maxY - (boxes .main).minY| * dpmm) - 1 - row) →
          p.pixel (column, row) = style.background) := by
  obtain ⟨c, layers, h1, rfl, h2⟩ := compile_layers hc
  obtain ⟨o, p, h3, h4, h5, h6, h7⟩ := c78_program Ra dpmm fuel fail _ _ e hr style
  unfold Vm.run at h3
  obtain ⟨m, h8, h9⟩ := Vm.bind_ok.1 h3
  have hg : m.layers.get? .main = some (.eager o) := by
    revert h9
    cases m.layers.get? LayerId.main with
    | none => intro h9; cases fail <;> cases h9
    | some x =>
      cases x with
      | deferred _ _ => intro h9; cases h9
      | eager e => intro h9; cases h9; rfl
  obtain ⟨k1, k2, k3⟩ := exec_pixels fail (boxesOf m.layers) layers [] Machine.init m rfl
    (by intro k e he; simp [boxesOf, he]) (by intro k e h; cases h) (by simp) (by simp) (by intro l hl; cases hl) h8
  have hb : boxesOf m.layers LayerId.main = e.box := by rw [← h5]; simp [boxesOf, hg]
  refine ⟨c, layers, boxesOf m.layers, o.content, p, h1, h2, by simpa using k2, by simpa using k3,
    by simpa using (k1 _ _ hg).2, hb, h4, hb ▸ h6, ?_⟩
  rw [hb]
  exact h7

theorem rect_same : (Shape.newRectangle ⟨0, 0⟩ 4 2 false).transform (transformMatrix {}) = Shape.newRectangle ⟨0, 0⟩ 4 2 false := by
  have key : ∀ v : Vec ℝ, (transformMatrix {}).apply v = v := by
    intro v
    ext <;> simp [transformMatrix, Mat.newReflect, Mat.newRotate, Mat.newScale, Mat.matmul, Mat.apply, Mat.ofRows, Mat.newRotateCS, radians]
  simp [Shape.transform, Shape.newRectangle, Shape.ln, Segment.transform, Line.transform, key]

theorem rect_box : (Shape.newRectangle ⟨0, 0⟩ 4 2 false).outerBox = ⟨-2, -1, 2, 1⟩ := by
  simp only [Shape.newRectangle, Shape.outerBox, Shape.ln, List.foldl, Segment.outerBox, Line.outerBox,
    Box.fromVectors, Box.union, Box.extend]
  norm_num

theorem create_ok : pillowCreate 20 ⟨-2, -1, 2, 1⟩ = .ok ⟨80, 40, ∅⟩ := by
  have h80 : toPixel 20 ((⟨-2, -1, 2, 1⟩ : Box ℝ).width) = 80 := by
    unfold toPixel truncate Box.width
    norm_num
  have h40 : toPixel 20 ((⟨-2, -1, 2, 1⟩ : Box ℝ).height) = 40 := by
    unfold toPixel truncate Box.height
    norm_num
  unfold pillowCreate
  rw [if_pos (by unfold Box.width Box.height; norm_num), h80, h40, if_neg (by norm_num)]

open Visitor Props.Compiler Props.State in
/-- The hypotheses of `c78_image` are met: a file with a pad compiles and is rendered. -/
example (Ra : Raster) : ∃ prog, compile env0 false padFile = .ok prog ∧
    ∃ e, Vm.run (pillow Ra 20 1) false .main prog = .ok (some e) := by
  eval_compiler [compile, finish, file_is_run, executed, isStop, atomsOf, atomsOfAll, padFile, Compiler.convert, resolve_step, resolve.loop,
    dependsOn, Draw.sources, List.dedup_cons_of_mem, List.dedup_cons_of_notMem, rect_same]
  obtain ⟨pts, h1⟩ := pillow_rect 20 1 ⟨0, 0⟩ 4 2 false
  have hm : ((⟨-2, -1, 2, 1⟩ : Box ℝ).translate ⟨0, 0⟩).translateBack ⟨0, 0⟩ = ⟨-2, -1, 2, 1⟩ := by
    simp [Box.translate, Box.translateBack]
  simp [layerCommands, Vm.run, exec, Vm.step, onStart, Machine.init, Dict.get?_set, onDraw, record, onEnd, deferredBox, commandBox,
    boxLoop, bind, Except.bind, pure, Except.pure, replay, paint, target, pillow, settle, pillowShape, h1, rect_box, create_ok, hm]

/-! ### Formats -/

/-- **C78** (formats). The formats BMP, PNG, JPEG, TIFF and WEBP are recognised by their names, whatever the case, and no
other name is.  BMP, PNG and TIFF get the pixels as they are; JPEG and WEBP get the colours without transparency. -/
theorem c78_saved {fold : List Char → List Char} (hf : FoldsAscii fold) (name : List Char) (hn : ∀ c ∈ name, c.toNat < 128)
    (p : Picture) :
    (∀ c, SameWord name (codecName c).toList → ∃ mode p', save fold name p = some (c, mode, p') ∧ p'.frame = p.frame ∧
      (mode = .rgb ↔ c = .jpeg ∨ c = .webp) ∧ ∀ q, SameHue (p'.pixel q) (p.pixel q) ∧
        (p'.pixel q).alpha = if mode = .rgb then 255 else (p.pixel q).alpha) ∧
    ((∀ c, ¬ SameWord name (codecName c).toList) → save fold name p = none) := by
  have hl : ∀ c : Codec, fold (codecName c).toList = (codecName c).toList.map Char.toLower := by
    intro c
    apply hf
    cases c <;> decide
  have key : ∀ c : Codec, fold name = fold (codecName c).toList ↔ SameWord name (codecName c).toList := by
    intro c
    rw [hf name hn, hl c]; rfl
  have hb := key .bmp
  have hp := key .png
  have hj := key .jpeg
  have ht := key .tiff
  have hw := key .webp
  simp only [codecName] at hb hp hj ht hw
  have distinct : ∀ c d : Codec, SameWord name (codecName c).toList → SameWord name (codecName d).toList → c = d := by
    intro c d h1 h2
    have h3 := h1.symm.trans h2
    revert h3
    cases c <;> cases d <;> decide
  constructor
  · intro c h
    have hne : ∀ d, d ≠ c → ¬ SameWord name (codecName d).toList := fun d hd h' => hd (distinct d c h' h)
    have nb := hne .bmp
    have np := hne .png
    have nj := hne .jpeg
    have nt := hne .tiff
    simp only [codecName] at nb np nj nt
    cases c with
    | bmp =>
      exact ⟨.rgba, p, by rw [save, if_pos (hb.2 h)]; rfl, rfl, by simp, fun q => ⟨⟨rfl, rfl, rfl⟩, rfl⟩⟩
    | png =>
      exact ⟨.rgba, p, by rw [save, if_neg (hb.not.2 (nb (by decide))), if_pos (hp.2 h)]; rfl, rfl, by simp,
        fun q => ⟨⟨rfl, rfl, rfl⟩, rfl⟩⟩
    | jpeg =>
      refine ⟨.rgb, p.toRgb, ?_, rfl, by simp, fun q => ⟨⟨rfl, rfl, rfl⟩, rfl⟩⟩
      rw [save, if_neg (hb.not.2 (nb (by decide))), if_neg (hp.not.2 (np (by decide))), if_pos (hj.2 h)]
      rfl
    | tiff =>
      refine ⟨.rgba, p, ?_, rfl, by simp, fun q => ⟨⟨rfl, rfl, rfl⟩, rfl⟩⟩
      rw [save, if_neg (hb.not.2 (nb (by decide))), if_neg (hp.not.2 (np (by decide))),
        if_neg (hj.not.2 (nj (by decide))), if_pos (ht.2 h)]
      rfl
    | webp =>
      refine ⟨.rgb, p.toRgb, ?_, rfl, by simp, fun q => ⟨⟨rfl, rfl, rfl⟩, rfl⟩⟩
      rw [save, if_neg (hb.not.2 (nb (by decide))), if_neg (hp.not.2 (np (by decide))),
        if_neg (hj.not.2 (nj (by decide))), if_neg (ht.not.2 (nt (by decide))), if_pos (hw.2 h)]
      rfl
  · intro h
    rw [save, if_neg (hb.not.2 (h .bmp)), if_neg (hp.not.2 (h .png)), if_neg (hj.not.2 (h .jpeg)),
      if_neg (ht.not.2 (h .tiff)), if_neg (hw.not.2 (h .webp))]

example : FoldsAscii (fun w => w.map Char.toLower) ∧ SameWord "PnG".toList (codecName .png).toList :=
  ⟨fun _ _ => rfl, by unfold SameWord; decide⟩

/-- **C78, false of the code** (WEBP). The format WEBP has transparency, but the image saved in it has none: a transparent
background becomes opaque. -/
theorem c78_false_webp (fold : List Char → List Char) (p : Picture) (q : ℤ × ℤ) (h : p.pixel q = clear)
    (hw : ∀ w, w ∈ ["bmp", "png", "jpeg", "tiff"] → fold "webp".toList ≠ fold w.toList) :
    ∃ mode p', save fold "webp".toList p = some (.webp, mode, p') ∧ p'.pixel q = ⟨0, 0, 0, 255⟩ := by
  refine ⟨.rgb, p.toRgb, ?_, by show ({ p.pixel q with alpha := 255 } : Color) = _; rw [h]; rfl⟩
  rw [save, if_neg (hw "bmp" (by simp)), if_neg (hw "png" (by simp)), if_neg (hw "jpeg" (by simp)),
    if_neg (hw "tiff" (by simp)), if_pos rfl]
  rfl

/-! ### Views of several files -/

theorem pasteAll_none {q : ℤ × ℤ} : ∀ (l : List (Picture × ℤ × ℤ)) (i : Picture), (∀ x ∈ l, Crisp x.1) →
    (∀ x ∈ l, ¬ OpaqueAt x q) → (pasteAll l i).pixel q = i.pixel q
  | [], _, _, _ => rfl
  | (p, x, y) :: l, i, hc, ho => by
    rw [pasteAll, pasteAll_none l _ (fun a ha => hc a (by simp [ha])) (fun a ha => ho a (by simp [ha]))]
    by_cases hf : ((q.1 - (x, y).1, q.2 - (x, y).2) : ℤ × ℤ) ∈ p.frame
    · rw [paste_in hf]
      rcases hc (p, x, y) (by simp) _ hf with h | h
      · have e : (p.pixel (q.1 - (x, y).1, q.2 - (x, y).2)).alpha = 0 := h
        rw [e, blend_zero]
      · exact absurd ⟨hf, h⟩ (ho (p, x, y) (by simp))
    · rw [paste_out hf]

theorem pasteAll_size : ∀ (l : List (Picture × ℤ × ℤ)) (i : Picture), (pasteAll l i).width = i.width ∧ (pasteAll l i).height = i.height
  | [], _ => ⟨rfl, rfl⟩
  | (_, _, _) :: l, _ => pasteAll_size l _

theorem pasteAll_append : ∀ (l m : List (Picture × ℤ × ℤ)) (i : Picture), pasteAll (l ++ m) i = pasteAll m (pasteAll l i)
  | [], _, _ => rfl
  | (_, _, _) :: l, m, _ => pasteAll_append l m _

theorem zip_placed (images : List (Api.SubImage × Picture)) (c : Api.Composite) :
    (images.zip c.pasted).map (fun x => (x.1.2, x.2.2)) = putAt images c := by
  unfold putAt
  rw [List.zip, List.map_zipWith]

/-- **C78** (views, partial: opaque and fully transparent colours). In the image of a view each pixel is that of the last
picture, in the order of the files, that is opaque there, and nothing where there is none.
Missing: translucent colours (`c78_false_translucent`). -/
theorem c78_view_partial (dpmm : ℕ) (images : List (Api.SubImage × Picture)) (v : Picture)
    (h : viewPicture dpmm images = some v) (hc : ∀ i ∈ images, Crisp i.2) :
    ∃ c, Api.composite dpmm (images.map (·.1)) = some c ∧ v.width = c.width ∧ v.height = c.height ∧
      (putAt images c).map (·.1) = images.map (·.2) ∧ ∀ q,
      (∀ before p x y after, putAt images c = before ++ (p, x, y) :: after → OpaqueAt (p, x, y) q →
        (∀ o ∈ after, ¬ OpaqueAt o q) → v.pixel q = p.pixel (q.1 - x, q.2 - y)) ∧
      ((∀ o ∈ putAt images c, ¬ OpaqueAt o q) → v.pixel q = clear) := by
  unfold viewPicture at h
  split at h
  · cases h
  · next c hcomp =>
    simp only [Option.some.injEq] at h
    subst h
    rw [zip_placed]
    have hlen : c.pasted.length = images.length := by
      unfold Api.composite at hcomp
      split at hcomp
      · cases hcomp
      · next i is he =>
        simp only [Option.some.injEq] at hcomp
        rw [← hcomp]
        have := congrArg List.length he
        simpa using this.symm
    have hfst : (putAt images c).map (·.1) = images.map (·.2) := by
      unfold putAt
      rw [List.map_zipWith]
      apply List.ext_getElem
      · simp [hlen]
      · intro n h1 h2
        simp
    have hcrisp : ∀ x ∈ putAt images c, Crisp x.1 := by
      intro x hx
      have : x.1 ∈ images.map (·.2) := hfst ▸ List.mem_map_of_mem hx
      obtain ⟨i, hi, e⟩ := List.mem_map.1 this
      rw [← e]
      exact hc i hi
    refine ⟨c, hcomp, (pasteAll_size _ _).1, (pasteAll_size _ _).2, hfst, fun q => ⟨?_, ?_⟩⟩
    · intro before p x y after he ho hafter
      rw [he] at hcrisp ⊢
      rw [pasteAll_append, pasteAll, pasteAll_none _ _ (fun a ha => hcrisp a (by simp [ha])) hafter, paste_in ho.1]
      have : (p.pixel (q.1 - (x, y).1, q.2 - (x, y).2)).alpha = 255 := ho.2
      rw [this, blend_full]
    · intro ho
      rw [pasteAll_none _ _ hcrisp ho]
      rfl

/-- An image of a file in a style whose foreground is opaque and whose background is fully transparent: it is opaque exactly
where the image is set. -/
theorem styled_opaque {i : Bitmap} {style : Style} {p : Picture} (h : getImage (some i) style = some p)
    (hf : style.foreground.alpha = 255) (hb : style.background.alpha = 0) :
    Crisp p ∧ ∀ x y q, OpaqueAt (p, x, y) q ↔ (q.1 - x, q.2 - y) ∈ i.frame ∧ (q.1 - x, q.2 - y) ∈ i.lit := by
  obtain ⟨p', h1, h2, h3⟩ := getImage_frame i style
  rw [h] at h1
  cases h1
  constructor
  · intro q hq
    rw [h2] at hq
    by_cases hl : q ∈ i.lit
    · rw [(h3 q hq).1 hl]; exact .inr hf
    · rw [(h3 q hq).2 hl]; exact .inl hb
  · intro x y q
    unfold OpaqueAt
    simp only [h2]
    refine and_congr_right fun hq => ?_
    by_cases hl : (q.1 - x, q.2 - y) ∈ i.lit
    · rw [(h3 _ hq).1 hl]; simp [hf, hl]
    · rw [(h3 _ hq).2 hl]; simp [hb, hl]

/-- **C78** (views of files, partial: opaque foreground, fully transparent background). In the image of a view each pixel has
the foreground colour of the last file, in their order, whose image is set there, and is transparent where there is none.
Missing: other styles (`c78_false_translucent`; for opaque backgrounds see `c78_view_partial`). -/
theorem c78_files_partial (dpmm : ℕ) (files : List (Api.SubImage × Bitmap × Style)) (images : List (Api.SubImage × Picture))
    (hi : List.Forall₂ (fun f i => i.1 = f.1 ∧ getImage (some f.2.1) f.2.2 = some i.2) files images)
    (hs : ∀ f ∈ files, f.2.2.foreground.alpha = 255 ∧ f.2.2.background.alpha = 0)
    (v : Picture) (h : viewPicture dpmm images = some v) :
    ∃ offsets : List (ℤ × ℤ), offsets.length = files.length ∧
      (∃ c, Api.composite dpmm (files.map (·.1)) = some c ∧ c.pasted.map (·.2) = offsets) ∧ ∀ q,
      (∀ (n : ℕ) (f : Api.SubImage × Bitmap × Style) (x y : ℤ), files[n]? = some f → offsets[n]? = some (x, y) → (q.1 - x, q.2 - y) ∈ f.2.1.frame →
        (q.1 - x, q.2 - y) ∈ f.2.1.lit →
        (∀ (k : ℕ) (f' : Api.SubImage × Bitmap × Style) (x' y' : ℤ), n < k → files[k]? = some f' → offsets[k]? = some (x', y') → (q.1 - x', q.2 - y') ∈ f'.2.1.frame →
          (q.1 - x', q.2 - y') ∉ f'.2.1.lit) →
        v.pixel q = f.2.2.foreground) ∧
      ((∀ (k : ℕ) (f' : Api.SubImage × Bitmap × Style) (x' y' : ℤ), files[k]? = some f' → offsets[k]? = some (x', y') → (q.1 - x', q.2 - y') ∈ f'.2.1.frame →
          (q.1 - x', q.2 - y') ∉ f'.2.1.lit) → v.pixel q = clear) := by
  have hlen := hi.length_eq
  have hget : ∀ (n : ℕ) (f : Api.SubImage × Bitmap × Style), files[n]? = some f → ∃ i, images[n]? = some i ∧ getImage (some f.2.1) f.2.2 = some i.2 := by
    intro n f hf
    obtain ⟨hn, e⟩ := List.getElem?_eq_some_iff.1 hf
    have := hi.get hn (hlen ▸ hn)
    refine ⟨images[n]'(hlen ▸ hn), List.getElem?_eq_getElem _, ?_⟩
    have h2 := this.2
    simp only [List.get_eq_getElem] at h2
    rw [← e]; exact h2
  have hmap : files.map (·.1) = images.map (·.1) := by
    apply List.ext_getElem
    · simp [hlen]
    · intro n h1 h2
      simp only [List.length_map] at h1 h2
      have := (hi.get h1 h2).1
      simpa using this.symm
  have hfile : ∀ (n : ℕ) (i : Api.SubImage × Picture), images[n]? = some i → ∃ f, files[n]? = some f ∧ getImage (some f.2.1) f.2.2 = some i.2 := by
    intro n i hn
    obtain ⟨hn', e⟩ := List.getElem?_eq_some_iff.1 hn
    have hf : n < files.length := hlen ▸ hn'
    obtain ⟨i', h1, h2⟩ := hget n _ (List.getElem?_eq_getElem hf)
    rw [hn] at h1
    cases h1
    exact ⟨_, List.getElem?_eq_getElem hf, h2⟩
  have hcrisp : ∀ i ∈ images, Crisp i.2 := by
    intro i hm
    obtain ⟨n, hn⟩ := List.mem_iff_getElem?.1 hm
    obtain ⟨f, h1, h2⟩ := hfile n i hn
    have hs' := hs f (List.mem_of_getElem? h1)
    exact (styled_opaque h2 hs'.1 hs'.2).1
  obtain ⟨c, g1, -, -, g4, g5⟩ := c78_view_partial dpmm images v h hcrisp
  have hpl : (putAt images c).length = images.length := by
    have := congrArg List.length g4
    simpa using this
  have hpasted : images.length ≤ c.pasted.length := by
    have : (putAt images c).length = min images.length c.pasted.length := by simp [putAt]
    omega
  have hpl2 : c.pasted.length = images.length := by
    unfold Api.composite at g1
    split at g1
    · cases g1
    · next i is he =>
      simp only [Option.some.injEq] at g1
      rw [← g1]
      have := congrArg List.length he
      simpa using this.symm
  have hplaced : ∀ (n : ℕ) (i : Api.SubImage × Picture) (x y : ℤ), images[n]? = some i → (c.pasted.map (·.2))[n]? = some (x, y) →
      (putAt images c)[n]? = some (i.2, x, y) := by
    intro n i x y h1 h2
    rw [List.getElem?_map] at h2
    unfold putAt
    rw [List.getElem?_zipWith, h1]
    cases hp : c.pasted[n]? with
    | none => rw [hp] at h2; cases h2
    | some a =>
      rw [hp] at h2
      simp only [Option.map_some, Option.some.injEq] at h2
      simp [h2]
  have hunplaced : ∀ (n : ℕ) (o : Picture × ℤ × ℤ), (putAt images c)[n]? = some o → ∃ i, images[n]? = some i ∧ i.2 = o.1 ∧
      (c.pasted.map (·.2))[n]? = some o.2 := by
    intro n o ho
    unfold putAt at ho
    rw [List.getElem?_zipWith] at ho
    rw [List.getElem?_map]
    cases h1 : images[n]? with
    | none => rw [h1] at ho; cases ho
    | some i =>
      cases h2 : c.pasted[n]? with
      | none => rw [h1, h2] at ho; cases ho
      | some a =>
        rw [h1, h2] at ho
        simp only [Option.some.injEq] at ho
        exact ⟨i, rfl, by rw [← ho], by rw [← ho]; rfl⟩
  refine ⟨c.pasted.map (·.2), by simp [hpl2, hlen], ⟨c, by rw [hmap]; exact g1, rfl⟩, fun q => ⟨?_, ?_⟩⟩
  · intro n f x y hf ho hfr hlit hafter
    obtain ⟨i, h1, h2⟩ := hget n f hf
    have hs' := hs f (List.mem_of_getElem? hf)
    have hp := hplaced n i x y h1 ho
    obtain ⟨hn, he⟩ := List.getElem?_eq_some_iff.1 hp
    have hsplit : putAt images c = (putAt images c).take n ++ (i.2, x, y) :: (putAt images c).drop (n + 1) := by
      conv_lhs => rw [← List.take_append_drop n (putAt images c)]
      rw [List.drop_eq_getElem_cons hn, he]
    rw [(g5 q).1 _ _ _ _ _ hsplit (((styled_opaque h2 hs'.1 hs'.2).2 x y q).2 ⟨hfr, hlit⟩)]
    · obtain ⟨p', r1, -, r3⟩ := getImage_frame f.2.1 f.2.2
      rw [h2] at r1
      cases r1
      exact (r3 _ hfr).1 hlit
    · intro o hm hop
      obtain ⟨k, hk⟩ := List.mem_iff_getElem?.1 hm
      rw [List.getElem?_drop] at hk
      obtain ⟨i', s1, s2, s3⟩ := hunplaced _ o hk
      obtain ⟨f', t1, t2⟩ := hfile _ i' s1
      have hs'' := hs f' (List.mem_of_getElem? t1)
      obtain ⟨p, x', y'⟩ := o
      simp only at s2 s3
      subst s2
      obtain ⟨u1, u2⟩ := ((styled_opaque t2 hs''.1 hs''.2).2 x' y' q).1 hop
      exact hafter (n + 1 + k) f' x' y' (by omega) t1 s3 u1 u2
  · intro hnone
    refine (g5 q).2 fun o hm hop => ?_
    obtain ⟨k, hk⟩ := List.mem_iff_getElem?.1 hm
    obtain ⟨i', s1, s2, s3⟩ := hunplaced _ o hk
    obtain ⟨f', t1, t2⟩ := hfile _ i' s1
    have hs'' := hs f' (List.mem_of_getElem? t1)
    obtain ⟨p, x', y'⟩ := o
    simp only at s2 s3
    subst s2
    obtain ⟨u1, u2⟩ := ((styled_opaque t2 hs''.1 hs''.2).2 x' y' q).1 hop
    exact hnone k f' x' y' t1 s3 u1 u2

/-- A file of one square millimetre. -/
def unitFile : Api.SubImage := ⟨.mm, 0, 0, 1, 1⟩

theorem unit_view (a b : Picture) : viewPicture 1 [(unitFile, a), (unitFile, b)] =
    some (((Picture.new 1 1 clear).paste a (0, 0) (fun q => (a.pixel q).alpha)).paste b (0, 0) (fun q => (b.pixel q).alpha)) := by
  have hc : Api.composite 1 [unitFile, unitFile] = some ⟨1, 1, [(unitFile, 0, 0), (unitFile, 0, 0)]⟩ := by decide +kernel
  unfold viewPicture
  simp only [List.map_cons, List.map_nil, hc]
  rfl

/-- The hypotheses of `c78_files_partial` are met: copper below silk, the copper is set and the silk is not. -/
example : ∃ (files : List (Api.SubImage × Bitmap × Style)) (images : List (Api.SubImage × Picture)) (v : Picture) (q : ℤ × ℤ),
    List.Forall₂ (fun f i => i.1 = f.1 ∧ getImage (some f.2.1) f.2.2 = some i.2) files images ∧
    (∀ f ∈ files, f.2.2.foreground.alpha = 255 ∧ f.2.2.background.alpha = 0) ∧ viewPicture 1 images = some v ∧
    v.pixel q = (⟨40, 143, 40, 255⟩ : Color) := by
  obtain ⟨a, a1, a2, a3⟩ := getImage_frame ⟨1, 1, {(0, 0)}⟩ (onNothing 40 143 40)
  obtain ⟨b, b1, b2, b3⟩ := getImage_frame ⟨1, 1, ∅⟩ (onNothing 255 255 255)
  have hfr : ((0, 0) : ℤ × ℤ) ∈ (⟨1, 1, {(0, 0)}⟩ : Bitmap).frame := ⟨by decide, by decide, by decide, by decide⟩
  refine ⟨[(unitFile, ⟨1, 1, {(0, 0)}⟩, onNothing 40 143 40), (unitFile, ⟨1, 1, ∅⟩, onNothing 255 255 255)],
    [(unitFile, a), (unitFile, b)], _, (0, 0), .cons ⟨rfl, a1⟩ (.cons ⟨rfl, b1⟩ .nil), ?_, unit_view a b, ?_⟩
  · intro f hf
    simp only [List.mem_cons, List.not_mem_nil, or_false] at hf
    rcases hf with rfl | rfl <;> exact ⟨rfl, rfl⟩
  · have hz : (((0, 0) : ℤ × ℤ).1 - ((0, 0) : ℤ × ℤ).1, ((0, 0) : ℤ × ℤ).2 - ((0, 0) : ℤ × ℤ).2) = ((0, 0) : ℤ × ℤ) := rfl
    rw [paste_in (by rw [hz, b2]; exact hfr), paste_in (by rw [hz, a2]; exact hfr), hz, (b3 _ hfr).2 (by simp),
      (a3 _ hfr).1 (by simp)]
    rfl

/-- **C78, false of the code** (translucent colours). In a view of one file, a foreground with alpha 128 is shown with
alpha 64, and darker: the alpha channel is the mask and is multiplied by itself. -/
theorem c78_false_translucent : ∃ image v, image.frame = {((0, 0) : ℤ × ℤ)} ∧ image.pixel (0, 0) = ⟨255, 255, 255, 128⟩ ∧
    viewPicture 1 [(unitFile, image)] = some v ∧ v.pixel (0, 0) = ⟨128, 128, 128, 64⟩ := by
  have hc : Api.composite 1 [unitFile] = some ⟨1, 1, [(unitFile, 0, 0)]⟩ := by decide +kernel
  refine ⟨Picture.new 1 1 ⟨255, 255, 255, 128⟩,
    (Picture.new 1 1 clear).paste (Picture.new 1 1 ⟨255, 255, 255, 128⟩) (0, 0) (fun _ => 128), ?_, rfl, ?_, ?_⟩
  · ext ⟨i, j⟩
    simp only [Picture.frame, Picture.new, Set.mem_ofPred_eq, Set.mem_singleton_iff, Prod.mk.injEq]
    omega
  · unfold viewPicture
    simp only [List.map_cons, List.map_nil, hc]
    rfl
  · rw [paste_in ⟨by decide, by decide, by decide, by decide⟩]
    rfl

end Verif.Props.Raster
