import Verif.Model.Color
import Verif.Spec.Color
import Verif.Lemmas.Text
import Mathlib.Tactic.IntervalCases
import Mathlib.Tactic.FieldSimp
import Mathlib.Tactic.Linarith
import Mathlib.Tactic.FinCases

/-!
# C43, C57: colours
-/

namespace Verif.Props.Color
open Verif.Color Verif.Spec Verif.Text

theorem hexByte_table : ∀ n : Fin 256, hexByte (hexDigit (n.1 / 16)) (hexDigit (n.1 % 16)) = some n.1 ∧
    hexDigit (n.1 / 16) ≠ '\n' ∧ hexDigit (n.1 % 16) ≠ '\n' := by decide +kernel

theorem build_fin (r g b a : Fin 256) : build r.1 g.1 b.1 a.1 = .ok ⟨r, g, b, a⟩ := by
  have h : ∀ x : Fin 256, channel (x.1 : Int) = .ok x := by
    intro x
    have := x.2
    unfold channel
    rw [dif_pos (by omega)]
    rfl
  simp [build, h]

theorem body_eight (a b c d e f g h : Char) :
    fromHexBody [a, b, c, d, e, f, g, h] = fromHexBody.eight a b c d e f g h := by
  unfold fromHexBody
  split
  · rename_i heq; simp at heq
  · rename_i heq; simp at heq
  · rename_i heq
    simp only [List.cons.injEq, and_true] at heq
    obtain ⟨rfl, rfl, rfl, rfl, rfl, rfl, rfl, rfl⟩ := heq
    rfl
  · rename_i heq; simp at heq
  · rename_i hn _; exact absurd rfl (hn _ _ _ _ _ _ _ _)

theorem body_eight_newline (a b c d e f g h : Char) :
    fromHexBody [a, b, c, d, e, f, g, h, '\n'] = fromHexBody.eight a b c d e f g h := by
  unfold fromHexBody
  split
  · rename_i heq; simp at heq
  · rename_i heq; simp at heq
  · rename_i heq; simp at heq
  · rename_i heq
    simp only [List.cons.injEq, and_true] at heq
    obtain ⟨rfl, rfl, rfl, rfl, rfl, rfl, rfl, rfl⟩ := heq
    rfl
  · rename_i hn; exact absurd rfl (hn _ _ _ _ _ _ _ _)

/-- **C43** (writing then reading). -/
theorem c43_from_to (c : Color) : fromHex c.toHex = .ok c := by
  have hr := hexByte_table c.red
  have hg := hexByte_table c.green
  have hb := hexByte_table c.blue
  have ha := hexByte_table c.alpha
  show fromHexBody _ = _
  simp only [hex2, List.cons_append, List.nil_append]
  rw [body_eight]
  simp only [fromHexBody.eight, hr.1, hg.1, hb.1, ha.1]
  exact build_fin _ _ _ _

theorem hexVal_iff (c : Char) (n : Nat) : hexVal c = some n ↔ HexDigit c n := by
  constructor
  · intro h
    unfold hexVal at h
    have key : ∀ m : Nat, m < 128 → c.toNat = m → HexDigit c n := by
      intro m hm hc
      have hcc : c = Char.ofNat m := by rw [← hc, Char.ofNat_toNat]
      subst hcc
      clear hc
      revert h
      interval_cases m <;> intro h <;> revert h <;> simp (config := { decide := true }) <;> intro h <;> subst h <;>
        simp [HexDigit, hexLower, hexUpper] <;> decide
    refine key c.toNat ?_ rfl
    have e1 : ('9' : Char).toNat = 57 := rfl
    have e2 : ('f' : Char).toNat = 102 := rfl
    have e3 : ('F' : Char).toNat = 70 := rfl
    have hle : ∀ d : Char, c ≤ d → c.toNat ≤ d.toNat := fun d h => h
    split_ifs at h with h1 h2 h3
    · have := hle _ h1.2; omega
    · have := hle _ h2.2; omega
    · have := hle _ h3.2; omega
  · intro h
    have hn : n < 16 := by
      rcases h with h | h <;>
      · have := (List.getElem?_eq_some_iff.mp h).1
        simpa [hexLower, hexUpper] using this
    rcases h with h | h <;> interval_cases n <;> simp [hexLower, hexUpper] at h <;> subst h <;> decide

theorem hexByte_iff (a b : Char) (n : Nat) : hexByte a b = some n ↔ HexByte a b n := by
  unfold hexByte HexByte
  simp only [← hexVal_iff]
  cases hexVal a <;> cases hexVal b <;> simp
  omega

theorem HexByte.lt {a b : Char} {n : Nat} (h : HexByte a b n) : n < 256 := by
  obtain ⟨x, y, hx, hy, rfl⟩ := h
  have : ∀ {c k}, HexDigit c k → k < 16 := by
    intro c k h
    rcases h with h | h <;>
    · have := (List.getElem?_eq_some_iff.mp h).1
      simpa [hexLower, hexUpper] using this
  have h1 := this hx; have h2 := this hy; omega

theorem build_ok {r g b a : Nat} {c : Color} :
    build r g b a = .ok c ↔ c.red.1 = r ∧ c.green.1 = g ∧ c.blue.1 = b ∧ c.alpha.1 = a := by
  constructor
  · intro h
    unfold build channel at h
    split at h
    · rename_i h1 h2 h3 h4
      split_ifs at h1 h2 h3 h4
      injection h1 with h1; injection h2 with h2; injection h3 with h3; injection h4 with h4
      injection h with h
      subst h; subst h1; subst h2; subst h3; subst h4
      simp
    · exact absurd h (by simp)
  · rintro ⟨rfl, rfl, rfl, rfl⟩
    exact build_fin _ _ _ _

/-- The texts `from_hex` accepts, with their meaning. -/
def Denotes (s : List Char) (c : Color) : Prop :=
  ∃ pre suf r1 r2 g1 g2 b1 b2 al, (pre = [] ∨ pre = ['#']) ∧ (suf = [] ∨ suf = ['\n']) ∧
    s = pre ++ [r1, r2, g1, g2, b1, b2] ++ al ++ suf ∧
    HexByte r1 r2 c.red ∧ HexByte g1 g2 c.green ∧ HexByte b1 b2 c.blue ∧
    (al = [] ∧ c.alpha.1 = 255 ∨ ∃ a1 a2, al = [a1, a2] ∧ HexByte a1 a2 c.alpha)

theorem six_ok {a b c d e f : Char} {k : Color} : fromHexBody.six a b c d e f = .ok k ↔
    HexByte a b k.red ∧ HexByte c d k.green ∧ HexByte e f k.blue ∧ k.alpha.1 = 255 := by
  simp only [← hexByte_iff, fromHexBody.six]
  cases hexByte a b <;> cases hexByte c d <;> cases hexByte e f <;> simp
  rename_i x y z
  have := build_ok (r := x) (g := y) (b := z) (a := 255) (c := k)
  rw [show ((255 : Nat) : Int) = 255 from rfl] at this
  rw [this]
  tauto

theorem eight_ok {a b c d e f g h : Char} {k : Color} : fromHexBody.eight a b c d e f g h = .ok k ↔
    HexByte a b k.red ∧ HexByte c d k.green ∧ HexByte e f k.blue ∧ HexByte g h k.alpha := by
  simp only [← hexByte_iff, fromHexBody.eight]
  cases hexByte a b <;> cases hexByte c d <;> cases hexByte e f <;> cases hexByte g h <;> simp
  rw [build_ok]
  tauto

theorem hexDigit_ne {c : Char} {n : Nat} (h : HexDigit c n) : c ≠ '#' ∧ c ≠ '\n' := by
  rw [← hexVal_iff] at h
  constructor <;> (rintro rfl; exact absurd h (by simp [hexVal]))

theorem hexByte_ne {a b : Char} {n : Nat} (h : HexByte a b n) : a ≠ '#' ∧ b ≠ '\n' := by
  obtain ⟨x, y, hx, hy, -⟩ := h
  exact ⟨(hexDigit_ne hx).1, (hexDigit_ne hy).2⟩

/-- **C43** (reading). A text is accepted exactly when it is an optional `#`, six or eight hexadecimal digits of
either case and an optional final newline, and it denotes the colour with those bytes (alpha 255 when absent). -/
theorem c43_reads (s : List Char) (c : Color) : fromHex s = .ok c ↔ Denotes s c := by
  have body : ∀ t : List Char, fromHexBody t = .ok c ↔ ∃ suf r1 r2 g1 g2 b1 b2 al,
      (suf = [] ∨ suf = ['\n']) ∧ t = [r1, r2, g1, g2, b1, b2] ++ al ++ suf ∧
      HexByte r1 r2 c.red ∧ HexByte g1 g2 c.green ∧ HexByte b1 b2 c.blue ∧
      (al = [] ∧ c.alpha.1 = 255 ∨ ∃ a1 a2, al = [a1, a2] ∧ HexByte a1 a2 c.alpha) := by
    intro t
    constructor
    · intro h
      unfold fromHexBody at h
      split at h
      · rw [six_ok] at h
        exact ⟨[], _, _, _, _, _, _, [], .inl rfl, rfl, h.1, h.2.1, h.2.2.1, .inl ⟨rfl, h.2.2.2⟩⟩
      · rw [six_ok] at h
        exact ⟨['\n'], _, _, _, _, _, _, [], .inr rfl, rfl, h.1, h.2.1, h.2.2.1, .inl ⟨rfl, h.2.2.2⟩⟩
      · rw [eight_ok] at h
        exact ⟨[], _, _, _, _, _, _, [_, _], .inl rfl, rfl, h.1, h.2.1, h.2.2.1, .inr ⟨_, _, rfl, h.2.2.2⟩⟩
      · rw [eight_ok] at h
        exact ⟨['\n'], _, _, _, _, _, _, [_, _], .inr rfl, rfl, h.1, h.2.1, h.2.2.1, .inr ⟨_, _, rfl, h.2.2.2⟩⟩
      · exact absurd h (by simp)
    · rintro ⟨suf, r1, r2, g1, g2, b1, b2, al, hs, rfl, hr, hg, hb, h⟩
      rcases h with ⟨rfl, h⟩ | ⟨a1, a2, rfl, h⟩ <;> rcases hs with rfl | rfl
      · exact six_ok.mpr ⟨hr, hg, hb, h⟩
      · exact six_ok.mpr ⟨hr, hg, hb, h⟩
      · exact (body_eight ..).trans (eight_ok.mpr ⟨hr, hg, hb, h⟩)
      · exact (body_eight_newline ..).trans (eight_ok.mpr ⟨hr, hg, hb, h⟩)
  unfold Denotes
  constructor
  · intro h
    unfold fromHex at h
    split at h
    · obtain ⟨suf, r1, r2, g1, g2, b1, b2, al, hs, e, rest⟩ := (body _).mp h
      exact ⟨['#'], suf, r1, r2, g1, g2, b1, b2, al, .inr rfl, hs, by rw [e]; simp, rest⟩
    · obtain ⟨suf, r1, r2, g1, g2, b1, b2, al, hs, e, rest⟩ := (body _).mp h
      exact ⟨[], suf, r1, r2, g1, g2, b1, b2, al, .inl rfl, hs, by rw [e]; simp, rest⟩
  · rintro ⟨pre, suf, r1, r2, g1, g2, b1, b2, al, hp, hs, rfl, hr, rest⟩
    rcases hp with rfl | rfl
    · unfold fromHex
      split
      · rename_i heq
        simp only [List.nil_append, List.cons_append, List.cons.injEq] at heq
        exact absurd heq.1 (hexByte_ne hr).1
      · exact (body _).mpr ⟨suf, r1, r2, g1, g2, b1, b2, al, hs, by simp, hr, rest⟩
    · show fromHexBody _ = _
      exact (body _).mpr ⟨suf, r1, r2, g1, g2, b1, b2, al, hs, by simp, hr, rest⟩

/-- **C43** (canonical form). What is written has `#` and eight lower case digits denoting the colour. -/
theorem c43_canonical (c : Color) : ∃ r1 r2 g1 g2 b1 b2 a1 a2 : Fin 16,
    c.toHex = '#' :: [r1, r2, g1, g2, b1, b2, a1, a2].map (fun i => hexLower[i]) ∧
    c.red.1 = 16 * r1 + r2 ∧ c.green.1 = 16 * g1 + g2 ∧ c.blue.1 = 16 * b1 + b2 ∧ c.alpha.1 = 16 * a1 + a2 := by
  have key : ∀ n : Fin 16, hexDigit n.1 = hexLower[n] := by decide
  have hx : ∀ n : Fin 256, hexDigit (n.1 / 16) = hexLower[(⟨n.1 / 16, by omega⟩ : Fin 16)] :=
    fun n => key ⟨n.1 / 16, by omega⟩
  have hy : ∀ n : Fin 256, hexDigit (n.1 % 16) = hexLower[(⟨n.1 % 16, by omega⟩ : Fin 16)] :=
    fun n => key ⟨n.1 % 16, by omega⟩
  refine ⟨⟨c.red / 16, by omega⟩, ⟨c.red % 16, by omega⟩, ⟨c.green / 16, by omega⟩, ⟨c.green % 16, by omega⟩,
    ⟨c.blue / 16, by omega⟩, ⟨c.blue % 16, by omega⟩, ⟨c.alpha / 16, by omega⟩, ⟨c.alpha % 16, by omega⟩,
    ?_, ?_, ?_, ?_, ?_⟩
  · simp only [Color.toHex, hex2, hx, hy, List.cons_append, List.nil_append, List.map_cons, List.map_nil]
  all_goals simp only; omega

example : Denotes ['#', 'f', 'F', '0', '0', '1', '0'] ⟨255, 0, 16, 255⟩ :=
  ⟨['#'], [], 'f', 'F', '0', '0', '1', '0', [], .inr rfl, .inl rfl, rfl,
    ⟨15, 15, .inl rfl, .inr rfl, rfl⟩, ⟨0, 0, .inl rfl, .inl rfl, rfl⟩, ⟨1, 0, .inl rfl, .inl rfl, rfl⟩, .inl ⟨rfl, rfl⟩⟩

/-! ### C57 -/

theorem pyRound_spec {q : ℚ} (h : 0 ≤ q) : RoundsTo q (pyRound q) := by
  unfold pyRound
  rw [if_neg (not_lt.mpr h)]
  exact roundHalfEven_spec h

theorem roundsTo_mono_le {q : ℚ} {n : ℤ} {k : ℕ} (h : RoundsTo q n) (h0 : 0 ≤ q) (h1 : q ≤ k) : 0 ≤ n ∧ n ≤ k := by
  have hb : |q - n| ≤ 1 / 2 := by
    rcases h with h | h
    · exact h.le
    · exact h.1.le
  rw [abs_le] at hb
  have a : (-1 : ℚ) < n := by linarith
  have b : (n : ℚ) < k + 1 := by linarith
  constructor
  · have : (-1 : ℤ) < n := by exact_mod_cast a
    omega
  · have : n < (k : ℤ) + 1 := by exact_mod_cast b
    omega

theorem build_range {r g b a : ℤ} (hr : 0 ≤ r ∧ r ≤ 255) (hg : 0 ≤ g ∧ g ≤ 255) (hb : 0 ≤ b ∧ b ≤ 255)
    (ha : 0 ≤ a ∧ a ≤ 255) : ∃ c : Color, build r g b a = .ok c ∧
      (c.red.1 : ℤ) = r ∧ (c.green.1 : ℤ) = g ∧ (c.blue.1 : ℤ) = b ∧ (c.alpha.1 : ℤ) = a := by
  refine ⟨⟨⟨r.toNat, by omega⟩, ⟨g.toNat, by omega⟩, ⟨b.toNat, by omega⟩, ⟨a.toNat, by omega⟩⟩, ?_, ?_, ?_, ?_, ?_⟩
  · simp [build, channel, hr, hg, hb, ha]
  all_goals simp only; omega

/-- The hue modulo 360 does not change the formula. -/
theorem hsv_mod (n : ℚ) (h : ℤ) (s v : ℚ) : hsvChannel n (h % 360 : ℤ) s v = hsvChannel n h s v := by
  have e : (n + ((h % 360 : ℤ) : ℚ) / 60) = (n + (h : ℚ) / 60) - 6 * ((h / 360 : ℤ) : ℚ) := by
    have h1 : ((h % 360 : ℤ) : ℚ) = h - 360 * ((h / 360 : ℤ) : ℚ) := by
      rw [Int.emod_def]; push_cast; ring
    rw [h1]; ring
  have f : ⌊((n + (h : ℚ) / 60) - 6 * ((h / 360 : ℤ) : ℚ)) / 6⌋ = ⌊(n + (h : ℚ) / 60) / 6⌋ - h / 360 := by
    rw [← Int.floor_sub_intCast]; congr 1; ring
  unfold hsvChannel
  simp only [e, f]
  push_cast
  ring_nf

theorem hsv_k {n t : ℚ} {j : ℤ} (h0 : 6 * j ≤ n + t) (h1 : n + t < 6 * j + 6) : ⌊(n + t) / 6⌋ = j := by
  rw [Int.floor_eq_iff]
  constructor
  · rw [le_div_iff₀ (by norm_num)]; linarith
  · rw [div_lt_iff₀ (by norm_num)]; linarith

theorem tri {t : ℚ} (j : ℤ) (h0 : 2 * j ≤ t) (h1 : t < 2 * j + 2) : pyMod t 2 = t - 2 * j := by
  unfold pyMod
  have : ⌊t / 2⌋ = j := by
    rw [Int.floor_eq_iff]
    constructor
    · rw [le_div_iff₀ (by norm_num)]; linarith
    · rw [div_lt_iff₀ (by norm_num)]; linarith
  rw [this]

theorem trap_up {k : ℚ} (h0 : 0 ≤ k) (h1 : k ≤ 1) : max 0 (min k (min (4 - k) 1)) = k := by
  rw [min_eq_right (a := 4 - k) (by linarith), min_eq_left h1, max_eq_right h0]
theorem trap_one {k : ℚ} (h0 : 1 ≤ k) (h1 : k ≤ 3) : max 0 (min k (min (4 - k) 1)) = 1 := by
  rw [min_eq_right (a := 4 - k) (by linarith), min_eq_right h0, max_eq_right (by norm_num)]
theorem trap_down {k : ℚ} (h0 : 3 ≤ k) (h1 : k ≤ 4) : max 0 (min k (min (4 - k) 1)) = 4 - k := by
  rw [min_eq_left (a := 4 - k) (by linarith), min_eq_right (by linarith), max_eq_right (by linarith)]
theorem trap_zero {k : ℚ} (h0 : 4 ≤ k) : max 0 (min k (min (4 - k) 1)) = 0 := by
  rw [min_eq_left (a := 4 - k) (by linarith), min_eq_right (by linarith), max_eq_left (by linarith)]

/-- The six sectors agree with the closed formula. -/
theorem sector_eq (h : ℤ) (h0 : 0 ≤ h) (h1 : h < 360) (s v : ℚ) :
    let c := v * s
    let p := sector h c (c * (1 - |pyMod ((h : ℚ) / 60) 2 - 1|))
    p.1 + (v - c) = hsvChannel 5 h s v ∧ p.2.1 + (v - c) = hsvChannel 3 h s v ∧
      p.2.2 + (v - c) = hsvChannel 1 h s v := by
  intro c p
  have g0 : (0 : ℚ) ≤ h := by exact_mod_cast h0
  have g1 : (h : ℚ) < 360 := by exact_mod_cast h1
  have cmp : ∀ k : ℤ, (h < k ↔ (h : ℚ) < k) := fun k => by exact_mod_cast Iff.rfl
  have c60 := cmp 60
  have c120 := cmp 120
  have c180 := cmp 180
  have c240 := cmp 240
  have c300 := cmp 300
  push_cast at c60 c120 c180 c240 c300
  generalize ht : (h : ℚ) / 60 = t
  have hh : (h : ℚ) = 60 * t := by rw [← ht]; ring
  rw [hh] at g0 g1 c60 c120 c180 c240 c300
  have key : ∀ n : ℚ, ∀ j : ℤ, 6 * (j : ℚ) ≤ n + t → n + t < 6 * j + 6 →
      hsvChannel n h s v = v - c * max 0 (min (n + t - 6 * j) (min (4 - (n + t - 6 * j)) 1)) := by
    intro n j a b
    unfold hsvChannel
    simp only [ht]
    rw [hsv_k a b]
  simp only [p, sector, ht]
  split_ifs with a1 a2 a3 a4 a5
  · rw [c60] at a1
    rw [tri 0 (by push_cast; linarith) (by push_cast; linarith),
      key 5 0 (by push_cast; linarith) (by push_cast; linarith),
      key 3 0 (by push_cast; linarith) (by push_cast; linarith),
      key 1 0 (by push_cast; linarith) (by push_cast; linarith), abs_of_nonpos (by push_cast; linarith)]
    push_cast
    refine ⟨?_, ?_, ?_⟩
    · rw [trap_zero (by linarith)]; ring
    · rw [trap_down (by linarith) (by linarith)]; ring
    · rw [trap_one (by linarith) (by linarith)]; ring
  · rw [c60] at a1
    rw [c120] at a2
    rw [tri 0 (by push_cast; linarith) (by push_cast; linarith),
      key 5 1 (by push_cast; linarith) (by push_cast; linarith),
      key 3 0 (by push_cast; linarith) (by push_cast; linarith),
      key 1 0 (by push_cast; linarith) (by push_cast; linarith), abs_of_nonneg (by push_cast; linarith)]
    push_cast
    refine ⟨?_, ?_, ?_⟩
    · rw [trap_up (by linarith) (by linarith)]; ring
    · rw [trap_zero (by linarith)]; ring
    · rw [trap_one (by linarith) (by linarith)]; ring
  · rw [c60] at a1
    rw [c120] at a2
    rw [c180] at a3
    rw [tri 1 (by push_cast; linarith) (by push_cast; linarith),
      key 5 1 (by push_cast; linarith) (by push_cast; linarith),
      key 3 0 (by push_cast; linarith) (by push_cast; linarith),
      key 1 0 (by push_cast; linarith) (by push_cast; linarith), abs_of_nonpos (by push_cast; linarith)]
    push_cast
    refine ⟨?_, ?_, ?_⟩
    · rw [trap_one (by linarith) (by linarith)]; ring
    · rw [trap_zero (by linarith)]; ring
    · rw [trap_down (by linarith) (by linarith)]; ring
  · rw [c60] at a1
    rw [c120] at a2
    rw [c180] at a3
    rw [c240] at a4
    rw [tri 1 (by push_cast; linarith) (by push_cast; linarith),
      key 5 1 (by push_cast; linarith) (by push_cast; linarith),
      key 3 1 (by push_cast; linarith) (by push_cast; linarith),
      key 1 0 (by push_cast; linarith) (by push_cast; linarith), abs_of_nonneg (by push_cast; linarith)]
    push_cast
    refine ⟨?_, ?_, ?_⟩
    · rw [trap_one (by linarith) (by linarith)]; ring
    · rw [trap_up (by linarith) (by linarith)]; ring
    · rw [trap_zero (by linarith)]; ring
  · rw [c60] at a1
    rw [c120] at a2
    rw [c180] at a3
    rw [c240] at a4
    rw [c300] at a5
    rw [tri 2 (by push_cast; linarith) (by push_cast; linarith),
      key 5 1 (by push_cast; linarith) (by push_cast; linarith),
      key 3 1 (by push_cast; linarith) (by push_cast; linarith),
      key 1 0 (by push_cast; linarith) (by push_cast; linarith), abs_of_nonpos (by push_cast; linarith)]
    push_cast
    refine ⟨?_, ?_, ?_⟩
    · rw [trap_down (by linarith) (by linarith)]; ring
    · rw [trap_one (by linarith) (by linarith)]; ring
    · rw [trap_zero (by linarith)]; ring
  · rw [c60] at a1
    rw [c120] at a2
    rw [c180] at a3
    rw [c240] at a4
    rw [c300] at a5
    rw [tri 2 (by push_cast; linarith) (by push_cast; linarith),
      key 5 1 (by push_cast; linarith) (by push_cast; linarith),
      key 3 1 (by push_cast; linarith) (by push_cast; linarith),
      key 1 1 (by push_cast; linarith) (by push_cast; linarith), abs_of_nonneg (by push_cast; linarith)]
    push_cast
    refine ⟨?_, ?_, ?_⟩
    · rw [trap_zero (by linarith)]; ring
    · rw [trap_one (by linarith) (by linarith)]; ring
    · rw [trap_up (by linarith) (by linarith)]; ring

theorem hsvChannel_range (n h s v : ℚ) (hs0 : 0 ≤ s) (hs1 : s ≤ 1) (hv0 : 0 ≤ v) (hv1 : v ≤ 1) :
    0 ≤ hsvChannel n h s v ∧ hsvChannel n h s v ≤ 1 := by
  unfold hsvChannel
  simp only
  generalize n + h / 60 - 6 * (⌊(n + h / 60) / 6⌋ : ℚ) = k
  have m0 : 0 ≤ max 0 (min k (min (4 - k) 1)) := le_max_left _ _
  have m1 : max 0 (min k (min (4 - k) 1)) ≤ 1 :=
    max_le (by norm_num) ((min_le_right _ _).trans (min_le_right _ _))
  have hvs : 0 ≤ v * s := mul_nonneg hv0 hs0
  have hvs1 : v * s ≤ v := mul_le_of_le_one_right hv0 hs1
  have a := mul_le_of_le_one_right hvs m1
  have b := mul_nonneg hvs m0
  constructor <;> linarith

/-- **C57.** For every hue, every saturation and value between 0 and 100 and every valid alpha, `from_hsv` succeeds
and gives the channels of the HSV formula, rounded to the nearest of the 256 levels. -/
theorem c57_hsv (hue : ℤ) (sat val : ℚ) (al : ℤ) (hs0 : 0 ≤ sat) (hs1 : sat ≤ 100) (hv0 : 0 ≤ val) (hv1 : val ≤ 100)
    (ha0 : 0 ≤ al) (ha1 : al ≤ 255) :
    ∃ c : Color, fromHsv hue sat val al = .ok c ∧ (c.alpha.1 : ℤ) = al ∧
      RoundsTo (255 * hsvChannel 5 hue (sat / 100) (val / 100)) c.red.1 ∧
      RoundsTo (255 * hsvChannel 3 hue (sat / 100) (val / 100)) c.green.1 ∧
      RoundsTo (255 * hsvChannel 1 hue (sat / 100) (val / 100)) c.blue.1 := by
  have h0 : 0 ≤ hue % 360 := Int.emod_nonneg _ (by norm_num)
  have h1 : hue % 360 < 360 := Int.emod_lt_of_pos _ (by norm_num)
  obtain ⟨e5, e3, e1⟩ := sector_eq (hue % 360) h0 h1 (sat / 100) (val / 100)
  rw [hsv_mod] at e5 e3 e1
  have rng := fun n => hsvChannel_range n hue (sat / 100) (val / 100) (by positivity) (by linarith) (by positivity)
    (by linarith)
  have key : ∀ n, RoundsTo (255 * hsvChannel n hue (sat / 100) (val / 100))
      (pyRound (hsvChannel n hue (sat / 100) (val / 100) * 255)) := by
    intro n
    rw [mul_comm]
    exact pyRound_spec (by have := (rng n).1; positivity)
  have bnd : ∀ n, 0 ≤ pyRound (hsvChannel n hue (sat / 100) (val / 100) * 255) ∧
      pyRound (hsvChannel n hue (sat / 100) (val / 100) * 255) ≤ 255 := by
    intro n
    exact roundsTo_mono_le (k := 255) (key n) (by have := (rng n).1; positivity)
      (by have := (rng n).2; push_cast; linarith)
  obtain ⟨c, hc, r, g, b, a⟩ := build_range (bnd 5) (bnd 3) (bnd 1) ⟨ha0, ha1⟩
  refine ⟨c, ?_, a, ?_, ?_, ?_⟩
  · unfold fromHsv
    simp only [e5, e3, e1]
    exact hc
  · rw [r]; exact key 5
  · rw [g]; exact key 3
  · rw [b]; exact key 1

example : (fromHsv (-120) 100 50).toOption = some ⟨0, 0, 128, 255⟩ := by decide +kernel

/-- **C43** (numbers). Colours are made of exactly the numbers from 0 to 255, and have the channels they are made of. -/
theorem c43_rgba (r g b a : ℤ) (c : Color) : fromRgba r g b a = .ok c ↔
    (c.red.1 : ℤ) = r ∧ (c.green.1 : ℤ) = g ∧ (c.blue.1 : ℤ) = b ∧ (c.alpha.1 : ℤ) = a := by
  have h : ∀ (n : ℤ) (x : Fin 256), channel n = .ok x ↔ (x.1 : ℤ) = n := by
    intro n x
    unfold channel
    split_ifs with hn
    · simp only [Except.ok.injEq, Fin.ext_iff]
      omega
    · have := x.2
      simp only [reduceCtorEq, false_iff]
      omega
  unfold fromRgba build
  rw [← h, ← h, ← h, ← h]
  obtain ⟨c1, c2, c3, c4⟩ := c
  cases channel r <;> cases channel g <;> cases channel b <;> cases channel a <;> simp

/-- **C43** (fractions). The channels as fractions are between 0 and 1, and give the colour back when multiplied by 255. -/
theorem c43_fractions (c : Color) :
    (∀ x ∈ [c.asRgbaFloat.1, c.asRgbaFloat.2.1, c.asRgbaFloat.2.2.1, c.asRgbaFloat.2.2.2], 0 ≤ x ∧ x ≤ 1) ∧
    c.asRgbaFloat.1 * 255 = c.red.1 ∧ c.asRgbaFloat.2.1 * 255 = c.green.1 ∧
    c.asRgbaFloat.2.2.1 * 255 = c.blue.1 ∧ c.asRgbaFloat.2.2.2 * 255 = c.alpha.1 := by
  have h : ∀ x : Fin 256, (0 : ℚ) ≤ (x.1 : ℚ) / 255 ∧ (x.1 : ℚ) / 255 ≤ 1 := by
    intro x
    have h2 : (x.1 : ℚ) ≤ 255 := by
      have := x.2
      exact_mod_cast (by omega : x.1 ≤ 255)
    constructor
    · positivity
    · rw [div_le_one (by norm_num)]; exact h2
  simp only [Color.asRgbaFloat, List.mem_cons, List.not_mem_nil, or_false, forall_eq_or_imp, forall_eq]
  exact ⟨⟨h _, h _, h _, h _⟩, by field_simp, by field_simp, by field_simp, by field_simp⟩

example : fromRgba 1 2 3 256 = .error .validation ∧ fromRgba 1 2 3 = .ok ⟨1, 2, 3, 255⟩ := by decide +kernel

end Verif.Props.Color
