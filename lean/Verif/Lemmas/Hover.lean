import Verif.Spec.Hover
import Verif.Lemmas.State
import Verif.Lemmas.CoordProps

/-!
# Lemmas about previews
-/

namespace Verif.Dict
variable {κ ν : Type} [DecidableEq κ]

theorem nodup_set (d : Dict κ ν) (k : κ) (v : ν) (h : (keys d).Nodup) : (keys (d.set k v)).Nodup := by
  induction d with
  | nil => simp [set, keys]
  | cons e d ih =>
    obtain ⟨a, b⟩ := e
    simp only [set]
    have h' : a ∉ keys d ∧ (keys d).Nodup := List.nodup_cons.1 h
    split
    · exact h
    · rename_i hne
      show (a :: keys (set d k v)).Nodup
      refine List.nodup_cons.2 ⟨?_, ih h'.2⟩
      rw [mem_keys_set]
      rintro (e | e)
      · exact hne e
      · exact h'.1 e

/-- Storing all entries of a dictionary. -/
def setAll (acc : Dict κ ν) (d : Dict κ ν) : Dict κ ν := d.foldl (fun a e => a.set e.1 e.2) acc

theorem get?_setAll (d acc : Dict κ ν) (k : κ) (h : (keys d).Nodup) :
    (setAll acc d).get? k = (d.get? k).or (acc.get? k) := by
  induction d generalizing acc with
  | nil => simp [setAll]
  | cons e d ih =>
    obtain ⟨a, b⟩ := e
    have h' : a ∉ keys d ∧ (keys d).Nodup := List.nodup_cons.1 h
    show (setAll (acc.set a b) d).get? k = _
    rw [ih _ h'.2, get?_set]
    simp only [get?]
    by_cases e : a = k
    · subst e
      have : get? d a = none := (get?_eq_none_iff d a).2 h'.1
      simp [this]
    · simp [e]

end Verif.Dict

namespace Verif.Hover
open Verif.Visitor Verif.Coord Verif.Spec Verif.Text Verif.Lemmas.Coord

/-! ## Numbers that were read can be written -/

theorem unpack_shape {f : CoordinateFormat} {a : Axis} {t : List Char} {w : ℚ} (h : f.unpack a t = .ok w) :
    ∃ sg : Sign, ∃ ds, t = sg.text ++ ds ∧ Digits ds := by
  have pre : ∀ i d neg s, unpackPreprocess t i d = .ok (neg, s) → ∃ sg : Sign, t = sg.text ++ s := by
    intro i d neg s hp
    unfold unpackPreprocess at hp
    cases t with
    | nil => cases hp
    | cons c r =>
      simp only at hp
      by_cases hc : c = '+'
      · subst hc
        simp only [if_true] at hp
        split at hp
        · cases hp
        · split at hp
          · cases hp
          · cases hp; exact ⟨.plus, rfl⟩
      · simp only [if_neg hc] at hp
        by_cases hm : c = '-'
        · subst hm
          simp only [if_true] at hp
          split at hp
          · cases hp
          · split at hp
            · cases hp
            · cases hp; exact ⟨.minus, rfl⟩
        · simp only [if_neg hm] at hp
          split at hp
          · cases hp
          · split at hp
            · cases hp
            · cases hp; exact ⟨.none, rfl⟩
  have lead : ∀ i d, unpackSkipLeading i d t = .ok w → ∃ sg : Sign, ∃ ds, t = sg.text ++ ds ∧ Digits ds := by
    intro i d hu
    unfold unpackSkipLeading at hu
    cases hp : unpackPreprocess t i d with
    | error e => rw [hp] at hu; cases hu
    | ok r =>
      obtain ⟨neg, s⟩ := r
      rw [hp] at hu
      simp only [floatPadded] at hu
      split at hu
      · rename_i hall
        obtain ⟨sg, e⟩ := pre i d neg s hp
        refine ⟨sg, s, e, (all_isDigit_iff s).1 ?_⟩
        unfold rjust0 at hall
        rw [List.all_append, Bool.and_eq_true] at hall
        exact hall.2
      · cases hu
  have trail : ∀ i d, unpackSkipTrailing i d t = .ok w → ∃ sg : Sign, ∃ ds, t = sg.text ++ ds ∧ Digits ds := by
    intro i d hu
    unfold unpackSkipTrailing at hu
    cases hp : unpackPreprocess t i d with
    | error e => rw [hp] at hu; cases hu
    | ok r =>
      obtain ⟨neg, s⟩ := r
      rw [hp] at hu
      simp only [floatPadded] at hu
      split at hu
      · rename_i hall
        obtain ⟨sg, e⟩ := pre i d neg s hp
        refine ⟨sg, s, e, (all_isDigit_iff s).1 ?_⟩
        unfold ljust0 at hall
        rw [List.all_append, Bool.and_eq_true] at hall
        exact hall.1
      · cases hu
  unfold CoordinateFormat.unpack at h
  cases hz : f.zeros <;> rw [hz] at h <;> simp only at h
  · exact lead _ _ h
  · exact trail _ _ h
  · exact lead _ _ h

theorem unpack_zero (f : CoordinateFormat) (a : Axis) (hi : 0 < f.integral a) : f.unpack a ['0'] = .ok 0 := by
  have hd : Digits ['0'] := by decide
  by_cases hz : f.zeros = .skipTrailing
  · have := unpack_trailing_core f hz a .none ['0'] hd
    simp only [Sign.text, List.nil_append] at this
    rw [this, if_neg (by simp), if_neg (by simp; omega)]
    simp [numeral]
  · have := unpack_leading_core f hz a .none ['0'] hd
    simp only [Sign.text, List.nil_append] at this
    rw [this, if_neg (by simp), if_neg (by simp; omega)]
    simp [numeral]

theorem repack {f : CoordinateFormat} {a : Axis} {t : List Char} {w : ℚ} (hi : 0 < f.integral a) (hd : 0 < f.decimal a)
    (h : f.unpack a t = .ok w) : ∃ s, f.pack a w = .ok s ∧ f.unpack a s = .ok w := by
  obtain ⟨sg, ds, rfl, hds⟩ := unpack_shape h
  exact repack_partial_core f a hi hd sg ds hds w h

/-! ## The limited visitor -/

theorem limited_prefix (max : Nat) (pre : List Located) (c : Located) (post : List Located) (s : VState)
    (hpre : ∀ d ∈ pre, d.stop ≤ max) (hc : max < c.stop) :
    limited max s (pre ++ c :: post) = onFile false s (pre.map Located.cmd) := by
  induction pre generalizing s with
  | nil => simp [limited, onFile, hc]
  | cons d pre ih =>
    have hd : ¬ d.stop > max := by have := hpre d (by simp); omega
    have ih' := fun s => ih s (fun e he => hpre e (by simp [he]))
    simp only [List.cons_append, limited, if_neg hd, List.map_cons, onFile, ih', Bool.false_eq_true, if_false]
    rcases (visit s d.cmd).exn with _ | e
    · rfl
    · cases e <;> rfl

/-! ## The prelude of a preview -/

theorem run_ams (ms : Dict Name (List Macro.Prim)) (s : VState) :
    run s (ms.map fun e => .leaf (.am e.1 e.2)) = .ok { s with macros := Dict.setAll s.macros ms } := by
  induction ms generalizing s with
  | nil => rfl
  | cons e ms ih =>
    simp only [List.map_cons, run]
    rw [show step s (.leaf (.am e.1 e.2)) = .ok { s with macros := s.macros.set e.1 e.2 } from rfl]
    simp only [Out.andThen_ok, List.nil_append]
    rw [ih]
    rfl

/-- State after the definitions of apertures. -/
def withAps (s : VState) (aps : Dict Name ApDef) : VState :=
  aps.foldl (fun s e => storeAttributes e.1 { s with apertures := s.apertures.set e.1 e.2 }) s

theorem withAps_eq (aps : Dict Name ApDef) (s : VState) :
    ∃ pa, withAps s aps = { s with apertures := Dict.setAll s.apertures aps, perAperture := pa } := by
  induction aps generalizing s with
  | nil => exact ⟨_, rfl⟩
  | cons e aps ih =>
    obtain ⟨pa, h⟩ := ih (storeAttributes e.1 { s with apertures := s.apertures.set e.1 e.2 })
    exact ⟨pa, h⟩

theorem run_ads (aps : Dict Name ApDef) (s : VState) :
    (run s (aps.map fun e => .leaf (.ad e.1 e.2))).st = withAps s aps ∧
    (run s (aps.map fun e => .leaf (.ad e.1 e.2))).exn = none ∧
    ∀ id, (run s (aps.map fun e => .leaf (.ad e.1 e.2))).ev.filterMap (shapeIn id) =
      (aps.filter fun e => e.1 = id).map (fun e => (e.2, match e.2 with
        | .macro n _ => s.macros.get? n
        | _ => none)) := by
  induction aps generalizing s with
  | nil => exact ⟨rfl, rfl, fun _ => rfl⟩
  | cons e aps ih =>
    obtain ⟨i1, i2, i3⟩ := ih (storeAttributes e.1 { s with apertures := s.apertures.set e.1 e.2 })
    simp only [List.map_cons, run]
    rw [show step s (.leaf (.ad e.1 e.2)) = .ok (storeAttributes e.1 { s with apertures := s.apertures.set e.1 e.2 })
      [.define e.1 e.2 (storeAttributes e.1 { s with apertures := s.apertures.set e.1 e.2 })] from rfl]
    simp only [Out.andThen_ok]
    refine ⟨i1, i2, fun id => ?_⟩
    rw [List.filterMap_append, i3 id]
    by_cases hid : e.1 = id
    · cases he : e.2 <;> simp [shapeIn, hid, storeAttributes, he]
    · simp [shapeIn, hid, storeAttributes]

theorem filter_key {κ ν : Type} [DecidableEq κ] (d : Dict κ ν) (k : κ) (v : ν) (hn : d.keys.Nodup) (hg : d.get? k = some v) :
    d.filter (fun e => e.1 = k) = [(k, v)] := by
  induction d with
  | nil => simp at hg
  | cons e d ih =>
    obtain ⟨a, b⟩ := e
    have h' : a ∉ Dict.keys d ∧ (Dict.keys d).Nodup := List.nodup_cons.1 hn
    simp only [Dict.get?] at hg
    by_cases ha : a = k
    · subst ha
      rw [if_pos rfl] at hg
      cases hg
      have : d.filter (fun e => e.1 = a) = [] := by
        rw [List.filter_eq_nil_iff]
        intro e he
        simp only [decide_eq_true_eq]
        rintro rfl
        exact h'.1 (List.mem_map.2 ⟨e, he, rfl⟩)
      simp [this]
    · rw [if_neg ha] at hg
      simp [ha, ih h'.2 hg]

theorem keys_nodup : ∀ h, (run {} h).exn = none →
    (run {} h).st.apertures.keys.Nodup ∧ (run {} h).st.macros.keys.Nodup := by
  refine history_induction ?_ ?_
  · exact ⟨List.nodup_nil, List.nodup_nil⟩
  · intro h a h1 h2 ih
    rw [run_snoc_st h1]
    generalize (run {} h).st = s at *
    refine step_elim h2 (P := fun a s' => s'.apertures.keys.Nodup ∧ s'.macros.keys.Nodup) ?_ ?_ ?_ ?_ ?_
    · intros; exact ih
    · intros; exact ih
    · intros; exact ih
    · intros; exact ih
    · intro a hp hs
      cases a with
      | leaf l =>
        cases l <;> try (simp [isPlain] at hp; done)
        all_goals try exact ih
        case ad i d => exact ⟨Dict.nodup_set _ _ _ ih.1, ih.2⟩
        case am n b => exact ⟨ih.1, Dict.nodup_set _ _ _ ih.2⟩
        case td n => cases n <;> exact ih
      | _ => exact ih

theorem drawTable_drawingOf (p q) : VState.drawTable p q = drawingOf p q := by
  cases p <;> cases q <;> rfl

end Verif.Hover
