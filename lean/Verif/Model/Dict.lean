import Mathlib.Logic.Basic

/-!
# Python dictionaries

An insertion-ordered association list with the operations of `dict` that the code uses.
-/

namespace Verif

/-- A Python `dict`: entries in insertion order. -/
abbrev Dict (κ ν : Type) := List (κ × ν)

namespace Dict
variable {κ ν : Type} [DecidableEq κ]

/-- `d.get(k)` (the first entry with the key; `set` keeps keys unique). -/
def get? : Dict κ ν → κ → Option ν
  | [], _ => none
  | (k', v) :: d, k => if k' = k then some v else get? d k

/-- `d[k] = v`: replaces in place or appends. -/
def set : Dict κ ν → κ → ν → Dict κ ν
  | [], k, v => [(k, v)]
  | (k', v') :: d, k, v => if k' = k then (k', v) :: d else (k', v') :: set d k v

/-- `d.pop(k, None)` (the returned value is not used by the code) and `del d[k]`. -/
def pop : Dict κ ν → κ → Dict κ ν
  | [], _ => []
  | (k', v) :: d, k => if k' = k then pop d k else (k', v) :: pop d k

/-- `d.keys()`. -/
def keys (d : Dict κ ν) : List κ := d.map Prod.fst

@[simp] theorem get?_nil (k : κ) : get? ([] : Dict κ ν) k = none := rfl

theorem get?_set (d : Dict κ ν) (k k' : κ) (v : ν) :
    (d.set k v).get? k' = if k = k' then some v else d.get? k' := by
  induction d with
  | nil => rfl
  | cons e d ih =>
    obtain ⟨a, b⟩ := e
    simp only [set]
    by_cases h : a = k
    · subst h
      simp only [if_true, get?]
      by_cases h2 : a = k' <;> simp [h2]
    · simp only [if_neg h, get?, ih]
      by_cases h2 : a = k'
      · subst h2; simp [Ne.symm h]
      · simp [h2]

@[simp] theorem get?_set_self (d : Dict κ ν) (k : κ) (v : ν) : (d.set k v).get? k = some v := by
  simp [get?_set]

theorem get?_pop (d : Dict κ ν) (k k' : κ) :
    (d.pop k).get? k' = if k = k' then none else d.get? k' := by
  induction d with
  | nil => simp [pop]
  | cons e d ih =>
    obtain ⟨a, b⟩ := e
    simp only [pop]
    by_cases h : a = k
    · subst h
      simp only [if_true, ih, get?]
      by_cases h2 : a = k' <;> simp [h2]
    · simp only [if_neg h, get?, ih]
      by_cases h2 : a = k'
      · subst h2; simp [Ne.symm h]
      · simp [h2]

theorem get?_eq_none_iff (d : Dict κ ν) (k : κ) : d.get? k = none ↔ k ∉ d.keys := by
  induction d with
  | nil => simp [keys]
  | cons e d ih =>
    obtain ⟨a, b⟩ := e
    simp only [get?, keys, List.map_cons, List.mem_cons, not_or]
    by_cases h : a = k
    · simp [h]
    · simp only [if_neg h]
      rw [ih]
      simp [keys, Ne.symm h]

theorem mem_keys_set (d : Dict κ ν) (k k' : κ) (v : ν) :
    k' ∈ (d.set k v).keys ↔ k' = k ∨ k' ∈ d.keys := by
  have h1 := get?_eq_none_iff (d.set k v) k'
  have h2 := get?_eq_none_iff d k'
  rw [get?_set] at h1
  by_cases h : k = k'
  · subst h; simp at h1; simp [h1]
  · simp only [if_neg h] at h1
    have : k' ∉ (d.set k v).keys ↔ k' ∉ d.keys := h1.symm.trans h2
    simp only [Ne.symm h, false_or]
    exact not_iff_not.mp this

end Dict
end Verif
