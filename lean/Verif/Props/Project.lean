import Verif.Model.Project
import Verif.Spec.Project
import Verif.Lemmas.Text
import Verif.Lemmas.CoordProps
import Mathlib.Data.List.Induction
import Mathlib.Data.List.TakeWhile
import Mathlib.Tactic.Tauto

/-!
# C51: the views of a project
-/

namespace Verif.Props.Project
open Verif.Api Verif.Spec Verif.Text
variable {F : Type}

/-! ### Reading the file function -/

theorem splitComma_clean {p : List Char} (h : ',' ∉ p) : splitComma p = [p] := by
  induction p with
  | nil => rfl
  | cons c p ih =>
    simp only [List.mem_cons, not_or] at h
    simp only [splitComma]
    rw [if_neg (Ne.symm h.1), ih h.2]

theorem splitComma_append {p : List Char} (h : ',' ∉ p) (q : List Char) :
    splitComma (p ++ ',' :: q) = p :: splitComma q := by
  induction p with
  | nil => simp [splitComma]
  | cons c p ih =>
    simp only [List.mem_cons, not_or] at h
    simp only [List.cons_append, splitComma]
    rw [if_neg (Ne.symm h.1), ih h.2]

theorem splitComma_parts (parts : List (List Char)) (hne : parts ≠ []) (h : ∀ p ∈ parts, ',' ∉ p) :
    splitComma ([','].intercalate parts) = parts := by
  induction parts with
  | nil => exact absurd rfl hne
  | cons p ps ih =>
    cases ps with
    | nil => simp [List.intercalate, splitComma_clean (h p (by simp))]
    | cons q qs =>
      have e : [','].intercalate (p :: q :: qs) = p ++ ',' :: [','].intercalate (q :: qs) := by
        simp [List.intercalate, List.intersperse]
      rw [e, splitComma_append (h p (by simp)), ih (by simp) fun r hr => h r (by simp [hr])]

theorem hasParts_split {text : List Char} {parts : List (List Char)} (h : HasParts text parts) :
    splitComma (upper text) = parts := by
  rw [upper, h.2.2]; exact splitComma_parts parts h.1 h.2.1

theorem namesLayer_iff (p l : List Char) : NamesLayer p l ↔ layerOf p = some l := by
  unfold NamesLayer layerOf
  constructor
  · rintro ⟨h1, h2, rest, rfl, h3⟩
    have hall := (all_isDigit_iff l).2 h2
    rw [List.all_eq_true] at hall
    have : (l ++ rest).takeWhile isDigit = l := by
      cases rest with
      | nil => rw [List.append_nil]; exact List.takeWhile_eq_self_iff.2 hall
      | cons c t =>
        have hc : isDigit c = false := by
          have := h3 c t rfl
          rw [← all_isDigit_iff] at this
          simpa using this
        rw [List.takeWhile_append_of_pos hall]; simp [hc]
    simp [this, h1]
  · split
    · rename_i rest
      split
      · simp
      · rename_i hne
        intro h
        simp only [Option.some.injEq] at h
        subst h
        refine ⟨hne, ?_, rest.dropWhile isDigit, by rw [List.takeWhile_append_dropWhile], ?_⟩
        · rw [← all_isDigit_iff, List.all_eq_true]; intro c hc; exact List.mem_takeWhile_imp hc
        · intro c t hct
          have := List.head?_dropWhile_not isDigit rest
          rw [hct] at this
          rw [← all_isDigit_iff]
          simpa using this
    · simp

/-! ### The loops -/

/-- The type of an entry. -/
def ty (e : JobEntry F) : FileType := FileType.ofValue (e.parts.headD [])

/-- The view an entry goes to, unless it is the profile. -/
def home (e : JobEntry F) : Option View :=
  if ['T', 'O', 'P'] ∈ e.parts then some .top
  else if ['B', 'O', 'T'] ∈ e.parts then some .bottom
  else (e.parts.findSome? layerOf).map .inner

theorem meantFor_iff (e : JobEntry F) (v : View) : meantFor e v ↔ home e = some v := by
  have hfind : ∀ l, (∃ before p after, e.parts = before ++ p :: after ∧ NamesLayer p l ∧
      ∀ q ∈ before, ¬ ∃ l, NamesLayer q l) ↔ e.parts.findSome? layerOf = some l := by
    intro l
    rw [List.findSome?_eq_some_iff]
    constructor
    · rintro ⟨b, p, a, h1, h2, h3⟩
      refine ⟨b, p, a, h1, (namesLayer_iff p l).1 h2, fun q hq => ?_⟩
      cases hl : layerOf q with
      | none => rfl
      | some l' => exact absurd ⟨l', (namesLayer_iff q l').2 hl⟩ (h3 q hq)
    · rintro ⟨b, p, a, h1, h2, h3⟩
      refine ⟨b, p, a, h1, (namesLayer_iff p l).2 h2, fun q hq ⟨l', hl'⟩ => ?_⟩
      rw [namesLayer_iff, h3 q hq] at hl'
      simp at hl'
  unfold home
  have hm : ∀ l, (∃ before p after, e.parts = before ++ p :: after ∧ NamesLayer p l ∧
      ∀ q ∈ before, ¬ ∃ l, NamesLayer q l) ↔ (e.parts.findSome? layerOf).map View.inner = some (.inner l) := by
    intro l; rw [hfind]
    generalize List.findSome? layerOf e.parts = o
    cases o <;> simp
  have hn : ∀ v, (∀ l, v ≠ .inner l) → (e.parts.findSome? layerOf).map View.inner ≠ some v := by
    intro v hv
    generalize List.findSome? layerOf e.parts = o
    cases o with
    | none => simp
    | some l => simp only [Option.map_some, ne_eq, Option.some.injEq]; exact fun h => hv l h.symm
  clear hfind
  generalize Option.map View.inner (List.findSome? layerOf e.parts) = o at hm hn ⊢
  cases v with
  | top =>
    have := hn .top nofun
    simp only [meantFor]
    by_cases h : ['T', 'O', 'P'] ∈ e.parts
    · simp [h]
    · simp only [h, if_false, false_iff]
      split <;> simp [this]
  | bottom =>
    have := hn .bottom nofun
    simp only [meantFor]
    by_cases h : ['T', 'O', 'P'] ∈ e.parts
    · simp [h]
    · by_cases h2 : ['B', 'O', 'T'] ∈ e.parts
      · simp [h, h2]
      · simp [h, h2, this]
  | inner l =>
    simp only [meantFor, hm]
    by_cases h : ['T', 'O', 'P'] ∈ e.parts
    · simp [h]
    · by_cases h2 : ['B', 'O', 'T'] ∈ e.parts
      · simp [h, h2]
      · simp [h, h2]

theorem typeIs_iff (e : JobEntry F) (hne : e.parts ≠ []) (t : FileType) : typeIs e t ↔ ty e = t := by
  unfold typeIs ty
  cases h : e.parts with
  | nil => exact absurd h hne
  | cons p ps =>
    constructor
    · rintro ⟨q, qs, h1, h2⟩
      simp only [List.cons.injEq] at h1
      rw [← h1.1] at h2
      exact h2
    · intro h2; exact ⟨p, ps, rfl, h2⟩

/-- The dictionary entry of a view. -/
def entry (s : Sorting F) (v : View) (t : FileType) : Option F :=
  match v with
  | .top => s.top.get? t
  | .bottom => s.bottom.get? t
  | .inner l => (s.inner.get? l).bind fun d => d.get? t

theorem place_entry (s : Sorting F) (e : JobEntry F) (text : List Char) (h : HasParts text e.parts) (v : View)
    (t : FileType) : entry (place s (e.file, text)) v t =
      if ty e ≠ .profile ∧ home e = some v ∧ ty e = t then some e.file else entry s v t := by
  unfold place
  simp only [hasParts_split h]
  change entry (if ty e = .profile then _ else _) v t = _
  by_cases hp : ty e = .profile
  · simp [hp, entry]
  · simp only [if_neg hp, if_false, ne_eq, hp, not_false_eq_true, true_and]
    have ht : FileType.ofValue (e.parts.headD []) = ty e := rfl
    rw [ht]
    unfold home
    by_cases h1 : ['T', 'O', 'P'] ∈ e.parts
    · simp only [if_pos h1]
      cases v <;> simp [entry, Dict.get?_set]
    · simp only [if_neg h1]
      by_cases h2 : ['B', 'O', 'T'] ∈ e.parts
      · simp only [if_pos h2]
        cases v <;> simp [entry, Dict.get?_set]
      · simp only [if_neg h2]
        cases hf : e.parts.findSome? layerOf with
        | none => simp
        | some l =>
          cases v with
          | top => simp [entry]
          | bottom => simp [entry]
          | inner m =>
            simp only [entry, Dict.get?_set, Option.map_some, Option.some.injEq, View.inner.injEq]
            by_cases hlm : l = m
            · subst hlm
              simp only [if_true, true_and, Option.bind_some, Dict.get?_set]
              by_cases hty : ty e = t
              · simp [hty]
              · rw [if_neg hty]
                cases s.inner.get? l <;> simp [hty]
            · simp [hlm]

theorem place_keys (s : Sorting F) (e : JobEntry F) (text : List Char) (h : HasParts text e.parts) (l : List Char) :
    ((place s (e.file, text)).inner.get? l = none) ↔
      s.inner.get? l = none ∧ ¬ (ty e ≠ .profile ∧ home e = some (.inner l)) := by
  unfold place
  simp only [hasParts_split h]
  change ((if ty e = .profile then _ else _ : Sorting F).inner.get? l = none) ↔ _
  by_cases hp : ty e = .profile
  · simp [hp]
  · simp only [if_neg hp, if_false, ne_eq, hp, not_false_eq_true, true_and]
    unfold home
    by_cases h1 : ['T', 'O', 'P'] ∈ e.parts
    · simp [h1]
    · simp only [if_neg h1]
      by_cases h2 : ['B', 'O', 'T'] ∈ e.parts
      · simp [h2]
      · simp only [if_neg h2]
        cases hf : e.parts.findSome? layerOf with
        | none => simp
        | some m =>
          simp only [Dict.get?_set, Option.map_some, Option.some.injEq, View.inner.injEq]
          by_cases hlm : m = l
          · simp [hlm]
          · simp [hlm]

theorem place_all (s : Sorting F) (e : JobEntry F) (text : List Char) (h : HasParts text e.parts) :
    (place s (e.file, text)).all = if ty e = .profile then s.all ++ [e.file] else s.all := by
  unfold place
  simp only [hasParts_split h]
  change (if ty e = .profile then _ else _ : Sorting F).all = _
  by_cases hp : ty e = .profile
  · simp [hp]
  · simp only [if_neg hp]
    repeat' split
    all_goals rfl

/-! ### Keys of the dictionary of inner layers -/

theorem keys_set_nodup {κ ν : Type} [DecidableEq κ] (d : Dict κ ν) (k : κ) (v : ν) (h : d.keys.Nodup) :
    (d.set k v).keys.Nodup := by
  induction d with
  | nil => simp [Dict.set, Dict.keys]
  | cons e d ih =>
    obtain ⟨a, b⟩ := e
    simp only [Dict.keys, List.map_cons, List.nodup_cons] at h
    simp only [Dict.set]
    split
    · simpa [Dict.keys] using h
    · rename_i hne
      have h2 := ih h.2
      rw [show Dict.keys ((a, b) :: Dict.set d k v) = a :: (Dict.set d k v).keys from rfl, List.nodup_cons]
      refine ⟨?_, h2⟩
      rw [Dict.mem_keys_set]
      rintro (h3 | h3)
      · exact hne h3
      · exact h.1 h3

theorem place_nodup (s : Sorting F) (f : F × List Char) (h : s.inner.keys.Nodup) :
    (place s f).inner.keys.Nodup := by
  unfold place
  simp only
  repeat' split
  all_goals first | exact h | exact keys_set_nodup _ _ _ h

/-! ### The state after the first loop -/

/-- The file of the last entry with a property. -/
def lastWith (p : JobEntry F → Bool) (job : List (JobEntry F)) : Option F := ((job.filter p).getLast?).map (·.file)

theorem lastWith_snoc (p : JobEntry F → Bool) (job : List (JobEntry F)) (e : JobEntry F) :
    lastWith p (job ++ [e]) = if p e then some e.file else lastWith p job := by
  unfold lastWith
  by_cases h : p e = true
  · simp [List.filter_append, h]
  · simp [List.filter_append, h]

theorem lastWith_some {p : JobEntry F → Bool} {job : List (JobEntry F)} {f : F} (h : lastWith p job = some f) :
    ∃ before e after, job = before ++ e :: after ∧ e.file = f ∧ p e = true ∧ ∀ d ∈ after, p d ≠ true := by
  induction job using List.reverseRecOn with
  | nil => simp [lastWith] at h
  | append_singleton job e ih =>
    rw [lastWith_snoc] at h
    by_cases hp : p e = true
    · rw [if_pos hp] at h
      exact ⟨job, e, [], rfl, by simpa using h, hp, by simp⟩
    · rw [if_neg hp] at h
      obtain ⟨b, d, a, h1, h2, h3, h4⟩ := ih h
      refine ⟨b, d, a ++ [e], by rw [h1]; simp, h2, h3, ?_⟩
      intro x hx
      rcases List.mem_append.1 hx with hx | hx
      · exact h4 x hx
      · simp only [List.mem_singleton] at hx; subst hx; exact hp

theorem lastWith_none {p : JobEntry F → Bool} {job : List (JobEntry F)} (h : lastWith p job = none) :
    ∀ e ∈ job, p e ≠ true := by
  intro e he hp
  unfold lastWith at h
  simp only [Option.map_eq_none_iff, List.getLast?_eq_none_iff, List.filter_eq_nil_iff] at h
  exact h e he hp

theorem loop_spec (job : List (JobEntry F)) (h : ∀ e ∈ job, HasParts e.text e.parts) :
    (∀ v t, entry ((job.map fun e => (e.file, e.text)).foldl place {}) v t =
      lastWith (fun e => decide (ty e ≠ .profile ∧ home e = some v ∧ ty e = t)) job) ∧
    (∀ l, ((job.map fun e => (e.file, e.text)).foldl place ({} : Sorting F)).inner.get? l = none ↔
      ∀ e ∈ job, ¬ (ty e ≠ .profile ∧ home e = some (.inner l))) ∧
    ((job.map fun e => (e.file, e.text)).foldl place ({} : Sorting F)).all =
      (job.filter fun e => decide (ty e = .profile)).map (·.file) ∧
    ((job.map fun e => (e.file, e.text)).foldl place ({} : Sorting F)).inner.keys.Nodup := by
  induction job using List.reverseRecOn with
  | nil =>
    refine ⟨fun v t => ?_, by simp, rfl, by simp [Dict.keys]⟩
    cases v <;> rfl
  | append_singleton job e ih =>
    obtain ⟨i1, i2, i3, i4⟩ := ih fun x hx => h x (by simp [hx])
    have he := h e (by simp)
    simp only [List.map_append, List.map_cons, List.map_nil, List.foldl_append, List.foldl_cons, List.foldl_nil]
    refine ⟨fun v t => ?_, fun l => ?_, ?_, place_nodup _ _ i4⟩
    · rw [place_entry _ e _ he, lastWith_snoc, i1]
      simp only [decide_eq_true_eq]
    · rw [place_keys _ e _ he, i2]
      simp only [List.mem_append, List.mem_singleton]
      constructor
      · rintro ⟨h1, h2⟩ x (hx | hx)
        · exact h1 x hx
        · subst hx; exact h2
      · intro hx
        exact ⟨fun x h' => hx x (.inl h'), hx e (.inr rfl)⟩
    · rw [place_all _ e _ he, i3, List.filter_append]
      by_cases hp : ty e = .profile <;> simp [hp]

/-! ### The second loop -/

theorem get?_map {κ ν μ : Type} [DecidableEq κ] (d : Dict κ ν) (f : ν → μ) (k : κ) :
    Dict.get? (d.map fun e => (e.1, f e.2)) k = (d.get? k).map f := by
  induction d with
  | nil => rfl
  | cons e d ih =>
    obtain ⟨a, b⟩ := e
    simp only [List.map_cons, Dict.get?]
    split
    · rfl
    · exact ih

theorem everywhere_keys (s : Sorting F) (fs : List F) : (fs.foldl placeEverywhere s).inner.keys = s.inner.keys := by
  induction fs generalizing s with
  | nil => rfl
  | cons f fs ih =>
    rw [List.foldl_cons, ih]
    simp [placeEverywhere, Dict.keys, Function.comp_def]

theorem everywhere_get (s : Sorting F) (fs : List F) (l : List Char) :
    (fs.foldl placeEverywhere s).inner.get? l = none ↔ s.inner.get? l = none := by
  rw [Dict.get?_eq_none_iff, Dict.get?_eq_none_iff, everywhere_keys]

theorem everywhere_entry (s : Sorting F) (fs : List F) (v : View) (t : FileType)
    (hv : ∀ l, v = .inner l → s.inner.get? l ≠ none) :
    entry (fs.foldl placeEverywhere s) v t = if t = .profile then (fs.getLast?.or (entry s v t)) else entry s v t := by
  induction fs using List.reverseRecOn with
  | nil => simp
  | append_singleton fs f ih =>
    have hv' : ∀ l, v = .inner l → (fs.foldl placeEverywhere s).inner.get? l ≠ none := fun l hl => by
      rw [ne_eq, everywhere_get]; exact hv l hl
    rw [List.foldl_append, List.foldl_cons, List.foldl_nil]
    generalize fs.foldl placeEverywhere s = u at ih hv'
    have step : entry (placeEverywhere u f) v t = if t = .profile then some f else entry u v t := by
      cases v with
      | top => simp only [entry, placeEverywhere, Dict.get?_set, eq_comm]
      | bottom => simp only [entry, placeEverywhere, Dict.get?_set, eq_comm]
      | inner l =>
        simp only [entry, placeEverywhere]
        rw [get?_map u.inner (fun d => Dict.set d FileType.profile f)]
        cases hg : u.inner.get? l with
        | none => exact absurd hg (hv' l rfl)
        | some d => simp only [Option.map_some, Option.bind_some, Dict.get?_set, eq_comm]
    rw [step, ih]
    by_cases ht : t = .profile <;> simp [ht]

/-! ### Sorting -/

theorem mem_insertText (x y : List Char) (l : List (List Char)) : y ∈ insertText x l ↔ y = x ∨ y ∈ l := by
  induction l with
  | nil => simp [insertText]
  | cons z l ih =>
    simp only [insertText]
    split
    · simp
    · simp [ih]; tauto

theorem mem_sortTexts (y : List Char) (l : List (List Char)) : y ∈ sortTexts l ↔ y ∈ l := by
  induction l with
  | nil => simp [sortTexts]
  | cons x l ih => simp [sortTexts, mem_insertText, ih]

theorem insertText_sorted (x : List Char) (l : List (List Char)) (h : l.Pairwise (· < ·)) (hx : x ∉ l) :
    (insertText x l).Pairwise (· < ·) := by
  induction l with
  | nil => simp [insertText]
  | cons y l ih =>
    simp only [List.mem_cons, not_or] at hx
    simp only [insertText]
    rw [List.pairwise_cons] at h
    split
    · rename_i hle
      have hlt : x < y := by by_contra hc; exact hx.1 (List.le_antisymm hle (List.not_lt.1 hc))
      rw [List.pairwise_cons]
      refine ⟨?_, List.pairwise_cons.2 h⟩
      intro z hz
      rcases List.mem_cons.1 hz with hz | hz
      · subst hz; exact hlt
      · exact List.lt_trans hlt (h.1 z hz)
    · rename_i hle
      rw [List.pairwise_cons]
      refine ⟨?_, ih h.2 hx.2⟩
      intro z hz
      rcases (mem_insertText x z l).1 hz with hz | hz
      · subst hz; exact List.not_le.1 hle
      · exact h.1 z hz

theorem sortTexts_sorted (l : List (List Char)) (h : l.Nodup) : (sortTexts l).Pairwise (· < ·) := by
  induction l with
  | nil => simp [sortTexts]
  | cons x l ih =>
    rw [List.nodup_cons] at h
    exact insertText_sorted x _ (ih h.2) (by rw [mem_sortTexts]; exact h.1)

/-! ### The views -/

theorem extract_eq (d : Dict FileType F) : extract d = displayOrder.filterMap d.get? := by
  unfold extract displayOrder
  simp only [List.filterMap_cons, List.filterMap_nil]
  cases d.get? .copper <;> cases d.get? .mask <;> cases d.get? .soldermask <;> cases d.get? .paste <;>
    cases d.get? .silk <;> cases d.get? .legend <;> cases d.get? .profile <;> rfl

theorem viewOf_of (job : List (JobEntry F)) (v : View) (g : FileType → Option F) (ts : List FileType)
    (h1 : ∀ t f, g t = some f → IsLatest job v t f) (h2 : ∀ t, g t = none → HasNone job v t) :
    ViewOf job v ts (ts.filterMap g) := by
  induction ts with
  | nil => exact .nil
  | cons t ts ih =>
    cases hg : g t with
    | none => rw [List.filterMap_cons_none hg]; exact .skip _ _ _ (h2 t hg) ih
    | some f => rw [List.filterMap_cons_some hg]; exact .take _ _ _ _ (h1 t f hg) ih

theorem final_entry (job : List (JobEntry F)) (h : ∀ e ∈ job, HasParts e.text e.parts) (v : View) (t : FileType)
    (s : Sorting F) (hs : s = (job.map fun e => (e.file, e.text)).foldl place {})
    (hv : ∀ l, v = .inner l → s.inner.get? l ≠ none) :
    (∀ f, entry (s.all.foldl placeEverywhere s) v t = some f → IsLatest job v t f) ∧
    (entry (s.all.foldl placeEverywhere s) v t = none → HasNone job v t) := by
  obtain ⟨l1, l2, l3, l4⟩ := loop_spec job h
  subst hs
  have hne : ∀ e ∈ job, e.parts ≠ [] := fun e he => (h e he).1
  rw [everywhere_entry _ _ _ _ hv, l1, l3]
  have hall : ((job.filter fun e => decide (ty e = .profile)).map (·.file)).getLast? =
      lastWith (fun e => decide (ty e = .profile)) job := by
    rw [List.getLast?_map]; rfl
  rw [hall]
  have latest : ∀ p : JobEntry F → Bool, (∀ e ∈ job, p e = true ↔ typeIs e t ∧ belongs e v) → ∀ f,
      lastWith p job = some f → IsLatest job v t f := by
    intro p hp f hf
    obtain ⟨b, e, a, h1, h2, h3, h4⟩ := lastWith_some hf
    have he := (hp e (by rw [h1]; simp)).1 h3
    exact ⟨b, e, a, h1, h2, he.1, he.2, fun d hd hh => h4 d hd ((hp d (by rw [h1]; simp [hd])).2 hh)⟩
  have nothing : ∀ p : JobEntry F → Bool, (∀ e ∈ job, p e = true ↔ typeIs e t ∧ belongs e v) →
      lastWith p job = none → HasNone job v t := by
    intro p hp hf e he hh
    exact lastWith_none hf e he ((hp e he).2 hh)
  by_cases ht : t = .profile
  · subst ht
    rw [if_pos rfl]
    have hor : lastWith (fun e : JobEntry F => decide (ty e ≠ .profile ∧ home e = some v ∧ ty e = .profile)) job = none := by
      cases hc : lastWith (fun e : JobEntry F => decide (ty e ≠ .profile ∧ home e = some v ∧ ty e = .profile)) job with
      | none => rfl
      | some f =>
        obtain ⟨_, e, _, _, _, h3, _⟩ := lastWith_some hc
        simp only [decide_eq_true_eq] at h3
        exact absurd h3.2.2 h3.1
    rw [hor, Option.or_none]
    have hp : ∀ e ∈ job, decide (ty e = .profile) = true ↔ typeIs e .profile ∧ belongs e v := by
      intro e he
      rw [decide_eq_true_eq, belongs, typeIs_iff e (hne e he)]
      tauto
    exact ⟨latest _ hp, nothing _ hp⟩
  · rw [if_neg ht]
    have hp : ∀ e ∈ job, decide (ty e ≠ .profile ∧ home e = some v ∧ ty e = t) = true ↔ typeIs e t ∧ belongs e v := by
      intro e he
      rw [decide_eq_true_eq, belongs, typeIs_iff e (hne e he), typeIs_iff e (hne e he), meantFor_iff]
      constructor
      · rintro ⟨h1, h2, h3⟩; exact ⟨h3, .inr h2⟩
      · rintro ⟨h1, h2 | h2⟩
        · exact absurd (h1.symm.trans h2) ht
        · exact ⟨fun hc => ht (h1.symm.trans hc), h2, h1⟩
    exact ⟨latest _ hp, nothing _ hp⟩

/-- **C51** (partial: the order of the inner views). For every job file, the top view, the bottom view and the view of
every inner layer contain, from the lowest to the topmost, the copper, mask, solder mask, paste, silk, legend and
profile files of the view, of each type the last one listed in the job. There is one inner view for every layer named
in the job, ordered by the text of the layer number.
Missing: the order of the inner views by the number itself (`c51_false_inner_order`). -/
theorem c51_views_partial (job : List (JobEntry F)) (h : ∀ e ∈ job, HasParts e.text e.parts) :
    ViewOf job .top displayOrder (toProject (job.map fun e => (e.file, e.text))).top ∧
    ViewOf job .bottom displayOrder (toProject (job.map fun e => (e.file, e.text))).bottom ∧
    ∃ layers : List (List Char), layers.Pairwise (· < ·) ∧
      (∀ l, l ∈ layers ↔ ∃ e ∈ job, ¬ typeIs e .profile ∧ meantFor e (.inner l)) ∧
      List.Forall₂ (fun l fs => ViewOf job (.inner l) displayOrder fs) layers
        (toProject (job.map fun e => (e.file, e.text))).inner := by
  obtain ⟨l1, l2, l3, l4⟩ := loop_spec job h
  have key := fun v t hv => final_entry job h v t _ rfl hv
  generalize hs : (job.map fun e => (e.file, e.text)).foldl place ({} : Sorting F) = s at l1 l2 l3 l4 key
  have hp : toProject (job.map fun e => (e.file, e.text)) =
      { top := extract (s.all.foldl placeEverywhere s).top
        inner := (sortTexts (s.all.foldl placeEverywhere s).inner.keys).map fun key =>
          extract (((s.all.foldl placeEverywhere s).inner.get? key).getD [])
        bottom := extract (s.all.foldl placeEverywhere s).bottom } := by
    unfold toProject; rw [hs]
  rw [hp]
  refine ⟨?_, ?_, sortTexts s.inner.keys, sortTexts_sorted _ l4, ?_, ?_⟩
  · rw [extract_eq]
    exact viewOf_of job .top _ _ (fun t f => (key .top t nofun).1 f) (fun t => (key .top t nofun).2)
  · show ViewOf job .bottom displayOrder (extract _)
    rw [extract_eq]
    exact viewOf_of job .bottom _ _ (fun t f => (key .bottom t nofun).1 f) (fun t => (key .bottom t nofun).2)
  · intro l
    rw [mem_sortTexts]
    have h1 := l2 l
    rw [Dict.get?_eq_none_iff] at h1
    constructor
    · intro hl
      by_contra hc
      refine h1.2 (fun e he hh => hc ⟨e, he, ?_, ?_⟩) hl
      · rw [typeIs_iff e (h e he).1]; exact hh.1
      · rw [meantFor_iff]; exact hh.2
    · rintro ⟨e, he, h2, h3⟩
      by_contra hl
      rw [typeIs_iff e (h e he).1] at h2
      rw [meantFor_iff] at h3
      exact h1.1 hl e he ⟨h2, h3⟩
  · simp only
    rw [everywhere_keys, List.forall₂_map_right_iff]
    rw [List.forall₂_same]
    intro l hl
    rw [mem_sortTexts] at hl
    have hn : s.inner.get? l ≠ none := fun hn => (Dict.get?_eq_none_iff _ _).1 hn hl
    have hv : ∀ m, View.inner l = .inner m → s.inner.get? m ≠ none := by
      intro m hm; injection hm with hm; subst hm; exact hn
    rw [extract_eq]
    have hent : ∀ t, (((s.all.foldl placeEverywhere s).inner.get? l).getD []).get? t =
        entry (s.all.foldl placeEverywhere s) (.inner l) t := by
      intro t
      simp only [entry]
      cases (List.foldl placeEverywhere s s.all).inner.get? l <;> rfl
    rw [show (((s.all.foldl placeEverywhere s).inner.get? l).getD []).get? =
      entry (s.all.foldl placeEverywhere s) (.inner l) from funext hent]
    exact viewOf_of job (.inner l) _ _ (fun t f => (key (.inner l) t hv).1 f) (fun t => (key (.inner l) t hv).2)

theorem viewOf_profile_last {job : List (JobEntry F)} {v : View} {f : F} (hf : IsLatest job v .profile f) :
    ∀ {ts fs}, ViewOf job v ts fs → ts.getLast? = some .profile → ts.Nodup → fs.getLast? = some f := by
  have uniq : ∀ g, IsLatest job v .profile g → g = f := by
    rintro g ⟨b, e, a, h1, h2, h3, h4, h5⟩
    obtain ⟨b', e', a', k1, k2, k3, k4, k5⟩ := hf
    rw [h1, List.append_eq_append_iff] at k1
    rcases k1 with ⟨x, x1, x2⟩ | ⟨x, x1, x2⟩
    · cases x with
      | nil => simp only [List.nil_append, List.cons.injEq] at x2; rw [← h2, ← k2, x2.1]
      | cons y ys =>
        simp only [List.cons_append, List.cons.injEq] at x2
        exact absurd ⟨k3, k4⟩ (h5 e' (by rw [x2.2]; simp))
    · cases x with
      | nil => simp only [List.nil_append, List.cons.injEq] at x2; rw [← h2, ← k2, x2.1]
      | cons y ys =>
        simp only [List.cons_append, List.cons.injEq] at x2
        exact absurd ⟨h3, h4⟩ (k5 e (by rw [x2.2]; simp))
  have notNone : ¬ HasNone job v .profile := by
    obtain ⟨b, e, a, k1, k2, k3, k4, k5⟩ := hf
    intro hc
    exact hc e (by rw [k1]; simp) ⟨k3, k4⟩
  intro ts fs hv
  induction hv with
  | nil => simp
  | skip t ts fs hn hv ih =>
    intro h1 h2
    cases ts with
    | nil =>
      simp only [List.getLast?_singleton, Option.some.injEq] at h1
      subst h1; exact absurd hn notNone
    | cons u us => exact ih (by simpa using h1) (List.nodup_cons.1 h2).2
  | take t ts g fs hg hv ih =>
    intro h1 h2
    cases ts with
    | nil =>
      simp only [List.getLast?_singleton, Option.some.injEq] at h1
      subst h1
      cases hv
      rw [uniq g hg]; rfl
    | cons u us =>
      have := ih (by simpa using h1) (List.nodup_cons.1 h2).2
      cases fs with
      | nil => simp at this
      | cons a as => simpa using this

/-- **C51** (profile). When the job lists a board profile, the topmost file of every view is the last one listed. -/
theorem c51_profile_topmost (job : List (JobEntry F)) (h : ∀ e ∈ job, HasParts e.text e.parts)
    (before after : List (JobEntry F)) (e : JobEntry F) (hj : job = before ++ e :: after)
    (he : typeIs e .profile) (hlast : ∀ d ∈ after, ¬ typeIs d .profile) (view : List F)
    (hview : view = (toProject (job.map fun e => (e.file, e.text))).top ∨
      view = (toProject (job.map fun e => (e.file, e.text))).bottom ∨
      view ∈ (toProject (job.map fun e => (e.file, e.text))).inner) :
    view.getLast? = some e.file := by
  obtain ⟨h1, h2, layers, -, -, h3⟩ := c51_views_partial job h
  have key : ∀ v, ViewOf job v displayOrder view → view.getLast? = some e.file := fun v hv =>
    viewOf_profile_last ⟨before, e, after, hj, rfl, he, .inl he, fun d hd hh => hlast d hd hh.1⟩ hv rfl (by decide)
  rcases hview with hv | hv | hv
  · subst hv; exact key _ h1
  · subst hv; exact key _ h2
  · obtain ⟨i, hi⟩ := List.mem_iff_get.1 hv
    have hlen := h3.length_eq
    have := List.forall₂_iff_get.1 h3
    have hx := this.2 i.1 (by rw [hlen]; exact i.2) i.2
    exact key _ (by rw [← hi]; exact hx)

theorem lt_numeral {a b : List Char} (ha : Digits a) (hb : Digits b) (hl : a.length = b.length) (h : a < b) :
    numeral a < numeral b := by
  have bound : ∀ s : List Char, Digits s → numeral s < 10 ^ s.length := by
    intro s hs
    induction s with
    | nil => simp [numeral]
    | cons c s ih =>
      have := ih fun x hx => hs x (by simp [hx])
      have hc := hs c (by simp)
      have hc' : c.toNat - 48 ≤ 9 := by
        have := hc.2
        have : c.toNat ≤ 57 := this
        omega
      simp only [numeral, List.length_cons, pow_succ]
      have h2 : (c.toNat - '0'.toNat) * 10 ^ s.length ≤ 9 * 10 ^ s.length := Nat.mul_le_mul_right _ hc'
      omega
  induction a generalizing b with
  | nil => cases b with
    | nil => exact absurd h (List.lt_irrefl _)
    | cons => simp at hl
  | cons x a ih =>
    cases b with
    | nil => simp at hl
    | cons y b =>
      simp only [List.length_cons, Nat.add_right_cancel_iff] at hl
      have da : Digits a := fun c hc => ha c (by simp [hc])
      have db : Digits b := fun c hc => hb c (by simp [hc])
      rw [List.cons_lt_cons_iff] at h
      simp only [numeral]
      rw [hl]
      rcases h with h | ⟨h1, h2⟩
      · have hxy : x.toNat < y.toNat := h
        have hx := (ha x (by simp)).1
        have hx' : 48 ≤ x.toNat := hx
        have e1 := bound a da
        rw [hl] at e1
        have e2 : (x.toNat - '0'.toNat + 1) * 10 ^ b.length ≤ (y.toNat - '0'.toNat) * 10 ^ b.length := by
          apply Nat.mul_le_mul_right
          have : '0'.toNat = 48 := rfl
          omega
        rw [Nat.add_mul] at e2
        omega
      · subst h1
        have := ih da db hl h2
        omega

/-- **C51** (inner views, partial: all layer numbers are written with the same number of digits). The inner views are
ordered by layer number. -/
theorem c51_inner_by_number_partial (job : List (JobEntry F)) (h : ∀ e ∈ job, HasParts e.text e.parts) (n : Nat)
    (hn : ∀ e ∈ job, ∀ l, meantFor e (.inner l) → l.length = n) :
    ∃ layers : List (List Char), layers.Pairwise (fun a b => numeral a < numeral b) ∧
      (∀ l, l ∈ layers ↔ ∃ e ∈ job, ¬ typeIs e .profile ∧ meantFor e (.inner l)) ∧
      List.Forall₂ (fun l fs => ViewOf job (.inner l) displayOrder fs) layers
        (toProject (job.map fun e => (e.file, e.text))).inner := by
  obtain ⟨-, -, layers, h1, h2, h3⟩ := c51_views_partial job h
  refine ⟨layers, ?_, h2, h3⟩
  refine h1.imp_of_mem ?_
  intro a b ha hb hab
  obtain ⟨e, he, -, hma⟩ := (h2 a).1 ha
  obtain ⟨f, hf, -, hmb⟩ := (h2 b).1 hb
  refine lt_numeral ?_ ?_ ?_ hab
  · obtain ⟨-, -, _, _, _, -, hx, -⟩ := hma; exact hx.2.1
  · obtain ⟨-, -, _, _, _, -, hx, -⟩ := hmb; exact hx.2.1
  · rw [hn e he a hma, hn f hf b hmb]

/-- Every text has parts. -/
theorem hasParts_exists (text : List Char) : ∃ parts, HasParts text parts := by
  refine ⟨splitComma (upper text), ?_⟩
  unfold HasParts
  change _ ∧ _ ∧ upper text = _
  generalize upper text = t
  induction t with
  | nil => simp [splitComma, List.intercalate]
  | cons c t ih =>
    obtain ⟨h1, h2, h3⟩ := ih
    simp only [splitComma]
    by_cases hc : c = ','
    · subst hc
      rw [if_pos rfl]
      refine ⟨by simp, ?_, ?_⟩
      · intro p hp
        rcases List.mem_cons.1 hp with rfl | hp
        · simp
        · exact h2 p hp
      · conv_lhs => rw [h3]
        cases hs : splitComma t with
        | nil => exact absurd hs h1
        | cons q qs => simp [List.intercalate, List.intersperse]
    · rw [if_neg hc]
      cases hs : splitComma t with
      | nil => exact absurd hs h1
      | cons q qs =>
        rw [hs] at h2 h3
        refine ⟨by simp, ?_, ?_⟩
        · intro p hp
          simp only [List.mem_cons] at hp
          rcases hp with rfl | hp
          · have := h2 q (by simp)
            simp [this, Ne.symm hc]
          · exact h2 p (by simp [hp])
        · conv_lhs => rw [h3]
          cases qs <;> simp [List.intercalate, List.intersperse]

/-- A job with a profile, two files for the top and one inner layer. -/
def sample : List (JobEntry Nat) :=
  [⟨0, "Profile,NP".toList, ["PROFILE".toList, "NP".toList]⟩,
   ⟨1, "Legend,Top".toList, ["LEGEND".toList, "TOP".toList]⟩,
   ⟨2, "Copper,L1,Top".toList, ["COPPER".toList, "L1".toList, "TOP".toList]⟩,
   ⟨3, "Copper,L2,Inr".toList, ["COPPER".toList, "L2".toList, "INR".toList]⟩]

example : ∀ e ∈ sample, HasParts e.text e.parts := by unfold HasParts; decide +kernel
example : toProject (sample.map fun e => (e.file, e.text)) = { top := [2, 1, 0], inner := [[3, 0]], bottom := [0] } := by
  decide +kernel

/-- **C51** is false for inner layers: layer 10 comes before layer 2. -/
theorem c51_false_inner_order :
    (toProject [(2, "Copper,L2,Inr".toList), (10, "Copper,L10,Inr".toList)]).inner = [[10], [2]] := by
  decide +kernel

end Verif.Props.Project
