import Verif.Spec.RvmcJson
import Mathlib.Tactic.IntervalCases
import Mathlib.Tactic.NormNum

/-!
# C93: programs can be read from their JSON texts
-/

namespace Verif.Props.RvmcJson
open Verif.Peg (Text)
open Verif.Geom Verif.Rvmc Verif.RvmcJson Verif.Spec.JsonText

/-! ### Strings -/

theorem escape_ne (c : Char) : escape c ≠ [] := by
  unfold escape
  split_ifs <;> simp

theorem read_escape (c : Char) (n : ℕ) (r : Text) :
    readString (n + 1) (escape c ++ r) = (readString n r).map fun p => (c :: p.1, p.2) := by
  by_cases h1 : c = '"'
  · subst h1
    simp only [escape, if_true, List.cons_append, List.nil_append, readString, unescape]
    simp
    cases readString n r <;> rfl
  by_cases h2 : c = '\\'
  · subst h2
    simp [escape, readString, unescape]
    cases readString n r <;> rfl
  by_cases h3 : c.toNat < 32
  · obtain ⟨k, hk⟩ : ∃ k, k = c.toNat := ⟨_, rfl⟩
    have hc : c = Char.ofNat k := by rw [hk]; exact (Char.ofNat_toNat c).symm
    rw [← hk] at h3
    subst hc
    clear hk
    interval_cases k <;>
      simp [escape, hexDigit, readString, unescape, hexValue, Nat.isValidChar] <;>
      (cases readString n r <;> rfl)
  · have e : escape c = [c] := by
      unfold escape
      rw [if_neg h1, if_neg h2, if_neg (by omega), if_neg (by omega), if_neg (by omega), if_neg (by omega), if_neg (by omega), if_neg h3]
    rw [e]
    simp only [List.cons_append, List.nil_append, readString, if_neg h1, if_neg h2, if_neg h3]
    cases readString n r <;> rfl

theorem read_string : ∀ (t : Text) (n : ℕ) (r : Text), t.length < n → readString n (t.flatMap escape ++ '"' :: r) = some (t, r)
  | [], n + 1, r, _ => by simp [readString]
  | c :: t, n + 1, r, h => by
    simp only [List.length_cons] at h
    rw [List.flatMap_cons, List.append_assoc, read_escape, read_string t n r (by omega)]
    rfl

theorem length_escape (t : Text) : t.length ≤ (t.flatMap escape).length := by
  induction t with
  | nil => simp
  | cons c t ih =>
    have : 0 < (escape c).length := List.length_pos_of_ne_nil (escape_ne c)
    simp only [List.flatMap_cons, List.length_append, List.length_cons]
    omega

theorem read_quoted (t : Text) (r : Text) :
    readString ((t.flatMap escape ++ '"' :: r).length + 1) (t.flatMap escape ++ '"' :: r) = some (t, r) := by
  refine read_string t _ r ?_
  have := length_escape t
  simp only [List.length_append, List.length_cons]
  omega

/-! ### Values -/

theorem skip_of {c : Char} {t : Text} (h : blank c = false) : skip (c :: t) = c :: t := by
  simp [skip, List.dropWhile, h]

/-- Where a number can end. -/
def Ends (r : Text) : Prop := r.takeWhile numeric = []

theorem number_cons {t : Text} (h : isNumber t = true) : ∃ c r, t = c :: r ∧ (c = '-' ∨ digit c = true) := by
  unfold isNumber at h
  rw [Bool.and_eq_true] at h
  cases t with
  | nil => simp [isUnsigned] at h
  | cons c r =>
    refine ⟨c, r, rfl, ?_⟩
    by_cases hc : c = '-'
    · exact .inl hc
    · right
      have h2 : isUnsigned (c :: r) = true := by
        have := h.2
        split at this
        · simp_all
        · exact this
      unfold isUnsigned at h2
      split at h2
      · simp_all [digit]
      · rw [Bool.and_eq_true] at h2
        by_contra hd
        simp only [Bool.not_eq_true] at hd
        simp [List.takeWhile, hd] at h2

theorem numeric_of {c : Char} (h : c = '-' ∨ digit c = true) : numeric c = true := by
  rcases h with rfl | h
  · decide
  · simp [numeric, h]

/-- How numbers begin. -/
theorem number_head {c : Char} (h : c = '-' ∨ digit c = true) : blank c = false ∧ c ≠ 'n' ∧ c ≠ 't' ∧ c ≠ 'f' ∧ c ≠ '"' ∧ c ≠ '[' ∧ c ≠ '{' ∧
    c ≠ ']' ∧ c ≠ '}' := by
  refine ⟨?_, ?_, ?_, ?_, ?_, ?_, ?_, ?_, ?_⟩
  · by_contra hb
    simp only [Bool.not_eq_false, blank, Bool.or_eq_true, decide_eq_true_eq] at hb
    rcases hb with ((rfl | rfl) | rfl) | rfl <;> revert h <;> decide
  all_goals (rintro rfl; revert h; decide)

/-- How values begin. -/
theorem value_head {v : Value} (h : Proper v) : ∃ c r, v.text = c :: r ∧ blank c = false ∧ c ≠ ']' ∧ c ≠ '}' := by
  cases v with
  | null => exact ⟨_, _, by rw [Value.text], by decide, by decide, by decide⟩
  | bool b => cases b <;> exact ⟨_, _, by rw [Value.text], by decide, by decide, by decide⟩
  | num t =>
    rw [Proper] at h
    obtain ⟨c, r, rfl, hc⟩ := number_cons h
    obtain ⟨h1, -, -, -, -, -, -, h2, h3⟩ := number_head hc
    exact ⟨c, r, by rw [Value.text], h1, h2, h3⟩
  | str t => exact ⟨_, _, by rw [Value.text, quoted], by decide, by decide, by decide⟩
  | arr vs => exact ⟨_, _, by rw [Value.text], by decide, by decide, by decide⟩
  | obj es => exact ⟨_, _, by rw [Value.text], by decide, by decide, by decide⟩

theorem items_cons (v w : Value) (vs : Items) : (Items.cons v (.cons w vs)).text = v.text ++ ',' :: (Items.cons w vs).text := by
  rw [Items.text]; simp

theorem entries_cons (k : Text) (v : Value) (l : Text) (w : Value) (es : Entries) :
    (Entries.cons k v (.cons l w es)).text = quoted k ++ ':' :: (v.text ++ ',' :: (Entries.cons l w es).text) := by
  rw [Entries.text]; simp

theorem quoted_append (k r : Text) : quoted k ++ r = '"' :: (k.flatMap escape ++ '"' :: r) := by
  simp [quoted]

theorem takeWhile_all {p : Char → Bool} {t r : Text} (h : t.all p = true) (hr : r.takeWhile p = []) :
    (t ++ r).takeWhile p = t ∧ (t ++ r).dropWhile p = r := by
  have hd : r.dropWhile p = r := by
    have := List.takeWhile_append_dropWhile (p := p) (l := r)
    rwa [hr, List.nil_append] at this
  induction t with
  | nil => exact ⟨hr, hd⟩
  | cons c t ih =>
    simp only [List.all_cons, Bool.and_eq_true] at h
    obtain ⟨i1, i2⟩ := ih h.2
    simp [h.1, i1, i2]

mutual
theorem read_value : ∀ (v : Value), Proper v → ∀ n r, v.text.length ≤ n → Ends r → readValue n (v.text ++ r) = some (v, r)
  | .null, _, n, r, hn, _ => by
    rw [Value.text] at hn ⊢
    obtain ⟨n, rfl⟩ : ∃ m, n = m + 1 := ⟨n - 1, by simp at hn; omega⟩
    simp [readValue, skip, List.dropWhile, blank]
  | .bool b, _, n, r, hn, _ => by
    cases b <;>
    · rw [Value.text] at hn ⊢
      obtain ⟨n, rfl⟩ : ∃ m, n = m + 1 := ⟨n - 1, by simp at hn; omega⟩
      simp [readValue, skip, List.dropWhile, blank]
  | .num t, h, n, r, hn, hr => by
    rw [Proper] at h
    rw [Value.text] at hn ⊢
    obtain ⟨k1, k2⟩ := takeWhile_all (p := numeric) (t := t) (by unfold isNumber at h; rw [Bool.and_eq_true] at h; exact h.1) hr
    obtain ⟨c, t', rfl, hc⟩ := number_cons h
    obtain ⟨h1, h2, h3, h4, h5, h6, h7, -, -⟩ := number_head hc
    obtain ⟨n, rfl⟩ : ∃ m, n = m + 1 := ⟨n - 1, by simp at hn; omega⟩
    rw [readValue]
    rw [List.cons_append] at k1 k2 ⊢
    rw [skip_of h1]
    split
    · simp_all
    · simp_all
    · simp_all
    · simp_all
    · simp_all
    · simp_all
    · rw [k1, k2, if_pos h]
  | .str t, _, n, r, hn, _ => by
    rw [Value.text] at hn ⊢
    obtain ⟨n, rfl⟩ : ∃ m, n = m + 1 := ⟨n - 1, by simp [quoted] at hn; omega⟩
    rw [quoted_append, readValue, skip_of (by decide)]
    simp only [read_quoted]
    rfl
  | .arr .nil, _, n, r, hn, _ => by
    rw [Value.text, Items.text] at hn ⊢
    obtain ⟨n, rfl⟩ : ∃ m, n = m + 1 := ⟨n - 1, by simp at hn; omega⟩
    simp [readValue, skip, List.dropWhile, blank]
  | .arr (.cons v vs), h, n, r, hn, _ => by
    rw [Proper] at h
    have key := read_items (.cons v vs) (by simp) h
    rw [Value.text] at hn ⊢
    simp only [List.length_cons, List.length_append, List.length_nil] at hn
    obtain ⟨n, rfl⟩ : ∃ m, n = m + 1 := ⟨n - 1, by omega⟩
    have hh : ∃ c t, (Items.cons v vs).text = c :: t ∧ blank c = false ∧ c ≠ ']' := by
      rw [ProperItems] at h
      obtain ⟨c, t, e, hb, h1, -⟩ := value_head h.1
      cases vs with
      | nil => exact ⟨c, t, by rw [Items.text, e], hb, h1⟩
      | cons w ws => exact ⟨c, _, by rw [items_cons, e]; rfl, hb, h1⟩
    obtain ⟨c, t, e, hb, hne⟩ := hh
    rw [List.cons_append, readValue, skip_of (by decide)]
    simp only
    rw [List.append_assoc, List.cons_append, List.nil_append]
    have hs : skip ((Items.cons v vs).text ++ ']' :: r) = c :: (t ++ ']' :: r) := by
      rw [e, List.cons_append, skip_of hb]
    rw [hs]
    split
    · rename_i h; simp only [List.cons.injEq] at h; exact absurd h.1 hne
    · rw [key n r (by omega)]
      rfl
  | .obj .nil, _, n, r, hn, _ => by
    rw [Value.text, Entries.text] at hn ⊢
    obtain ⟨n, rfl⟩ : ∃ m, n = m + 1 := ⟨n - 1, by simp at hn; omega⟩
    simp [readValue, skip, List.dropWhile, blank]
  | .obj (.cons k v es), h, n, r, hn, _ => by
    rw [Proper] at h
    have key := read_entries (.cons k v es) (by simp) h
    rw [Value.text] at hn ⊢
    simp only [List.length_cons, List.length_append, List.length_nil] at hn
    obtain ⟨n, rfl⟩ : ∃ m, n = m + 1 := ⟨n - 1, by omega⟩
    have hh : ∃ t, (Entries.cons k v es).text = '"' :: t := by
      cases es with
      | nil => exact ⟨_, by rw [Entries.text, quoted]; rfl⟩
      | cons l w ws => exact ⟨_, by rw [entries_cons, quoted]; rfl⟩
    obtain ⟨t, e⟩ := hh
    rw [List.cons_append, readValue, skip_of (by decide)]
    simp only
    rw [List.append_assoc, List.cons_append, List.nil_append]
    have hs : skip ((Entries.cons k v es).text ++ '}' :: r) = '"' :: (t ++ '}' :: r) := by
      rw [e, List.cons_append, skip_of (by decide)]
    rw [hs]
    split
    · rename_i h; simp at h
    · rw [key n r (by omega)]
      rfl
theorem read_items : ∀ (vs : Items), vs ≠ .nil → ProperItems vs → ∀ n r, vs.text.length + 1 ≤ n →
    readItems n (vs.text ++ ']' :: r) = some (vs, r)
  | .nil, hne, _, _, _, _ => absurd rfl hne
  | .cons v .nil, _, h, n, r, hn => by
    rw [ProperItems] at h
    rw [Items.text] at hn ⊢
    obtain ⟨n, rfl⟩ : ∃ m, n = m + 1 := ⟨n - 1, by omega⟩
    rw [readItems, read_value v h.1 n _ (by omega) (by simp [Ends, List.takeWhile, numeric, digit])]
    simp [skip, List.dropWhile, blank]
  | .cons v (.cons w ws), _, h, n, r, hn => by
    rw [ProperItems] at h
    rw [items_cons] at hn ⊢
    simp only [List.length_append, List.length_cons] at hn
    obtain ⟨n, rfl⟩ : ∃ m, n = m + 1 := ⟨n - 1, by omega⟩
    rw [List.append_assoc, List.cons_append, readItems,
      read_value v h.1 n _ (by omega) (by simp [Ends, List.takeWhile, numeric, digit])]
    simp only [Option.bind_eq_bind, Option.bind_some]
    rw [skip_of (by decide)]
    simp only
    rw [read_items (.cons w ws) (by simp) h.2 n r (by omega)]
    rfl
theorem read_entries : ∀ (es : Entries), es ≠ .nil → ProperEntries es → ∀ n r, es.text.length + 1 ≤ n →
    readEntries n (es.text ++ '}' :: r) = some (es, r)
  | .nil, hne, _, _, _, _ => absurd rfl hne
  | .cons k v .nil, _, h, n, r, hn => by
    rw [ProperEntries] at h
    rw [Entries.text] at hn ⊢
    simp only [List.length_append, List.length_cons] at hn
    obtain ⟨n, rfl⟩ : ∃ m, n = m + 1 := ⟨n - 1, by omega⟩
    rw [List.append_assoc, quoted_append, readEntries, skip_of (by decide)]
    simp only
    rw [read_quoted]
    simp only [Option.bind_eq_bind, Option.bind_some, List.cons_append]
    rw [skip_of (by decide)]
    simp only
    rw [read_value v h.1 n _ (by omega) (by simp [Ends, List.takeWhile, numeric, digit])]
    simp [skip, List.dropWhile, blank]
  | .cons k v (.cons l w ws), _, h, n, r, hn => by
    rw [ProperEntries] at h
    rw [entries_cons] at hn ⊢
    simp only [List.length_append, List.length_cons] at hn
    obtain ⟨n, rfl⟩ : ∃ m, n = m + 1 := ⟨n - 1, by omega⟩
    rw [List.append_assoc, quoted_append, readEntries, skip_of (by decide)]
    simp only
    rw [read_quoted]
    simp only [Option.bind_eq_bind, Option.bind_some, List.cons_append]
    rw [skip_of (by decide)]
    simp only
    rw [List.append_assoc, List.cons_append, read_value v h.1 n _ (by omega) (by simp [Ends, List.takeWhile, numeric, digit])]
    simp only [Option.bind_some]
    rw [skip_of (by decide)]
    simp only
    rw [read_entries (.cons l w ws) (by simp) h.2 n r (by omega)]
    rfl
end

theorem value_read {v : Value} (h : Proper v) : valueOf v.text = some v := by
  have := read_value v h (v.text.length + 1) [] (by omega) (by simp [Ends])
  rw [List.append_nil] at this
  simp [valueOf, this, skip]

/-! ### Programs -/

theorem items_of (vs : List Value) : items (.of vs) = vs := by
  induction vs with
  | nil => rfl
  | cons v vs ih => simp [Items.of, items, ih]

theorem entries_of (es : List (Text × Value)) : entries (.of es) = es := by
  induction es with
  | nil => rfl
  | cons e es ih => simp [Entries.of, entries, ih]

theorem get_of (key : Text) (es : List (Text × Value)) : get key (.obj (.of es)) = (es.find? fun e => e.1 = key).map Prod.snd := by
  rw [Spec.JsonText.get, entries_of]

theorem get_instance (key name : Text) (es : List (Text × Value)) :
    get key (instanceOf name es) = ((es ++ [(t!"__class_qualname__", Value.str name)]).find? fun e => e.1 = key).map Prod.snd := get_of _ _

theorem every_map {α : Type} {f : α → Value} {g : Value → Option α} {as : List α} (h : ∀ a ∈ as, g (f a) = some a) :
    everyOne g (as.map f) = some as := by
  induction as with
  | nil => rfl
  | cons a as ih =>
    rw [List.map_cons, everyOne, h a (by simp), ih fun b hb => h b (by simp [hb])]
    rfl

section
variable {float : ℝ → Text} {number : Text → Option ℝ}

theorem vector_in {v : Vec ℝ} (h : ∀ x ∈ vectorNumbers v, Readable number float x) : vectorIn number (vectorValue float v) = some v := by
  have h1 := (h v.x (by simp [vectorNumbers])).2
  have h2 := (h v.y (by simp [vectorNumbers])).2
  simp [vectorIn, vectorValue, get_instance, numberIn, h1, h2, List.find?]

theorem box_in {b : Box ℝ} (h : ∀ x ∈ [b.minX, b.minY, b.maxX, b.maxY], Readable number float x) :
    boxIn number (boxValue float b) = some (some b) := by
  have h1 := (h b.minX (by simp)).2
  have h2 := (h b.minY (by simp)).2
  have h3 := (h b.maxX (by simp)).2
  have h4 := (h b.maxY (by simp)).2
  have e : boxIn number (boxValue float b) = (do
    let a ← get t!"min_x" (boxValue float b) >>= numberIn number
    let b' ← get t!"min_y" (boxValue float b) >>= numberIn number
    let c ← get t!"max_x" (boxValue float b) >>= numberIn number
    let d ← get t!"max_y" (boxValue float b) >>= numberIn number
    some (some ⟨a, b', c, d⟩)) := rfl
  rw [e]
  simp [boxValue, get_instance, numberIn, h1, h2, h3, h4, List.find?]

theorem layer_in (id : Text) : layerIn (layerValue id) = some id := by
  simp [layerIn, layerValue, get_instance, textIn, List.find?]

theorem segment_in {s : Segment} (h : ∀ x ∈ segmentNumbers s, Readable number float x) :
    segmentIn number (segmentValue float s) = some s := by
  cases s with
  | line l =>
    have h1 := vector_in (v := l.start) (fun x hx => h x (by simp [segmentNumbers, hx]))
    have h2 := vector_in (v := l.stop) (fun x hx => h x (by simp [segmentNumbers, hx]))
    simp [segmentIn, segmentValue, className, get_instance, List.find?, h1, h2]
  | arc a =>
    have h1 := vector_in (v := a.start) (fun x hx => h x (by simp [segmentNumbers, hx]))
    have h2 := vector_in (v := a.stop) (fun x hx => h x (by simp [segmentNumbers, hx]))
    have h3 := vector_in (v := a.center) (fun x hx => h x (by simp [segmentNumbers, hx]))
    simp [segmentIn, segmentValue, className, get_instance, List.find?, h1, h2, h3, boolIn]

theorem metadata_in (m : Option (List (Text × Text))) : metadataIn (metadataValue m) = some m := by
  cases m with
  | none => rfl
  | some m =>
    rw [metadataValue, metadataIn, entries_of]
    have : everyOne (fun e : Text × Value => (textIn e.2).map fun t => (e.1, t)) (m.map fun e => (e.1, Value.str e.2)) = some m := by
      induction m with
      | nil => rfl
      | cons e m ih =>
        rw [List.map_cons, everyOne, ih]
        rfl
    rw [this]
    rfl

theorem step_in {s : Step} (h : ∀ x ∈ commandNumbers s.command, Readable number float x) : stepIn number (stepValue float s) = some s := by
  obtain ⟨m, c⟩ := s
  have hm := metadata_in m
  cases c with
  | start id box o =>
    cases box with
    | none =>
      have h1 := vector_in (v := o) (fun x hx => h x (by simp [commandNumbers, hx]))
      simp [stepIn, commandIn, stepValue, className, get_instance, List.find?, h1, hm, layer_in, boxIn]
    | some b =>
      have h1 := vector_in (v := o) (fun x hx => h x (by simp only [commandNumbers, List.mem_append]; exact .inr hx))
      have h2 := box_in (b := b) (fun x hx => h x (by simp only [commandNumbers, List.mem_append]; exact .inl hx))
      simp [stepIn, commandIn, stepValue, className, get_instance, List.find?, h1, h2, hm, layer_in]
  | stop => simp [stepIn, commandIn, stepValue, className, get_instance, List.find?, hm]
  | draw d =>
    cases d with
    | paste src c neg =>
      have h1 := vector_in (v := c) (fun x hx => h x (by simp [commandNumbers, hx]))
      simp [stepIn, commandIn, stepValue, className, get_instance, List.find?, h1, hm, layer_in, boolIn]
    | shape g =>
      have h1 : segmentsIn number (.arr (.of (g.segments.map (segmentValue float)))) = some (g.head, g.tail) := by
        rw [segmentsIn, items_of, every_map]
        · rfl
        · intro s hs
          exact segment_in fun x hx => h x (by simp only [commandNumbers, List.mem_flatMap]; exact ⟨s, hs, hx⟩)
      simp [stepIn, commandIn, stepValue, className, get_instance, List.find?, h1, hm, boolIn]

theorem proper_of {es : List (Text × Value)} (h : ∀ e ∈ es, Proper e.2) : ProperEntries (.of es) := by
  induction es with
  | nil => rw [Entries.of, ProperEntries]; trivial
  | cons e es ih => rw [Entries.of, ProperEntries]; exact ⟨h e (by simp), ih fun x hx => h x (by simp [hx])⟩

theorem proper_items {vs : List Value} (h : ∀ v ∈ vs, Proper v) : ProperItems (.of vs) := by
  induction vs with
  | nil => rw [Items.of, ProperItems]; trivial
  | cons v vs ih => rw [Items.of, ProperItems]; exact ⟨h v (by simp), ih fun x hx => h x (by simp [hx])⟩

theorem proper_instance {name : Text} {es : List (Text × Value)} (h : ∀ e ∈ es, Proper e.2) : Proper (instanceOf name es) := by
  rw [instanceOf, Proper]
  refine proper_of fun e he => ?_
  rw [List.mem_append, List.mem_singleton] at he
  rcases he with he | rfl
  · exact h e he
  · simp [Proper]

theorem proper_vector {v : Vec ℝ} (h : ∀ x ∈ vectorNumbers v, Readable number float x) : Proper (vectorValue float v) := by
  refine proper_instance fun e he => ?_
  simp only [List.mem_cons, List.not_mem_nil, or_false] at he
  rcases he with rfl | rfl <;> rw [Proper] <;> exact (h _ (by simp [vectorNumbers])).1

theorem proper_segment {s : Segment} (h : ∀ x ∈ segmentNumbers s, Readable number float x) : Proper (segmentValue float s) := by
  cases s with
  | line l =>
    refine proper_instance fun e he => ?_
    simp only [List.mem_cons, List.not_mem_nil, or_false] at he
    rcases he with rfl | rfl <;> exact proper_vector fun x hx => h x (by simp [segmentNumbers, hx])
  | arc a =>
    refine proper_instance fun e he => ?_
    simp only [List.mem_cons, List.not_mem_nil, or_false] at he
    rcases he with rfl | rfl | rfl | rfl
    · exact proper_vector fun x hx => h x (by simp [segmentNumbers, hx])
    · exact proper_vector fun x hx => h x (by simp [segmentNumbers, hx])
    · exact proper_vector fun x hx => h x (by simp [segmentNumbers, hx])
    · simp [Proper]

theorem proper_metadata (m : Option (List (Text × Text))) : Proper (metadataValue m) := by
  cases m with
  | none => simp [metadataValue, Proper]
  | some m =>
    rw [metadataValue, Proper]
    refine proper_of fun e he => ?_
    obtain ⟨a, -, rfl⟩ := List.mem_map.1 he
    simp [Proper]

theorem proper_layer (id : Text) : Proper (layerValue id) := proper_instance (by simp [Proper])

theorem proper_step {s : Step} (h : ∀ x ∈ commandNumbers s.command, Readable number float x) : Proper (stepValue float s) := by
  obtain ⟨m, c⟩ := s
  have hm := proper_metadata m
  cases c with
  | start id box o =>
    refine proper_instance fun e he => ?_
    simp only [List.mem_cons, List.not_mem_nil, or_false] at he
    rcases he with rfl | rfl | rfl | rfl
    · exact hm
    · exact proper_layer id
    · cases box with
      | none => simp [Proper]
      | some b =>
        refine proper_instance fun e he => ?_
        simp only [List.mem_cons, List.not_mem_nil, or_false] at he
        rcases he with rfl | rfl | rfl | rfl <;> rw [Proper] <;> exact (h _ (by simp [commandNumbers])).1
    · refine proper_vector fun x hx => h x ?_
      cases box <;> simp only [commandNumbers, List.mem_append]
      · exact hx
      · exact .inr hx
  | stop =>
    refine proper_instance fun e he => ?_
    simp only [List.mem_cons, List.not_mem_nil, or_false] at he
    subst he; exact hm
  | draw d =>
    cases d with
    | paste src c neg =>
      refine proper_instance fun e he => ?_
      simp only [List.mem_cons, List.not_mem_nil, or_false] at he
      rcases he with rfl | rfl | rfl | rfl
      · exact hm
      · exact proper_layer src
      · exact proper_vector fun x hx => h x hx
      · simp [Proper]
    | shape g =>
      refine proper_instance fun e he => ?_
      simp only [List.mem_cons, List.not_mem_nil, or_false] at he
      rcases he with rfl | rfl | rfl
      · exact hm
      · rw [Proper]
        refine proper_items fun v hv => ?_
        obtain ⟨s, hs, rfl⟩ := List.mem_map.1 hv
        exact proper_segment fun x hx => h x (by simp only [commandNumbers, List.mem_flatMap]; exact ⟨s, hs, hx⟩)
      · simp [Proper]

end

/-! ### Control characters -/

theorem escape_line (c : Char) : ∀ x ∈ escape c, 32 ≤ x.toNat := by
  by_cases h3 : c.toNat < 32
  · obtain ⟨k, hk⟩ : ∃ k, k = c.toNat := ⟨_, rfl⟩
    have hc : c = Char.ofNat k := by rw [hk]; exact (Char.ofNat_toNat c).symm
    rw [← hk] at h3
    subst hc
    clear hk
    interval_cases k <;> decide
  · intro x hx
    unfold escape at hx
    split_ifs at hx
    · simp at hx; rcases hx with rfl | rfl <;> decide
    · simp at hx; subst hx; decide
    all_goals first
      | omega
      | (simp at hx; subst hx; omega)

theorem quoted_line (t : Text) : ∀ x ∈ quoted t, 32 ≤ x.toNat := by
  intro x hx
  simp only [quoted, List.mem_cons, List.mem_append, List.mem_flatMap, List.not_mem_nil, or_false] at hx
  rcases hx with rfl | ⟨c, -, hc⟩ | rfl
  · decide
  · exact escape_line c x hc
  · decide

theorem numeric_line {c : Char} (h : numeric c = true) : 32 ≤ c.toNat := by
  simp only [numeric, digit, Bool.or_eq_true, Bool.and_eq_true, decide_eq_true_eq] at h
  rcases h with ((((h | rfl) | rfl) | rfl) | rfl) | rfl
  · have : '0'.toNat ≤ c.toNat := h.1
    have e : '0'.toNat = 48 := by decide
    omega
  all_goals decide

mutual
theorem value_line : ∀ v : Value, Proper v → ∀ x ∈ v.text, 32 ≤ x.toNat
  | .null, _, x, hx => by
    rw [Value.text] at hx; simp at hx; rcases hx with rfl | rfl | rfl <;> decide
  | .bool true, _, x, hx => by
    rw [Value.text] at hx; simp at hx; rcases hx with rfl | rfl | rfl | rfl <;> decide
  | .bool false, _, x, hx => by
    rw [Value.text] at hx; simp at hx; rcases hx with rfl | rfl | rfl | rfl | rfl <;> decide
  | .num t, h, x, hx => by
    rw [Value.text] at hx
    rw [Proper] at h
    unfold isNumber at h
    rw [Bool.and_eq_true, List.all_eq_true] at h
    exact numeric_line (h.1 x hx)
  | .str t, _, x, hx => by rw [Value.text] at hx; exact quoted_line t x hx
  | .arr vs, h, x, hx => by
    rw [Value.text, List.mem_cons, List.mem_append, List.mem_singleton] at hx
    rw [Proper] at h
    rcases hx with rfl | hx | rfl
    · decide
    · exact items_line vs h x hx
    · decide
  | .obj es, h, x, hx => by
    rw [Value.text, List.mem_cons, List.mem_append, List.mem_singleton] at hx
    rw [Proper] at h
    rcases hx with rfl | hx | rfl
    · decide
    · exact entries_line es h x hx
    · decide
theorem items_line : ∀ vs : Items, ProperItems vs → ∀ x ∈ vs.text, 32 ≤ x.toNat
  | .nil, _, x, hx => by rw [Items.text] at hx; cases hx
  | .cons v .nil, h, x, hx => by
    rw [ProperItems] at h
    rw [Items.text] at hx
    exact value_line v h.1 x hx
  | .cons v (.cons w ws), h, x, hx => by
    rw [ProperItems] at h
    rw [items_cons, List.mem_append, List.mem_cons] at hx
    rcases hx with hx | rfl | hx
    · exact value_line v h.1 x hx
    · decide
    · exact items_line (.cons w ws) h.2 x hx
theorem entries_line : ∀ es : Entries, ProperEntries es → ∀ x ∈ es.text, 32 ≤ x.toNat
  | .nil, _, x, hx => by rw [Entries.text] at hx; cases hx
  | .cons k v .nil, h, x, hx => by
    rw [ProperEntries] at h
    rw [Entries.text, List.mem_append, List.mem_cons] at hx
    rcases hx with hx | rfl | hx
    · exact quoted_line k x hx
    · decide
    · exact value_line v h.1 x hx
  | .cons k v (.cons l w ws), h, x, hx => by
    rw [ProperEntries] at h
    rw [entries_cons, List.mem_append, List.mem_cons, List.mem_append, List.mem_cons] at hx
    rcases hx with hx | rfl | hx | rfl | hx
    · exact quoted_line k x hx
    · decide
    · exact value_line v h.1 x hx
    · decide
    · exact entries_line (.cons l w ws) h.2 x hx
end

theorem program_proper {float : ℝ → Text} {number : Text → Option ℝ} {m : Option Entries} {steps : List Step}
    (hn : ∀ s ∈ steps, ∀ x ∈ commandNumbers s.command, Readable number float x) (hm : ∀ es, m = some es → ProperEntries es) :
    Proper (.obj (.of [(t!"metadata", (m.map Value.obj).getD .null), (t!"commands", .arr (.of (steps.map (stepValue float))))])) := by
  rw [Proper]
  refine proper_of fun e he => ?_
  simp only [List.mem_cons, List.not_mem_nil, or_false] at he
  rcases he with rfl | rfl
  · cases m with
    | none => simp [Proper]
    | some es => simp only [Option.map_some, Option.getD_some]; rw [Proper]; exact hm es rfl
  · rw [Proper]
    refine proper_items fun v hv => ?_
    obtain ⟨s, hs, rfl⟩ := List.mem_map.1 hv
    exact proper_step (hn s hs)

/-- **C93**. The text that `to_json` gives is a JSON text, and a reader that knows the names of classes and fields finds the very
program in it: all commands in their order, with their metadata, and the metadata of the program. -/
theorem c93_read (float : ℝ → Text) (number : Text → Option ℝ) (p : Program)
    (hn : ∀ s ∈ p.steps, ∀ x ∈ commandNumbers s.command, Readable number float x)
    (hm : ∀ es, p.metadata = some es → ProperEntries es) :
    ∃ v, valueOf (toJson float p) = some v ∧ programIn number v = some p := by
  obtain ⟨m, steps⟩ := p
  refine ⟨_, value_read (program_proper hn hm), ?_⟩
  · have h1 := every_map (f := stepValue float) (g := stepIn number) (as := steps) fun s hs => step_in (hn s hs)
    cases m <;> simp [programIn, get_of, List.find?, items_of, h1]

/-- **C93**. Programs with the same text are the same. -/
theorem c93_injective (float : ℝ → Text) (number : Text → Option ℝ) (p q : Program)
    (hp : ∀ s ∈ p.steps, ∀ x ∈ commandNumbers s.command, Readable number float x)
    (hq : ∀ s ∈ q.steps, ∀ x ∈ commandNumbers s.command, Readable number float x)
    (hp' : ∀ es, p.metadata = some es → ProperEntries es) (hq' : ∀ es, q.metadata = some es → ProperEntries es)
    (h : toJson float p = toJson float q) : p = q := by
  obtain ⟨v, h1, h2⟩ := c93_read float number p hp hp'
  obtain ⟨w, h3, h4⟩ := c93_read float number q hq hq'
  rw [h, h3] at h1
  cases h1
  rw [h2] at h4
  exact Option.some.inj h4

/-- **C93**. The text is a single line without control characters, whatever the names of layers and the metadata are. -/
theorem c93_line (float : ℝ → Text) (number : Text → Option ℝ) (p : Program)
    (hn : ∀ s ∈ p.steps, ∀ x ∈ commandNumbers s.command, Readable number float x)
    (hm : ∀ es, p.metadata = some es → ProperEntries es) : ∀ c ∈ toJson float p, 32 ≤ c.toNat :=
  value_line _ (program_proper hn hm)

section
open Classical

/-- How the numbers 0 and 1 are written. -/
noncomputable def shortFloat (x : ℝ) : Text := if x = 0 then t!"0.0" else t!"1.0"

/-- How they are read. -/
noncomputable def shortNumber (t : Text) : Option ℝ := if t = t!"0.0" then some 0 else if t = t!"1.0" then some 1 else none

/-- A half disc on a layer with an awkward name, pasted on the main layer. -/
def discProgram : Program :=
  ⟨some (.of [(t!"tool \"x\"", .arr (.of [.num t!"-1.5e3", .null]))]),
    [⟨none, .start t!"a\n\\b" (some ⟨0, 0, 1, 1⟩) ⟨0, 0⟩⟩,
      ⟨some [(t!".P", t!"U1,1")], .draw (.shape ⟨.line ⟨⟨0, 0⟩, ⟨1, 0⟩⟩, [.arc ⟨⟨1, 0⟩, ⟨0, 0⟩, ⟨0, 1⟩, true⟩], true⟩)⟩, ⟨none, .stop⟩,
      ⟨none, .start t!"main" none ⟨0, 0⟩⟩, ⟨some [], .draw (.paste t!"a\n\\b" ⟨1, 1⟩ false)⟩, ⟨none, .stop⟩]⟩

/-- The hypotheses are met. -/
example : ∃ v, valueOf (toJson shortFloat discProgram) = some v ∧ programIn shortNumber v = some discProgram := by
  have h0 : Readable shortNumber shortFloat 0 := ⟨by simp only [shortFloat, if_true]; decide, by simp [shortFloat, shortNumber]⟩
  have h1 : Readable shortNumber shortFloat 1 := ⟨by simp only [shortFloat, one_ne_zero, if_false]; decide, by simp [shortFloat, shortNumber]⟩
  refine c93_read _ _ _ ?_ ?_
  · intro s hs x hx
    simp only [discProgram, List.mem_cons, List.not_mem_nil, or_false] at hs
    have : x = 0 ∨ x = 1 := by
      rcases hs with rfl | rfl | rfl | rfl | rfl | rfl <;>
        simp [commandNumbers, vectorNumbers, segmentNumbers, Shape.segments] at hx <;> tauto
    rcases this with rfl | rfl
    · exact h0
    · exact h1
  · rintro es h
    simp only [discProgram, Option.some.injEq] at h
    subst h
    simp [Entries.of, ProperEntries, Proper, Items.of, ProperItems]
    decide

end

end Verif.Props.RvmcJson
