import Verif.Lemmas.Completion
import Verif.Lemmas.Recover
import Verif.Lemmas.Hover
import Verif.Props.State
import Verif.Props.View

/-!
# The aperture codes of a text with unreadable lines
-/

namespace Verif.Completion

open Verif.Text Verif.Syntax Verif.Spec Verif.Visitor
open Verif.Peg (Text Res Yields IdOk)
open Verif.Spans (Source resilientSource)
open Verif.Grammar (Entry WFs Built parseResilient)

/-! ## Codes are numbers -/

theorem readable_eq (es : List Entry) : es.filterMap readable = readableNodes es := by
  induction es with
  | nil => rfl
  | cons e es ih => cases e <;> simp [List.filterMap_cons, readable, readableNodes, ih]

theorem readableNodes_append (xs ys : List Entry) : readableNodes (xs ++ ys) = readableNodes xs ++ readableNodes ys := by
  induction xs with
  | nil => rfl
  | cons e es ih => cases e <;> simp [readableNodes, ih]

theorem readableNodes_map (ns : List Node) : readableNodes (ns.map .node) = ns := by
  induction ns with
  | nil => rfl
  | cons n ns ih => simp [readableNodes, ih]

theorem resilient_yields {rd : Text → Option Text} (hrd : Grammar.DateLaw rd) (k : Nat) :
    Yields (Grammar.resilientItem rd k) (fun es => WFs (Built rd) true (readableNodes es)) := by
  refine Yields.of (Grammar.eats_resilient rd k |>.suf) ?_
  intro s es r h ht
  rw [Grammar.resilient_eq] at h
  split at h
  · rename_i ns r' h'
    simp only [Res.ok.injEq] at h
    rw [← h.1, readableNodes_map]
    exact (Grammar.rootItem_yields hrd k s ns r' h' ht).1
  · simp only [Grammar.invalidToken] at h
    split at h
    · cases h
    · simp only [Res.ok.injEq] at h
      rw [← h.1]
      exact .nil
  · cases h

theorem flatten_wfs {rd : Text → Option Text} {ess : List (List Entry)} (h : ∀ es ∈ ess, WFs (Built rd) true (readableNodes es)) :
    WFs (Built rd) true (readableNodes ess.flatten) := by
  induction ess with
  | nil => exact .nil
  | cons es ess ih =>
    rw [List.flatten_cons, readableNodes_append]
    exact (h es (by simp)).append (ih fun x hx => h x (by simp [hx]))

/-- The commands that can be read are well-formed. -/
theorem readable_wfs {rd : Text → Option Text} (hrd : StableDates rd) {strict : Bool} {s : Text} {src : Source Entry}
    (h : resilientSource rd strict s = some src) (ht : '\t' ∉ s) : WFs (Built rd) true (readableNodes src.nodes) := by
  have hp := (Props.Spans.c68_same_entries rd strict s src.nodes).2 ⟨src, h, rfl⟩
  rw [Grammar.parseResilient_eq] at hp
  split at hp
  · cases hp
  · split at hp
    · rename_i ess r hm
      simp only [Grammar.Parsed.file.injEq] at hp
      rw [← hp]
      exact flatten_wfs ((resilient_yields (Grammar.dateLaw_of hrd) _).many _ _ _ hm ht).1
    · cases hp

theorem digitVal_pos {c : Char} (h : isDigit c = true) (h0 : c ≠ '0') : 1 ≤ digitVal c := by
  simp only [isDigit, decide_eq_true_eq] at h
  unfold digitVal
  by_contra hlt
  apply h0
  have : c.toNat = '0'.toNat := by
    have h1 : '0'.toNat = 48 := rfl
    omega
  exact Char.ext (UInt32.toNat_inj.1 this)

theorem idOk_number {i : Text} (h : IdOk i) : ∃ n, 10 ≤ n ∧ CodeNumber i n := by
  obtain ⟨ds, rfl, h1, h2⟩ := h
  refine ⟨numeral ds, ?_, ds, rfl, ?_, (all_isDigit_iff ds).1 h1, rfl⟩
  · rw [← natVal_eq_numeral, ← natVal_lstrip0]
    have hd := all_lstrip0 h1
    cases hl : lstrip0 ds with
    | nil => rw [hl] at h2; simp at h2
    | cons c u =>
      rw [hl] at h2 hd
      have hc : c ≠ '0' := by
        rintro rfl
        have := List.head?_dropWhile_not (· == '0') ds
        unfold lstrip0 at hl
        rw [hl] at this
        simp at this
      have hu : 1 ≤ u.length := by simpa using h2
      rw [natVal_cons]
      simp only [List.all_cons, Bool.and_eq_true] at hd
      have h3 : 1 ≤ digitVal c := digitVal_pos hd.1 hc
      have h4 : 10 ^ 1 ≤ 10 ^ u.length := Nat.pow_le_pow_right (by omega) hu
      have h5 : 1 * 10 ^ u.length ≤ digitVal c * 10 ^ u.length := Nat.mul_le_mul_right _ h3
      omega
  · rintro rfl
    simp [lstrip0] at h2

theorem stores_leaf {code : Name} {l : Leaf} (h : stores code (.leaf l) ≠ none) : ∃ d, l = .ad code d := by
  cases l <;> simp [stores] at h
  subst h
  exact ⟨_, rfl⟩

theorem view_leaf {rd : Text → Option Text} {n : Node} (hb : Built rd n) {code : Name} {d : ApDef} (h : View.leaf n = .ad code d) : IdOk code := by
  have hs := hb.1
  cases n <;> simp only [View.leaf] at h <;> try (cases h; done)
  case adc => cases h; exact hs
  case adr => cases h; exact hs
  case ado => cases h; exact hs
  case adp => cases h; exact hs.1
  case adMacro => cases h; exact hs.1
  case g c _ => cases c <;> cases h

theorem atoms_append (xs ys : List Cmd) : atomsOfAll (xs ++ ys) = atomsOfAll xs ++ atomsOfAll ys := by
  induction xs with
  | nil => rfl
  | cons x xs ih => simp [atomsOfAll, ih]

/-- A node without a body as a command. -/
theorem view_cmd {rd : Text → Option Text} {m : Node} (hb : Built rd m) (hB : Grammar.isBlock m = false) (n : Nat) {code : Name}
    {a : Atom} (ha : a ∈ atomsOf (View.cmd n m).1) (h : stores code a ≠ none) : IdOk code := by
  have key : ∀ l, (View.cmd n m).1 = .leaf l → (∀ d, l = .ad code d → View.leaf m = .ad code d) → IdOk code := by
    intro l e hl
    rw [e, atomsOf, List.mem_singleton] at ha
    subst ha
    obtain ⟨d, rfl⟩ := stores_leaf h
    exact view_leaf hb (hl d rfl)
  cases m <;> first
    | exact key _ rfl (fun d h => h)
    | exact key _ rfl (fun d h => by cases h)
    | simp [Grammar.isBlock] at hB

theorem stored_ids {rd : Text → Option Text} {top : Bool} {ns : List Node} (h : WFs (Built rd) top ns) : ∀ (n : Nat) (code : Name) (a : Atom),
    a ∈ atomsOfAll (View.cmds n ns).1 → stores code a ≠ none → IdOk code := by
  induction h with
  | nil => intro n code a ha; simp [View.cmds, atomsOfAll] at ha
  | leaf hb hB _ _ ih =>
    intro n code a ha hs
    simp only [View.cmds, atomsOfAll, List.mem_append] at ha
    rcases ha with ha | ha
    · exact view_cmd hb hB n ha hs
    · exact ih _ _ _ ha hs
  | pair hb hb' hd _ _ ih =>
    intro n code a ha hs
    simp only [View.cmds, atomsOfAll, List.mem_append] at ha
    rcases ha with ha | ha | ha
    · exact view_cmd hb rfl n ha hs
    · exact view_cmd hb' (by cases ‹Node› <;> simp_all [Grammar.isD, Grammar.isBlock]) _ ha hs
    · exact ih _ _ _ ha hs
  | ab hb _ _ ih1 ih2 =>
    intro n code a ha hs
    simp only [View.cmds, View.cmd, atomsOfAll, atomsOf, List.mem_append, List.mem_cons, List.not_mem_nil, or_false] at ha
    rcases ha with (rfl | ha | rfl) | ha
    · simp [stores] at hs
    · exact ih1 _ _ _ ha hs
    · simp only [stores, ne_eq, ite_eq_right_iff, reduceCtorEq, imp_false, not_not] at hs
      subst hs
      exact hb.1
    · exact ih2 _ _ _ ha hs
  | sr hb _ _ ih1 ih2 =>
    intro n code a ha hs
    simp only [View.cmds, View.cmd, atomsOfAll, atomsOf, List.mem_append, List.mem_cons, List.not_mem_nil, or_false] at ha
    rcases ha with (rfl | ha | rfl) | ha
    · simp [stores] at hs
    · exact ih1 _ _ _ ha hs
    · simp [stores] at hs
    · exact ih2 _ _ _ ha hs

theorem executed_sub (resume : Bool) : ∀ (cs : List Cmd) (a : Atom), a ∈ executed resume cs → a ∈ atomsOfAll cs
  | [], a, h => by simp [executed] at h
  | c :: cs, a, h => by
    simp only [executed] at h
    simp only [atomsOfAll, List.mem_append]
    split at h
    · rcases List.mem_append.1 h with h | h
      · exact .inl (List.takeWhile_subset _ h)
      · split at h
        · exact .inr (executed_sub resume cs a h)
        · simp at h
    · rcases List.mem_append.1 h with h | h
      · exact .inl h
      · exact .inr (executed_sub resume cs a h)

theorem defined_number {rd : Text → Option Text} (hrd : StableDates rd) {strict : Bool} {s : Text} {src : Source Entry}
    (h : resilientSource rd strict s = some src) (ht : '\t' ∉ s) {code : Name} (hd : DefinedIn src.nodes code) : ∃ n, 10 ≤ n ∧ CodeNumber code n := by
  obtain ⟨a, ha, hs⟩ := hd
  exact idOk_number (stored_ids (readable_wfs hrd h ht) 0 code a (executed_sub _ _ _ ha) hs)

/-! ## The codes that are tracked -/

theorem latest_ne {α : Type} (f : Atom → Option (Option α)) (hf : ∀ a, f a ≠ some none) (h : List Atom) :
    latest f none h ≠ none ↔ ∃ a ∈ h, f a ≠ none := by
  induction h using List.reverseRecOn with
  | nil => simp [latest]
  | append_singleton h a ih =>
    rw [Visitor.latest_snoc]
    cases hfa : f a with
    | none =>
      rw [Option.getD_none, ih]
      constructor
      · rintro ⟨b, hb, h'⟩; exact ⟨b, by simp [hb], h'⟩
      · rintro ⟨b, hb, h'⟩
        rcases List.mem_append.1 hb with hb | hb
        · exact ⟨b, hb, h'⟩
        · simp only [List.mem_singleton] at hb
          subst hb
          exact absurd hfa h'
    | some v =>
      refine ⟨fun _ => ⟨a, by simp, by simp [hfa]⟩, fun _ => ?_⟩
      rw [Option.getD_some]
      rintro rfl
      exact hf a hfa

theorem codes_iff (h : List Atom) (hr : (run {} h).exn = none) (code : Name) :
    code ∈ (run {} h).st.apertures.keys ++ (run {} h).st.blocks.keys ↔ ∃ a ∈ h, stores code a ≠ none := by
  obtain ⟨-, i2, i3, -, -⟩ := Props.State.selected_inv h hr
  have e1 : code ∈ (run {} h).st.apertures.keys ↔ ∃ a ∈ h, Props.State.adOf code a ≠ none := by
    rw [← latest_ne, ← i2, Ne, Dict.get?_eq_none_iff, not_not]
    intro a
    unfold Props.State.adOf
    split
    · split <;> simp
    · simp
  have e2 : code ∈ (run {} h).st.blocks.keys ↔ ∃ a ∈ h, Props.State.abOf code a ≠ none := by
    rw [← latest_ne, ← i3, Ne, Dict.get?_eq_none_iff, not_not]
    intro a
    unfold Props.State.abOf
    split
    · split <;> simp
    · simp
  rw [List.mem_append, e1, e2, ← exists_or]
  refine exists_congr fun a => ?_
  rw [← and_or_left]
  refine and_congr_right fun _ => ?_
  cases a with
  | leaf l => cases l <;> simp [Props.State.adOf, Props.State.abOf, stores]
  | _ => simp [Props.State.adOf, Props.State.abOf, stores]

end Verif.Completion
