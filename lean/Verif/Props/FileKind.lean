import Verif.Props.GerberFile
import Verif.Spec.FileKind
import Mathlib.Tactic.IntervalCases

/-!
# The kind of a file follows its name and what it declares (C95)
-/

namespace Verif.Props.FileKind

open Verif.Api Verif.Spec Verif.Spec.FileKind Verif.Props.GerberFile

/-! ## Suffixes -/

theorem digit_lower {c : Char} (h : c.isDigit = true) : c.toLower = c := by
  unfold Char.isDigit at h
  simp only [ge_iff_le, Bool.and_eq_true, decide_eq_true_eq] at h
  unfold Char.toLower
  rw [dif_neg]
  rintro ⟨h1, -⟩
  exact absurd (UInt32.le_trans h1 h.2) (by decide)

theorem numbered_iff (e : List Char) :
    Numbered e ↔ (matchesNumbered ".g".toList e || matchesNumbered ".gp".toList e || matchesNumbered ".gm".toList e) = true := by
  have one (pre : List Char) : matchesNumbered pre e = true ↔ ∃ d rest, Char.isDigit d = true ∧ e = pre ++ d :: rest := by
    unfold matchesNumbered
    rw [Bool.and_eq_true, List.isPrefixOf_iff_prefix]
    constructor
    · rintro ⟨⟨s, rfl⟩, h⟩
      rw [List.drop_left] at h
      cases s with
      | nil => simp at h
      | cons d s => exact ⟨d, s, by simpa using h, rfl⟩
    · rintro ⟨d, rest, h, rfl⟩
      exact ⟨⟨_, rfl⟩, by rw [List.drop_left]; simpa using h⟩
  simp only [Bool.or_eq_true, one, Numbered, List.mem_cons, List.not_mem_nil, or_false, exists_eq_or_imp, exists_eq_left, or_assoc]

theorem find_suffix (e : List Char) (r : Option (Option FileType)) (hn : ¬ Numbered e) :
    SuffixSays e r → inferFromExtension e = meant r := by
  intro h
  have hn' := mt (numbered_iff e).2 hn
  simp only [Bool.or_eq_true, not_or] at hn'
  unfold inferFromExtension
  rw [if_neg hn'.1.1, if_neg hn'.1.2, if_neg hn'.2]
  cases h with
  | numbered h => exact absurd h hn
  | listed p _ hp hs =>
    have : lower e = p.1.toList.map Char.toLower := hs
    have key : ∀ p ∈ suffixes, (match extensionMap.find? (fun x => x.1.toList == p.1.toList.map Char.toLower) with
        | some x => x.2
        | none => FileType.undefined) = meant (some p.2) := by decide +kernel
    rw [this]
    exact key p hp
  | unknown _ hs =>
    have : extensionMap.find? (fun x => x.1.toList == lower e) = none := by
      rw [List.find?_eq_none]
      intro x hx
      have key : ∀ x ∈ extensionMap, ∃ p ∈ suffixes, x.1 = p.1 ∧ p.1.toList.map Char.toLower = p.1.toList := by decide +kernel
      obtain ⟨p, hp, h1, h2⟩ := key x hx
      simp only [beq_iff_eq]
      intro he
      exact hs p hp (by unfold SameLetters; rw [h2, ← h1, he]; rfl)
    rw [this]
    rfl

/-- A suffix is read as it says: in capitals or not, if it has no number, and with any number. -/
theorem c95_suffix (e : List Char) (r : Option (Option FileType)) (h : SuffixSays e r) :
    inferFromExtension e = meant r := by
  by_cases hn : Numbered e
  · cases h with
    | numbered _ =>
      have := (numbered_iff e).1 hn
      unfold inferFromExtension
      simp only [Bool.or_eq_true] at this
      rcases this with (h | h) | h
      all_goals simp only [h, if_true, ite_self, meant]
    | listed p h => exact absurd hn h
    | unknown h => exact absurd hn h
  · exact find_suffix e r hn h

/-- Every suffix says something. -/
theorem c95_suffix_total (e : List Char) : ∃ r, SuffixSays e r := by
  by_cases hn : Numbered e
  · exact ⟨_, .numbered hn⟩
  · by_cases hs : ∃ p ∈ suffixes, SameLetters e p.1.toList
    · obtain ⟨p, hp, hs⟩ := hs
      exact ⟨_, .listed p hn hp hs⟩
    · exact ⟨_, .unknown hn fun p hp h => hs ⟨p, hp, h⟩⟩

theorem not_numbered {e : List Char} (h : ∀ c ∈ e.map Char.toLower, c.isDigit = false) : ¬ Numbered e := by
  rintro ⟨k, -, d, rest, hd, rfl⟩
  have := h d (by
    rw [List.mem_map]
    exact ⟨d, by simp, digit_lower hd⟩)
  rw [hd] at this
  exact absurd this (by decide)

/-- The suffixes of the table are understood however they are written. -/
theorem c95_letters (p : String × Option FileType) (hp : p ∈ suffixes) (e : List Char) (he : SameLetters e p.1.toList) :
    inferFromExtension e = p.2.getD .inferFromAttributes := by
  have hn : ¬ Numbered e := not_numbered (by
    rw [show e.map Char.toLower = _ from he]
    have : ∀ p ∈ suffixes, ∀ c ∈ p.1.toList.map Char.toLower, c.isDigit = false := by decide +kernel
    exact this p hp)
  rw [c95_suffix e _ (.listed p hn hp he)]
  obtain ⟨s, k⟩ := p
  cases k <;> rfl

example : SameLetters ".GtS".toList ".gts".toList := by decide +kernel
example : inferFromExtension ".GtS".toList = .soldermask := by decide +kernel
example : SuffixSays ".g12".toList (some (some .copper)) := .numbered ⟨".g", by simp, '1', ['2'], by decide, by decide⟩

/-- Numbers are not understood behind capital letters, mechanical layers are taken for copper, and what follows the number
is not looked at. -/
theorem c95_false_numbered : inferFromExtension ".G1".toList = .undefined ∧ inferFromExtension ".gm1".toList = .copper ∧
    inferFromExtension ".g1code".toList = .copper := by decide +kernel

/-! ## Attributes -/

theorem upper_lower (c : Char) : c.toLower.toUpper = c.toUpper := by
  by_cases h : 65 ≤ c.val.toNat ∧ c.val.toNat ≤ 90
  · obtain ⟨h1, h2⟩ := h
    have e : c = Char.ofNat c.val.toNat := by simp
    rw [e]
    generalize c.val.toNat = n at h1 h2
    interval_cases n <;> rfl
  · have : c.toLower = c := by
      unfold Char.toLower
      rw [dif_neg]
      intro h'
      simp only [ge_iff_le, UInt32.le_iff_toNat_le] at h'
      exact h ⟨h'.1, h'.2⟩
    rw [this]

theorem lower_upper (c : Char) : c.toUpper.toLower = c.toLower := by
  by_cases h : 97 ≤ c.val.toNat ∧ c.val.toNat ≤ 122
  · obtain ⟨h1, h2⟩ := h
    have e : c = Char.ofNat c.val.toNat := by simp
    rw [e]
    generalize c.val.toNat = n at h1 h2
    interval_cases n <;> rfl
  · have : c.toUpper = c := by
      unfold Char.toUpper
      rw [dif_neg]
      intro h'
      simp only [UInt32.le_iff_toNat_le] at h'
      exact h ⟨h'.1, h'.2⟩
    rw [this]

theorem char_cases {c d : Char} (h : c.toLower = d.toLower) : c.toUpper = d.toUpper := by
  rw [← upper_lower c, ← upper_lower d, h]

/-- The functions a file can declare are understood however they are written and whatever fields follow. -/
theorem c95_function (f : FileFunction) (w rest : List Char) (hw : SameLetters w f.value) :
    inferFromAttributes (some w) = declared (some f) ∧ inferFromAttributes (some (w ++ ',' :: rest)) = declared (some f) := by
  have hu : upper w = upper f.value := by
    unfold upper
    unfold SameLetters at hw
    generalize f.value = v at hw
    induction w generalizing v with
    | nil => cases v <;> simp_all
    | cons c w ih =>
      cases v with
      | nil => simp at hw
      | cons d v =>
        simp only [List.map_cons, List.cons.injEq] at hw ⊢
        exact ⟨char_cases hw.1, ih v hw.2⟩
  have hc : ',' ∉ w := by
    intro h
    have h1 : Char.toLower ',' ∈ w.map Char.toLower := List.mem_map_of_mem h
    rw [show w.map Char.toLower = _ from hw] at h1
    revert h1
    cases f <;> decide +kernel
  have split_no (w : List Char) (hc : ',' ∉ w) : splitComma w = [w] := by
    induction w with
    | nil => rfl
    | cons c w ih =>
      simp only [List.mem_cons, not_or] at hc
      simp only [splitComma, if_neg (Ne.symm hc.1), ih hc.2]
  have split_at (w : List Char) (hc : ',' ∉ w) : splitComma (w ++ ',' :: rest) = w :: splitComma rest := by
    induction w with
    | nil => simp [splitComma]
    | cons c w ih =>
      simp only [List.mem_cons, not_or] at hc
      simp only [List.cons_append, splitComma, if_neg (Ne.symm hc.1), ih hc.2]
  unfold inferFromAttributes
  simp only [split_no w hc, split_at w hc, List.headD_cons, hu, and_self]
  cases f <;> decide +kernel

/-- Without the attribute the kind is not known, and words that are no function and no kind are not guessed at. -/
theorem c95_no_function (w : List Char) (hw : ∀ f : FileFunction, ¬ SameLetters w f.value)
    (hs : ∀ n ∈ kindNames, ¬ SameLetters w n.toList) (hc : ',' ∉ w) :
    inferFromAttributes none = .undefined ∧ inferFromAttributes (some w) = .undefined := by
  refine ⟨rfl, ?_⟩
  have split_no (w : List Char) (hc : ',' ∉ w) : splitComma w = [w] := by
    induction w with
    | nil => rfl
    | cons c w ih =>
      simp only [List.mem_cons, not_or] at hc
      simp only [splitComma, if_neg (Ne.symm hc.1), ih hc.2]
  have same (m : List Char) (h : m = upper w) : SameLetters w m := by
    unfold SameLetters
    rw [h, upper, List.map_map]
    exact List.map_congr_left fun c _ => (lower_upper c).symm
  have key : ∀ m ∈ FileType.members, (∃ f : FileFunction, f ∈ [FileFunction.copper, .plated, .nonPlated, .profile, .soldermask,
      .legend, .component, .paste, .glue, .carbonmask, .goldmask, .heatsinkmask, .peelablemask, .silvermask, .tinmask, .depthrout,
      .vcut, .viafill, .pads, .other, .drillmap, .fabricationDrawing, .vcutmap, .assemblyDrawing, .arrayDrawing, .otherDrawing] ∧
      SameLetters m.1.toList f.value) ∨ (∃ n ∈ kindNames, SameLetters m.1.toList n.toList) := by decide +kernel
  have hf : FileType.members.find? (fun m => m.1.toList == upper w) = none := by
    rw [List.find?_eq_none]
    intro m hm
    simp only [beq_iff_eq]
    intro e
    rcases key m hm with ⟨f, -, h⟩ | ⟨n, hn, h⟩
    · exact hw f ((same _ e).trans h)
    · exact hs n hn ((same _ e).trans h)
  simp only [inferFromAttributes, split_no w hc, List.headD_cons, FileType.ofValue, hf]
  rw [if_neg]
  intro e
  exact hs "SolderPaste" (by simp [kindNames]) ((same _ e.symm).trans (by decide +kernel))

example : (∀ f : FileFunction, ¬ SameLetters "Gold".toList f.value) ∧ (∀ n ∈ kindNames, ¬ SameLetters "Gold".toList n.toList) :=
  ⟨fun f => by cases f <;> decide +kernel, by decide +kernel⟩

/-! ## Rendering -/

theorem declared_eq (f : Option FileFunction) : inferFromAttributes (f.map FileFunction.value) = declared f := by
  cases f with
  | none => rfl
  | some f => cases f <;> decide +kernel

theorem suffix_concrete {e : List Char} {k : FileType} (h : SuffixSays e (some (some k))) : ¬ isRequest k ∧ k ≠ .undefined := by
  generalize hr : some (some k) = r at h
  cases h with
  | numbered _ => obtain rfl : k = .copper := by simpa using hr
                  unfold isRequest; simp
  | listed p _ hp _ =>
    have : ∀ p ∈ suffixes, ∀ k ∈ p.2, ¬ isRequest k ∧ k ≠ .undefined := by unfold isRequest; decide +kernel
    exact this p hp k (by simpa using hr.symm)
  | unknown => simp at hr

variable {env : Env}

theorem resolved_kind (t : FileType) (src : Source) (o : env.POpt) (f : FinalState) (hf : finalOf env o = .ok f) (k : FileType)
    (h : resolved env (GFile.create env t src).fileType src o = .ok k) : Kind t src f.fileFunction k := by
  by_cases ht : isRequest t
  · have attr (h : resolved env .inferFromAttributes src o = .ok k) : k = declared f.fileFunction := by
      simp only [resolved, byExtension, byAttributes, hf, thenE, declared_eq, reduceCtorEq, or_self, if_false, true_or, if_true,
        Except.ok.injEq] at h
      exact h.symm
    have plain (u : FileType) (hu : ¬ isRequest u) (h : resolved env u src o = .ok k) : k = u := by
      rw [resolved_of_not_request src o hu] at h
      simpa using h.symm
    by_cases hp : ∃ e, src = .path e
    · obtain ⟨e, rfl⟩ := hp
      obtain ⟨r, hr⟩ := c95_suffix_total e
      have hx := c95_suffix e r hr
      rcases r with _ | _ | u
      · rcases ht with rfl | rfl | rfl
        · simp only [GFile.create, GFile.new, hx, meant, reduceCtorEq, if_false, if_true] at h
          rw [attr h]; exact .unknown e _ hr
        · simp only [GFile.create, GFile.new, hx, meant, reduceCtorEq, if_false, if_true] at h
          rw [plain _ (by simp [isRequest]) h]; exact .undefined e _ hr
        · simp only [GFile.create, GFile.new, reduceCtorEq, if_false] at h
          rw [attr h]; exact .declared _ _
      · rcases ht with rfl | rfl | rfl
        · simp only [GFile.create, GFile.new, hx, meant, reduceCtorEq, if_false, if_true] at h
          rw [attr h]; exact .general _ e _ (.inl rfl) hr
        · simp only [GFile.create, GFile.new, hx, meant, reduceCtorEq, if_false, if_true] at h
          rw [attr h]; exact .general _ e _ (.inr rfl) hr
        · simp only [GFile.create, GFile.new, reduceCtorEq, if_false] at h
          rw [attr h]; exact .declared _ _
      · obtain ⟨hu, hu'⟩ := suffix_concrete hr
        have hi : u ≠ .infer := fun e => hu (.inl e)
        rcases ht with rfl | rfl | rfl
        · simp only [GFile.create, GFile.new, hx, meant, reduceCtorEq, if_false, if_true, if_neg hu'] at h
          rw [plain _ hu h]; exact .suffix _ e _ _ (.inl rfl) hr
        · simp only [GFile.create, GFile.new, hx, meant, if_true, if_neg hi] at h
          rw [plain _ hu h]; exact .suffix _ e _ _ (.inr rfl) hr
        · simp only [GFile.create, GFile.new, reduceCtorEq, if_false] at h
          rw [attr h]; exact .declared _ _
    · have hp' : ∀ e, src ≠ .path e := fun e he => hp ⟨e, he⟩
      have hcr : (GFile.create env t src).fileType = if t = .inferFromExtension then .undefined else t := by
        cases src with
        | path e => exact absurd rfl (hp' e)
        | _ => rfl
      rw [hcr] at h
      rcases ht with rfl | rfl | rfl
      · simp only [reduceCtorEq, if_false] at h
        rw [← resolved_byExtension] at h
        have hb : byExtension .infer src = .inferFromAttributes := by
          cases src with
          | path e => exact absurd rfl (hp' e)
          | _ => rfl
        rw [hb] at h
        rw [attr h]; exact .noName _ _ hp'
      · simp only [if_true] at h
        rw [plain _ (by simp [isRequest]) h]; exact .nothing _ _ hp'
      · simp only [reduceCtorEq, if_false] at h
        rw [attr h]; exact .declared _ _
  · have hc : (GFile.create env t src).fileType = t := by
      have h1 : t ≠ .infer := fun e => ht (.inl e)
      have h2 : t ≠ .inferFromExtension := fun e => ht (.inr (.inl e))
      cases src <;> simp [GFile.create, GFile.new, h1, h2]
    rw [hc, resolved_of_not_request src o ht] at h
    obtain rfl : t = k := by simpa using h
    exact .given t src _ ht

theorem thenE_ok {ε α β : Type} {r : Except ε α} {f : α → Except ε β} {b : β} (h : thenE r f = .ok b) :
    ∃ a, r = .ok a ∧ f a = .ok b := by
  cases r with
  | error e => simp [thenE] at h
  | ok a => exact ⟨a, rfl, h⟩

theorem lift_ok {α : Type} {r : Except env.Err α} {a : α} (h : lift r = .ok a) : r = .ok a := by
  cases r <;> simp_all [lift]

theorem style_kind (t : FileType) (src : Source) (h : List (Call env)) (st : env.Style) (f : FinalState)
    (hf : finalOf env (newObject env t src h).popts = .ok f) (hs : styleOf (newObject env t src h) none = .ok st) :
    ∃ f k, declares (lastSet parserOptionsSet env.noPOpt h) f ∧ Kind t src f k ∧
      (lastSet colorMapSet env.defaultMap h).get? k = some st := by
  obtain ⟨k, hk, hl⟩ := thenE_ok hs
  have hk := lift_ok hk
  have c1 := (create_source (env := env) t src).1
  refine ⟨f.fileFunction, k, finalOf_declares hf, resolved_kind t src _ f hf k ?_, ?_⟩
  · rw [show (newObject env t src h).source = src from c1] at hk
    exact hk
  · unfold lookup at hl
    split at hl
    · rename_i x hx
      obtain rfl : x = st := by simpa using hl
      exact hx
    · simp at hl

/-- Files are rendered with the colours of their kind: given by the user, named by the suffix or declared by the file. -/
theorem c95_style (env : Env) (t : FileType) (src : Source) (h : List (Call env)) (c : Call env) (n : ℕ)
    (hc : c = .renderPillow none n ∨ c = .renderShapely none) (u : Unit') (d : ℕ) (res : env.Result) (st : env.Style)
    (ha : (call c (newObject env t src h)).1 = .ok (.image u d res st)) :
    ∃ f k, declares (lastSet parserOptionsSet env.noPOpt h) f ∧ Kind t src f k ∧
      (lastSet colorMapSet env.defaultMap h).get? k = some st := by
  have nf : Fresh (newObject env t src h) := by
    unfold newObject
    cases src <;> exact ⟨nofun, nofun, nofun⟩
  rw [call_answer _ c nf] at ha
  rcases hc with rfl | rfl
  all_goals
    obtain ⟨s, hs, ha⟩ := thenE_ok ha
    obtain ⟨r, -, ha⟩ := thenE_ok ha
    obtain ⟨x, -, ha⟩ := thenE_ok ha
    obtain ⟨f, hf, ha⟩ := thenE_ok ha
    simp only [Except.ok.injEq, Answer.image.injEq] at ha
    obtain ⟨-, -, -, rfl⟩ := ha
    exact style_kind t src h s f (lift_ok hf) hs

example : (call (.renderShapely none) (newObject toy .infer (.path ".GTS".toList) [])).1 =
    .ok (.image .mm 0 false .solderMaskAlpha) := by rfl

end Verif.Props.FileKind
