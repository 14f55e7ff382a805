import Verif.Spec.Console
import Verif.Props.Color
import Verif.Props.GerberFile
import Verif.Props.Composite

/-!
# C75: conversions from the command line
-/

namespace Verif.Props.Console
open Verif.Api Verif.Color Verif.Console Verif.Spec
variable {env : Env}

theorem colourText_iff (s : List Char) (c : Color) : fromHex s = .ok c ↔ ColourText s c := Props.Color.c43_reads s c

theorem choice_some {l : List String} {w c : List Char} (h : choice l w = some c) :
    ∃ n ∈ l, c = n.toList ∧ SameWord w n.toList := by
  unfold choice at h
  cases hf : l.find? (fun c => lower c.toList == lower w) with
  | none => rw [hf] at h; simp at h
  | some n =>
    rw [hf] at h
    refine ⟨n, List.mem_of_find?_eq_some hf, by simpa using h.symm, ?_⟩
    have := List.find?_some hf
    exact (eq_of_beq this).symm

theorem choice_none {l : List String} {w : List Char} : choice l w = none ↔ ∀ n ∈ l, ¬ SameWord w n.toList := by
  unfold choice
  simp only [Option.map_eq_none_iff, List.find?_eq_none, beq_iff_eq]
  exact ⟨fun h n hn e => h n hn e.symm, fun h n hn e => h n hn e.symm⟩

theorem checked_error {o r : Opt} {l : List String} {w : Option (List Char)} :
    checked o (choice l) w = .error r ↔ r = o ∧ Unlisted w l := by
  cases w with
  | none => simp [checked, Unlisted]
  | some w =>
    simp only [checked, Unlisted, Option.some.injEq, exists_eq_left', ← choice_none]
    cases choice l w with
    | some c => simp
    | none => simp [eq_comm]

theorem checked_ok {o : Opt} {l : List String} {w c : Option (List Char)} (h : checked o (choice l) w = .ok c) :
    (w = none ∧ c = none) ∨ ∃ v n, w = some v ∧ n ∈ l ∧ c = some n.toList ∧ SameWord v n.toList := by
  cases w with
  | none => simp only [checked, Except.ok.injEq] at h; exact .inl ⟨rfl, h.symm⟩
  | some w =>
    simp only [checked] at h
    cases hc : choice l w with
    | none => rw [hc] at h; simp at h
    | some d =>
      rw [hc] at h
      simp only [Except.ok.injEq] at h
      obtain ⟨n, hn, e, hs⟩ := choice_some hc
      exact .inr ⟨w, n, rfl, hn, by rw [← h, e], hs⟩

theorem names_eq : typesByName.map (·.1) = typeNames := by decide +kernel

/-- No name is another in a different case. -/
theorem types_distinct : ∀ x ∈ typesByName, ∀ y ∈ typesByName,
    x.1.toList.map Char.toLower = y.1.toList.map Char.toLower → x = y := by decide +kernel

theorem presets_eq : presets = stylesByName := by decide +kernel

theorem styles_distinct : ∀ x ∈ stylesByName, ∀ y ∈ stylesByName,
    x.1.toList.map Char.toLower = y.1.toList.map Char.toLower → x = y := by decide +kernel

theorem custom_distinct : ∀ x ∈ stylesByName,
    x.1.toList.map Char.toLower ≠ "CUSTOM".toList.map Char.toLower := by decide +kernel

theorem asksType_unique {w : Option (List Char)} {t u : FileType} (h : AsksType w t) (g : AsksType w u) : t = u := by
  cases h with
  | left_out => cases g; rfl
  | named l s =>
    cases g with
    | named l' s' => exact congrArg (·.2) (types_distinct _ l _ l' (s.symm.trans s'))

/-- The type used is the one asked for, but for one name. -/
theorem type_used : ∀ x ∈ typesByName, x.2 ≠ .nonPlated → FileType.ofValue (upper x.1.toList) = x.2 := by decide +kernel

theorem fileType_ok {o : Opt} {w c : Option (List Char)} (h : checked o (choice typeNames) w = .ok c) :
    ∃ t, AsksType w t ∧ (t ≠ .nonPlated → fileTypeOf c = t) := by
  rcases checked_ok h with ⟨rfl, rfl⟩ | ⟨v, n, rfl, hn, rfl, hs⟩
  · exact ⟨.infer, .left_out, fun _ => by decide +kernel⟩
  · rw [← names_eq, List.mem_map] at hn
    obtain ⟨x, hx, rfl⟩ := hn
    exact ⟨x.2, .named hx hs, fun h => type_used x hx h⟩

theorem upper_presets : ∀ x ∈ stylesByName, upper x.1.toList ≠ "CUSTOM".toList ∧
    presets.find? (fun p => upper p.1.toList == upper x.1.toList) = some x := by decide +kernel

theorem upper_custom : upper "CUSTOM".toList = "CUSTOM".toList := by decide +kernel

/-- The style made from a choice, and the refusals. -/
theorem style_result {a : Args} {c : Option (List Char)} (h : checked .style (choice styleChoices) a.style = .ok c) :
    (∀ st, sanitizeStyle c a.foreground a.background = .ok st ↔ AsksStyle a.style a.foreground a.background st) ∧
    (∀ r, sanitizeStyle c a.foreground a.background = .error r →
      AsksCustom a ∧ (r = .foreground ∧ NoColour a.foreground ∨ r = .background ∧ NoColour a.background ∨
        r = .background ∧ a.foreground ≠ none ∧ NoColour a.foreground)) ∧
    ((AsksCustom a ∧ (NoColour a.foreground ∨ NoColour a.background)) →
      ∃ r, sanitizeStyle c a.foreground a.background = .error r) := by
  rcases checked_ok h with ⟨hw, rfl⟩ | ⟨v, n, hw, hn, rfl, hs⟩
  · rw [hw]
    refine ⟨fun st => ?_, fun r hr => by simp [sanitizeStyle] at hr, ?_⟩
    · constructor
      · intro h
        simp only [sanitizeStyle, Except.ok.injEq] at h
        subst h
        exact .left_out
      · rintro ⟨⟩; rfl
    · rintro ⟨⟨w, e, -⟩, -⟩
      rw [hw] at e; simp at e
  · rw [hw]
    simp only [styleChoices, List.mem_append, List.mem_map, List.mem_singleton] at hn
    rcases hn with ⟨x, hx, rfl⟩ | rfl
    · obtain ⟨h1, h2⟩ := upper_presets x hx
      have hr : ∀ f b, sanitizeStyle (some x.1.toList) f b = .ok (some x.2) := by
        intro f b
        simp only [sanitizeStyle, if_neg h1, h2]
      have notCustom : ¬ AsksCustom a := by
        rintro ⟨w, e, hc⟩
        rw [hw] at e
        simp only [Option.some.injEq] at e
        subst e
        exact custom_distinct x hx (hs.symm.trans hc)
      rw [hr]
      generalize a.foreground = f
      generalize a.background = b
      refine ⟨fun st => ?_, fun r h => by simp at h, fun h => absurd h.1 notCustom⟩
      constructor
      · intro h
        simp only [Except.ok.injEq] at h
        subst h
        exact .preset hx hs
      · intro h
        cases h with
        | preset l s => rw [← styles_distinct _ l _ hx (s.symm.trans hs)]
        | custom s _ _ => exact absurd (hs.symm.trans s) (custom_distinct x hx)
    · have isCustom : AsksCustom a := ⟨v, hw, hs⟩
      have notPreset : ∀ {f b st}, AsksStyle (some v) f b (some st) →
          ∃ f' b', f = some f' ∧ b = some b' ∧ ColourText f' st.foreground ∧ ColourText b' st.background := by
        intro f b st h
        cases h with
        | preset l s => exact absurd (s.symm.trans hs) (custom_distinct _ l)
        | custom _ hf hb => exact ⟨_, _, rfl, rfl, hf, hb⟩
      unfold sanitizeStyle
      simp only [upper_custom, if_true]
      generalize ef : a.foreground = f
      generalize eb : a.background = b
      cases f with
      | none =>
        refine ⟨fun st => ⟨fun h => by simp at h, ?_⟩, fun r h => ?_, fun _ => ⟨_, rfl⟩⟩
        · intro h; cases h
          rename_i l s; exact absurd (s.symm.trans hs) (custom_distinct _ l)
        · simp only [Except.error.injEq] at h
          exact ⟨isCustom, .inl ⟨h.symm, fun w c e => by simp at e⟩⟩
      | some f =>
        cases b with
        | none =>
          refine ⟨fun st => ⟨fun h => by simp at h, ?_⟩, fun r h => ?_, fun _ => ⟨_, rfl⟩⟩
          · intro h; cases h
            rename_i l s; exact absurd (s.symm.trans hs) (custom_distinct _ l)
          · simp only [Except.error.injEq] at h
            exact ⟨isCustom, .inr (.inl ⟨h.symm, fun w c e => by simp at e⟩)⟩
        | some b =>
          simp only [colour]
          cases hb : fromHex b with
          | error e =>
            have nb : NoColour (some b) := by
              intro w c ew hc
              simp only [Option.some.injEq] at ew
              subst ew
              rw [← colourText_iff, hb] at hc
              simp at hc
            refine ⟨fun st => ⟨fun h => by simp at h, ?_⟩, fun r h => ?_, fun _ => ⟨_, rfl⟩⟩
            · intro h
              cases st with
              | none => cases h
              | some st =>
                obtain ⟨f', b', _, e2, _, h4⟩ := notPreset h
                exact absurd h4 (nb _ _ e2)
            · simp only [Except.error.injEq] at h
              exact ⟨isCustom, .inr (.inl ⟨h.symm, nb⟩)⟩
          | ok bg =>
            cases hf : fromHex f with
            | error e =>
              have nf : NoColour (some f) := by
                intro w c ew hc
                simp only [Option.some.injEq] at ew
                subst ew
                rw [← colourText_iff, hf] at hc
                simp at hc
              refine ⟨fun st => ⟨fun h => by simp at h, ?_⟩, fun r h => ?_, fun _ => ⟨_, rfl⟩⟩
              · intro h
                cases st with
                | none => cases h
                | some st =>
                  obtain ⟨f', b', e1, _, h3, _⟩ := notPreset h
                  exact absurd h3 (nf _ _ e1)
              · simp only [Except.error.injEq] at h
                exact ⟨isCustom, .inr (.inr ⟨h.symm, by simp, nf⟩)⟩
            | ok fg =>
              have tf := (colourText_iff _ _).mp hf
              have tb := (colourText_iff _ _).mp hb
              refine ⟨fun st => ?_, fun r h => by simp at h, ?_⟩
              · constructor
                · intro h
                  simp only [Except.ok.injEq] at h
                  subst h
                  exact .custom hs tf tb
                · intro h
                  cases st with
                  | none => cases h
                  | some st =>
                    obtain ⟨f', b', e1, e2, h3, h4⟩ := notPreset h
                    simp only [Option.some.injEq] at e1 e2
                    subst e1 e2
                    rw [← colourText_iff, hf] at h3
                    rw [← colourText_iff, hb] at h4
                    simp only [Except.ok.injEq] at h3 h4
                    rw [h3, h4]
              · rintro ⟨-, h | h⟩
                · exact absurd tf (h _ _ rfl)
                · exact absurd tb (h _ _ rfl)

theorem compression_error {f : Format} {a : Args} {r : Opt} :
    checked .compression (exactChoice compressions) (if f = .tiff then a.compression else none) = .error r ↔
      r = .compression ∧ AtFault f a .compression := by
  unfold AtFault
  by_cases hf : f = .tiff
  · simp only [hf, true_and]
    cases a.compression with
    | none => simp [checked]
    | some w =>
      have key : exactChoice compressions w = none ↔ ∀ c ∈ tiffCompressions, w ≠ c.toList := by
        have offered : (∀ n ∈ tiffCompressions, n ∈ compressions) ∧ ∀ n ∈ compressions, n ∈ tiffCompressions := by decide +kernel
        unfold exactChoice
        simp only [Option.map_eq_none_iff, List.find?_eq_none, beq_iff_eq]
        exact ⟨fun h n hn e => h n (offered.1 n hn) e.symm, fun h n hn e => h n (offered.2 n hn) e.symm⟩
      simp only [if_true, checked, Option.some.injEq, exists_eq_left', ← key]
      generalize exactChoice compressions w = d
      cases d with
      | some c => simp
      | none => simp [eq_comm]
  · simp [checked, hf]

theorem compression_ok {f : Format} {a : Args} {c : Option (List Char)}
    (h : checked .compression (exactChoice compressions) (if f = .tiff then a.compression else none) = .ok c) :
    f = .tiff → c = a.compression := by
  intro hf
  rw [if_pos hf] at h
  cases hw : a.compression with
  | none => rw [hw] at h; simpa [checked] using h.symm
  | some w =>
    rw [hw] at h
    simp only [checked] at h
    cases he : exactChoice compressions w with
    | none => rw [he] at h; simp at h
    | some d =>
      rw [he] at h
      simp only [Except.ok.injEq] at h
      subst h
      unfold exactChoice at he
      cases hx : compressions.find? (fun c => c.toList == w) with
      | none => rw [hx] at he; simp at he
      | some n =>
        rw [hx] at he
        have : n.toList = w := by simpa using List.find?_some hx
        simp only [Option.map_some, Option.some.injEq] at he
        rw [← he, this]

theorem style_error {w : Option (List Char)} {r : Opt} :
    checked .style (choice styleChoices) w = .error r ↔ r = .style ∧ Unlisted w ("CUSTOM" :: stylesByName.map (·.1)) := by
  rw [checked_error]
  have : ∀ n, n ∈ styleChoices ↔ n ∈ "CUSTOM" :: stylesByName.map (·.1) := by
    intro n; simp [styleChoices, presets_eq, or_comm]
  unfold Unlisted
  simp only [this]

theorem backend_eq (f : Format) : [f.backend] = [if f = .svg then "shapely" else "pillow"] := by cases f <;> rfl

theorem encodes (f : Format) (a : Args) (c : Option (List Char)) (h : f = .tiff → c = a.compression) :
    Encodes f a (f.encoding c a) := by
  cases f <;> simp only [Encodes, Format.encoding, and_self]
  obtain rfl := h rfl
  have key : a.compression.getD "lzma".toList = "jpeg".toList ↔ a.compression = some "jpeg".toList := by
    cases a.compression with
    | none => simp only [Option.getD_none, reduceCtorEq, iff_false]; decide +kernel
    | some w => simp
  split
  · rename_i hj
    rw [if_pos (key.mp hj)]
    exact ⟨rfl, rfl, rfl⟩
  · rename_i hj
    rw [if_neg (fun h => hj (key.mpr h))]
    exact ⟨rfl, rfl, rfl⟩

theorem asksStyle_unique {w f b : Option (List Char)} {s t : Option Style} (h : AsksStyle w f b s)
    (g : AsksStyle w f b t) : s = t := by
  cases h with
  | left_out => cases g; rfl
  | preset l e =>
    cases g with
    | preset l' e' => exact congrArg (fun x : String × Style => some x.2) (styles_distinct _ l _ l' (e.symm.trans e'))
    | custom e' _ _ => exact absurd (e.symm.trans e') (custom_distinct _ l)
  | custom e hf hb =>
    cases g with
    | preset l' e' => exact absurd (e'.symm.trans e) (custom_distinct _ l')
    | custom e' hf' hb' =>
      rw [← colourText_iff] at hf hb hf' hb'
      rw [hf] at hf'
      rw [hb] at hb'
      simp only [Except.ok.injEq] at hf' hb'
      rw [hf', hb']

/-- A library that renders everything, with the styles of the default map. -/
def toyLibrary : Env :=
  { POpt := Unit, COpt := Unit, FOpt := Unit, Ast := Unit, Rvmc := Unit, Result := Unit, Style := Style, Err := Unit
    parse := fun _ => .ok (), finalState := fun _ => .ok ⟨none, .mm⟩, compile := fun _ _ => .ok ()
    renderPillow := fun _ _ => .ok (), renderShapely := fun _ => .ok (), format := fun _ _ => .ok []
    noPOpt := (), noCOpt := ()
    defaultMap := defaultAlphaColorMap.map fun e => (e.1, styleOfPreset e.2) }

/-- Every run, cut at what `click` and the command check. -/
theorem convert_cases (env : Env) (paint : Style → env.Style) (f : Format) (a : Args) :
    (∃ r, convert env paint f a = .refused r ∧
      (AtFault f a r ∨ r = .background ∧ a.foreground ≠ none ∧ AtFault f a .foreground)) ∨
    ((∀ o, ¬ AtFault f a o) ∧ ∃ t u st e, AsksType a.fileType t ∧ (t ≠ .nonPlated → u = t) ∧
      AsksStyle a.style a.foreground a.background st ∧ Encodes f a e ∧
      convert env paint f a =
        match (call (rendering f a (st.map paint)) (GFile.create env u (.path a.suffix))).1 with
        | .error x => .failed x
        | .ok image => .saved f (outputFile f a) e image) := by
  unfold convert
  cases h1 : checked .fileType (choice typeNames) a.fileType with
  | error r =>
    rw [checked_error] at h1
    obtain ⟨rfl, h1⟩ := h1
    exact .inl ⟨_, rfl, .inl (by rw [AtFault, names_eq]; exact h1)⟩
  | ok t =>
    have n1 : ¬ AtFault f a .fileType := by
      intro h
      rw [AtFault, names_eq] at h
      rw [checked_error.mpr ⟨rfl, h⟩] at h1
      simp at h1
    cases h2 : checked .style (choice styleChoices) a.style with
    | error r =>
      rw [style_error] at h2
      obtain ⟨rfl, h2⟩ := h2
      exact .inl ⟨_, rfl, .inl h2⟩
    | ok s =>
      have n2 : ¬ AtFault f a .style := by
        intro h
        rw [style_error.mpr ⟨rfl, h⟩] at h2
        simp at h2
      cases h3 : checked .implementation (choice [f.backend]) a.implementation with
      | error r =>
        rw [checked_error, backend_eq] at h3
        obtain ⟨rfl, h3⟩ := h3
        exact .inl ⟨_, rfl, .inl h3⟩
      | ok i =>
        have n3 : ¬ AtFault f a .implementation := by
          intro h
          rw [backend_eq, checked_error.mpr ⟨rfl, h⟩] at h3
          simp at h3
        cases h4 : checked .compression (exactChoice compressions) (if f = .tiff then a.compression else none) with
        | error r =>
          rw [compression_error] at h4
          obtain ⟨rfl, h4⟩ := h4
          exact .inl ⟨_, rfl, .inl h4⟩
        | ok c =>
          have n4 : ¬ AtFault f a .compression := by
            intro h
            rw [compression_error.mpr ⟨rfl, h⟩] at h4
            simp at h4
          obtain ⟨k1, k2, k3⟩ := style_result h2
          cases h5 : sanitizeStyle s a.foreground a.background with
          | error r =>
            left
            refine ⟨r, by simp only [h5], ?_⟩
            obtain ⟨hc, ⟨rfl, h⟩ | ⟨rfl, h⟩ | ⟨rfl, hn, h⟩⟩ := k2 r h5
            · exact .inl ⟨hc, h⟩
            · exact .inl ⟨hc, h⟩
            · exact .inr ⟨rfl, hn, hc, h⟩
          | ok st =>
            right
            obtain ⟨u, hu, hu'⟩ := fileType_ok h1
            refine ⟨?_, u, fileTypeOf t, st, f.encoding c a, hu, hu', (k1 st).mp h5, encodes f a c (compression_ok h4), ?_⟩
            · intro o ho
              cases o with
              | fileType => exact n1 ho
              | style => exact n2 ho
              | implementation => exact n3 ho
              | compression => exact n4 ho
              | foreground =>
                obtain ⟨r, hr⟩ := k3 ⟨ho.1, .inl ho.2⟩
                rw [h5] at hr; simp at hr
              | background =>
                obtain ⟨r, hr⟩ := k3 ⟨ho.1, .inr ho.2⟩
                rw [h5] at hr; simp at hr
            · cases f <;> (cases ho : a.output <;> simp only [rendering, outputFile, ho, h5] <;> rfl)

/-- **C75**: a conversion is refused with a usage message, before the source is looked at, exactly when one of its
options is at fault. -/
theorem c75_refused (env : Env) (paint : Style → env.Style) (f : Format) (a : Args) :
    (∃ r, convert env paint f a = .refused r) ↔ ∃ o, AtFault f a o := by
  rcases convert_cases env paint f a with ⟨r, h, k⟩ | ⟨h, t, u, st, e, -, -, -, -, he⟩
  · refine ⟨fun _ => ?_, fun _ => ⟨r, h⟩⟩
    rcases k with k | ⟨-, -, k⟩ <;> exact ⟨_, k⟩
  · constructor
    · rintro ⟨r, hr⟩
      rw [he] at hr
      split at hr <;> simp at hr
    · rintro ⟨o, ho⟩
      exact absurd ho (h o)

/-- **C75** (partial: the option named). The message names an option that is at fault.  Missing: a foreground that
denotes no colour, for which the background is named (`c75_false_blamed`). -/
theorem c75_blamed_partial (env : Env) (paint : Style → env.Style) (f : Format) (a : Args) (r : Opt)
    (hf : ∀ w, a.foreground = some w → ∃ c, ColourText w c) (h : convert env paint f a = .refused r) : AtFault f a r := by
  rcases convert_cases env paint f a with ⟨r', h', k⟩ | ⟨-, t, u, st, e, -, -, -, -, he⟩
  · rw [h'] at h
    simp only [Outcome.refused.injEq] at h
    subst h
    rcases k with k | ⟨rfl, hn, k⟩
    · exact k
    · obtain ⟨w, hw⟩ := Option.ne_none_iff_exists'.mp hn
      obtain ⟨c, hc⟩ := hf w hw
      exact absurd hc (k.2 w c hw)
  · rw [he] at h
    split at h <;> simp at h

/-- **C75** (partial: file types other than `NON_PLATED`). A conversion that is not refused does what the API does for
the type, the style and the resolution asked for: it fails as the API fails or saves the image the API renders, in the
format, the file and the encoding asked for.  Missing: `-t NON_PLATED` (`c75_false_non_plated`). -/
theorem c75_convert_partial (env : Env) (paint : Style → env.Style) (f : Format) (a : Args) (t : FileType)
    (st : Option Style) (ht : AsksType a.fileType t) (hn : t ≠ .nonPlated)
    (hs : AsksStyle a.style a.foreground a.background st) (ho : ∀ o, ¬ AtFault f a o) :
    ∃ e, Encodes f a e ∧ convert env paint f a =
      match (call (rendering f a (st.map paint)) (GFile.create env t (.path a.suffix))).1 with
      | .error x => .failed x
      | .ok image => .saved f (outputFile f a) e image := by
  rcases convert_cases env paint f a with ⟨r, -, k⟩ | ⟨-, t', u, st', e, h1, h2, h3, h4, h5⟩
  · rcases k with k | ⟨-, -, k⟩ <;> exact absurd k (ho _)
  · obtain rfl := asksType_unique h1 ht
    obtain rfl := asksStyle_unique h3 hs
    rw [h2 hn] at h5
    exact ⟨e, h4, h5⟩

/-- **C75** (colours). If a style is asked for, whatever the type and the source, the image that is saved has it, and
the resolution asked for. -/
theorem c75_colours (env : Env) (paint : Style → env.Style) (f : Format) (a : Args) (st : Style)
    (hs : AsksStyle a.style a.foreground a.background (some st)) (g : Format) (o : List Char) (e : Encoding)
    (image : Answer env) (h : convert env paint f a = .saved g o e image) :
    g = f ∧ o = outputFile f a ∧ Encodes f a e ∧
    ∃ u r, image = .image u (if f = .svg then 0 else a.dpmm.getD 100) r (paint st) := by
  rcases convert_cases env paint f a with ⟨r, hr, -⟩ | ⟨-, t', u, st', e', h1, h2, h3, h4, h5⟩
  · rw [hr] at h; simp at h
  · obtain rfl := asksStyle_unique h3 hs
    rw [h5] at h
    split at h
    · simp at h
    · rename_i image' hi
      simp only [Outcome.saved.injEq] at h
      obtain ⟨rfl, rfl, rfl, rfl⟩ := h
      refine ⟨rfl, rfl, h4, ?_⟩
      have svg : ∀ (s : GFile env), (call (.renderShapely (some (paint st))) s).1 = .ok image' →
          ∃ u r, image' = .image u 0 r (paint st) := by
        intro s hs
        simp only [call, dispatchStyle, Method.bind, Method.ret] at hs
        repeat' split at hs
        all_goals first | simp at hs; done | skip
        simp only [Except.ok.injEq] at hs
        exact ⟨_, _, hs.symm⟩
      have raster : ∀ (d : Nat) (s : GFile env), (call (.renderPillow (some (paint st)) d) s).1 = .ok image' →
          ∃ u r, image' = .image u d r (paint st) := by
        intro d s hs
        simp only [call, dispatchStyle, Method.bind, Method.ret] at hs
        repeat' split at hs
        all_goals first | simp at hs; done | skip
        simp only [Except.ok.injEq] at hs
        exact ⟨_, _, hs.symm⟩
      cases f <;> simp only [rendering, Option.map_some, if_true, reduceCtorEq, if_false] at hi ⊢
      all_goals first | exact svg _ hi | exact raster _ _ hi

/-- **C75** (partial: as `c75_convert_partial`). If no style is asked for but a type is, and it is not one to be inferred,
the image has the style the default colour map gives to that type. -/
theorem c75_type_colours_partial (env : Env) (paint : Style → env.Style) (f : Format) (a : Args) (t : FileType)
    (hs : a.style = none) (ht : AsksType a.fileType t) (hn : t ≠ .nonPlated) (hr : ¬ isRequest t) (g : Format)
    (o : List Char) (e : Encoding) (image : Answer env) (h : convert env paint f a = .saved g o e image) :
    ∃ st u d r, env.defaultMap.get? t = some st ∧ image = .image u d r st := by
  rcases convert_cases env paint f a with ⟨r, hr, -⟩ | ⟨-, t', u, st', e', h1, h2, h3, h4, h5⟩
  · rw [hr] at h; simp at h
  · obtain rfl := asksType_unique h1 ht
    rw [hs] at h3
    cases h3
    rw [h5, h2 hn] at h
    split at h
    · simp at h
    · rename_i image' hi
      simp only [Outcome.saved.injEq] at h
      obtain ⟨rfl, rfl, rfl, rfl⟩ := h
      have created : GFile.create env t' (.path a.suffix) = GFile.new env t' (.path a.suffix) := by
        simp only [isRequest, not_or] at hr
        simp only [GFile.create, if_neg hr.1, if_neg hr.2.1]
      have style : dispatchStyle none (GFile.new env t' (.path a.suffix)) =
          lookupStyle (GFile.new env t' (.path a.suffix)) := by
        simp only [isRequest, not_or] at hr
        simp [dispatchStyle, Method.bind, useExtension, useAttributes, GFile.new, hr.1, hr.2.1, hr.2.2]
      rw [created] at hi
      have found : (lookupStyle (GFile.new env t' (.path a.suffix))).1 =
          match env.defaultMap.get? t' with
          | some st => .ok st
          | none => .error (.keyError t') := by
        simp only [lookupStyle, GFile.new]
        cases env.defaultMap.get? t' <;> rfl
      cases hm : env.defaultMap.get? t' with
      | none =>
        rw [hm] at found
        cases f <;> simp [rendering, call, Method.bind, style, found] at hi
      | some st =>
        rw [hm] at found
        refine ⟨st, ?_⟩
        have svg : (call (.renderShapely none) (GFile.new env t' (.path a.suffix))).1 = .ok image' →
            ∃ u d r, image' = .image u d r st := by
          intro hs
          simp only [call, Method.bind, style, found, Method.ret] at hs
          repeat' split at hs
          all_goals first | simp at hs; done | skip
          simp only [Except.ok.injEq] at hs
          exact ⟨_, _, _, hs.symm⟩
        have raster : ∀ d, (call (.renderPillow none d) (GFile.new env t' (.path a.suffix))).1 = .ok image' →
            ∃ u d r, image' = .image u d r st := by
          intro d hs
          simp only [call, Method.bind, style, found, Method.ret] at hs
          repeat' split at hs
          all_goals first | simp at hs; done | skip
          simp only [Except.ok.injEq] at hs
          exact ⟨_, _, _, hs.symm⟩
        have : ∃ u d r, image' = .image u d r st := by
          cases f <;> simp only [rendering, Option.map_none] at hi
          all_goals first | exact svg hi | exact raster _ hi
        obtain ⟨u, d, r, h⟩ := this
        exact ⟨u, d, r, rfl, h⟩

/-- The hypotheses are met: a raster with two colours, one with a preset, a plain one, and one of a named type. -/
example : convert toyLibrary id .tiff
    { suffix := ".gbr".toList, style := some "custom".toList, foreground := some "FF0000".toList,
      background := some "#00000080".toList, dpmm := some 40, compression := some "jpeg".toList } =
    .saved .tiff "output.tiff".toList { compression := some "jpeg".toList, quality := some 95 }
      (.image .mm 40 () ⟨⟨255, 0, 0, 255⟩, ⟨0, 0, 0, 128⟩⟩) := rfl
example : convert toyLibrary id .webp
    { suffix := ".gtl".toList, style := some "Debug_1".toList, output := some "a".toList } =
    .saved .webp "a".toList { quality := some 80, lossless := some false } (.image .mm 100 () (preset 19 61 145 0)) := rfl
example : convert toyLibrary id .png { suffix := ".gtl".toList } =
    .saved .png "output.png".toList {} (.image .mm 100 () (preset 40 143 40 0)) := rfl
example : convert toyLibrary id .bmp { suffix := ".gtl".toList, fileType := some "Mask".toList } =
    .saved .bmp "output.bmp".toList {} (.image .mm 100 () (preset 153 153 153 0)) := rfl
example : AsksType (some "Mask".toList) .mask ∧ ¬ isRequest .mask :=
  ⟨.named (name := "MASK") (by decide +kernel) (by unfold SameWord; decide +kernel), by simp [isRequest]⟩
example : ∀ o, ¬ AtFault .png { suffix := ".gtl".toList } o := by
  intro o
  cases o <;> simp [AtFault, Unlisted, AsksCustom]

/-- Refusals: an unknown type, a missing colour, a wrong background. -/
example : convert toyLibrary id .png { suffix := [], fileType := some "NONPLATED".toList } = .refused .fileType := rfl
example : convert toyLibrary id .png { suffix := [], style := some "custom".toList, background := some [] } =
    .refused .foreground := rfl
example : AtFault .png { suffix := [], fileType := some "NONPLATED".toList } .fileType := by
  refine ⟨_, rfl, ?_⟩
  unfold SameWord
  decide +kernel

/-! ### Merging -/

theorem renderAll_ok {E : Type} (render : List Char → FileType → Nat → Except E SubImage) (t : FileType) (d : Nat) :
    ∀ (ss : List (List Char)) (is : List SubImage), renderAll render t d ss = .ok is ↔
      List.Forall₂ (fun s i => render s t d = .ok i) ss is := by
  intro ss
  induction ss with
  | nil =>
    intro is
    simp only [renderAll, Except.ok.injEq, List.forall₂_nil_left_iff]
    exact eq_comm
  | cons s ss ih =>
    intro is
    simp only [renderAll]
    cases hr : render s t d with
    | error e =>
      simp only [reduceCtorEq, false_iff]
      intro h
      cases h with
      | cons h _ => rw [hr] at h; simp at h
    | ok i =>
      cases ha : renderAll render t d ss with
      | error e =>
        simp only [reduceCtorEq, false_iff]
        intro h
        cases h with
        | cons _ h => rw [← ih, ha] at h; simp at h
      | ok js =>
        simp only [Except.ok.injEq]
        constructor
        · rintro rfl
          exact .cons hr ((ih js).mp ha)
        · intro h
          cases h with
          | cons h h' =>
            rw [hr] at h
            rw [← ih, ha] at h'
            simp only [Except.ok.injEq] at h h'
            rw [h, h']

/-- **C75** (partial: as `c75_convert_partial`). A merged image is saved exactly when there is a source and every source
can be rendered as the type asked for, at the resolution asked for; it is the composite image of their images, pasted
in the order in which the sources were given, the last one on top. -/
theorem c75_merge_partial {E : Type} (render : List Char → FileType → Nat → Except E SubImage) (f : Format)
    (hf : f = .png ∨ f = .jpeg) (a : Args) (sources : List (List Char)) (t : FileType) (ht : AsksType a.fileType t)
    (hn : t ≠ .nonPlated) (hi : ¬ AtFault f a .implementation) (g : Format) (o : List Char) (e : Encoding)
    (c : Composite) :
    mergeConvert render f a sources = .saved g o e c ↔
      g = f ∧ o = outputFile f a ∧ e = {} ∧ ∃ images,
        List.Forall₂ (fun s i => render s t (a.dpmm.getD 100) = .ok i) sources images ∧
        composite (a.dpmm.getD 100) images = some c ∧ c.pasted.map (·.1) = images ∧ sources ≠ [] := by
  unfold mergeConvert
  cases h1 : checked .fileType (choice typeNames) a.fileType with
  | error r =>
    exfalso
    rw [checked_error] at h1
    obtain ⟨w, hw, h⟩ := h1.2
    rw [hw] at ht
    cases ht with
    | named l s =>
      refine h _ ?_ s
      rw [← names_eq]
      exact List.mem_map.mpr ⟨_, l, rfl⟩
  | ok w =>
    obtain ⟨u, hu, hu'⟩ := fileType_ok h1
    obtain rfl := asksType_unique hu ht
    cases h2 : checked .implementation (choice [f.backend]) a.implementation with
    | error r =>
      exfalso
      rw [checked_error, backend_eq] at h2
      exact hi h2.2
    | ok i =>
      simp only [hu' hn]
      have out : a.output.getD f.defaultOutput.toList = outputFile f a := by
        rcases hf with rfl | rfl <;> cases ho : a.output <;> simp only [outputFile, ho] <;> rfl
      cases h3 : renderAll render u (a.dpmm.getD 100) sources with
      | error x =>
        simp only [reduceCtorEq, false_iff]
        rintro ⟨-, -, -, images, h, -⟩
        rw [← renderAll_ok, h3] at h
        simp at h
      | ok images =>
        have h4 := (renderAll_ok render u _ _ _).mp h3
        simp only
        cases h5 : composite (a.dpmm.getD 100) images with
        | none =>
          simp only [reduceCtorEq, false_iff]
          rintro ⟨-, -, -, images', h, h', -⟩
          rw [← renderAll_ok, h3] at h
          simp only [Except.ok.injEq] at h
          subst h
          rw [h5] at h'
          simp at h'
        | some d =>
          have pasted : d.pasted.map (·.1) = images ∧ images ≠ [] := by
            cases images with
            | nil => simp [composite] at h5
            | cons j js =>
              simp only [composite, Option.some.injEq] at h5
              subst h5
              refine ⟨?_, by simp⟩
              simp only [List.map_map]
              exact List.map_id _
          simp only [Outcome.saved.injEq, out]
          constructor
          · rintro ⟨rfl, rfl, rfl, rfl⟩
            refine ⟨rfl, rfl, rfl, images, h4, h5, pasted.1, ?_⟩
            rintro rfl
            cases h4
            exact pasted.2 rfl
          · rintro ⟨rfl, rfl, rfl, images', h, h', -, -⟩
            rw [← renderAll_ok, h3] at h
            simp only [Except.ok.injEq] at h
            subst h
            rw [h5] at h'
            simp only [Option.some.injEq] at h'
            exact ⟨rfl, rfl, rfl, h'⟩

/-- The hypotheses are met: two sources. -/
example : (mergeConvert (E := Unit) (fun s _ _ => .ok ⟨.mm, 0, 0, s.length, 1⟩) .png { suffix := [] }
    ["a".toList, "bc".toList]) = .saved .png "output.png".toList {}
      ⟨200, 100, [(⟨.mm, 0, 0, 1, 1⟩, 0, 0), (⟨.mm, 0, 0, 2, 1⟩, 0, 0)]⟩ := by decide +kernel

/-- **C75 does not hold** for merging no sources: nothing is refused, the command fails with an exception. -/
theorem c75_false_no_sources {E : Type} (render : List Char → FileType → Nat → Except E SubImage) (f : Format) :
    mergeConvert render f { suffix := [] } [] = .failed .noSources := rfl

/-- **C75 does not hold** for `-t NON_PLATED`: the type is taken to be undefined, and the image has the colours of
undefined files. -/
theorem c75_false_non_plated : AsksType (some "non_plated".toList) .nonPlated ∧
    convert toyLibrary id .svg { suffix := ".gbr".toList, fileType := some "non_plated".toList } =
      .saved .svg "output.svg".toList {} (.image .mm 0 () (preset 19 61 145 0)) ∧
    (call (.renderShapely none) (GFile.create toyLibrary .nonPlated (.path ".gbr".toList))).1 =
      .ok (.image .mm 0 () (preset 117 117 117 0)) := by
  refine ⟨.named (name := "NON_PLATED") (by decide +kernel) (by unfold SameWord; decide +kernel), ?_, ?_⟩ <;> rfl

/-- **C75 does not hold** for the option named: a foreground that is not a colour is reported as a fault of
`--background`. -/
theorem c75_false_blamed :
    let a : Args := { suffix := [], style := some "CUSTOM".toList, foreground := some "green".toList,
                      background := some "#000000".toList }
    convert toyLibrary id .png a = .refused .background ∧ ¬ AtFault .png a .background := by
  refine ⟨rfl, ?_⟩
  rintro ⟨-, h⟩
  exact h _ ⟨0, 0, 0, 255⟩ rfl ((colourText_iff _ _).mp rfl)

end Verif.Props.Console
