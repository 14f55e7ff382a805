import Verif.Spec.Api
import Mathlib.Tactic.Tauto
import Mathlib.Data.List.Induction

/-!
# C50 and C52: file types, styles and caching in `GerberFile`
-/

namespace Verif.Props.GerberFile
open Verif.Api Verif.Spec
variable {env : Env}

/-! ### The caches -/

/-- What is cached is what would be computed with the current options. -/
structure Fresh (s : GFile env) : Prop where
  ast : ∀ a, s.ast = some a → env.parse s.popts = .ok a
  final : ∀ f, s.final = some f → ∃ a, env.parse s.popts = .ok a ∧ env.finalState a = .ok f
  rvmc : ∀ r, s.rvmc = some r → ∃ a, env.parse s.popts = .ok a ∧ env.compile s.copts a = .ok r

/-- The same settings; the caches and the file type may differ. -/
structure Same (s t : GFile env) : Prop where
  popts : t.popts = s.popts
  copts : t.copts = s.copts
  colorMap : t.colorMap = s.colorMap
  source : t.source = s.source

/-- The library's exceptions as exceptions of a method. -/
def lift {α : Type} : Except env.Err α → Except (Failure env.Err) α
  | .ok a => .ok a
  | .error e => .error (.lib e)

def thenE {α β E : Type} (x : Except E α) (f : α → Except E β) : Except E β :=
  match x with
  | .ok a => f a
  | .error e => .error e

/-- A method that computes `r` from the settings, keeps them and the file type, and keeps the caches right. -/
def Computes {α : Type} (m : Method env α) (s : GFile env) (r : Except (Failure env.Err) α) : Prop :=
  (m s).1 = r ∧ Same s (m s).2 ∧ (m s).2.fileType = s.fileType ∧ (Fresh (m s).2)

theorem Same.refl (s : GFile env) : Same s s := ⟨rfl, rfl, rfl, rfl⟩
theorem Same.trans {a b c : GFile env} (h : Same a b) (g : Same b c) : Same a c :=
  ⟨g.1.trans h.1, g.2.trans h.2, g.3.trans h.3, g.4.trans h.4⟩

theorem Computes.bind {α β : Type} {m : Method env α} {f : α → Method env β} {s : GFile env}
    {r : Except (Failure env.Err) α} {g : α → Except (Failure env.Err) β} (hm : Computes m s r)
    (hf : ∀ a t, r = .ok a → Same s t → t.fileType = s.fileType → Fresh t → Computes (f a) t (g a)) :
    Computes (m.bind f) s (thenE r g) := by
  obtain ⟨h1, h2, h3, h4⟩ := hm
  unfold Computes Method.bind
  rw [h1]
  cases hr : r with
  | error e => exact ⟨rfl, h2, h3, h4⟩
  | ok a =>
    obtain ⟨k1, k2, k3, k4⟩ := hf a (m s).2 hr h2 h3 h4
    exact ⟨k1, h2.trans k2, k3.trans h3, k4⟩

theorem computes_lib {α : Type} (r : Except env.Err α) (s : GFile env) (hs : Fresh s) :
    Computes (Method.lib r) s (lift r) := by
  cases r <;> exact ⟨rfl, .refl s, rfl, hs⟩

theorem computes_ret {α : Type} (a : α) (s : GFile env) (hs : Fresh s) : Computes (Method.ret a) s (.ok a) :=
  ⟨rfl, .refl s, rfl, hs⟩

theorem computes_getAst (s : GFile env) (hs : Fresh s) : Computes getAst s (lift (env.parse s.popts)) := by
  unfold Computes getAst
  cases ha : s.ast with
  | some a => exact ⟨by rw [hs.ast a ha]; rfl, .refl s, rfl, hs⟩
  | none =>
    cases hp : env.parse s.popts with
    | error e => exact ⟨rfl, .refl s, rfl, hs⟩
    | ok a =>
      exact ⟨rfl, ⟨rfl, rfl, rfl, rfl⟩, rfl, ⟨fun b hb => by rw [show s.popts = s.popts from rfl, hp]; simpa using hb,
        hs.final, hs.rvmc⟩⟩

/-- The final state under the current options. -/
def finalOf (env : Env) (o : env.POpt) : Except env.Err FinalState := thenE (env.parse o) env.finalState

theorem lift_thenE {α β : Type} (x : Except env.Err α) (f : α → Except env.Err β) :
    lift (thenE x f) = thenE (lift x) fun a => lift (f a) := by
  cases x <;> rfl

theorem lift_ok {α : Type} {x : Except env.Err α} {a : α} (h : (lift x : Except (Failure env.Err) α) = .ok a) : x = .ok a := by
  cases x <;> simp_all [lift]

theorem Computes.of_eq {α : Type} {m m' : Method env α} {s : GFile env} {r : Except (Failure env.Err) α}
    (h : m s = m' s) (hm : Computes m' s r) : Computes m s r := by
  unfold Computes at *; rw [h]; exact hm

theorem computes_const {α : Type} {m : Method env α} {s : GFile env} {r : Except (Failure env.Err) α}
    (h : m s = (r, s)) (hs : Fresh s) : Computes m s r := by
  unfold Computes; rw [h]; exact ⟨rfl, .refl s, rfl, hs⟩

theorem computes_final (s : GFile env) (hs : Fresh s) : Computes getFinalState s (lift (finalOf env s.popts)) := by
  cases hf : s.final with
  | some f =>
    obtain ⟨a, h1, h2⟩ := hs.final f hf
    refine computes_const ?_ hs
    simp only [getFinalState, hf, finalOf, thenE, h1, h2, lift]
  | none =>
    refine Computes.of_eq (m' := Method.bind getAst storeFinal) (by simp only [getFinalState, hf]) ?_
    rw [finalOf, lift_thenE]
    refine (computes_getAst s hs).bind ?_
    intro a t ha hst ht htf
    have hp := lift_ok ha
    unfold Computes storeFinal
    cases he : env.finalState a with
    | error e => exact ⟨rfl, .refl t, rfl, htf⟩
    | ok f =>
      refine ⟨rfl, ⟨rfl, rfl, rfl, rfl⟩, rfl, ⟨htf.ast, fun g hg => ⟨a, ?_, ?_⟩, htf.rvmc⟩⟩
      · show env.parse t.popts = _
        rw [hst.popts, hp]
      · rw [he]; simpa using hg

/-- The program under the current options. -/
def rvmcOf (env : Env) (o : env.POpt) (c : env.COpt) : Except env.Err env.Rvmc := thenE (env.parse o) (env.compile c)

theorem computes_rvmc (s : GFile env) (hs : Fresh s) : Computes getRvmc s (lift (rvmcOf env s.popts s.copts)) := by
  rw [rvmcOf, lift_thenE]
  refine (computes_getAst s hs).bind ?_
  intro a t ha hst ht htf
  have hp := lift_ok ha
  unfold Computes storeRvmc
  cases hr : t.rvmc with
  | some r =>
    obtain ⟨b, h1, h2⟩ := htf.rvmc r hr
    rw [hst.popts, hp] at h1
    rw [hst.copts] at h2
    simp only [Except.ok.injEq] at h1
    subst h1
    exact ⟨by rw [h2]; rfl, .refl t, rfl, htf⟩
  | none =>
    rw [hst.copts]
    cases he : env.compile s.copts a with
    | error e => exact ⟨rfl, .refl t, rfl, htf⟩
    | ok r =>
      refine ⟨rfl, ⟨rfl, hst.copts.symm, rfl, rfl⟩, rfl, ⟨htf.ast, htf.final, fun g hg => ⟨a, ?_, ?_⟩⟩⟩
      · show env.parse t.popts = _
        rw [hst.popts, hp]
      · show env.compile s.copts a = _
        rw [he]; simpa using hg

/-! ### The file type -/

/-- The type after looking at the suffix. -/
def byExtension (t : FileType) (src : Source) : FileType :=
  if t = .inferFromExtension ∨ t = .infer then (typeFromExtension t src).getD t else t

/-- The type after looking at the attributes. -/
def byAttributes (t : FileType) (r : Except env.Err FinalState) : Except env.Err FileType :=
  if t = .inferFromAttributes ∨ t = .infer then
    thenE r fun f => .ok (inferFromAttributes (f.fileFunction.map FileFunction.value))
  else .ok t

def resolved (env : Env) (t : FileType) (src : Source) (o : env.POpt) : Except env.Err FileType :=
  byAttributes (byExtension t src) (finalOf env o)

theorem typeFromExtension_some (t : FileType) (src : Source) (h : t = .inferFromExtension ∨ t = .infer) :
    typeFromExtension t src = some (byExtension t src) := by
  rw [byExtension, if_pos h]
  rcases h with rfl | rfl <;> cases src <;> simp only [typeFromExtension] <;> repeat' split
  all_goals first | rfl | simp_all

/-- No attribute asks for the type to be inferred. -/
theorem attributes_not_request (f : Option FileFunction) :
    ¬ isRequest (inferFromAttributes (f.map FileFunction.value)) := by
  cases f with
  | none => unfold isRequest; decide +kernel
  | some f => cases f <;> (unfold isRequest; decide +kernel)

/-- A suffix asks for the attributes to be looked at or gives a type. -/
theorem extension_not_request (suffix : List Char) :
    inferFromExtension suffix ≠ .infer ∧ inferFromExtension suffix ≠ .inferFromExtension := by
  unfold inferFromExtension
  split; · simp
  split; · simp
  split; · simp
  split
  · rename_i e he
    have := List.mem_of_find?_eq_some he
    revert this
    have : ∀ e ∈ extensionMap, e.2 ≠ .infer ∧ e.2 ≠ .inferFromExtension := by decide +kernel
    exact this e
  · simp

theorem byExtension_not_request (t : FileType) (src : Source) :
    byExtension t src ≠ .infer ∧ byExtension t src ≠ .inferFromExtension := by
  unfold byExtension
  split
  · rename_i h
    rcases h with rfl | rfl <;> cases src <;> simp only [typeFromExtension] <;> repeat' split
    all_goals first | exact extension_not_request _ | simp_all
  · rename_i h
    rw [not_or] at h
    exact ⟨h.2, h.1⟩

theorem byExtension_idem (t : FileType) (src : Source) : byExtension (byExtension t src) src = byExtension t src := by
  have h := byExtension_not_request t src
  generalize byExtension t src = u at h ⊢
  unfold byExtension
  rw [if_neg]
  rw [not_or]
  exact ⟨h.2, h.1⟩

theorem resolved_not_request {t : FileType} {src : Source} {o : env.POpt} {u : FileType}
    (h : resolved env t src o = .ok u) : ¬ isRequest u := by
  unfold resolved byAttributes at h
  split at h
  · cases hf : finalOf env o with
    | error e => rw [hf] at h; simp [thenE] at h
    | ok f =>
      rw [hf] at h
      simp only [thenE, Except.ok.injEq] at h
      subst h
      exact attributes_not_request _
  · rename_i hn
    simp only [Except.ok.injEq] at h
    subst h
    have := byExtension_not_request t src
    rw [not_or] at hn
    unfold isRequest
    tauto

theorem resolved_of_not_request {u : FileType} (src : Source) (o : env.POpt) (h : ¬ isRequest u) :
    resolved env u src o = .ok u := by
  unfold isRequest at h
  have : byExtension u src = u := by unfold byExtension; rw [if_neg]; tauto
  unfold resolved byAttributes
  rw [this, if_neg]
  tauto

theorem resolved_byExtension (t : FileType) (src : Source) (o : env.POpt) :
    resolved env (byExtension t src) src o = resolved env t src o := by
  unfold resolved; rw [byExtension_idem]

/-- How a call may change the type: not at all, by looking at the suffix, or by looking at the attributes too. -/
def TypeStep (s t : GFile env) : Prop :=
  t.fileType = s.fileType ∨ t.fileType = byExtension s.fileType s.source ∨
  resolved env s.fileType s.source s.popts = .ok t.fileType

/-- The style found for a type. -/
def lookup (m : Dict FileType env.Style) (t : FileType) : Except (Failure env.Err) env.Style :=
  match m.get? t with
  | some st => .ok st
  | none => .error (.keyError t)

/-- The style under the current settings. -/
def styleOf (s : GFile env) : Option env.Style → Except (Failure env.Err) env.Style
  | some st => .ok st
  | none => thenE (lift (resolved env s.fileType s.source s.popts)) (lookup s.colorMap)

theorem computes_attributes (s : GFile env) (hs : Fresh s) :
    Computes typeFromAttributes s
      (thenE (lift (finalOf env s.popts)) fun f => .ok (inferFromAttributes (f.fileFunction.map FileFunction.value))) :=
  (computes_final s hs).bind fun a t _ _ _ ht => computes_ret _ t ht

theorem Fresh.withType {s : GFile env} (h : Fresh s) (t : FileType) : Fresh { s with fileType := t } :=
  ⟨h.ast, h.final, h.rvmc⟩

/-- `_dispatch_style` computes the style from the settings. -/
theorem dispatch_spec (s : GFile env) (style : Option env.Style) (hs : Fresh s) :
    (dispatchStyle style s).1 = styleOf s style ∧ Same s (dispatchStyle style s).2 ∧
    Fresh (dispatchStyle style s).2 ∧ TypeStep s (dispatchStyle style s).2 := by
  cases style with
  | some st => exact ⟨rfl, .refl s, hs, .inl rfl⟩
  | none =>
    have first : useExtension s = (.ok ⟨⟩, { s with fileType := byExtension s.fileType s.source }) := by
      unfold useExtension
      split
      · rename_i h; rw [typeFromExtension_some _ _ h]
      · rename_i h; unfold byExtension; rw [if_neg h]
    have hs1 : Fresh { s with fileType := byExtension s.fileType s.source } := hs.withType _
    simp only [dispatchStyle, Method.bind]
    rw [first]
    simp only [useAttributes]
    by_cases hb : byExtension s.fileType s.source = .inferFromAttributes ∨ byExtension s.fileType s.source = .infer
    · rw [if_pos hb]
      obtain ⟨k1, k2, k3, k4⟩ := computes_attributes _ hs1
      simp only [Method.bind]
      rw [k1]
      cases hf : finalOf env s.popts with
      | error e =>
        simp only [thenE, lift]
        refine ⟨?_, ⟨k2.1, k2.2, k2.3, k2.4⟩, k4, .inr (.inl k3)⟩
        simp only [styleOf, resolved, byAttributes, if_pos hb, hf, thenE, lift]
      | ok f =>
        have hr : resolved env s.fileType s.source s.popts =
            .ok (inferFromAttributes (f.fileFunction.map FileFunction.value)) := by
          simp only [resolved, byAttributes, if_pos hb, hf, thenE]
        simp only [thenE, lift, styleOf, hr, lookup, lookupStyle, k2.colorMap]
        cases hm : Dict.get? s.colorMap (inferFromAttributes (f.fileFunction.map FileFunction.value)) with
        | some st => exact ⟨rfl, ⟨k2.1, k2.2, by first | rfl | exact k2.3, k2.4⟩, ⟨k4.ast, k4.final, k4.rvmc⟩, .inr (.inr hr)⟩
        | none => exact ⟨rfl, ⟨k2.1, k2.2, by first | rfl | exact k2.3, k2.4⟩, ⟨k4.ast, k4.final, k4.rvmc⟩, .inr (.inr hr)⟩
    · rw [if_neg hb]
      have hr : resolved env s.fileType s.source s.popts = .ok (byExtension s.fileType s.source) := by
        simp only [resolved, byAttributes, if_neg hb]
      simp only [styleOf, hr, lift, thenE, lookup, lookupStyle]
      cases hm : Dict.get? s.colorMap (byExtension s.fileType s.source) with
      | some st => exact ⟨rfl, ⟨rfl, rfl, rfl, rfl⟩, hs1, .inr (.inl rfl)⟩
      | none => exact ⟨rfl, ⟨rfl, rfl, rfl, rfl⟩, hs1, .inr (.inl rfl)⟩

theorem dispatch_bind {β : Type} (s : GFile env) (style : Option env.Style) (hs : Fresh s)
    {f : env.Style → Method env β} {g : env.Style → Except (Failure env.Err) β}
    (hf : ∀ st t, Same s t → Fresh t → Computes (f st) t (g st)) :
    ((Method.bind (dispatchStyle style) f) s).1 = thenE (styleOf s style) g ∧
    Same s ((Method.bind (dispatchStyle style) f) s).2 ∧ Fresh ((Method.bind (dispatchStyle style) f) s).2 ∧
    TypeStep s ((Method.bind (dispatchStyle style) f) s).2 := by
  obtain ⟨h1, h2, h3, h4⟩ := dispatch_spec s style hs
  unfold Method.bind
  rw [h1]
  cases hst : styleOf s style with
  | error e => exact ⟨rfl, h2, h3, h4⟩
  | ok st =>
    obtain ⟨k1, k2, k3, k4⟩ := hf st _ h2 h3
    refine ⟨k1, h2.trans k2, k4, ?_⟩
    unfold TypeStep at *
    rw [k3]; exact h4

/-- What a call answers, from the settings alone. -/
def answer (s : GFile env) : Call env → Except (Failure env.Err) (Answer env)
  | .renderPillow style dpmm =>
    thenE (styleOf s style) fun st => thenE (lift (rvmcOf env s.popts s.copts)) fun r =>
      thenE (lift (env.renderPillow r dpmm)) fun res => thenE (lift (finalOf env s.popts)) fun f =>
        .ok (.image f.unit dpmm res st)
  | .renderShapely style =>
    thenE (styleOf s style) fun st => thenE (lift (rvmcOf env s.popts s.copts)) fun r =>
      thenE (lift (env.renderShapely r)) fun res => thenE (lift (finalOf env s.popts)) fun f =>
        .ok (.image f.unit 0 res st)
  | .formats o =>
    thenE (lift (env.parse s.popts)) fun a => thenE (lift (env.format a o)) fun t => .ok (.text t)
  | .fileType => .ok (.type s.fileType)
  | _ => .ok .nothing

theorem call_answer (s : GFile env) (c : Call env) (hs : Fresh s) : (call c s).1 = answer s c := by
  cases c with
  | renderPillow style dpmm =>
    refine (dispatch_bind s style hs ?_).1
    intro st t hst ht
    rw [← hst.popts, ← hst.copts]
    refine (computes_rvmc t ht).bind fun r u _ hu _ hfu => ?_
    refine (computes_lib _ u hfu).bind fun res v _ hv _ hfv => ?_
    rw [← hu.popts, ← hv.popts]
    exact (computes_final v hfv).bind fun f w _ _ _ hw => computes_ret _ w hw
  | renderShapely style =>
    refine (dispatch_bind s style hs ?_).1
    intro st t hst ht
    rw [← hst.popts, ← hst.copts]
    refine (computes_rvmc t ht).bind fun r u _ hu _ hfu => ?_
    refine (computes_lib _ u hfu).bind fun res v _ hv _ hfv => ?_
    rw [← hu.popts, ← hv.popts]
    exact (computes_final v hfv).bind fun f w _ _ _ hw => computes_ret _ w hw
  | formats o =>
    exact ((computes_getAst s hs).bind fun a t _ _ _ ht =>
      (computes_lib _ t ht).bind fun x u _ _ _ hu => computes_ret _ u hu).1
  | _ => rfl

/-- What the setters set, and nothing else does. -/
structure Moves (c : Call env) (s t : GFile env) : Prop where
  popts : t.popts = (parserOptionsSet c).getD s.popts
  copts : t.copts = (compilerOptionsSet c).getD s.copts
  colorMap : t.colorMap = (colorMapSet c).getD s.colorMap
  source : t.source = s.source
  fresh : Fresh t
  type : TypeStep s t

theorem call_moves (s : GFile env) (c : Call env) (hs : Fresh s) : Moves c s (call c s).2 := by
  have of : ∀ t, Same s t → Fresh t → TypeStep s t → parserOptionsSet c = none → compilerOptionsSet c = none →
      colorMapSet c = none → Moves c s t := fun t h1 h2 h3 e1 e2 e3 =>
    ⟨by rw [e1]; exact h1.1, by rw [e2]; exact h1.2, by rw [e3]; exact h1.3, h1.4, h2, h3⟩
  cases c with
  | setParserOptions o => exact ⟨rfl, rfl, rfl, rfl, ⟨nofun, nofun, nofun⟩, .inl rfl⟩
  | setCompilerOptions o => exact ⟨rfl, rfl, rfl, rfl, ⟨nofun, nofun, nofun⟩, .inl rfl⟩
  | setColorMap m => exact ⟨rfl, rfl, rfl, rfl, ⟨hs.ast, hs.final, hs.rvmc⟩, .inl rfl⟩
  | renderPillow style dpmm =>
    have := (dispatch_bind s style hs (f := fun st => Method.bind getRvmc fun r =>
        Method.bind (Method.lib (env.renderPillow r dpmm)) fun res =>
          Method.bind getFinalState fun f => Method.ret (Answer.image f.unit dpmm res st))
        (g := fun st => thenE (lift (rvmcOf env s.popts s.copts)) fun r =>
      thenE (lift (env.renderPillow r dpmm)) fun res => thenE (lift (finalOf env s.popts)) fun f =>
        .ok (.image f.unit dpmm res st)) ?_)
    · exact of _ this.2.1 this.2.2.1 this.2.2.2 rfl rfl rfl
    · intro st t hst ht
      rw [← hst.popts, ← hst.copts]
      refine (computes_rvmc t ht).bind fun r u _ hu _ hfu => ?_
      refine (computes_lib _ u hfu).bind fun res v _ hv _ hfv => ?_
      rw [← hu.popts, ← hv.popts]
      exact (computes_final v hfv).bind fun f w _ _ _ hw => computes_ret _ w hw
  | renderShapely style =>
    have := (dispatch_bind s style hs (f := fun st => Method.bind getRvmc fun r =>
        Method.bind (Method.lib (env.renderShapely r)) fun res =>
          Method.bind getFinalState fun f => Method.ret (Answer.image f.unit 0 res st))
        (g := fun st => thenE (lift (rvmcOf env s.popts s.copts)) fun r =>
      thenE (lift (env.renderShapely r)) fun res => thenE (lift (finalOf env s.popts)) fun f =>
        .ok (.image f.unit 0 res st)) ?_)
    · exact of _ this.2.1 this.2.2.1 this.2.2.2 rfl rfl rfl
    · intro st t hst ht
      rw [← hst.popts, ← hst.copts]
      refine (computes_rvmc t ht).bind fun r u _ hu _ hfu => ?_
      refine (computes_lib _ u hfu).bind fun res v _ hv _ hfv => ?_
      rw [← hu.popts, ← hv.popts]
      exact (computes_final v hfv).bind fun f w _ _ _ hw => computes_ret _ w hw
  | formats o =>
    have := ((computes_getAst s hs).bind (f := fun a => Method.bind (Method.lib (env.format a o)) fun t =>
      Method.ret (Answer.text (env := env) t)) fun a t _ _ _ ht =>
      (computes_lib _ t ht).bind fun x u _ _ _ hu => computes_ret _ u hu)
    exact of _ this.2.1 this.2.2.2 (.inl this.2.2.1) rfl rfl rfl
  | fileType => exact of _ (.refl s) hs (.inl rfl) rfl rfl rfl

/-! ### Histories -/

theorem after_snoc (s : GFile env) (h : List (Call env)) (c : Call env) :
    after s (h ++ [c]) = (call c (after s h)).2 := by
  induction h generalizing s with
  | nil => rfl
  | cons d h ih => exact ih _

theorem lastSet_snoc {α β : Type} (pick : α → Option β) (i : β) (h : List α) (c : α) :
    lastSet pick i (h ++ [c]) = (pick c).getD (lastSet pick i h) := by
  unfold lastSet
  cases hp : pick c with
  | none => simp [List.filterMap_append, hp]
  | some b => simp [List.filterMap_append, hp]

/-- Where the type of the object can come from. -/
def TypeFrom (env : Env) (t0 : FileType) (src : Source) (used : List env.POpt) (t : FileType) : Prop :=
  t = t0 ∨ t = byExtension t0 src ∨ ∃ o ∈ used, resolved env t0 src o = .ok t

theorem TypeFrom.mono {t0 : FileType} {src : Source} {u v : List env.POpt} {t : FileType}
    (h : TypeFrom env t0 src u t) (huv : ∀ o ∈ u, o ∈ v) : TypeFrom env t0 src v t := by
  rcases h with h | h | ⟨o, ho, h⟩
  · exact .inl h
  · exact .inr (.inl h)
  · exact .inr (.inr ⟨o, huv o ho, h⟩)

theorem TypeFrom.byExtension {t0 : FileType} {src : Source} {u : List env.POpt} {t : FileType}
    (h : TypeFrom env t0 src u t) : TypeFrom env t0 src u (byExtension t src) := by
  rcases h with h | h | ⟨o, ho, h⟩
  · subst h; exact .inr (.inl rfl)
  · subst h; rw [byExtension_idem]; exact .inr (.inl rfl)
  · have hn := resolved_not_request h
    have : GerberFile.byExtension t src = t := by
      unfold isRequest at hn
      unfold GerberFile.byExtension; rw [if_neg]; tauto
    rw [this]; exact .inr (.inr ⟨o, ho, h⟩)

theorem TypeFrom.resolve {t0 : FileType} {src : Source} {used : List env.POpt} {t u : FileType} {o : env.POpt}
    (h : TypeFrom env t0 src used t) (ho : o ∈ used) (hr : resolved env t src o = .ok u) :
    TypeFrom env t0 src used u := by
  rcases h with h | h | ⟨p, hp, h⟩
  · subst h; exact .inr (.inr ⟨o, ho, hr⟩)
  · subst h; rw [resolved_byExtension] at hr; exact .inr (.inr ⟨o, ho, hr⟩)
  · rw [resolved_of_not_request src o (resolved_not_request h)] at hr
    simp only [Except.ok.injEq] at hr
    subst hr
    exact .inr (.inr ⟨p, hp, h⟩)

/-- The object after a history. -/
structure State (env : Env) (t : FileType) (src : Source) (h : List (Call env)) (s : GFile env) : Prop where
  popts : s.popts = lastSet parserOptionsSet env.noPOpt h
  copts : s.copts = lastSet compilerOptionsSet env.noCOpt h
  colorMap : s.colorMap = lastSet colorMapSet env.defaultMap h
  source : s.source = src
  fresh : Fresh s
  used : s.popts ∈ parserOptionsUsed h
  type : TypeFrom env (GFile.create env t src).fileType src (parserOptionsUsed h) s.fileType

theorem create_source (t : FileType) (src : Source) :
    (GFile.create env t src).source = src ∧ (GFile.create env t src).popts = env.noPOpt ∧
    (GFile.create env t src).copts = env.noCOpt ∧ (GFile.create env t src).colorMap = env.defaultMap ∧
    Fresh (GFile.create env t src) := by
  cases src <;> exact ⟨rfl, rfl, rfl, rfl, ⟨nofun, nofun, nofun⟩⟩

theorem state_after (env : Env) (t : FileType) (src : Source) (h : List (Call env)) :
    State env t src h (after (GFile.create env t src) h) := by
  induction h using List.reverseRecOn with
  | nil =>
    obtain ⟨h1, h2, h3, h4, h5⟩ := create_source (env := env) t src
    exact ⟨h2, h3, h4, h1, h5, by simp [after, h2, parserOptionsUsed], .inl rfl⟩
  | append_singleton h c ih =>
    rw [after_snoc]
    have m := call_moves _ c ih.fresh
    have sub : ∀ o ∈ parserOptionsUsed h, o ∈ parserOptionsUsed (h ++ [c]) := by
      intro o ho
      simp only [parserOptionsUsed, List.filterMap_append, List.mem_cons, List.mem_append] at ho ⊢
      tauto
    refine ⟨?_, ?_, ?_, m.source.trans ih.source, m.fresh, ?_, ?_⟩
    · rw [m.popts, lastSet_snoc, ih.popts]
    · rw [m.copts, lastSet_snoc, ih.copts]
    · rw [m.colorMap, lastSet_snoc, ih.colorMap]
    · rw [m.popts]
      cases hc : parserOptionsSet c with
      | none => exact sub _ ih.used
      | some o => simp [parserOptionsUsed, hc]
    · rcases m.type with hm | hm | hm
      · rw [hm]; exact ih.type.mono sub
      · rw [hm, ih.source]; exact ih.type.byExtension.mono sub
      · rw [ih.source] at hm
        exact (ih.type.resolve ih.used hm).mono sub

/-! ### The properties -/

theorem answer_congr (s t : GFile env) (c : Call env) (hc : c ≠ .fileType) (hst : Same s t)
    (hr : resolved env t.fileType t.source t.popts = resolved env s.fileType s.source s.popts) :
    answer t c = answer s c := by
  have hstyle : ∀ st, styleOf t st = styleOf s st := by
    intro st
    cases st with
    | some st => rfl
    | none => simp only [styleOf, hr, hst.colorMap]
  cases c with
  | renderPillow style dpmm => simp only [answer, hstyle, hst.popts, hst.copts]
  | renderShapely style => simp only [answer, hstyle, hst.popts, hst.copts]
  | formats o => simp only [answer, hst.popts]
  | fileType => exact absurd rfl hc
  | _ => rfl

theorem finalOf_declares {o : env.POpt} {f : FinalState} (h : finalOf env o = .ok f) : declares o f.fileFunction := by
  unfold finalOf thenE at h
  cases hp : env.parse o with
  | error e => rw [hp] at h; simp at h
  | ok a => rw [hp] at h; exact ⟨a, f, hp, h, rfl⟩

theorem declares_finalOf {o : env.POpt} {f : Option FileFunction} (h : declares o f) :
    ∃ s, finalOf env o = .ok s ∧ s.fileFunction = f := by
  obtain ⟨a, s, h1, h2, h3⟩ := h
  exact ⟨s, by simp only [finalOf, thenE, h1, h2], h3⟩

theorem attributes_used {t : FileType} {src : Source}
    (h : byExtension (GFile.create env t src).fileType src = .inferFromAttributes) : mayUseAttributes t src := by
  have ne := extension_not_request
  unfold mayUseAttributes
  cases src with
  | path suffix =>
    obtain ⟨n1, n2⟩ := ne suffix
    simp only [GFile.create, GFile.new] at h
    by_cases h1 : t = .inferFromExtension
    · subst h1
      simp only [if_true, if_neg n1] at h
      unfold byExtension at h
      rw [if_neg (by tauto)] at h
      exact .inr (.inr ⟨rfl, suffix, rfl, h⟩)
    · simp only [if_neg h1] at h
      by_cases h2 : t = .infer
      · subst h2
        simp only [if_true] at h
        refine .inr (.inl ⟨rfl, fun s hs => ?_⟩)
        injection hs with hs
        subst hs
        by_cases h3 : Verif.Api.inferFromExtension suffix = .undefined
        · exact .inl h3
        · rw [if_neg h3] at h
          unfold byExtension at h
          rw [if_neg (by tauto)] at h
          exact .inr h
      · simp only [if_neg h2] at h
        unfold byExtension at h
        rw [if_neg (by tauto)] at h
        exact .inl h
  | _ =>
    simp only [GFile.create, GFile.new] at h
    by_cases h1 : t = .inferFromExtension
    · subst h1; simp [byExtension] at h
    · rw [if_neg h1] at h
      by_cases h2 : t = .infer
      · exact .inr (.inl ⟨h2, nofun⟩)
      · unfold byExtension at h
        rw [if_neg (by tauto)] at h
        exact .inl h

/-- **C52** (partial: the type of the file does not depend on its attributes, or the attribute read under the parser
options in force is the same as under every parser option used before; and not the property `file_type`). After any
history of option changes, renderings and formattings, successful or failed, every call returns, or raises, what it
would with a new object that has been given the current options.
Missing: both provisos (`c52_false_remembered_type`, `c52_false_file_type`). -/
theorem c52_transparent_partial (env : Env) (t : FileType) (src : Source) (h : List (Call env)) (c : Call env)
    (hc : c ≠ .fileType)
    (hattr : ¬ mayUseAttributes t src ∨ ∀ o ∈ parserOptionsUsed h, ∀ f, declares o f →
      declares (lastSet parserOptionsSet env.noPOpt h) f) :
    (call c (after (GFile.create env t src) h)).1 = (call c (newObject env t src h)).1 := by
  have st := state_after env t src h
  obtain ⟨c1, c2, c3, c4, c5⟩ := create_source (env := env) t src
  have nf : Fresh (newObject env t src h) := by
    unfold newObject
    cases src <;> exact ⟨nofun, nofun, nofun⟩
  rw [call_answer _ c st.fresh, call_answer _ c nf]
  symm
  apply answer_congr _ _ c hc
  · exact ⟨st.popts.symm, st.copts.symm, st.colorMap.symm, by rw [st.source]; exact c1⟩
  · rw [st.source, st.popts]
    have e : ∀ u, resolved env (newObject env t src h).fileType (newObject env t src h).source
        (newObject env t src h).popts = u ↔ resolved env (GFile.create env t src).fileType src
          (lastSet parserOptionsSet env.noPOpt h) = u := by
      intro u; rw [show (newObject env t src h).source = src from c1]; rfl
    rw [e]
    rcases st.type with k | k | ⟨o, ho, k⟩
    · rw [k]
    · rw [k, resolved_byExtension]
    · rw [resolved_of_not_request src _ (resolved_not_request k)]
      unfold resolved byAttributes at k ⊢
      split
      · rename_i hb
        rw [if_pos hb] at k
        have hb' : byExtension (GFile.create env t src).fileType src = .inferFromAttributes := by
          rcases hb with hb | hb
          · exact hb
          · exact absurd hb (byExtension_not_request _ _).1
        rcases hattr with hattr | hattr
        · exact absurd (attributes_used hb') hattr
        · cases hf : finalOf env o with
          | error e => rw [hf] at k; simp [thenE] at k
          | ok f =>
            rw [hf] at k
            simp only [thenE, Except.ok.injEq] at k
            obtain ⟨g, hg, hgf⟩ := declares_finalOf (hattr o ho _ (finalOf_declares hf))
            rw [hg]
            simp only [thenE, hgf, k]
      · rename_i hb
        rw [if_neg hb] at k
        exact k

/-- A parser with one option, on which the declared file function depends. -/
def toy : Env :=
  { POpt := Bool, COpt := PUnit, FOpt := PUnit, Ast := Bool, Rvmc := Bool, Result := Bool, Style := Preset, Err := PUnit
    parse := fun o => .ok o
    finalState := fun a => .ok ⟨some (if a then .copper else .profile), .mm⟩
    compile := fun _ a => .ok a
    renderPillow := fun r _ => .ok r
    renderShapely := fun r => .ok r
    format := fun a _ => .ok (if a then ['a'] else ['b'])
    noPOpt := false, noCOpt := ⟨⟩, defaultMap := defaultAlphaColorMap }

example : ¬ mayUseAttributes .copper .string := by unfold mayUseAttributes; simp

example : (call (.renderShapely none) (after (GFile.create toy .copper .string)
    [.renderShapely none, .setParserOptions true])).1 = .ok (.image .mm 0 true .copperAlpha) := rfl

/-- **C52** is false: the type inferred from the attributes is remembered when the parser options change, and the
file is rendered with the style of the old type. -/
theorem c52_false_remembered_type :
    (call (.renderShapely none) (after (GFile.create toy .infer .string)
      [.renderShapely none, .setParserOptions true])).1 = .ok (.image .mm 0 true .silkAlpha) ∧
    (call (.renderShapely none) (newObject toy .infer .string
      [.renderShapely none, .setParserOptions true])).1 = .ok (.image .mm 0 true .copperAlpha) := by
  constructor <;> rfl

/-- **C52** is false for the property `file_type`: rendering changes it. -/
theorem c52_false_file_type :
    (call .fileType (after (GFile.create toy .infer .string) [.renderShapely none])).1 = .ok (.type .profile) ∧
    (call .fileType (newObject toy .infer .string [.renderShapely none])).1 = .ok (.type .infer) := by
  constructor <;> rfl

theorem lift_error {α : Type} {x : Except env.Err α} {e : Failure env.Err} (h : lift x = .error e) : ∃ y, e = .lib y := by
  cases x with
  | ok a => simp [lift] at h
  | error y => simp only [lift, Except.error.injEq] at h; exact ⟨y, h.symm⟩

theorem thenE_error {α β E : Type} {x : Except E α} {f : α → Except E β} {e : E} (h : thenE x f = .error e) :
    x = .error e ∨ ∃ a, x = .ok a ∧ f a = .error e := by
  cases x with
  | ok a => exact .inr ⟨a, rfl, h⟩
  | error y => simp only [thenE, Except.error.injEq] at h; exact .inl (by rw [h])

/-- The only failure of a call that is not raised by the rest of the library is a missing style of a type that is
not a request. -/
theorem failure (s : GFile env) (c : Call env) (e : Failure env.Err) (h : answer s c = .error e) :
    (∃ x, e = .lib x) ∨ ∃ u, e = .keyError u ∧ ¬ isRequest u ∧ s.colorMap.get? u = none := by
  have hstyle : ∀ st, styleOf s st = .error e →
      (∃ x, e = .lib x) ∨ ∃ u, e = .keyError u ∧ ¬ isRequest u ∧ s.colorMap.get? u = none := by
    intro st hs
    cases st with
    | some st => simp [styleOf] at hs
    | none =>
      rcases thenE_error hs with h | ⟨u, h1, h2⟩
      · exact .inl (lift_error h)
      · right
        refine ⟨u, ?_, resolved_not_request (lift_ok h1), ?_⟩
        all_goals
          unfold lookup at h2
          cases hm : Dict.get? s.colorMap u <;> rw [hm] at h2 <;> simp at h2
          try exact h2.symm
  have tail : ∀ {α β : Type} {x : Except env.Err α} {f : α → Except (Failure env.Err) β},
      thenE (lift x) f = .error e → (∃ y, e = .lib y) ∨ ∃ a, f a = .error e := by
    intro α β x f hx
    rcases thenE_error hx with h | ⟨a, -, h⟩
    · exact .inl (lift_error h)
    · exact .inr ⟨a, h⟩
  cases c with
  | renderPillow style dpmm =>
    rcases thenE_error h with h | ⟨st, -, h⟩
    · exact hstyle _ h
    rcases tail h with h | ⟨r, h⟩
    · exact .inl h
    rcases tail h with h | ⟨r, h⟩
    · exact .inl h
    rcases tail h with h | ⟨r, h⟩
    · exact .inl h
    simp at h
  | renderShapely style =>
    rcases thenE_error h with h | ⟨st, -, h⟩
    · exact hstyle _ h
    rcases tail h with h | ⟨r, h⟩
    · exact .inl h
    rcases tail h with h | ⟨r, h⟩
    · exact .inl h
    rcases tail h with h | ⟨r, h⟩
    · exact .inl h
    simp at h
  | formats o =>
    rcases tail h with h | ⟨r, h⟩
    · exact .inl h
    rcases tail h with h | ⟨r, h⟩
    · exact .inl h
    simp at h
  | _ => simp [answer] at h

/-- **C50** for the default colour map. For every requested file type, every source and every history of calls, with
a colour map that has the entries of `DEFAULT_COLOR_MAP` in force no call fails because of a missing style (or for
another reason inside `GerberFile`): all failures come from parsing, executing, compiling and rendering. -/
theorem c50_default_map (env : Env) (t : FileType) (src : Source) (h : List (Call env)) (c : Call env)
    (hm : (lastSet colorMapSet env.defaultMap h).keys = defaultColorMap.keys) (e : Failure env.Err)
    (he : (call c (after (GFile.create env t src) h)).1 = .error e) : ∃ x, e = .lib x := by
  have st := state_after env t src h
  rw [call_answer _ c st.fresh] at he
  rcases failure _ c e he with h | ⟨u, -, hu, hn⟩
  · exact h
  · rw [st.colorMap, Dict.get?_eq_none_iff, hm] at hn
    exfalso
    unfold isRequest at hu
    revert hu hn
    cases u <;> decide +kernel

/-- **C50** (partial: `DEFAULT_ALPHA_COLOR_MAP`, which new objects have). The only style that can be missing is that
of drill maps.  Missing: drill maps (`c50_false_drillmap`). -/
theorem c50_alpha_map_partial (env : Env) (t : FileType) (src : Source) (h : List (Call env)) (c : Call env)
    (hm : (lastSet colorMapSet env.defaultMap h).keys = defaultAlphaColorMap.keys) (e : Failure env.Err)
    (he : (call c (after (GFile.create env t src) h)).1 = .error e) : (∃ x, e = .lib x) ∨ e = .keyError .drillmap := by
  have st := state_after env t src h
  rw [call_answer _ c st.fresh] at he
  rcases failure _ c e he with h | ⟨u, hu, hr, hn⟩
  · exact .inl h
  · right
    rw [st.colorMap, Dict.get?_eq_none_iff, hm] at hn
    have key : ¬ (u = .infer ∨ u = .inferFromExtension ∨ u = .inferFromAttributes) →
        u ∉ defaultAlphaColorMap.keys → u = .drillmap := by cases u <;> decide +kernel
    rw [hu, key hr hn]

example : (lastSet colorMapSet toy.defaultMap []).keys = defaultAlphaColorMap.keys := rfl
example : (lastSet colorMapSet toy.defaultMap [.setColorMap defaultColorMap]).keys = defaultColorMap.keys := rfl

/-- **C50** is false for the map new objects have: a file that declares itself a drill map cannot be rendered without
an explicit style. -/
theorem c50_false_drillmap :
    (call (.renderShapely none) (GFile.create
      { toy with finalState := fun _ => .ok ⟨some .drillmap, .mm⟩ } .infer .string)).1 =
      .error (.keyError .drillmap) := rfl

end Verif.Props.GerberFile
