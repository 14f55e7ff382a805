import Verif.Spec.History
import Mathlib.Data.List.TakeWhile
import Mathlib.Data.List.Induction

/-!
# Lemmas about the state tracking visitor
-/

namespace Verif.Visitor
open Verif.Spec Verif.Coord

@[simp] theorem Out.andThen_ok (s : VState) (ev) (f) :
    (Out.ok s ev).andThen f = ⟨(f s).st, ev ++ (f s).ev, (f s).exn⟩ := rfl

@[simp] theorem Out.andThen_fail (s : VState) (e) (f) : (Out.fail s e).andThen f = Out.fail s e := rfl

theorem Out.andThen_exn_none {a : Out} {f} : (a.andThen f).exn = none ↔ a.exn = none ∧ (f a.st).exn = none := by
  unfold Out.andThen
  cases h : a.exn <;> simp

theorem Out.andThen_of_none {a : Out} {f} (h : a.exn = none) :
    a.andThen f = ⟨(f a.st).st, a.ev ++ (f a.st).ev, (f a.st).exn⟩ := by
  unfold Out.andThen; rw [h]

theorem Out.andThen_of_some {a : Out} {f} {e} (h : a.exn = some e) : a.andThen f = a := by
  unfold Out.andThen; rw [h]; cases a; simp_all

theorem Out.andThen_assoc (a : Out) (f g) : (a.andThen f).andThen g = a.andThen fun s => (f s).andThen g := by
  cases h : a.exn with
  | none =>
    rw [andThen_of_none h, andThen_of_none h]
    cases h2 : (f a.st).exn with
    | none => rw [andThen_of_none (by simp), andThen_of_none h2]; simp
    | some e => rw [andThen_of_some (e := e) (by simp), andThen_of_some h2]; simp [h2]
  | some e => rw [andThen_of_some h, andThen_of_some h, andThen_of_some h]

theorem Out.andThen_ok' (a : Out) : a.andThen (fun s => Out.ok s) = a := by
  cases h : a.exn with
  | none => rw [andThen_of_none h]; cases a; simp_all [Out.ok]
  | some e => exact andThen_of_some h

theorem run_append (s : VState) (as bs : List Atom) :
    run s (as ++ bs) = (run s as).andThen fun s => run s bs := by
  induction as generalizing s with
  | nil => simp [run]
  | cons a as ih =>
    simp only [List.cons_append, run]
    rw [Out.andThen_assoc]
    congr 1
    funext s
    exact ih s

theorem run_singleton (s : VState) (a : Atom) : run s [a] = step s a := by
  simp only [run]
  exact Out.andThen_ok' _

theorem run_snoc (s : VState) (as : List Atom) (a : Atom) :
    run s (as ++ [a]) = (run s as).andThen fun s => step s a := by
  rw [run_append]; congr 1; funext s; exact run_singleton s a

theorem run_snoc_none {s : VState} {as : List Atom} {a : Atom} :
    (run s (as ++ [a])).exn = none ↔ (run s as).exn = none ∧ (step (run s as).st a).exn = none := by
  rw [run_snoc, Out.andThen_exn_none]

theorem run_append_none {s : VState} {as bs : List Atom} :
    (run s (as ++ bs)).exn = none ↔ (run s as).exn = none ∧ (run (run s as).st bs).exn = none := by
  rw [run_append, Out.andThen_exn_none]

theorem run_append_st {s : VState} {as bs : List Atom} (h : (run s as).exn = none) :
    (run s (as ++ bs)).st = (run (run s as).st bs).st := by
  rw [run_append, Out.andThen_of_none h]

theorem run_snoc_st {s : VState} {as : List Atom} {a : Atom} (h : (run s as).exn = none) :
    (run s (as ++ [a])).st = (step (run s as).st a).st := by
  rw [run_snoc, Out.andThen_of_none h]

theorem run_snoc_ev {s : VState} {as : List Atom} {a : Atom} (h : (run s as).exn = none) :
    (run s (as ++ [a])).ev = (run s as).ev ++ (step (run s as).st a).ev := by
  rw [run_snoc, Out.andThen_of_none h]

/-- Reasoning about all completed histories, adding one command at a time at the end. -/
theorem history_induction {P : List Atom → Prop} (nil : P [])
    (snoc : ∀ h a, (run {} h).exn = none → (step (run {} h).st a).exn = none → P h → P (h ++ [a])) :
    ∀ h, (run {} h).exn = none → P h := by
  intro h
  induction h using List.reverseRecOn with
  | nil => intro _; exact nil
  | append_singleton h a ih =>
    intro hr
    obtain ⟨h1, h2⟩ := run_snoc_none.1 hr
    exact snoc h a h1 h2 (ih h1)

@[simp] theorem latest_nil {α} (f : Atom → Option α) (d : α) : latest f d [] = d := rfl

theorem latest_snoc {α} (f : Atom → Option α) (d : α) (h : List Atom) (a : Atom) :
    latest f d (h ++ [a]) = (f a).getD (latest f d h) := by
  unfold latest
  rw [List.filterMap_append]
  cases hf : f a <;> simp [hf]

theorem latest_append_of_none {α} (f : Atom → Option α) (d : α) (h post : List Atom) (hp : ∀ a ∈ post, f a = none) :
    latest f d (h ++ post) = latest f d h := by
  unfold latest
  rw [List.filterMap_append]
  have : post.filterMap f = [] := by simpa [List.filterMap_eq_nil_iff] using hp
  simp [this]

theorem latest_mid {α} (f : Atom → Option α) (d : α) (h post : List Atom) (a : Atom) {v} (ha : f a = some v)
    (hp : ∀ a ∈ post, f a = none) : latest f d (h ++ a :: post) = v := by
  rw [show h ++ a :: post = (h ++ [a]) ++ post by simp, latest_append_of_none f d _ _ hp, latest_snoc, ha]
  rfl

/-! ## Nested visiting is a flat run -/

mutual
theorem visit_eq_run (s : VState) : (c : Cmd) → visit s c = run s (atomsOf c)
  | .leaf l => by
    show stepLeaf s l = run s [.leaf l]
    rw [run_singleton]; rfl
  | .ab id body => by
    simp only [visit, atomsOf, run]
    rw [Out.andThen_assoc]
    congr 1; funext s
    rw [run_append, visitAll_eq_run]
    simp only [run_singleton]
  | .sr p body => by
    simp only [visit, atomsOf, run]
    rw [Out.andThen_assoc]
    congr 1; funext s
    rw [run_append, visitAll_eq_run]
    simp only [run_singleton]
theorem visitAll_eq_run (s : VState) : (cs : List Cmd) → visitAll s cs = run s (atomsOfAll cs)
  | [] => rfl
  | c :: cs => by
    simp only [visitAll, atomsOfAll]
    rw [run_append, visit_eq_run s c]
    congr 1; funext s
    exact visitAll_eq_run s cs
end

theorem coordinate_exn (a put t s) : (coordinate a put t s).exn ≠ some .programStop := by
  unfold coordinate
  repeat' split
  all_goals simp [Out.ok, Out.fail]

theorem andThen_exn_ne {o : Out} {f} {e : Exn} (ho : o.exn ≠ some e) (hf : ∀ s, (f s).exn ≠ some e) :
    (o.andThen f).exn ≠ some e := by
  unfold Out.andThen
  cases h : o.exn with
  | none => exact hf _
  | some e' => rw [h] at ho; exact ho

theorem currentAperture_exn (s : VState) {e} (h : s.currentAperture = .error e) : e ≠ .programStop := by
  unfold VState.currentAperture at h
  repeat' split at h
  all_goals cases h; try simp

theorem step_exn_stop {s : VState} {a : Atom} (ha : isStop a = false) : (step s a).exn ≠ some .programStop := by
  have hxy : ∀ x y s, (visitXY x y s).exn ≠ some .programStop := fun x y s =>
    andThen_exn_ne (coordinate_exn _ _ _ _) (fun s => coordinate_exn _ _ _ _)
  have hij : ∀ x y s, (visitIJ x y s).exn ≠ some .programStop := fun x y s =>
    andThen_exn_ne (coordinate_exn _ _ _ _) (fun s => coordinate_exn _ _ _ _)
  cases a with
  | leaf l =>
    cases l <;> try (simp [step, stepLeaf, Out.ok]; done)
    case td n => cases n <;> simp [step, stepLeaf, Out.ok]
    case d01 x y i j =>
      exact andThen_exn_ne (andThen_exn_ne (hxy _ _ _) (fun s => hij _ _ _)) (fun s => by simp [Out.ok])
    case d02 x y => exact andThen_exn_ne (hxy _ _ _) (fun s => by simp [Out.ok])
    case d03 x y =>
      refine andThen_exn_ne (hxy _ _ _) (fun s => ?_)
      unfold flashCurrent
      split
      · rename_i e he; simpa [Out.fail] using currentAperture_exn _ he
      · split <;> simp [Out.ok, Out.fail]
    case dnn id =>
      simp only [step, stepLeaf]
      split
      · rename_i e he; simpa [Out.fail] using currentAperture_exn _ he
      · simp [Out.ok]
    case m00 => simp [isStop] at ha
    case m02 => simp [isStop] at ha
  | _ => simp [step, Out.ok]

theorem step_stop {s : VState} {a : Atom} (ha : isStop a = true) : step s a = Out.fail s .programStop := by
  cases a with
  | leaf l => cases l <;> first | rfl | simp [isStop] at ha
  | _ => simp [isStop] at ha

theorem run_exn_stop {s : VState} {as : List Atom} (h : ∀ a ∈ as, isStop a = false) :
    (run s as).exn ≠ some .programStop := by
  induction as generalizing s with
  | nil => simp [run, Out.ok]
  | cons a as ih =>
    exact andThen_exn_ne (step_exn_stop (h a (by simp))) (fun s => ih (fun b hb => h b (by simp [hb])))

theorem onFile_eq_run (ignore : Bool) (s : VState) (cs : List Cmd) :
    onFile ignore s cs = run s (executed (!ignore) cs) := by
  induction cs generalizing s with
  | nil => rfl
  | cons c cs ih =>
    simp only [onFile, executed, visit_eq_run]
    by_cases hs : (atomsOf c).any isStop = true
    · rw [if_pos hs]
      set pre := (atomsOf c).takeWhile (fun a => !isStop a) with hpre
      have hpn : ∀ a ∈ pre, isStop a = false := by
        intro a ha
        have := List.mem_takeWhile_imp (hpre ▸ ha)
        simpa using this
      obtain ⟨z, post, hdrop, hz⟩ : ∃ z post, (atomsOf c).dropWhile (fun a => !isStop a) = z :: post ∧ isStop z = true := by
        cases hd : (atomsOf c).dropWhile (fun a => !isStop a) with
        | nil =>
          rw [List.dropWhile_eq_nil_iff] at hd
          obtain ⟨a, ha, h2⟩ := List.any_eq_true.1 hs
          have := hd a ha
          rw [h2] at this; simp at this
        | cons z post =>
          refine ⟨z, post, rfl, ?_⟩
          have := List.head?_dropWhile_not (fun a => !isStop a) (atomsOf c)
          rw [hd] at this
          simpa using this
      have hsplit : atomsOf c = pre ++ z :: post := by
        rw [← hdrop]; exact List.takeWhile_append_dropWhile.symm
      have hrun : run s (atomsOf c) = (run s pre).andThen fun s => Out.fail s .programStop := by
        rw [hsplit, run_append]
        congr 1; funext s
        simp only [run, step_stop hz]; rfl
      rw [hrun]
      cases hp : (run s pre).exn with
      | none =>
        rw [Out.andThen_of_none hp, run_append, Out.andThen_of_none hp]
        cases ignore with
        | true => simp [Out.fail, run, Out.ok]
        | false => simp [Out.fail, ih]
      | some e =>
        rw [Out.andThen_of_some hp, run_append, Out.andThen_of_some hp, hp]
        have hne := run_exn_stop (s := s) hpn
        rw [hp] at hne
        cases e <;> first | (exfalso; exact hne rfl) | (show (⟨(run s pre).st, (run s pre).ev, some _⟩ : Out) = _; rw [← hp])
    · rw [if_neg hs, run_append]
      have hn : ∀ a ∈ atomsOf c, isStop a = false := by
        intro a ha
        simp only [List.any_eq_true, not_exists, not_and] at hs
        simpa using hs a ha
      have hne := run_exn_stop (s := s) hn
      cases hp : (run s (atomsOf c)).exn with
      | none => rw [Out.andThen_of_none hp]; simp [ih]
      | some e =>
        rw [Out.andThen_of_some hp]
        rw [hp] at hne
        cases e <;> first | (exfalso; exact hne rfl) | (show (⟨(run s (atomsOf c)).st, (run s (atomsOf c)).ev, some _⟩ : Out) = _; rw [← hp])

/-! ## What a step leaves alone -/

theorem coordinate_none {a put t s} (h : (coordinate a put t s).exn = none) :
    (t = none ∧ coordinate a put t s = .ok s) ∨
      ∃ txt f v, t = some txt ∧ s.format = some f ∧ f.unpack a txt = .ok v ∧ coordinate a put t s = .ok (put v s) := by
  unfold coordinate at h ⊢
  cases t with
  | none => left; exact ⟨rfl, rfl⟩
  | some txt =>
    right
    cases hf : s.format with
    | none => simp [hf, Out.fail] at h
    | some f =>
      simp only [hf] at h ⊢
      cases hu : f.unpack a txt with
      | ok v => exact ⟨txt, f, v, rfl, rfl, hu, rfl⟩
      | error e => simp [hu, Out.fail] at h

/-- The new value of a coordinate register. -/
def newCoord (a : Axis) (s : VState) (t : Option (List Char)) (old : Option ℚ) : Option ℚ :=
  match t, s.format with
  | some txt, some f => match f.unpack a txt with
    | .ok v => some v
    | .error _ => old
  | _, _ => old

/-- State after the coordinates `X`, `Y` of a command. -/
def withXY (s : VState) (x y : Option (List Char)) : VState :=
  { s with coordX := newCoord .x s x s.coordX, coordY := newCoord .y s y s.coordY }

/-- State after the coordinates `I`, `J` of a command. -/
def withIJ (s : VState) (i j : Option (List Char)) : VState :=
  { s with coordI := newCoord .x s i s.coordI, coordJ := newCoord .y s j s.coordJ }

theorem visitXY_ok {x y s} (h : (visitXY x y s).exn = none) : visitXY x y s = .ok (withXY s x y) := by
  unfold visitXY at h ⊢
  obtain ⟨h1, h2⟩ := Out.andThen_exn_none.1 h
  rcases coordinate_none h1 with ⟨rfl, e1⟩ | ⟨t1, f1, v1, rfl, hf1, hu1, e1⟩
  · rw [e1] at h2 ⊢
    change (coordinate _ _ _ s).exn = none at h2
    simp only [Out.andThen_ok, List.nil_append]
    rcases coordinate_none h2 with ⟨rfl, e2⟩ | ⟨t2, f2, v2, rfl, hf2, hu2, e2⟩
    · rw [e2]; rfl
    · rw [e2]; simp [Out.ok, withXY, newCoord, VState.putY, hf2, hu2]
  · rw [e1] at h2 ⊢
    change (coordinate _ _ _ (s.putX v1)).exn = none at h2
    simp only [Out.andThen_ok, List.nil_append]
    rcases coordinate_none h2 with ⟨rfl, e2⟩ | ⟨t2, f2, v2, rfl, hf2, hu2, e2⟩
    · rw [e2]; simp [Out.ok, withXY, newCoord, VState.putX, hf1, hu1]
    · have hf2' : s.format = some f2 := hf2
      rw [e2]; simp_all [Out.ok, withXY, newCoord, VState.putX, VState.putY]

theorem visitIJ_ok {x y s} (h : (visitIJ x y s).exn = none) : visitIJ x y s = .ok (withIJ s x y) := by
  unfold visitIJ at h ⊢
  obtain ⟨h1, h2⟩ := Out.andThen_exn_none.1 h
  rcases coordinate_none h1 with ⟨rfl, e1⟩ | ⟨t1, f1, v1, rfl, hf1, hu1, e1⟩
  · rw [e1] at h2 ⊢
    change (coordinate _ _ _ s).exn = none at h2
    simp only [Out.andThen_ok, List.nil_append]
    rcases coordinate_none h2 with ⟨rfl, e2⟩ | ⟨t2, f2, v2, rfl, hf2, hu2, e2⟩
    · rw [e2]; rfl
    · rw [e2]; simp [Out.ok, withIJ, newCoord, VState.putJ, hf2, hu2]
  · rw [e1] at h2 ⊢
    change (coordinate _ _ _ (s.putI v1)).exn = none at h2
    simp only [Out.andThen_ok, List.nil_append]
    rcases coordinate_none h2 with ⟨rfl, e2⟩ | ⟨t2, f2, v2, rfl, hf2, hu2, e2⟩
    · rw [e2]; simp [Out.ok, withIJ, newCoord, VState.putI, hf1, hu1]
    · have hf2' : s.format = some f2 := hf2
      rw [e2]; simp_all [Out.ok, withIJ, newCoord, VState.putI, VState.putJ]

theorem step_d01 {s x y i j} (h : (step s (.leaf (.d01 x y i j))).exn = none) :
    step s (.leaf (.d01 x y i j)) =
      .ok (withIJ (withXY s x y) i j).updateCoordinates
        [.draw s.drawHandler.1 s.drawHandler.2 (withIJ (withXY s x y) i j)] := by
  simp only [step, stepLeaf] at h ⊢
  obtain ⟨h1, _⟩ := Out.andThen_exn_none.1 h
  obtain ⟨h2, h3⟩ := Out.andThen_exn_none.1 h1
  rw [visitXY_ok h2] at h3 ⊢
  change (visitIJ i j (withXY s x y)).exn = none at h3
  simp only [Out.andThen_ok, List.nil_append]
  rw [visitIJ_ok h3]
  rfl

theorem step_d02 {s x y} (h : (step s (.leaf (.d02 x y))).exn = none) :
    step s (.leaf (.d02 x y)) =
      .ok (withXY s x y).updateCoordinates
        (if (withXY s x y).updateCoordinates.isRegion then [.flushRegion (withXY s x y).updateCoordinates] else []) := by
  simp only [step, stepLeaf] at h ⊢
  obtain ⟨h1, _⟩ := Out.andThen_exn_none.1 h
  rw [visitXY_ok h1]
  rfl

theorem flashCurrent_none {s : VState} (h : (flashCurrent s).exn = none) :
    ∃ ap k, s.currentAperture = .ok ap ∧ s.flashHandler = some k ∧
      flashCurrent s = .ok s.updateCoordinates [.flash k ap s] := by
  unfold flashCurrent at h ⊢
  cases hca : s.currentAperture with
  | error e => rw [hca] at h; simp [Out.fail] at h
  | ok ap =>
    cases hfh : s.flashHandler with
    | none => rw [hca, hfh] at h; simp [Out.fail] at h
    | some k => exact ⟨ap, k, rfl, rfl, rfl⟩

theorem step_d03 {s x y} (h : (step s (.leaf (.d03 x y))).exn = none) :
    ∃ ap k, s.currentAperture = .ok ap ∧ s.flashHandler = some k ∧
    step s (.leaf (.d03 x y)) = .ok (withXY s x y).updateCoordinates [.flash k ap (withXY s x y)] := by
  simp only [step, stepLeaf] at h ⊢
  obtain ⟨h1, h2⟩ := Out.andThen_exn_none.1 h
  rw [visitXY_ok h1] at h2 ⊢
  change (flashCurrent (withXY s x y)).exn = none at h2
  obtain ⟨ap, k, e1, e2, e3⟩ := flashCurrent_none h2
  refine ⟨ap, k, e1, e2, ?_⟩
  simp only [Out.andThen_ok, List.nil_append, e3]

theorem updateCoordinates_eq (s : VState) :
    s.updateCoordinates = { s with currentX := s.coordinateX, currentY := s.coordinateY } := by
  unfold VState.updateCoordinates VState.coordinateX VState.coordinateY
  cases s with
  | mk _ _ _ _ _ _ _ cx cy => cases cx <;> cases cy <;> rfl

/-- The commands that read or store nothing but registers: everything except `D01`, `D02`, `D03` and `Dnn`. -/
def isPlain : Atom → Bool
  | .leaf (.d01 ..) => false
  | .leaf (.d02 ..) => false
  | .leaf (.d03 ..) => false
  | .leaf (.dnn _) => false
  | _ => true

theorem step_elim {s : VState} {a : Atom} (h : (step s a).exn = none) {P : Atom → VState → Prop}
    (d01 : ∀ x y i j, P (.leaf (.d01 x y i j)) { withIJ (withXY s x y) i j with
      currentX := (withXY s x y).coordinateX, currentY := (withXY s x y).coordinateY })
    (d02 : ∀ x y, P (.leaf (.d02 x y)) { withXY s x y with
      currentX := (withXY s x y).coordinateX, currentY := (withXY s x y).coordinateY })
    (d03 : ∀ x y, P (.leaf (.d03 x y)) { withXY s x y with
      currentX := (withXY s x y).coordinateX, currentY := (withXY s x y).coordinateY })
    (dnn : ∀ id ap, VState.currentAperture { s with apId := some id } = .ok ap →
      P (.leaf (.dnn id)) { s with apId := some id, flashHandler := some (flashKind ap) })
    (plain : ∀ a, isPlain a = true → isStop a = false → P a (step s a).st) : P a (step s a).st := by
  by_cases hst : isStop a = true
  · rw [step_stop hst] at h; simp [Out.fail] at h
  by_cases hp : isPlain a = true
  · exact plain a hp (by simpa using hst)
  cases a with
  | leaf l =>
    cases l <;> try (simp [isPlain] at hp; done)
    case d01 x y i j =>
      rw [step_d01 h]; simp only [Out.ok, updateCoordinates_eq]; exact d01 x y i j
    case d02 x y =>
      rw [step_d02 h]; simp only [Out.ok, updateCoordinates_eq]; exact d02 x y
    case d03 x y =>
      obtain ⟨ap, k, _, _, e⟩ := step_d03 h
      rw [e]; simp only [Out.ok, updateCoordinates_eq]; exact d03 x y
    case dnn id =>
      simp only [step, stepLeaf] at h ⊢
      cases hc : VState.currentAperture { s with apId := some id } with
      | error e => rw [hc] at h; simp [Out.fail] at h
      | ok ap => exact dnn id ap hc
  | _ => simp [isPlain] at hp

/-! ## Formats -/

/-- Same zero omission and digit counts. -/
def SameDigits (f g : CoordinateFormat) : Prop := ∃ n, g = { f with notation_ := n }

theorem SameDigits.unpack {f g : CoordinateFormat} (h : SameDigits f g) (a t) : g.unpack a t = f.unpack a t := by
  obtain ⟨n, rfl⟩ := h
  cases a <;> rfl

theorem formatInForce_snoc {h f} (hf : FormatInForce h f) {a} (ha : setsFormat a = none) :
    FormatInForce (h ++ [a]) f := by
  have e : (h ++ [a]).filterMap setsFormat = h.filterMap setsFormat := by
    rw [List.filterMap_append]; simp [ha]
  rcases hf with hf | ⟨h1, ⟨b, hb, h2⟩, h3⟩
  · left; rw [e]; exact hf
  · right; rw [e]; exact ⟨h1, ⟨b, by simp [hb], h2⟩, h3⟩

theorem format_inv : ∀ h, (run {} h).exn = none →
    ((run {} h).st.format = none ∧ h.filterMap setsFormat = [] ∧ ∀ a ∈ h, setsNotation a = false) ∨
    (∃ g f, (run {} h).st.format = some g ∧ FormatInForce h f ∧ SameDigits f g) := by
  refine history_induction ?_ ?_
  · left; exact ⟨rfl, rfl, by simp⟩
  · intro h a h1 h2 ih
    rw [run_snoc_st h1]
    generalize (run {} h).st = s at *
    have key : ∀ a, setsFormat a = none → setsNotation a = false → ∀ s' : VState, s'.format = s.format →
        (s'.format = none ∧ (h ++ [a]).filterMap setsFormat = [] ∧ ∀ b ∈ h ++ [a], setsNotation b = false) ∨
        (∃ g f, s'.format = some g ∧ FormatInForce (h ++ [a]) f ∧ SameDigits f g) := by
      intro a ha hn s' hs
      rw [hs]
      rcases ih with ⟨e1, e2, e3⟩ | ⟨g, f, e1, e2, e3⟩
      · left
        refine ⟨e1, by rw [List.filterMap_append, e2]; simp [ha], ?_⟩
        intro b hb
        rcases List.mem_append.1 hb with hb | hb
        · exact e3 b hb
        · simp only [List.mem_singleton] at hb; subst hb; exact hn
      · right; exact ⟨g, f, e1, formatInForce_snoc e2 ha, e3⟩
    have notn : ∀ a n, setsFormat a = none → setsNotation a = true →
        ∃ g f, (setNotation n s).format = some g ∧ FormatInForce (h ++ [a]) f ∧ SameDigits f g := by
      intro a n ha hn
      rcases ih with ⟨e1, e2, e3⟩ | ⟨g, f, e1, e2, e3⟩
      · refine ⟨_, {}, rfl, Or.inr ⟨by rw [List.filterMap_append, e2]; simp [ha], ⟨a, by simp, hn⟩, rfl⟩, ?_⟩
        rw [e1]; exact ⟨n, rfl⟩
      · refine ⟨_, f, rfl, formatInForce_snoc e2 ha, ?_⟩
        rw [e1]
        obtain ⟨m, rfl⟩ := e3
        exact ⟨n, rfl⟩
    refine step_elim h2 (P := fun a s' =>
        (s'.format = none ∧ (h ++ [a]).filterMap setsFormat = [] ∧ ∀ b ∈ h ++ [a], setsNotation b = false) ∨
        (∃ g f, s'.format = some g ∧ FormatInForce (h ++ [a]) f ∧ SameDigits f g)) ?_ ?_ ?_ ?_ ?_
    · intros; exact key _ rfl rfl _ rfl
    · intros; exact key _ rfl rfl _ rfl
    · intros; exact key _ rfl rfl _ rfl
    · intros; exact key _ rfl rfl _ rfl
    · intro a hp hs
      cases a with
      | leaf l =>
        cases l <;> try (simp [isPlain] at hp; done)
        all_goals try exact key _ rfl rfl _ rfl
        case td n => cases n <;> exact key _ rfl rfl _ rfl
        case g90 => right; exact notn _ _ rfl rfl
        case g91 => right; exact notn _ _ rfl rfl
        case fs f =>
          right
          refine ⟨f, f, rfl, Or.inl ?_, f.notation_, rfl⟩
          rw [List.filterMap_append]
          simp [setsFormat]
      | _ => exact key _ rfl rfl _ rfl

/-! ## Current point -/

theorem lastGiven_snoc {a : Axis} {h v} (hv : LastGiven a h v) {c} (hc : gives a c = none) : LastGiven a (h ++ [c]) v := by
  rcases hv with ⟨pre, d, post, t, f, rfl, h2, h3, h4, h5⟩ | ⟨h1, h2⟩
  · left
    refine ⟨pre, d, post ++ [c], t, f, by simp, h2, ?_, h4, h5⟩
    intro b hb
    rcases List.mem_append.1 hb with hb | hb
    · exact h3 b hb
    · simp only [List.mem_singleton] at hb; subst hb; exact hc
  · right
    refine ⟨?_, h2⟩
    intro b hb
    rcases List.mem_append.1 hb with hb | hb
    · exact h1 b hb
    · simp only [List.mem_singleton] at hb; subst hb; exact hc

/-- The coordinate registers agree with the current point between commands. -/
def Settled (s : VState) : Prop :=
  (∀ v, s.coordX = some v → s.currentX = v) ∧ (∀ v, s.coordY = some v → s.currentY = v)

theorem settled_coordX {s : VState} (h : Settled s) : s.coordinateX = s.currentX := by
  unfold VState.coordinateX
  cases hc : s.coordX with
  | none => rfl
  | some v => exact (h.1 v hc).symm

theorem settled_coordY {s : VState} (h : Settled s) : s.coordinateY = s.currentY := by
  unfold VState.coordinateY
  cases hc : s.coordY with
  | none => rfl
  | some v => exact (h.2 v hc).symm

theorem settled : ∀ h, (run {} h).exn = none → Settled (run {} h).st := by
  refine history_induction ?_ ?_
  · constructor <;> intro v hv <;> simp [run, Out.ok] at hv
  · intro h a h1 h2 ih
    rw [run_snoc_st h1]
    generalize (run {} h).st = s at *
    have upd : ∀ s' : VState, Settled { s' with currentX := s'.coordinateX, currentY := s'.coordinateY } := by
      intro s'
      constructor <;> intro v hv <;> simp only at hv ⊢
      · simp [VState.coordinateX, hv]
      · simp [VState.coordinateY, hv]
    refine step_elim h2 (P := fun a s' => Settled s') ?_ ?_ ?_ ?_ ?_
    · intro x y i j; exact upd (withIJ (withXY s x y) i j)
    · intro x y; exact upd (withXY s x y)
    · intro x y; exact upd (withXY s x y)
    · intro id ap _; exact ih
    · intro a hp hs
      cases a with
      | leaf l =>
        cases l <;> try (simp [isPlain] at hp; done)
        all_goals try exact ih
        case td n => cases n <;> exact ih
      | _ => exact ih

theorem gives_plain {a : Atom} (h : isPlain a = true) (ax : Axis) : gives ax a = none := by
  cases a with
  | leaf l => cases l <;> first | (simp [isPlain] at h; done) | (cases ax <;> rfl)
  | _ => cases ax <;> rfl

theorem current_inv : ∀ h, (run {} h).exn = none →
    LastGiven .x h (run {} h).st.currentX ∧ LastGiven .y h (run {} h).st.currentY := by
  refine history_induction ?_ ?_
  · exact ⟨Or.inr ⟨by simp, rfl⟩, Or.inr ⟨by simp, rfl⟩⟩
  · intro h a h1 h2 ih
    have hset := settled h h1
    have hfmt := format_inv h h1
    rw [run_snoc_st h1]
    generalize (run {} h).st = s at *
    have newX : ∀ c t, gives .x c = t → (step s c).exn = none → (t ≠ none → ∃ g txt v, s.format = some g ∧ t = some txt ∧ g.unpack .x txt = .ok v) →
        LastGiven .x (h ++ [c]) ((newCoord .x s t s.coordX).getD s.currentX) := by
      intro c t hg hc hok
      cases ht : t with
      | none =>
        have : (newCoord .x s none s.coordX).getD s.currentX = s.currentX := settled_coordX hset
        rw [this]; exact lastGiven_snoc ih.1 (by rw [hg, ht])
      | some txt =>
        subst ht
        obtain ⟨g, txt', v, e1, e2, e3⟩ := hok (by simp)
        cases e2
        simp only [newCoord, e1, e3, Option.getD_some]
        rcases hfmt with ⟨f1, _⟩ | ⟨g', f, f1, f2, f3⟩
        · rw [f1] at e1; cases e1
        · rw [f1] at e1; cases e1
          left
          exact ⟨h, c, [], txt, f, by simp, hg, by simp, f2, by rw [← f3.unpack]; exact e3⟩
    have newY : ∀ c t, gives .y c = t → (step s c).exn = none → (t ≠ none → ∃ g txt v, s.format = some g ∧ t = some txt ∧ g.unpack .y txt = .ok v) →
        LastGiven .y (h ++ [c]) ((newCoord .y s t s.coordY).getD s.currentY) := by
      intro c t hg hc hok
      cases ht : t with
      | none =>
        have : (newCoord .y s none s.coordY).getD s.currentY = s.currentY := settled_coordY hset
        rw [this]; exact lastGiven_snoc ih.2 (by rw [hg, ht])
      | some txt =>
        subst ht
        obtain ⟨g, txt', v, e1, e2, e3⟩ := hok (by simp)
        cases e2
        simp only [newCoord, e1, e3, Option.getD_some]
        rcases hfmt with ⟨f1, _⟩ | ⟨g', f, f1, f2, f3⟩
        · rw [f1] at e1; cases e1
        · rw [f1] at e1; cases e1
          left
          exact ⟨h, c, [], txt, f, by simp, hg, by simp, f2, by rw [← f3.unpack]; exact e3⟩
    have hxy : ∀ x y, (visitXY x y s).exn = none →
        (x ≠ none → ∃ g txt v, s.format = some g ∧ x = some txt ∧ g.unpack .x txt = .ok v) ∧
        (y ≠ none → ∃ g txt v, s.format = some g ∧ y = some txt ∧ g.unpack .y txt = .ok v) := by
      intro x y hv
      obtain ⟨e1, e2⟩ := Out.andThen_exn_none.1 hv
      have c1 := coordinate_none e1
      have hfs : (coordinate .x (fun v s => s.putX v) x s).st.format = s.format := by
        rcases c1 with ⟨rfl, e⟩ | ⟨t, f, v, rfl, hf, hu, e⟩ <;> rw [e] <;> rfl
      have c2 := coordinate_none e2
      constructor
      · intro hx
        rcases c1 with ⟨rfl, e⟩ | ⟨t, f, v, rfl, hf, hu, e⟩
        · exact absurd rfl hx
        · exact ⟨f, t, v, hf, rfl, hu⟩
      · intro hy
        rcases c2 with ⟨rfl, e⟩ | ⟨t, f, v, rfl, hf, hu, e⟩
        · exact absurd rfl hy
        · exact ⟨f, t, v, hfs ▸ hf, rfl, hu⟩
    by_cases hp : isPlain a = true
    · have ex : (step s a).st.currentX = s.currentX ∧ (step s a).st.currentY = s.currentY := by
        cases a with
        | leaf l =>
          cases l <;> try (simp [isPlain] at hp; done)
          all_goals try exact ⟨rfl, rfl⟩
          case td n => cases n <;> exact ⟨rfl, rfl⟩
        | _ => exact ⟨rfl, rfl⟩
      rw [ex.1, ex.2]
      exact ⟨lastGiven_snoc ih.1 (gives_plain hp _), lastGiven_snoc ih.2 (gives_plain hp _)⟩
    · cases a with
      | leaf l =>
        cases l <;> try (simp [isPlain] at hp; done)
        case d01 x y i j =>
          have hv : (visitXY x y s).exn = none := by
            have h3 := h2
            simp only [step, stepLeaf] at h3
            exact (Out.andThen_exn_none.1 (Out.andThen_exn_none.1 h3).1).1
          obtain ⟨kx, ky⟩ := hxy x y hv
          have gx := newX _ x rfl h2 kx
          have gy := newY _ y rfl h2 ky
          rw [step_d01 h2, updateCoordinates_eq]
          exact ⟨gx, gy⟩
        case d02 x y =>
          have hv : (visitXY x y s).exn = none := by
            have h3 := h2
            simp only [step, stepLeaf] at h3
            exact (Out.andThen_exn_none.1 h3).1
          obtain ⟨kx, ky⟩ := hxy x y hv
          have gx := newX _ x rfl h2 kx
          have gy := newY _ y rfl h2 ky
          rw [step_d02 h2, updateCoordinates_eq]
          exact ⟨gx, gy⟩
        case d03 x y =>
          have hv : (visitXY x y s).exn = none := by
            have h3 := h2
            simp only [step, stepLeaf] at h3
            exact (Out.andThen_exn_none.1 h3).1
          obtain ⟨kx, ky⟩ := hxy x y hv
          have gx := newX _ x rfl h2 kx
          have gy := newY _ y rfl h2 ky
          obtain ⟨ap, k, _, _, e⟩ := step_d03 h2
          rw [e, updateCoordinates_eq]
          exact ⟨gx, gy⟩
        case dnn id =>
          have hc : (step s (.leaf (.dnn id))).st.currentX = s.currentX ∧ (step s (.leaf (.dnn id))).st.currentY = s.currentY := by
            simp only [step, stepLeaf]
            split <;> exact ⟨rfl, rfl⟩
          rw [hc.1, hc.2]
          exact ⟨lastGiven_snoc ih.1 rfl, lastGiven_snoc ih.2 rfl⟩
      | _ => simp [isPlain] at hp

end Verif.Visitor
