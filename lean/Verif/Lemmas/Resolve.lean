import Verif.Model.Compiler
import Verif.Spec.Compile
import Mathlib.Data.List.Perm.Basic

/-!
# Facts about `resolve`
-/

namespace Verif.Compiler
open Verif.Spec Relation

variable {ι : Type} [DecidableEq ι] {deps : ι → Option (List ι)}

theorem loop_nil (rec : ι → List ι → Except CErr (List ι)) (id : ι) (o : List ι) :
    resolve.loop rec id [] o = .ok o := rfl

theorem loop_cons_ok {rec : ι → List ι → Except CErr (List ι)} {id d : ι} {ds o r : List ι} :
    resolve.loop rec id (d :: ds) o = .ok r ↔
      ∃ o', rec d o = .ok o' ∧ id ∉ o' ∧ resolve.loop rec id ds o' = .ok r := by
  simp only [resolve.loop, bind, Except.bind]
  cases h : rec d o with
  | error e => simp
  | ok o' => by_cases hm : id ∈ o' <;> simp [hm]

theorem resolve_succ_ok {n : Nat} {id : ι} {o r : List ι} :
    resolve deps (n + 1) id o = .ok r ↔
      ∃ ds o', deps id = some ds ∧ resolve.loop (resolve deps n) id ds o = .ok o' ∧ r = o' ++ [id] := by
  simp only [resolve]
  cases h : deps id with
  | none => simp
  | some ds =>
    simp only [bind, Except.bind]
    cases h2 : resolve.loop (resolve deps n) id ds o with
    | error e => simp_all
    | ok o' =>
      simp only [pure, Except.pure, Except.ok.injEq, Option.some.injEq]
      constructor
      · intro h; exact ⟨ds, o', rfl, h2, h.symm⟩
      · rintro ⟨ds', o'', rfl, h3, rfl⟩; rw [h2] at h3; cases h3; rfl

/-- Every element of the order appears after everything it needs. -/
def Ordered (deps : ι → Option (List ι)) (o : List ι) : Prop :=
  ∀ pre x post, o = pre ++ x :: post → ∀ y, Needs deps x y → y ∈ pre

theorem Ordered.snoc {o : List ι} {id : ι} (h : Ordered deps o) (hy : ∀ y, Needs deps id y → y ∈ o) :
    Ordered deps (o ++ [id]) := by
  intro pre x post he y hn
  rcases List.eq_nil_or_concat post with rfl | ⟨post', z, rfl⟩
  · have := List.append_inj' he (by simp)
    obtain ⟨rfl, hx⟩ := this
    simp at hx; subst hx
    exact hy y hn
  · have he' : o ++ [id] = (pre ++ x :: post') ++ [z] := by simpa using he
    have := List.append_inj' he' (by simp)
    exact h pre x post' this.1 y hn

/-- What a successful call of `resolve` gives: it extends the order, keeps it ordered and ends with the name. -/
theorem resolve_spec (n : Nat) : ∀ (id : ι) (o r : List ι), resolve deps n id o = .ok r →
    (∃ new, r = o ++ new ++ [id]) ∧ (Ordered deps o → Ordered deps r) ∧ (id ∉ o → r.count id = 1) := by
  induction n with
  | zero => intro id o r h; simp [resolve] at h
  | succ n ih =>
    intro id o r h
    obtain ⟨ds, o', hd, hl, rfl⟩ := resolve_succ_ok.1 h
    have key : ∀ (ds : List ι) (o o' : List ι), resolve.loop (resolve deps n) id ds o = .ok o' →
        (∃ new, o' = o ++ new) ∧ (Ordered deps o → Ordered deps o') ∧ (∀ d ∈ ds, d ∈ o') ∧ (id ∉ o → id ∉ o') := by
      intro ds
      induction ds with
      | nil => intro o o' h; cases h; exact ⟨⟨[], by simp⟩, fun h => h, by simp, fun h => h⟩
      | cons d ds ihd =>
        intro o o' h
        obtain ⟨o1, h1, h2, h3⟩ := loop_cons_ok.1 h
        obtain ⟨⟨n1, e1⟩, p1, -⟩ := ih d o o1 h1
        obtain ⟨⟨n2, e2⟩, p2, q2, r2⟩ := ihd o1 o' h3
        refine ⟨⟨n1 ++ [d] ++ n2, by rw [e2, e1]; simp⟩, fun h => p2 (p1 h), ?_, fun _ => r2 h2⟩
        intro x hx
        rcases List.mem_cons.1 hx with rfl | hx
        · rw [e2, e1]; simp
        · exact q2 x hx
    obtain ⟨⟨new, e⟩, p, q, r⟩ := key ds o o' hl
    refine ⟨⟨new, by rw [e]⟩, fun h => (p h).snoc ?_, ?_⟩
    · rintro y ⟨ds', h1, h2⟩
      rw [hd] at h1; cases h1
      exact q y h2
    · intro hid
      rw [List.count_append, List.count_eq_zero.2 (r hid)]; simp

/-- Everything in the result was there before or is within reach. -/
theorem resolve_mem (n : Nat) : ∀ (id : ι) (o r : List ι), resolve deps n id o = .ok r →
    ∀ x ∈ r, x ∈ o ∨ Within deps id x := by
  induction n with
  | zero => intro id o r h; simp [resolve] at h
  | succ n ih =>
    intro id o r h
    obtain ⟨ds, o', hd, hl, rfl⟩ := resolve_succ_ok.1 h
    have key : ∀ (ds' : List ι) (o o' : List ι), (∀ d ∈ ds', Needs deps id d) →
        resolve.loop (resolve deps n) id ds' o = .ok o' → ∀ x ∈ o', x ∈ o ∨ Within deps id x := by
      intro ds'
      induction ds' with
      | nil => intro o o' _ h x hx; cases h; exact .inl hx
      | cons d ds' ihd =>
        intro o o' hds h x hx
        obtain ⟨o1, h1, h2, h3⟩ := loop_cons_ok.1 h
        rcases ihd o1 o' (fun d' hd' => hds d' (List.mem_cons_of_mem _ hd')) h3 x hx with hx | hx
        · rcases ih d o o1 h1 x hx with hx | hx
          · exact .inl hx
          · exact .inr (ReflTransGen.head (hds d (by simp)) hx)
        · exact .inr hx
    intro x hx
    rcases List.mem_append.1 hx with hx | hx
    · exact key ds o o' (fun d hd' => ⟨ds, hd, hd'⟩) hl x hx
    · simp at hx; subst hx; exact .inr .refl

/-- A successful call succeeds on every name it needs, with less recursion. -/
theorem resolve_needs {n : Nat} {id y : ι} {o r : List ι} (h : resolve deps n id o = .ok r) (hy : Needs deps id y) :
    ∃ m o' r', m < n ∧ resolve deps m y o' = .ok r' := by
  cases n with
  | zero => simp [resolve] at h
  | succ n =>
    obtain ⟨ds, o', hd, hl, rfl⟩ := resolve_succ_ok.1 h
    obtain ⟨ds', h1, h2⟩ := hy
    rw [hd] at h1; cases h1
    have key : ∀ (ds : List ι) (o o' : List ι), resolve.loop (resolve deps n) id ds o = .ok o' → y ∈ ds →
        ∃ o1 r1, resolve deps n y o1 = .ok r1 := by
      intro ds
      induction ds with
      | nil => simp
      | cons d ds ihd =>
        intro o o' h hm
        obtain ⟨o1, h1, h2, h3⟩ := loop_cons_ok.1 h
        rcases List.mem_cons.1 hm with rfl | hm
        · exact ⟨o, o1, h1⟩
        · exact ihd o1 o' h3 hm
    obtain ⟨o1, r1, h⟩ := key ds o o' hl h2
    exact ⟨n, o1, r1, by omega, h⟩

theorem resolve_reach {n : Nat} {id y : ι} {o r : List ι} (h : resolve deps n id o = .ok r)
    (hy : Reach deps id y) : ∃ m o' r', m < n ∧ resolve deps m y o' = .ok r' := by
  induction hy with
  | single hy => exact resolve_needs h hy
  | tail _ hy ih =>
    obtain ⟨m, o', r', hm, h'⟩ := ih
    obtain ⟨m2, o2, r2, hm2, h2⟩ := resolve_needs h' hy
    exact ⟨m2, o2, r2, by omega, h2⟩

/-- No success when a cycle is within reach. -/
theorem resolve_cycle {id x : ι} (hx : Within deps id x) (hc : Reach deps x x) (n : Nat) (o r : List ι) :
    resolve deps n id o ≠ .ok r := by
  intro h
  have key : ∀ (n : Nat) (o r : List ι), resolve deps n x o ≠ .ok r := by
    intro n
    induction n using Nat.strong_induction_on with
    | _ n ih =>
      intro o r h
      obtain ⟨m, o', r', hm, h'⟩ := resolve_reach h hc
      exact ih m hm o' r' h'
  rcases hx.cases_head with rfl | ⟨z, hz, hzx⟩
  · exact key n o r h
  · obtain ⟨m, o', r', _, h'⟩ := resolve_reach h (TransGen.head' hz hzx)
    exact key m o' r' h'

/-- Success, when names can be ranked, everything exists, no name that needs others is needed by two, and none of
those within reach is in the order already. -/
theorem resolve_ok (rank : ι → Nat) (root : ι)
    (hr : ∀ x y, Within deps root x → Needs deps x y → rank y < rank x)
    (he : ∀ x, Within deps root x → ∃ ds, deps x = some ds ∧ ds.Nodup)
    (hs : ∀ x y z, Within deps root x → Within deps root y → Needs deps x z → Needs deps y z →
      (∃ w, Needs deps z w) → x = y) :
    ∀ (n : Nat) (id : ι) (o : List ι), Within deps root id → rank id < n →
      (∀ x, Within deps id x → (∃ w, Needs deps x w) → x ∉ o) → ∃ r, resolve deps n id o = .ok r := by
  intro n
  induction n with
  | zero => intro id o _ h; omega
  | succ n ih =>
    intro id o hroot hrank hfree
    obtain ⟨ds, hd, hnd⟩ := he id hroot
    have rank_within : ∀ {a b}, Within deps root a → Within deps a b → rank b ≤ rank a := by
      intro a b ha hab
      induction hab with
      | refl => omega
      | tail h1 h2 ih => have := hr _ _ (ha.trans h1) h2; omega
    have key : ∀ (rest : List ι) (o' : List ι), rest.Nodup → (∀ d ∈ rest, d ∈ ds) →
        (∀ d ∈ rest, ∀ x, Within deps d x → (∃ w, Needs deps x w) → x ∉ o') → (rest ≠ [] → id ∉ o') →
        ∃ r, resolve.loop (resolve deps n) id rest o' = .ok r := by
      intro rest
      induction rest with
      | nil => intro o' _ _ _ _; exact ⟨o', rfl⟩
      | cons d rest ihd =>
        intro o' hnd' hsub hf hid
        have hdn : Needs deps id d := ⟨ds, hd, hsub d (by simp)⟩
        have hdroot : Within deps root d := hroot.tail hdn
        have hrd := hr id d hroot hdn
        obtain ⟨o1, h1⟩ := ih d o' hdroot (by omega) (hf d (by simp))
        have hmem := resolve_mem n d o' o1 h1
        have hid1 : id ∉ o1 := by
          intro hm
          rcases hmem id hm with hm | hm
          · exact hid (by simp) hm
          · have := rank_within hdroot hm; omega
        -- nothing below a later dependency is below `d`
        have hf' : ∀ d' ∈ rest, ∀ x, Within deps d' x → (∃ w, Needs deps x w) → x ∉ o1 := by
          intro d' hd' x hx hw hmo
          rcases hmem x hmo with hm | hm
          · exact hf d' (List.mem_cons_of_mem _ hd') x hx hw hm
          clear hmo
          have hd'n : Needs deps id d' := ⟨ds, hd, hsub d' (List.mem_cons_of_mem _ hd')⟩
          have hd'root : Within deps root d' := hroot.tail hd'n
          have hne : d ≠ d' := by
            rintro rfl; exact (List.nodup_cons.1 hnd').1 hd'
          have hrd' := hr id d' hroot hd'n
          clear hmem hid1
          induction hx with
          | refl =>
            rcases hm.cases_tail with h | ⟨p, hp, hpx⟩
            · exact hne h.symm
            · have := hs _ _ _ (hdroot.trans hp) hroot hpx hd'n hw
              subst this
              have := rank_within hdroot hp; omega
          | @tail b c hb hbc ihx =>
            rcases hm.cases_tail with h | ⟨p, hp, hpx⟩
            · subst h
              have := hs _ _ _ (hd'root.trans hb) hroot hbc hdn hw
              subst this
              have := rank_within hd'root hb; omega
            · have := hs _ _ _ (hd'root.trans hb) (hdroot.trans hp) hbc hpx hw
              subst this
              exact ihx ⟨_, hbc⟩ hp
        obtain ⟨r, hr'⟩ := ihd o1 (List.nodup_cons.1 hnd').2 (fun d' h' => hsub d' (List.mem_cons_of_mem _ h')) hf'
          (fun _ => hid1)
        exact ⟨r, loop_cons_ok.2 ⟨o1, h1, hid1, hr'⟩⟩
    obtain ⟨r, h⟩ := key ds o hnd (fun _ h => h) (fun d hdm x hx => hfree x (ReflTransGen.head ⟨ds, hd, hdm⟩ hx))
      (fun hne => hfree id .refl (by
        obtain ⟨d, ds', rfl⟩ := List.exists_cons_of_ne_nil hne
        exact ⟨d, _, hd, by simp⟩))
    exact ⟨r ++ [id], resolve_succ_ok.2 ⟨ds, r, hd, h, rfl⟩⟩

end Verif.Compiler
