import Verif.Lemmas.Sketch
import Verif.Lemmas.SketchArea
import Verif.Spec.Inside

/-!
# The builder makes programs that draw what is asked for
-/

namespace Verif.Sketch
open Verif.Rvmc Verif.Geom Verif.Vm Verif.Spec Verif.RvmcBuilder
noncomputable section
variable {ι : Type}

/-! ## Layers that are known only in part -/

/-- The object that a command on the `k`-th layer draws, and the call that it comes from. -/
def MatchR (h : List (Deed ι)) (P : ℕ → ι → Vec ℝ × List (Painted (Vec ℝ)) → Prop) (k : ℕ) : Draw ι → Painted (Vec ℝ) → Prop
  | .shape s, o => o = ⟨!s.negative, areaOf s⟩ ∧ ∃ figure negative ss, .mark k figure negative ∈ h ∧ Plausible figure ∧
      figure.shapes negative = .ok ss ∧ s ∈ ss
  | .paste id c neg, o => ∃ src x, P src id x ∧ .paste k src c neg ∈ h ∧ o = ⟨!neg, {p | Covered x.2 (p - c + x.1)}⟩

mutual
/-- The layers of a node have the objects that are known. -/
def FilledR (h : List (Deed ι)) (P : ℕ → ι → Vec ℝ × List (Painted (Vec ℝ)) → Prop) : Node ι → Prop
  | .draw _ => True
  | .layer id _ o body => ∃ k x, P k id x ∧ x.1 = o ∧ List.Forall₂ (MatchR h P k) (Node.draws body) x.2 ∧ FilledAllR h P body
/-- The same for nodes. -/
def FilledAllR (h : List (Deed ι)) (P : ℕ → ι → Vec ℝ × List (Painted (Vec ℝ)) → Prop) : List (Node ι) → Prop
  | [] => True
  | n :: ns => FilledR h P n ∧ FilledAllR h P ns
end

theorem MatchR.mono {g h : List (Deed ι)} {P Q : ℕ → ι → Vec ℝ × List (Painted (Vec ℝ)) → Prop} (hg : ∀ c ∈ g, c ∈ h) (hp : ∀ k i x, P k i x → Q k i x) {k : ℕ} {d : Draw ι}
    {o : Painted (Vec ℝ)} (hm : MatchR g P k d o) : MatchR h Q k d o := by
  cases d with
  | shape s =>
    obtain ⟨h1, f, n, ss, h2, h3⟩ := hm
    exact ⟨h1, f, n, ss, hg _ h2, h3⟩
  | paste id c neg =>
    obtain ⟨src, x, h1, h2, h3⟩ := hm
    exact ⟨src, x, hp _ _ _ h1, hg _ h2, h3⟩

mutual
theorem FilledR.mono {g h : List (Deed ι)} {P Q : ℕ → ι → Vec ℝ × List (Painted (Vec ℝ)) → Prop} (hg : ∀ c ∈ g, c ∈ h) (hp : ∀ k i x, P k i x → Q k i x) :
    ∀ n : Node ι, FilledR g P n → FilledR h Q n
  | .draw _, _ => trivial
  | .layer _ _ _ body, hf => by
    obtain ⟨k, x, h1, h2, h3, h4⟩ := hf
    exact ⟨k, x, hp _ _ _ h1, h2, h3.imp fun _ _ => MatchR.mono hg hp, FilledAllR.mono hg hp body h4⟩
theorem FilledAllR.mono {g h : List (Deed ι)} {P Q : ℕ → ι → Vec ℝ × List (Painted (Vec ℝ)) → Prop} (hg : ∀ c ∈ g, c ∈ h) (hp : ∀ k i x, P k i x → Q k i x) :
    ∀ ns : List (Node ι), FilledAllR g P ns → FilledAllR h Q ns
  | [], _ => trivial
  | n :: ns, hf => ⟨FilledR.mono hg hp n hf.1, FilledAllR.mono hg hp ns hf.2⟩
end

theorem filledAllR_append {h : List (Deed ι)} {P : ℕ → ι → Vec ℝ × List (Painted (Vec ℝ)) → Prop} (a b : List (Node ι)) :
    FilledAllR h P (a ++ b) ↔ FilledAllR h P a ∧ FilledAllR h P b := by
  induction a with
  | nil => simp [FilledAllR]
  | cons n ns ih => simp [FilledAllR, ih, and_assoc]

theorem filledAllR_draws {h : List (Deed ι)} {P : ℕ → ι → Vec ℝ × List (Painted (Vec ℝ)) → Prop} (ds : List (Draw ι)) : FilledAllR h P (ds.map Node.draw) := by
  induction ds with
  | nil => trivial
  | cons d ds ih => exact ⟨trivial, ih⟩

theorem drawnAll_draws (ds : List (Draw ι)) : Node.DrawnAll (ds.map Node.draw) := by
  induction ds with
  | nil => trivial
  | cons d ds ih => exact ⟨trivial, ih⟩

theorem draws_draws (ds : List (Draw ι)) : Node.draws (ds.map Node.draw) = ds := by
  induction ds with
  | nil => rfl
  | cons d ds ih => simp [Node.draws, ih]

theorem idsAll_draws (ds : List (Draw ι)) : idsAll (ds.map Node.draw) = [] := by
  induction ds with
  | nil => rfl
  | cons d ds ih => simp [idsAll, ids, ih]

theorem readyAll_draws : ∀ (ds : List (Draw ι)) (D : ι → Prop), (∀ src c neg, Draw.paste src c neg ∈ ds → D src) →
    ReadyAll D (ds.map Node.draw)
  | [], _, _ => trivial
  | .shape _ :: ds, _, h =>
    ⟨trivial, readyAll_draws ds _ fun src c neg hd => .inl (h src c neg (List.mem_cons_of_mem _ hd))⟩
  | .paste src c neg :: ds, _, h =>
    ⟨h src c neg (List.mem_cons_self ..), readyAll_draws ds _ fun src c neg hd => .inl (h src c neg (List.mem_cons_of_mem _ hd))⟩

/-! ## The invariant -/

/-- Layers that are finished. -/
def Done (d : Plates ι) (k : ℕ) (id : ι) (x : Vec ℝ × List (Painted (Vec ℝ))) : Prop :=
  ∃ pl, d.plates[k]? = some pl ∧ k ∉ d.opened ∧ pl.name = id ∧ x = (pl.origin, pl.objects)

/-- An open layer and its nodes. -/
def Lay (h : List (Deed ι)) (s : State ι) (d : Plates ι) (k : ℕ) (ns : List (Node ι)) : Prop :=
  ∃ l pl b, s.objs[k]? = some l ∧ d.plates[k]? = some pl ∧ l.finalized = false ∧
    l.commands = .start pl.name b pl.origin :: Node.commandsAll ns ∧ pl.auto = b.isNone ∧
    List.Forall₂ (MatchR h (Done d) k) (Node.draws ns) pl.objects ∧ FilledAllR h (Done d) ns ∧ Node.DrawnAll ns

/-- Layers that are pasted are complete. -/
def Chain : List (List (Node ι)) → Prop
  | [] => True
  | ns :: rest => ReadyAll (fun k => k ∈ rest.flatMap idsAll) ns ∧ Chain rest

/-- Blocks were entered from the next ones. -/
def Par : List (ℕ × Option ℕ) → Prop
  | [] => True
  | (_, p) :: bs => p = (bs.map Prod.fst).head? ∧ Par bs

/-- The program is that of the main layer. -/
def Out (main : ι) (h : List (Deed ι)) (s : State ι) (d : Plates ι) : Prop :=
  ∃ b ns pl, d.plates[0]? = some pl ∧ pl.name = main ∧ s.commands = (Node.layer pl.name b pl.origin ns).commands ∧
    ReadyAll (fun _ => False) ns ∧ (pl.name :: idsAll ns).Nodup ∧ List.Forall₂ (MatchR h (Done d) 0) (Node.draws ns) pl.objects ∧
    FilledAllR h (Done d) ns ∧ (Node.layer pl.name b pl.origin ns).Drawn

/-- Holds after the calls. -/
structure Inv (main : ι) (h : List (Deed ι)) (s : State ι) (d : Plates ι) (nss : List (List (Node ι))) : Prop where
  len : s.objs.length = d.plates.length
  blocks : s.blocks.map Prod.fst = d.opened
  par : Par s.blocks
  head : ∀ k, d.opened.head? = some k → ∃ l, s.objs[k]? = some l ∧ l.active = none
  ids : ∀ (k : ℕ) (l : LayerBuilder ι) (pl : Plate ι), s.objs[k]? = some l → d.plates[k]? = some pl → l.id = pl.name
  unlocked : d.opened ≠ [] → s.locked = false ∧ s.commands = []
  nodup : d.opened.Nodup
  layers : List.Forall₂ (Lay h s d) d.opened nss
  ready : Chain nss
  fresh : (nss.flatMap idsAll).Nodup
  known : ∀ id ∈ nss.flatMap idsAll, ∃ (k : ℕ) (pl : Plate ι), d.plates[k]? = some pl ∧ k ∉ d.opened ∧ pl.name = id
  done : d.opened ≠ [] → ∀ (k : ℕ) (pl : Plate ι), d.plates[k]? = some pl → k ∉ d.opened → pl.name ∈ nss.flatMap idsAll
  names : (d.plates.map Plate.name).Nodup
  first : ∃ pl, d.plates[0]? = some pl ∧ pl.name = main
  last : d.opened = [] ∨ d.opened.getLast? = some 0
  out : d.opened = [] → Out main h s d

theorem forall₂_join {α β : Type} {R : α → β → Prop} {a1 a2 : List α} {b1 b2 : List β} (h1 : List.Forall₂ R a1 b1)
    (h2 : List.Forall₂ R a2 b2) : List.Forall₂ R (a1 ++ a2) (b1 ++ b2) := List.rel_append h1 h2

theorem forall₂_mem {α β : Type} {R S : α → β → Prop} {as : List α} {bs : List β} (hr : List.Forall₂ R as bs)
    (h : ∀ a b, a ∈ as → R a b → S a b) : List.Forall₂ S as bs := by
  induction hr with
  | nil => exact .nil
  | cons h1 _ ih => exact .cons (h _ _ (by simp) h1) (ih fun a b ha => h a b (List.mem_cons_of_mem _ ha))

theorem forall₂_split {α β : Type} {R : α → β → Prop} : ∀ {as : List α} {bs : List β} {r : α}, List.Forall₂ R as bs → r ∈ as → as.Nodup →
    ∃ a1 a2 b1 b b2, as = a1 ++ r :: a2 ∧ bs = b1 ++ b :: b2 ∧ List.Forall₂ R a1 b1 ∧ R r b ∧ List.Forall₂ R a2 b2 ∧ r ∉ a1 ∧ r ∉ a2
  | _ :: as, _ :: bs, r, .cons h1 h2, hr, hn => by
    obtain ⟨hn1, hn2⟩ := List.nodup_cons.1 hn
    rcases List.mem_cons.1 hr with rfl | hr
    · exact ⟨[], as, [], _, bs, rfl, rfl, .nil, h1, h2, by simp, hn1⟩
    · obtain ⟨a1, a2, b1, b, b2, rfl, rfl, k1, k2, k3, k4, k5⟩ := forall₂_split h2 hr hn2
      refine ⟨_ :: a1, a2, _ :: b1, b, b2, rfl, rfl, .cons h1 k1, k2, k3, ?_, k5⟩
      simp only [List.mem_cons, not_or]
      exact ⟨fun h => hn1 (h ▸ hr), k4⟩

theorem chain_extend {ns ns' : List (Node ι)} {B : List (List (Node ι))} (hi : idsAll ns' = idsAll ns)
    (hr : ReadyAll (fun k => k ∈ B.flatMap idsAll) ns → ReadyAll (fun k => k ∈ B.flatMap idsAll) ns') :
    ∀ A : List (List (Node ι)), Chain (A ++ ns :: B) → Chain (A ++ ns' :: B)
  | [], h => ⟨hr h.1, h.2⟩
  | a :: A, h => by
    refine ⟨?_, chain_extend hi hr A h.2⟩
    have : (A ++ ns' :: B).flatMap idsAll = (A ++ ns :: B).flatMap idsAll := by simp [hi]
    show ReadyAll (fun k => k ∈ (A ++ ns' :: B).flatMap idsAll) a
    rw [this]
    exact h.1

theorem Lay.mono {g h : List (Deed ι)} {s s' : State ι} {d d' : Plates ι} {k : ℕ} {ns : List (Node ι)}
    (ho : ∀ l, s.objs[k]? = some l → ∃ l', s'.objs[k]? = some l' ∧ l'.finalized = l.finalized ∧ l'.commands = l.commands)
    (hp : d'.plates[k]? = d.plates[k]?)
    (hg : ∀ c ∈ g, c ∈ h) (hd : ∀ k id x, Done d k id x → Done d' k id x) (hl : Lay g s d k ns) : Lay h s' d' k ns := by
  obtain ⟨l, pl, b, h1, h2, h3, h4, h5, h6, h7, h8⟩ := hl
  obtain ⟨l', k1, k2, k3⟩ := ho l h1
  exact ⟨l', pl, b, k1, by rw [hp, h2], by rw [k2, h3], by rw [k3, h4], h5, h6.imp fun _ _ => MatchR.mono hg hd, FilledAllR.mono hg hd ns h7, h8⟩

/-- Something is drawn on a layer. -/
theorem Inv.add {main : ι} {g g' : List (Deed ι)} {s : State ι} {d : Plates ι} {nss : List (List (Node ι))} (hg : ∀ c ∈ g, c ∈ g') (h : Inv main g s d nss) {r : ℕ} {pl : Plate ι}
    (hr : r ∈ d.opened) (hpl : d.plates[r]? = some pl) (ds : List (Draw ι)) (os : List (Painted (Vec ℝ)))
    (hm : List.Forall₂ (MatchR g' (Done d) r) ds os)
    (hs : (∀ src c neg, Draw.paste src c neg ∉ ds) ∨
      d.opened.head? = some r ∧ ∀ src c neg, Draw.paste src c neg ∈ ds → src ∈ nss.flatMap idsAll) :
    ∃ s' nss', RvmcBuilder.add r (ds.map Command.draw) s = (s', none) ∧
      Inv main g' s' { d with plates := d.plates.set r { pl with objects := pl.objects ++ os } } nss' := by
  obtain ⟨a1, a2, b1, ns, b2, e1, e2, f1, f2, f3, n1, n2⟩ := forall₂_split h.layers hr h.nodup
  obtain ⟨l, pl', b, g1, g2, g3, g4, g5, g6, g7, g8⟩ := f2
  rw [hpl] at g2
  cases g2
  have hset : ∀ k, (d.plates.set r { pl with objects := pl.objects ++ os })[k]? =
      if r = k then some { pl with objects := pl.objects ++ os } else d.plates[k]? := getElem?_set_some hpl
  have hdone : ∀ k id x, Done d k id x → Done { d with plates := d.plates.set r { pl with objects := pl.objects ++ os } } k id x := by
    rintro k id x ⟨q, q1, q2, q3, q4⟩
    refine ⟨q, ?_, q2, q3, q4⟩
    rw [hset, if_neg (fun hk : r = k => q2 (hk ▸ hr)), q1]
  have hne : d.opened ≠ [] := by rintro he; rw [he] at hr; cases hr
  refine ⟨{ s with objs := s.objs.set r { l with commands := l.commands ++ ds.map Command.draw } },
    b1 ++ (ns ++ ds.map Node.draw) :: b2, ?_, ?_⟩
  · simp [RvmcBuilder.add, g1, g3]
  · have hids : idsAll (ns ++ ds.map Node.draw) = idsAll ns := by simp [idsAll_append, idsAll_draws]
    have hflat : (b1 ++ (ns ++ ds.map Node.draw) :: b2).flatMap idsAll = nss.flatMap idsAll := by
      rw [e2]; simp [hids]
    have hoth : ∀ {a : List ℕ} {c : List (List (Node ι))}, r ∉ a → List.Forall₂ (Lay g s d) a c →
        List.Forall₂ (Lay g' { s with objs := s.objs.set r { l with commands := l.commands ++ ds.map Command.draw } }
          { d with plates := d.plates.set r { pl with objects := pl.objects ++ os } }) a c := by
      intro a c ha hf
      induction hf with
      | nil => exact .nil
      | cons x _ ih =>
        rename_i k _ _ _ _
        have hk : r ≠ k := fun e => ha (by simp [e])
        refine .cons (x.mono ?_ (by rw [hset, if_neg hk]) hg hdone) (ih fun e => ha (by simp [e]))
        intro l' hl'
        exact ⟨l', by simp only [getElem?_set_some g1, if_neg hk, hl'], rfl, rfl⟩
    refine ⟨?_, h.blocks, h.par, ?_, ?_, h.unlocked, h.nodup, ?_, ?_, ?_, ?_, ?_, ?_, ?_, h.last, fun e => absurd e hne⟩
    · simp [h.len]
    · intro k hk
      obtain ⟨l', k1, k2⟩ := h.head k hk
      simp only [getElem?_set_some g1]
      split
      · rename_i e; subst e
        rw [g1] at k1; cases k1
        exact ⟨_, rfl, k2⟩
      · exact ⟨l', k1, k2⟩
    · intro k l' pl' h1 h2
      simp only [getElem?_set_some g1] at h1
      simp only [hset] at h2
      split at h1
      · rename_i e; subst e
        simp only [if_true] at h2
        cases h1; cases h2
        exact h.ids r l pl g1 hpl
      · rename_i e
        rw [if_neg e] at h2
        exact h.ids k l' pl' h1 h2
    · suffices key : ∀ op, op = a1 ++ r :: a2 →
          List.Forall₂ (Lay g' { s with objs := s.objs.set r { l with commands := l.commands ++ ds.map Command.draw } }
          { d with plates := d.plates.set r { pl with objects := pl.objects ++ os } }) op (b1 ++ (ns ++ ds.map Node.draw) :: b2) from key _ e1
      rintro _ rfl
      refine forall₂_join (hoth n1 f1) (.cons ?_ (hoth n2 f3))
      refine ⟨{ l with commands := l.commands ++ ds.map Command.draw }, { pl with objects := pl.objects ++ os }, b, by simp only [getElem?_set_some g1]; simp, by simp only [hset]; simp, g3, ?_, g5,
        ?_, ?_, ?_⟩
      · simp [g4, commandsAll_append, commandsAll_draws]
      · rw [draws_append, draws_draws]
        exact forall₂_join (g6.imp fun _ _ => MatchR.mono hg hdone) (hm.imp fun _ _ => MatchR.mono (fun _ h => h) hdone)
      · rw [filledAllR_append]
        exact ⟨FilledAllR.mono hg hdone ns g7, filledAllR_draws ds⟩
      · rw [drawnAll_append]
        exact ⟨g8, drawnAll_draws ds⟩
    · refine chain_extend hids ?_ b1 (e2 ▸ h.ready)
      intro hr'
      rw [readyAll_append]
      refine ⟨hr', readyAll_draws ds _ ?_⟩
      intro src c neg hd
      rcases hs with hs | ⟨hs1, hs2⟩
      · exact absurd hd (hs src c neg)
      · have ha : a1 = [] := by
          rw [e1] at hs1
          cases a1 with
          | nil => rfl
          | cons x xs =>
            simp only [List.cons_append, List.head?_cons, Option.some.injEq] at hs1
            exact absurd (by simp [hs1]) n1
        subst ha
        cases f1
        have := hs2 src c neg hd
        rw [e2] at this
        simp only [List.nil_append, List.flatMap_cons, List.mem_append] at this
        exact this.symm
    · rw [hflat]; exact h.fresh
    · rw [hflat]
      intro id hid
      obtain ⟨k, q, q1, q2, q3⟩ := h.known id hid
      exact ⟨k, q, by simp only [hset]; rw [if_neg (fun hk : r = k => q2 (hk ▸ hr)), q1], q2, q3⟩
    · rw [hflat]
      intro _ k q q1 q2
      simp only [hset] at q1
      rw [if_neg (fun hk : r = k => q2 (hk ▸ hr))] at q1
      exact h.done hne k q q1 q2
    · have : (d.plates.set r { pl with objects := pl.objects ++ os }).map Plate.name = d.plates.map Plate.name := by
        rw [List.map_set]
        apply List.ext_getElem?
        intro k
        rw [List.getElem?_set]
        split
        · rename_i e; subst e
          have e := hpl
          rw [List.getElem?_eq_getElem (lt_of_some hpl)] at e
          simp [lt_of_some hpl, Option.some.inj e]
        · rfl
      show (List.map Plate.name _).Nodup
      rw [this]
      exact h.names
    · obtain ⟨q, q1, q2⟩ := h.first
      simp only [hset]
      split
      · rename_i e; subst e
        rw [hpl] at q1; cases q1
        exact ⟨_, rfl, q2⟩
      · exact ⟨q, q1, q2⟩

theorem performAll_append {main : ι} : ∀ (a b : List (Deed ι)) (s : State ι), performAll main (a ++ b) s =
    (performAll main a s >>= performAll main b)
  | [], _, _ => rfl
  | c :: a, b, s => by
    simp only [List.cons_append, performAll, bind, Except.bind]
    cases perform main c s with
    | error e => rfl
    | ok s' => exact performAll_append a b s'

theorem performAll_snoc {main : ι} {a : List (Deed ι)} {c : Deed ι} {s s' s'' : State ι} (h : performAll main a s = .ok s')
    (h' : perform main c s' = .ok s'') : performAll main (a ++ [c]) s = .ok s'' := by
  rw [performAll_append, h]
  simp only [bind, Except.bind, performAll, h']

/-- A layer is left. -/
theorem Inv.leave {main : ι} {g g' : List (Deed ι)} {s : State ι} {d : Plates ι} {nss : List (List (Node ι))} (hg : ∀ c ∈ g, c ∈ g') (h : Inv main g s d nss) {k : ℕ} {rest : List ℕ}
    {pl : Plate ι} (hk : d.opened = k :: rest) (hpl : d.plates[k]? = some pl) (ha : pl.auto = true → pl.objects ≠ []) :
    ∃ s' nss', RvmcBuilder.exit s = (s', none) ∧ Inv main g' s' { d with opened := rest } nss' := by
  have hl := h.layers
  rw [hk] at hl
  cases hl with
  | cons h1 h2 =>
  rename_i ns nss
  obtain ⟨l, pl', b, g1, g2, g3, g4, g5, g6, g7, g8⟩ := h1
  rw [hpl] at g2
  cases g2
  have hnd := h.nodup
  rw [hk] at hnd
  obtain ⟨hk1, hk2⟩ := List.nodup_cons.1 hnd
  have hdone : ∀ k id x, Done d k id x → Done { d with opened := rest } k id x := by
    rintro j id x ⟨q, q1, q2, q3, q4⟩
    exact ⟨q, q1, fun hj => q2 (by rw [hk]; simp [hj]), q3, q4⟩
  have hself : Done { d with opened := rest } k pl.name (pl.origin, pl.objects) := ⟨pl, hpl, hk1, rfl, rfl⟩
  have hdrawn : (Node.layer pl.name b pl.origin ns).Drawn := by
    refine ⟨?_, g8⟩
    rintro rfl hd
    rw [hd] at g6
    exact ha (by rw [g5]; rfl) (List.forall₂_nil_left_iff.1 g6)
  have hname : pl.name ∉ (ns :: nss).flatMap idsAll := by
    intro hn
    obtain ⟨j, q, q1, q2, q3⟩ := h.known _ hn
    have hi := (List.nodup_iff_injective_getElem.1 h.names)
    have hj1 := lt_of_some q1
    have hk3 := lt_of_some hpl
    have : (⟨j, by simpa using hj1⟩ : Fin (d.plates.map Plate.name).length) = ⟨k, by simpa using hk3⟩ := by
      apply hi
      simp only [List.getElem_map]
      rw [List.getElem?_eq_getElem hj1] at q1
      rw [List.getElem?_eq_getElem hk3] at hpl
      cases q1; cases hpl
      exact q3
    rw [Fin.mk.injEq] at this
    exact q2 (by rw [this, hk]; simp)
  have hblocks := h.blocks
  rw [hk] at hblocks
  obtain ⟨⟨k', p⟩, bs, hbs, hk', hbs'⟩ := List.map_eq_cons_iff.1 hblocks
  simp only at hk'
  subst hk'
  have hpar := h.par
  rw [hbs] at hpar
  obtain ⟨hp1, hp2⟩ := hpar
  rw [hbs'] at hp1
  obtain ⟨hul, hcm⟩ := h.unlocked (by rw [hk]; simp)
  have hready := h.ready
  have hfresh := h.fresh
  simp only [List.flatMap_cons] at hfresh hname
  have hlc : l.finalize.commands = (Node.layer pl.name b pl.origin ns).commands := by
    simp [LayerBuilder.finalize, g4, Node.commands]
  have hids : ∀ (j : ℕ) (l' : LayerBuilder ι) (q : Plate ι), (s.objs.set k' l.finalize)[j]? = some l' → d.plates[j]? = some q → l'.id = q.name := by
    intro j l' q q1 q2
    rw [getElem?_set_some g1] at q1
    split at q1
    · rename_i e; subst e
      cases q1
      exact h.ids k' l q g1 q2
    · exact h.ids j l' q q1 q2
  cases rest with
  | nil =>
    cases h2
    have hk0 : k' = 0 := by
      rcases h.last with e | e
      · rw [hk] at e; cases e
      · rw [hk] at e; simpa using e
    subst hk0
    simp only [List.head?_nil] at hp1
    subst hp1
    refine ⟨{ s with objs := s.objs.set 0 l.finalize, blocks := bs, commands := s.commands ++ l.finalize.commands }, [], ?_, ?_⟩
    · simp [RvmcBuilder.exit, hbs, g1, hul]
    · refine ⟨by simp [h.len], hbs', hp2, by simp, hids, fun e => absurd rfl e, by simp, .nil, trivial, by simp, by simp, fun e => absurd rfl e,
        h.names, h.first, .inl rfl, fun _ => ?_⟩
      obtain ⟨q, q1, q2⟩ := h.first
      rw [hpl] at q1; cases q1
      refine ⟨b, ns, pl, hpl, q2, by simp only [hcm, List.nil_append, hlc], by simpa using hready.1, ?_, g6.imp fun _ _ => MatchR.mono hg hdone,
        FilledAllR.mono hg hdone ns g7, hdrawn⟩
      simp only [List.flatMap_nil, List.append_nil] at hfresh hname
      exact List.nodup_cons.2 ⟨hname, hfresh⟩
  | cons r rest =>
    cases h2 with
    | cons h2 h3 =>
    rename_i ms B
    obtain ⟨lr, pr, br, r1, r2, r3, r4, r5, r6, r7, r8⟩ := h2
    have hkr : k' ≠ r := fun e => hk1 (by simp [e])
    simp only [List.head?_cons] at hp1
    subst hp1
    have hr1 : (s.objs.set k' l.finalize)[r]? = some lr := by rw [getElem?_set_some g1, if_neg hkr, r1]
    refine ⟨{ s with objs := (s.objs.set k' l.finalize).set r { lr with commands := lr.commands ++ l.finalize.commands, active := none },
                     blocks := bs }, (ms ++ [.layer pl.name b pl.origin ns]) :: B, ?_, ?_⟩
    · simp [RvmcBuilder.exit, hbs, g1, hr1]
    · have hr2 : r ∉ rest := (List.nodup_cons.1 hk2).1
      have hperm : List.Perm (((ms ++ [.layer pl.name b pl.origin ns]) :: B).flatMap idsAll)
          (pl.name :: (idsAll ns ++ ((ms :: B).flatMap idsAll))) := by
        simp only [List.flatMap_cons, idsAll_append, idsAll, Sketch.ids, List.append_nil, List.append_assoc, List.cons_append]
        refine List.perm_middle.trans (.cons _ ?_)
        rw [← List.append_assoc, ← List.append_assoc]
        exact List.Perm.append_right _ List.perm_append_comm
      refine ⟨by simp [h.len], hbs', hp2, ?_, ?_, fun _ => ⟨hul, hcm⟩, hk2, ?_, ?_, ?_, ?_, ?_, h.names, h.first, ?_, nofun⟩
      · intro j hj
        simp only [List.head?_cons, Option.some.injEq] at hj
        subst hj
        exact ⟨{ lr with commands := lr.commands ++ l.finalize.commands, active := none }, by simp only [getElem?_set_some hr1]; simp, rfl⟩
      · intro j l' q q1 q2
        simp only [getElem?_set_some hr1] at q1
        split at q1
        · rename_i e; subst e
          cases q1
          exact h.ids r lr q r1 q2
        · exact hids j l' q q1 q2
      · refine .cons ?_ ?_
        · refine ⟨{ lr with commands := lr.commands ++ l.finalize.commands, active := none }, pr, br, by simp only [getElem?_set_some hr1]; simp, r2, r3, ?_, r5, ?_, ?_, ?_⟩
          · simp [r4, hlc, commandsAll_append, Node.commandsAll]
          · rw [draws_append]
            simpa [Node.draws] using r6.imp fun _ _ => MatchR.mono hg hdone
          · rw [filledAllR_append]
            exact ⟨FilledAllR.mono hg hdone ms r7, ⟨_, _, hself, rfl, g6.imp fun _ _ => MatchR.mono hg hdone, FilledAllR.mono hg hdone ns g7⟩, trivial⟩
          · rw [drawnAll_append]
            exact ⟨r8, hdrawn, trivial⟩
        · have : ∀ {a : List ℕ} {c : List (List (Node ι))}, r ∉ a → k' ∉ a → List.Forall₂ (Lay g s d) a c → List.Forall₂
              (Lay g' { s with objs := (s.objs.set k' l.finalize).set r { lr with commands := lr.commands ++ l.finalize.commands, active := none },
                               blocks := bs } { d with opened := r :: rest }) a c := by
            intro a c ha hb hf
            induction hf with
            | nil => exact .nil
            | cons x _ ih =>
              rename_i j _ _ _ _
              have hj : r ≠ j := fun e => ha (by simp [e])
              have hj' : k' ≠ j := fun e => hb (by simp [e])
              refine .cons (x.mono (d := d) (d' := { d with opened := r :: rest }) ?_ rfl hg hdone) (ih (fun e => ha (by simp [e])) (fun e => hb (by simp [e])))
              intro l' hl'
              exact ⟨l', by simp only [getElem?_set_some hr1, if_neg hj, getElem?_set_some g1, if_neg hj', hl'], rfl, rfl⟩
          exact this hr2 (fun e => hk1 (by simp [e])) h3
      · obtain ⟨hr3, hr4, hr5⟩ := hready
        refine ⟨?_, hr5⟩
        rw [readyAll_append]
        refine ⟨hr4, ?_, trivial⟩
        refine ReadyAll.mono ?_ ns hr3
        intro j hj
        simp only [List.flatMap_cons, List.mem_append] at hj
        exact hj.symm
      · rw [hperm.nodup_iff]
        exact List.nodup_cons.2 ⟨hname, hfresh⟩
      · intro id hid
        rw [hperm.mem_iff, List.mem_cons] at hid
        rcases hid with rfl | hid
        · exact ⟨k', pl, hpl, hk1, rfl⟩
        · obtain ⟨j, q, q1, q2, q3⟩ := h.known id (by simpa using hid)
          exact ⟨j, q, q1, fun hj => q2 (by rw [hk]; exact List.mem_cons_of_mem _ hj), q3⟩
      · intro _ j q q1 q2
        rw [hperm.mem_iff, List.mem_cons]
        by_cases hj : j = k'
        · subst hj
          rw [hpl] at q1; cases q1
          exact .inl rfl
        · right
          have := h.done (by rw [hk]; simp) j q q1 (by rw [hk]; simp only [List.mem_cons, not_or] at q2 ⊢; exact ⟨hj, q2⟩)
          simpa using this
      · right
        rcases h.last with e | e
        · rw [hk] at e; cases e
        · rw [hk] at e; simpa using e

/-- A layer is begun. -/
theorem Inv.nested {main : ι} {g g' : List (Deed ι)} {s : State ι} {d : Plates ι} {nss : List (List (Node ι))} (hg : ∀ c ∈ g, c ∈ g') (h : Inv main g s d nss) {r : ℕ} {rest : List ℕ}
    (hk : d.opened = r :: rest) (id : ι) (box : Option (Box ℝ)) (origin : Vec ℝ) (hid : ∀ l ∈ d.plates, l.name ≠ id) :
    ∃ s' nss', RvmcBuilder.enter r id box origin s = (s', none) ∧
      Inv main g' s' ⟨d.plates ++ [⟨id, box.isNone, origin, []⟩], d.plates.length :: d.opened⟩ nss' := by
  obtain ⟨l, l1, l2⟩ := h.head r (by rw [hk]; rfl)
  have hlay := h.layers
  rw [hk] at hlay
  obtain ⟨l', pl, b, g1, g2, g3, -⟩ : ∃ l' pl b, s.objs[r]? = some l' ∧ d.plates[r]? = some pl ∧ l'.finalized = false ∧
      pl.auto = Option.isNone (α := Box ℝ) b := by
    cases hlay with
    | cons h1 _ =>
      obtain ⟨l', pl, b, g1, g2, g3, -, g5, -⟩ := h1
      exact ⟨l', pl, b, g1, g2, g3, g5⟩
  rw [l1] at g1; cases g1
  have hlt : ∀ k ∈ d.opened, k < d.plates.length := by
    intro k hk
    obtain ⟨a1, a2, b1, ns, b2, e1, e2, f1, f2, f3, n1, n2⟩ := forall₂_split h.layers hk h.nodup
    obtain ⟨l', pl, b, -, q2, -⟩ := f2
    exact lt_of_some q2
  have hold : ∀ k, k < d.plates.length → (d.plates ++ [⟨id, box.isNone, origin, []⟩])[k]? = d.plates[k]? :=
    fun k hk => List.getElem?_append_left hk
  have hnew : (d.plates ++ [⟨id, box.isNone, origin, []⟩])[d.plates.length]? = some ⟨id, box.isNone, origin, []⟩ := by simp
  have hdone : ∀ k i x, Done d k i x → Done ⟨d.plates ++ [⟨id, box.isNone, origin, []⟩], d.plates.length :: d.opened⟩ k i x := by
    rintro k i x ⟨q, q1, q2, q3, q4⟩
    have := lt_of_some q1
    refine ⟨q, by simp only [hold k this, q1], ?_, q3, q4⟩
    simp only [List.mem_cons, not_or]
    exact ⟨by omega, q2⟩
  have hlen : (s.objs.set r { l with active := some id }).length = s.objs.length := by simp
  have hobj : ∀ (k : ℕ) (l' : LayerBuilder ι), s.objs[k]? = some l' → ∃ l'' : LayerBuilder ι, (s.objs.set r { l with active := some id } ++ [LayerBuilder.new id box origin])[k]? = some l'' ∧
      l''.finalized = l'.finalized ∧ l''.commands = l'.commands ∧ l''.id = l'.id := by
    intro k l' hl'
    rw [List.getElem?_append_left (by rw [hlen]; exact lt_of_some hl'), getElem?_set_some l1]
    split
    · rename_i e; subst e
      rw [l1] at hl'; cases hl'
      exact ⟨_, rfl, rfl, rfl, rfl⟩
    · exact ⟨l', hl', rfl, rfl, rfl⟩
  have hobjn : (s.objs.set r { l with active := some id } ++ [LayerBuilder.new id box origin])[d.plates.length]? =
      some (LayerBuilder.new id box origin) := by
    rw [← h.len, List.getElem?_append_right (by simp)]
    simp
  refine ⟨{ s with objs := s.objs.set r { l with active := some id } ++ [LayerBuilder.new id box origin],
                   blocks := (s.objs.length, some r) :: s.blocks }, [] :: nss, ?_, ?_⟩
  · simp [RvmcBuilder.enter, l1, l2, g3]
  · have hflat : ([] :: nss).flatMap idsAll = nss.flatMap idsAll := by simp [idsAll]
    have hne : d.opened ≠ [] := by rw [hk]; simp
    refine ⟨by simp [h.len], by simp [h.blocks, h.len], ⟨by simp only [h.blocks, hk]; rfl, h.par⟩, ?_, ?_, fun _ => h.unlocked hne, ?_, ?_, ?_, ?_, ?_, ?_,
      ?_, ?_, ?_, nofun⟩
    · intro k hk
      simp only [List.head?_cons, Option.some.injEq] at hk
      subst hk
      exact ⟨_, hobjn, rfl⟩
    · intro k l' q q1 q2
      by_cases hkl : k < d.plates.length
      · rw [hold k hkl] at q2
        obtain ⟨l0, hl0⟩ : ∃ l0, s.objs[k]? = some l0 := ⟨_, List.getElem?_eq_getElem (by rw [h.len]; exact hkl)⟩
        obtain ⟨l'', k1, -, -, k2⟩ := hobj k l0 hl0
        simp only [k1] at q1
        cases q1
        rw [k2]
        exact h.ids k l0 q hl0 q2
      · have := lt_of_some q2
        simp at this
        have : k = d.plates.length := by omega
        subst this
        rw [hnew] at q2
        simp only [hobjn] at q1
        cases q1; cases q2
        rfl
    · refine List.nodup_cons.2 ⟨fun hm => ?_, h.nodup⟩
      exact absurd (hlt _ hm) (by simp)
    · refine .cons ?_ ?_
      · exact ⟨_, _, box, hobjn, hnew, rfl, rfl, rfl, .nil, trivial, trivial⟩
      · have : ∀ {a : List ℕ} {c : List (List (Node ι))}, (∀ k ∈ a, k ∈ d.opened) → List.Forall₂ (Lay g s d) a c → List.Forall₂
            (Lay g' { s with objs := s.objs.set r { l with active := some id } ++ [LayerBuilder.new id box origin],
                             blocks := (s.objs.length, some r) :: s.blocks }
              ⟨d.plates ++ [⟨id, box.isNone, origin, []⟩], d.plates.length :: d.opened⟩) a c := by
          intro a c ha hf
          induction hf with
          | nil => exact .nil
          | cons x _ ih =>
            rename_i j _ _ _ _
            refine .cons (x.mono ?_ (hold j (hlt j (ha j (by simp)))) hg hdone) (ih fun k hk => ha k (by simp [hk]))
            intro l' hl'
            obtain ⟨l'', k1, k2, k3, -⟩ := hobj j l' hl'
            exact ⟨l'', k1, k2, k3⟩
        exact this (fun _ h => h) h.layers
    · exact ⟨trivial, h.ready⟩
    · rw [hflat]; exact h.fresh
    · rw [hflat]
      intro i hi
      obtain ⟨k, q, q1, q2, q3⟩ := h.known i hi
      have := lt_of_some q1
      refine ⟨k, q, by simp only [hold k this, q1], ?_, q3⟩
      simp only [List.mem_cons, not_or]
      exact ⟨by omega, q2⟩
    · rw [hflat]
      intro _ k q q1 q2
      simp only [List.mem_cons, not_or] at q2
      have := lt_of_some q1
      simp at this
      simp only [hold k (by omega)] at q1
      exact h.done hne k q q1 q2.2
    · simp only [List.map_append, List.map_cons, List.map_nil]
      rw [List.nodup_append']
      refine ⟨h.names, by simp, ?_⟩
      intro i hi hi'
      simp only [List.mem_singleton] at hi'
      subst hi'
      obtain ⟨q, q1, q2⟩ := List.mem_map.1 hi
      exact hid q q1 q2
    · obtain ⟨q, q1, q2⟩ := h.first
      exact ⟨q, by simp only [hold 0 (lt_of_some q1), q1], q2⟩
    · right
      rcases h.last with e | e
      · exact absurd e hne
      · rw [hk] at e ⊢
        simpa using e

/-- The program of a script that uses the builder as it is meant to be used. -/
theorem built {main : ι} {h : List (Deed ι)} {d : Plates ι} (ha : AskedFor main h d) :
    ∃ s nss, performAll main h State.init = .ok s ∧ Inv main h s d nss := by
  induction ha with
  | layer box origin =>
    refine ⟨⟨[], false, [LayerBuilder.new main box origin], [(0, none)]⟩, [[]], rfl, ?_⟩
    refine ⟨rfl, rfl, ⟨rfl, trivial⟩, ?_, ?_, fun _ => ⟨rfl, rfl⟩, by simp, .cons ⟨_, _, box, rfl, rfl, rfl, rfl, rfl, .nil, trivial, trivial⟩ .nil,
      ⟨trivial, trivial⟩, by simp [idsAll], by simp [idsAll], ?_, by simp, ⟨_, rfl, rfl⟩, .inr rfl, nofun⟩
    · intro k hk
      cases hk
      exact ⟨_, rfl, rfl⟩
    · intro k l pl h1 h2
      cases k with
      | zero => cases h1; cases h2; rfl
      | succ k => cases h1
    · intro _ k pl h1 h2
      cases k with
      | zero => simp at h2
      | succ k => cases h1
  | nested r rest id box origin _ hk hid ih =>
    obtain ⟨s, nss, h1, h2⟩ := ih
    obtain ⟨s', nss', h3, h4⟩ := h2.nested (fun _ h => List.mem_append_left _ h) hk id box origin hid
    exact ⟨s', nss', performAll_snoc h1 (by simp only [perform, Deed.op, RvmcBuilder.step, h3]), h4⟩
  | mark r l figure negative _ hr hl hp ih =>
    obtain ⟨s, nss, h1, h2⟩ := ih
    obtain ⟨ss, k1, k2⟩ := shapes_parts figure hp negative
    obtain ⟨s', nss', h3, h4⟩ := h2.add (g' := _ ++ [.mark r figure negative]) (fun _ h => List.mem_append_left _ h) hr hl (ss.map Draw.shape) ((parts figure).map (Painted.mk !negative)) (by
      rw [List.forall₂_map_left_iff, List.forall₂_map_right_iff]
      refine forall₂_mem k2 ?_
      rintro x part hx ⟨e1, e2⟩
      refine ⟨?_, figure, negative, ss, by simp, hp, k1, hx⟩
      rw [e1, e2]) (.inl (by simp))
    refine ⟨s', nss', performAll_snoc h1 ?_, h4⟩
    rw [List.map_map] at h3
    simp only [perform, Deed.op, k1, bind, Except.bind, pure, Except.pure, RvmcBuilder.step]
    have e : (ss.map fun x => (Command.draw (Draw.shape x) : Command ι)) = ss.map (Command.draw ∘ Draw.shape) := rfl
    rw [e, h3]
  | paste r rest l src source center negative _ hk hl hsrc hso ih =>
    obtain ⟨s, nss, h1, h2⟩ := ih
    obtain ⟨lo, hlo⟩ : ∃ lo, s.objs[src]? = some lo := ⟨_, List.getElem?_eq_getElem (by rw [h2.len]; exact lt_of_some hsrc)⟩
    have hid := h2.ids src lo source hlo hsrc
    obtain ⟨s', nss', h3, h4⟩ := h2.add (g' := _ ++ [.paste r src center negative]) (fun _ h => List.mem_append_left _ h) (by rw [hk]; simp) hl [Draw.paste source.name center negative]
      [⟨!negative, {p | Covered source.objects (p - center + source.origin)}⟩]
      (.cons ⟨src, (source.origin, source.objects), ⟨source, hsrc, hso, rfl, rfl⟩, by simp, rfl⟩ .nil) (.inr ⟨by rw [hk]; rfl, by
        intro src' c' neg' hm
        simp only [List.mem_singleton, Draw.paste.injEq] at hm
        rw [hm.1]
        exact h2.done (by rw [hk]; simp) src source hsrc hso⟩)
    refine ⟨s', nss', performAll_snoc h1 ?_, h4⟩
    simp only [perform, Deed.op, RvmcBuilder.step, hlo, hid]
    simp only [List.map_cons, List.map_nil] at h3
    rw [h3]
  | leave k rest l _ hk hl hau ih =>
    obtain ⟨s, nss, h1, h2⟩ := ih
    obtain ⟨s', nss', h3, h4⟩ := h2.leave (fun _ h => List.mem_append_left _ h) hk hl hau
    exact ⟨s', nss', performAll_snoc h1 (by simp only [perform, Deed.op, RvmcBuilder.step, h3]), h4⟩
  | getRvmc _ hk ih =>
    obtain ⟨s, nss, h1, h2⟩ := ih
    refine ⟨{ s with locked := true }, nss, performAll_snoc h1 rfl, ?_⟩
    rename_i g _ _
    have hg : ∀ c ∈ g, c ∈ g ++ [Deed.getRvmc] := fun _ h => List.mem_append_left _ h
    obtain ⟨a1, a2, a3, a4, a5, a6, a7, a8, a9, a10, a11, a12, a13, a14, a15, a16⟩ := h2
    refine ⟨a1, a2, a3, a4, a5, fun e => absurd hk e, a7, by rw [hk] at a8 ⊢; cases a8; exact .nil, a9, a10, a11, a12, a13, a14, a15, fun e => ?_⟩
    obtain ⟨b, ns, pl, b1, b2, b3, b4, b5, b6, b7, b8⟩ := a16 e
    exact ⟨b, ns, pl, b1, b2, b3, b4, b5, b6.imp fun _ _ => MatchR.mono hg (fun _ _ _ h => h), FilledAllR.mono hg (fun _ _ _ h => h) ns b7, b8⟩

end
end Verif.Sketch
