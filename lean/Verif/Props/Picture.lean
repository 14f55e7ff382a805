import Verif.Lemmas.Picture
import Verif.Props.Stroke
import Verif.Props.Repeat
import Verif.Props.Image

/-!
# C74: the picture of a file
-/

namespace Verif.Props.Picture
open Verif.Visitor Verif.Coord Verif.Geom Verif.Rvmc Verif.Compiler Verif.Spec Verif.Vm Verif.Props.State
  Verif.Props.Compiler Verif.Props.FlashImage Verif.Props.MacroShape Verif.Props.Stroke Verif.Props.Repeat
  Verif.Props.Image Verif.Lemmas.Picture Verif.Render
noncomputable section

/-! ### What the commands avoid -/

/-- What the code gets wrong, each refuted by a theorem of its own, does not occur in a file. -/
structure Avoids (h : List Atom) : Prop where
  /-- No code is defined twice (`c19_false_flashed_before`). -/
  once : ∀ id, h.countP (opensCode id) ≤ 1
  /-- No macro with a thermal is used by two apertures. -/
  thermals : (drawnThermals (fun _ => []) h).Nodup
  /-- Apertures are of the kind that is drawn as prescribed (C65). -/
  apertures : ∀ p id d q, h = p ++ .leaf (.ad id d) :: q → SoundAperture (fun name => latest (givesMacro name) none p) d
  /-- Flashes are not scaled by zero. -/
  flashes : ∀ p x y q, h = p ++ .leaf (.d03 x y) :: q → latest setsScaling 1 p ≠ 0
  /-- Blocks are flashed in dark polarity (`c21_false_block`). -/
  blocks : ∀ p x y q id, h = p ++ .leaf (.d03 x y) :: q → selected p = some id → .abClose id ∈ p →
    latest setsPolarity .dark p = .dark
  /-- Draws are not scaled (`c61_false_scaled`). -/
  strokes : ∀ p x y i j q, h = p ++ .leaf (.d01 x y i j) :: q → inRegion p = false → latest setsScaling 1 p = 1
  /-- Step and repeat blocks end at the origin (`c18_false_displaced`) -/
  repeats : ∀ p r q, h = p ++ .srClose r :: q → At p ⟨0, 0⟩
  /-- and are not in one another, which the grammar rejects. -/
  single : ∀ p q, h = p ++ q → (openBlocks p).count none ≤ 1

theorem Avoids.before {h q : List Atom} (ha : Avoids (h ++ q)) : Avoids h where
  once := once_prefix ha.once
  thermals := by
    have := ha.thermals
    rw [drawnThermals_append] at this
    exact (List.nodup_append.1 this).1
  apertures := fun p id d r e => ha.apertures p id d (r ++ q) (by rw [e]; simp)
  flashes := fun p x y r e => ha.flashes p x y (r ++ q) (by rw [e]; simp)
  blocks := fun p x y r id e => ha.blocks p x y (r ++ q) id (by rw [e]; simp)
  strokes := fun p x y i j r e => ha.strokes p x y i j (r ++ q) (by rw [e]; simp)
  repeats := fun p r r' e => ha.repeats p r (r' ++ q) (by rw [e]; simp)
  single := fun p r e => ha.single p (r ++ q) (by rw [e]; simp)

/-! ### The invariant -/

/-- A layer looks like the objects. -/
def Seen (c : CState) (k : LayerId) (objects : List (Painted (Vec ℝ))) : Prop :=
  ∃ os, Shows within (layersOf c) k os ∧ Same os objects

/-- The compiler is in step with a sheet. -/
structure Agrees (h : List Atom) (c : CState) (s : Sheet) : Prop where
  drawn : List.Forall₂ (Seen c) c.stack s.drawn
  single : ∀ id d objects, s.tools id = some (.single d objects) → Seen c (.ap id) objects ∧ .ap id ∉ c.stack ∧
    latest (adOf id) none h = some d
  block : ∀ id objects, s.tools id = some (.block objects) → Seen c (.ap id) objects ∧ .ap id ∉ c.stack ∧
    latest (adOf id) none h = none ∧ latest (abOf id) none h = some ()
  contour : latest setsRegion false h = true → c.contour = some s.contour

/-- One command, with all that is known before and after it. -/
structure Steps (env : Env) (h : List Atom) (a : Atom) (c c' : CState) : Prop where
  ran : (run {} h).exn = none
  ran' : (run {} (h ++ [a])).exn = none
  fine : (Visitor.step (run {} h).st a).exn = none
  before : compiled env h = .ok c
  after : compiled env (h ++ [a]) = .ok c'
  fed : feed env (Visitor.step (run {} h).st a).ev c = .ok c'
  nested : Nested (h ++ [a])
  avoids : Avoids (h ++ [a])
  tidy : Tidy h c
  tidy' : Tidy (h ++ [a]) c'
  keeps : Keeps c c'

theorem steps {env : Env} {h : List Atom} {a : Atom} {c' : CState} (hr : (run {} (h ++ [a])).exn = none)
    (hc : compiled env (h ++ [a]) = .ok c') (hn : Nested (h ++ [a])) (ha : Avoids (h ++ [a])) :
    ∃ c, Steps env h a c c' := by
  obtain ⟨h1, h2, c, hc1, hf⟩ := compiled_pre hr hc
  have ht := tidy h h1 c hc1 ha.before.once (nested_prefix hn) ha.before.thermals
  obtain ⟨ht', hk⟩ := tidy_snoc h1 h2 ha.once hn ha.thermals ht hf
  exact ⟨c, h1, hr, h2, hc1, hc, hf, hn, ha, ht, ht', hk⟩

theorem names_nodup : ∀ {front : List LayerId} {bs : List (Option Name)}, List.Forall₂ Names front bs → bs.Nodup →
    (front ++ [LayerId.main]).Nodup := by
  intro front bs h hn
  induction h with
  | nil => simp
  | @cons k b ks bs h1 h2 ih =>
    obtain ⟨hb, hbs⟩ := List.nodup_cons.1 hn
    rw [List.cons_append, List.nodup_cons]
    refine ⟨?_, ih hbs⟩
    intro hm
    rcases List.mem_append.1 hm with hm | hm
    · obtain ⟨b', hb', hn'⟩ := forall₂_mem h2 _ hm
      have : b = b' := by
        cases k with
        | ap id =>
          cases b with
          | none => exact h1.elim
          | some i =>
            cases b' with
            | none => exact hn'.elim
            | some i' => cases h1; cases hn'; rfl
        | sr n t =>
          cases b with
          | some _ => exact h1.elim
          | none =>
            cases b' with
            | some _ => exact hn'.elim
            | none => rfl
        | _ => exact h1.elim
      exact hb (this ▸ hb')
    · rw [List.mem_singleton] at hm
      subst hm
      exact h1

theorem stack_nodup {h : List Atom} {c : CState} (ht : Tidy h c) (hn : Nested h) (ha : Avoids h) : c.stack.Nodup := by
  obtain ⟨front, e1, e2⟩ := ht.stack
  rw [e1]
  refine names_nodup e2 (List.nodup_iff_count_le_one.2 ?_)
  intro o
  cases o with
  | none => exact ha.single h [] (by simp)
  | some id =>
    have hb := blocks_balance id h hn
    have hs := codes_split h id
    have := ha.once id
    omega

variable {env : Env} {h : List Atom} {a : Atom} {c c' : CState} {s : Sheet}

theorem Seen.keep (ht : Synced c) (hk : Keeps c c') {k : LayerId} {objects : List (Painted (Vec ℝ))} (hs : Seen c k objects)
    (hb : ∀ b, c.buffers.get? k = some b → c'.buffers.get? k = some b) : Seen c' k objects := by
  obtain ⟨os, h1, h2⟩ := hs
  exact ⟨os, shows_fixed (fun k b hb s hs => (ht.known k b hb s hs).1) (fun k b hf hb => (hk k b (ht.settled hf) hb).2) h1 hb, h2⟩

theorem Seen.tool (ht : Synced c) (hk : Keeps c c') {id : Name} {objects : List (Painted (Vec ℝ))}
    (hs : Seen c (.ap id) objects) (hn : .ap id ∉ c.stack) : Seen c' (.ap id) objects ∧ .ap id ∉ c'.stack := by
  obtain ⟨os, h1, h2⟩ := hs
  obtain ⟨b, hb, -⟩ := shows_inv h1
  have hset : Settled c (.ap id) := ⟨hn, nofun⟩
  exact ⟨Seen.keep ht hk ⟨os, h1, h2⟩ (fun b hb => (hk _ b hset hb).2), (hk _ b hset hb).1.1⟩

theorem forall₂_imp {α β : Type} {R S : α → β → Prop} {as : List α} {bs : List β} (h : List.Forall₂ R as bs)
    (hi : ∀ a ∈ as, ∀ b, R a b → S a b) : List.Forall₂ S as bs := by
  induction h with
  | nil => exact .nil
  | cons h1 _ ih => exact .cons (hi _ (by simp) _ h1) (ih fun a ha => hi a (by simp [ha]))

theorem single_next (B : Steps env h a c c') (A : Agrees h c s) {id : Name} {d : ApDef} {objects : List (Painted (Vec ℝ))}
    (ht : s.tools id = some (.single d objects)) (ha : adOf id a = none) :
    Seen c' (.ap id) objects ∧ .ap id ∉ c'.stack ∧ latest (adOf id) none (h ++ [a]) = some d := by
  obtain ⟨h1, h2, h3⟩ := A.single id d objects ht
  obtain ⟨k1, k2⟩ := Seen.tool B.tidy.synced B.keeps h1 h2
  refine ⟨k1, k2, ?_⟩
  rw [latest_snoc, ha]; exact h3

theorem block_next (B : Steps env h a c c') (A : Agrees h c s) {id : Name} {objects : List (Painted (Vec ℝ))}
    (ht : s.tools id = some (.block objects)) (ha : adOf id a = none) (hb : abOf id a = none) :
    Seen c' (.ap id) objects ∧ .ap id ∉ c'.stack ∧ latest (adOf id) none (h ++ [a]) = none ∧
      latest (abOf id) none (h ++ [a]) = some () := by
  obtain ⟨h1, h2, h3, h4⟩ := A.block id objects ht
  obtain ⟨k1, k2⟩ := Seen.tool B.tidy.synced B.keeps h1 h2
  refine ⟨k1, k2, ?_, ?_⟩
  · rw [latest_snoc, ha]; exact h3
  · rw [latest_snoc, hb]; exact h4

/-- A command that draws. -/
theorem Agrees.draws {l : Leaf} (B : Steps env h (.leaf l) c c') (A : Agrees h c s) {new : List (Draw LayerId)}
    (D : Draws env h (.leaf l) new) {os objects : List (Painted (Vec ℝ))} (S : ShowsAll within (layersOf c') new os)
    (E : Same os objects) (hl : ∀ id d, l ≠ .ad id d) {g : List Segment}
    (hg : latest setsRegion false (h ++ [.leaf l]) = true → c'.contour = some g) :
    Agrees (h ++ [.leaf l]) c' (Sheet.add { s with contour := g } objects) := by
  obtain ⟨c0, c1, e0, e1, hst, hhead, hother⟩ := D
  rw [B.before] at e0; cases e0
  rw [B.after] at e1; cases e1
  have hadd : (Sheet.add { s with contour := g } objects).tools = s.tools ∧
      (Sheet.add { s with contour := g } objects).contour = g := by
    unfold Sheet.add
    split <;> exact ⟨rfl, rfl⟩
  have ha : ∀ id, adOf id (.leaf l) = none := by
    intro id
    cases l <;> first | rfl | exact absurd rfl (hl _ _)
  refine ⟨?_, ?_, ?_, ?_⟩
  · have hnd := stack_nodup B.tidy (nested_prefix B.nested) B.avoids.before
    have hd := A.drawn
    rw [hst]
    cases hs : s.drawn with
    | nil =>
      rw [hs] at hd
      simp only [Sheet.add]
      cases hk : c.stack with
      | nil => exact .nil
      | cons k ks => rw [hk] at hd; cases hd
    | cons o rest =>
      rw [hs] at hd
      simp only [Sheet.add]
      cases hk : c.stack with
      | nil => rw [hk] at hd; cases hd
      | cons k ks =>
        rw [hk] at hd hnd hhead hother
        cases hd with
        | cons hd1 hd2 =>
          obtain ⟨os0, s1, s2⟩ := hd1
          obtain ⟨b, hb, s3⟩ := shows_inv s1
          refine .cons ⟨os0 ++ os, shows_buffer (hhead k b rfl hb) (showsAll_append
            (showsAll_fixed (fun k b hb s hs => (B.tidy.synced.known k b hb s hs).1)
              (fun k b hf hb => (B.keeps k b (B.tidy.synced.settled hf) hb).2) s3
              (fun s hs => (B.tidy.synced.known k b hb s hs).1)) S), s2.append E⟩ ?_
          refine forall₂_imp hd2 fun k' hk' o' ho' => ?_
          refine ho'.keep B.tidy.synced B.keeps fun b hb => hother k' b ?_ hb
          simp only [List.head?_cons, ne_eq, Option.some.injEq]
          rintro rfl
          exact (List.nodup_cons.1 hnd).1 hk'
  · intro id d objs ht
    rw [hadd.1] at ht
    exact single_next B A ht (ha id)
  · intro id objs ht
    rw [hadd.1] at ht
    exact block_next B A ht (ha id) rfl
  · rw [hadd.2]; exact hg

theorem add_nil (s : Sheet) : s.add [] = s := by
  unfold Sheet.add
  split
  · rfl
  · next h => simp [← h]

/-- A command that draws nothing. -/
theorem Agrees.draws_nothing {l : Leaf} (B : Steps env h (.leaf l) c c') (A : Agrees h c s)
    (D : Draws env h (.leaf l) []) (hl : ∀ id d, l ≠ .ad id d) {g : List Segment}
    (hg : latest setsRegion false (h ++ [.leaf l]) = true → c'.contour = some g) :
    Agrees (h ++ [.leaf l]) c' { s with contour := g } := by
  have := A.draws B D .nil (.refl []) hl hg
  rwa [add_nil] at this

/-! ### Flashes -/

theorem current_single (B : Steps env h a c c') {id : Name} {d : ApDef} (hsel : selected h = some id)
    (hd : latest (adOf id) none h = some d) : (run {} h).st.currentAperture = .ok (.ad id d) := by
  obtain ⟨s1, s2, -, -, -⟩ := selected_inv _ B.ran
  have hid : (run {} h).st.apId = some id := s1.trans hsel
  simp only [VState.currentAperture, hid, (s2 id).trans hd]

theorem current_block (B : Steps env h a c c') {id : Name} (hsel : selected h = some id)
    (hd : latest (adOf id) none h = none) (hb : latest (abOf id) none h = some ()) :
    (run {} h).st.currentAperture = .ok (.ab id) := by
  obtain ⟨s1, s2, s3, -, -⟩ := selected_inv _ B.ran
  have hid : (run {} h).st.apId = some id := s1.trans hsel
  simp only [VState.currentAperture, hid, (s2 id).trans hd, (s3 id).trans hb]

theorem dark_clear (h : List Atom) : (!decide (latest setsPolarity .dark h = .clear)) = inDark h := by
  unfold inDark
  cases latest setsPolarity .dark h <;> rfl

theorem region_same {a : Atom} (hr : inRegion h = false) (ha : setsRegion a = none) :
    ¬ latest setsRegion false (h ++ [a]) = true := by
  rw [latest_snoc, ha]
  change ¬ inRegion h = true
  rw [hr]; simp

/-- The transform of a flash. -/
theorem flash_similar {x y : Option (List Char)} (B : Steps env h (.leaf (.d03 x y)) c c') :
    ∃ e, Sim.Similar (transformMatrix (run {} h).st.transform) e ((run {} h).st.transform.scaling : ℝ) ∧
      (transformMatrix (run {} h).st.transform).m 0 2 = 0 ∧ (transformMatrix (run {} h).st.transform).m 1 2 = 0 ∧
      (transformMatrix (run {} h).st.transform).apply = placedIn h := by
  have hk := B.avoids.flashes h x y [] rfl
  obtain ⟨-, e2, e3, e4⟩ := transform_inv _ B.ran
  obtain ⟨e, sim, z0, z1⟩ := similar_transform (run {} h).st.transform (by rw [e4]; exact hk)
  exact ⟨e, sim, z0, z1, funext (transform_placed _ B.ran)⟩

theorem flash_single {x y : Option (List Char)} (B : Steps env h (.leaf (.d03 x y)) c c') (A : Agrees h c s) {id : Name}
    {d : ApDef} {objects : List (Painted (Vec ℝ))} (hreg : inRegion h = false) (hsel : selected h = some id)
    (ht : s.tools id = some (.single d objects)) {p : Vec ℝ} (hp : At (h ++ [.leaf (.d03 x y)]) p) :
    Agrees (h ++ [.leaf (.d03 x y)]) c' (s.add [⟨inDark h, {q | ∃ v, Covered objects v ∧ q = placedIn h v + p}⟩]) := by
  obtain ⟨a1, a2, a3⟩ := A.single id d objects ht
  obtain ⟨e, sim, z0, z1, hplace⟩ := flash_similar B
  obtain ⟨-, -, b, -, -, -, f3, f4⟩ := d03_draws B.ran' B.after (current_single B hsel a3)
  have hat := at_unique hp (endPoint_at (i := none) (j := none) (x := x) (y := y) (h := h) (Or.inl rfl) B.ran' (Or.inr (Or.inr rfl)))
  obtain ⟨⟨os, k1, k2⟩, -⟩ := Seen.tool B.tidy.synced B.keeps a1 a2
  have hcopy := shows_copy B.tidy'.synced sim z0 z1 k1 f3
  refine A.draws B f4 (.paste _ _ _ _ _ _ hcopy .nil) ?_ nofun (g := s.contour) (fun hr => absurd hr (region_same hreg rfl))
  rw [hplace, ← hat, dark_clear]
  have hinj : Function.Injective (placedIn h) := by rw [← hplace]; exact sim.injective
  have hpts : {q | Covered (os.map (Painted.image (placedIn h))) (q - p)} =
      {q | ∃ v, Covered objects v ∧ q = placedIn h v + p} := by
    ext q
    constructor
    · intro hq
      obtain ⟨v, hv⟩ := covered_range hq
      refine ⟨v, ?_, by rw [← hv]; ext <;> simp⟩
      rw [Set.mem_ofPred_eq, hv, covered_image hinj] at hq
      exact (k2.covered v).1 hq
    · rintro ⟨v, hv, rfl⟩
      have : placedIn h v + p - p = placedIn h v := by ext <;> simp
      rw [Set.mem_ofPred_eq, this, covered_image hinj]
      exact (k2.covered v).2 hv
  rw [hpts]
  exact .refl _

theorem flash_block {x y : Option (List Char)} (B : Steps env h (.leaf (.d03 x y)) c c') (A : Agrees h c s) {id : Name}
    {objects : List (Painted (Vec ℝ))} (hreg : inRegion h = false) (hsel : selected h = some id)
    (ht : s.tools id = some (.block objects)) {p : Vec ℝ} (hp : At (h ++ [.leaf (.d03 x y)]) p) :
    Agrees (h ++ [.leaf (.d03 x y)]) c'
      (s.add (objects.map fun o => ⟨o.dark == inDark h, (fun v => placedIn h v + p) '' o.points⟩)) := by
  obtain ⟨a1, a2, a3, a4⟩ := A.block id objects ht
  obtain ⟨e, sim, z0, z1, hplace⟩ := flash_similar B
  obtain ⟨-, -, b, -, -, -, f3, f4⟩ := d03_block_draws B.ran' B.after (current_block B hsel a3 a4)
  have hat := at_unique hp (endPoint_at (i := none) (j := none) (x := x) (y := y) (h := h) (Or.inl rfl) B.ran' (Or.inr (Or.inr rfl)))
  obtain ⟨⟨os, k1, k2⟩, -⟩ := Seen.tool B.tidy.synced B.keeps a1 a2
  have hcopy := shows_copy B.tidy'.synced sim z0 z1 k1 f3
  obtain ⟨b', hb', hdrawn⟩ := shows_inv hcopy
  rw [f3] at hb'; cases hb'
  have hmem : .abClose id ∈ h := by
    by_contra hno
    have := latest_append_of_none (abOf id) none [] h (by
      intro b hb
      cases b with
      | abClose i =>
        simp only [abOf]
        rw [if_neg]
        rintro rfl
        exact hno hb
      | _ => rfl)
    rw [List.nil_append, a4] at this
    cases this
  have hdark : inDark h = true := by
    unfold inDark
    rw [B.avoids.blocks h x y [] id rfl hsel hmem]
    rfl
  have hmoved := shows_moved (endPoint (withXY (run {} h).st x y)) hdrawn
  refine A.draws B f4 hmoved ?_ nofun (g := s.contour) (fun hr => absurd hr (region_same hreg rfl))
  have hinj : Function.Injective (fun v => placedIn h v + p) := by
    intro v w hvw
    have h1 : placedIn h v = placedIn h w := by
      have hx := congrArg Vec.x hvw
      have hy := congrArg Vec.y hvw
      simp only [Vec.add_x, Vec.add_y, add_left_inj] at hx hy
      ext
      · exact hx
      · exact hy
    rw [← hplace] at h1
    exact sim.injective h1
  have e1 : (os.map (Painted.image (transformMatrix (run {} h).st.transform).apply)).map
      (Painted.image fun w => w + endPoint (withXY (run {} h).st x y)) = os.map (Painted.image fun v => placedIn h v + p) := by
    rw [List.map_map]
    refine List.map_congr_left ?_
    intro o _
    simp only [Function.comp_apply, Painted.image, Set.image_image, hplace, hat]
  have e2 : objects.map (fun o => (⟨o.dark == inDark h, (fun v => placedIn h v + p) '' o.points⟩ : Painted (Vec ℝ))) =
      objects.map (Painted.image fun v => placedIn h v + p) := by
    refine List.map_congr_left ?_
    intro o _
    rw [hdark]
    simp [Painted.image]
  rw [e1, e2]
  exact k2.image hinj

/-! ### Draws -/

/-- Shapes drawn in the polarity in force are one object. -/
theorem shapes_agree {x y i j : Option (List Char)} (B : Steps env h (.leaf (.d01 x y i j)) c c') (A : Agrees h c s)
    (hreg : inRegion h = false) {ss : List Shape} (n1 : Draws env h (.leaf (.d01 x y i j)) (ss.map .shape))
    (n2 : ∀ g ∈ ss.map Draw.shape, isClear g = decide (latest setsPolarity .dark h = .clear)) {S : Set (Vec ℝ)}
    (n3 : ∀ v, Inked (ss.map .shape) v ↔ v ∈ S) :
    Agrees (h ++ [.leaf (.d01 x y i j)]) c' (s.add [⟨inDark h, S⟩]) := by
  have hshow : ∀ ss : List Shape, ShowsAll within (layersOf c') (ss.map .shape)
      (ss.map fun g => ⟨!g.negative, areaOf g⟩) := by
    intro ss
    induction ss with
    | nil => exact .nil
    | cons g gs ih => exact .shape g _ _ _ rfl ih
  refine A.draws B n1 (hshow ss) ?_ nofun (g := s.contour) (fun hr => absurd hr (region_same hreg rfl))
  refine same_union (S := fun v => v ∈ S) ?_ ?_
  · intro o ho
    obtain ⟨g, hg, rfl⟩ := List.mem_map.1 ho
    have := n2 (.shape g) (List.mem_map_of_mem hg)
    simp only [isClear] at this
    simp only [this]
    exact dark_clear h
  · intro v
    rw [← n3 v]
    unfold Inked
    constructor
    · rintro ⟨g, hg, hv⟩
      obtain ⟨g', hg', e⟩ := List.mem_map.1 hg
      cases e
      exact ⟨_, List.mem_map_of_mem hg', hv⟩
    · rintro ⟨o, ho, hv⟩
      obtain ⟨g, hg, rfl⟩ := List.mem_map.1 ho
      exact ⟨g, List.mem_map_of_mem hg, hv⟩

theorem stroke_agrees {x y i j : Option (List Char)} (B : Steps env h (.leaf (.d01 x y i j)) c c') (A : Agrees h c s)
    {id : Name} {d : ℚ} {objects : List (Painted (Vec ℝ))} (hreg : inRegion h = false) (hsel : selected h = some id)
    (ht : s.tools id = some (.single (.circle d none) objects)) (hd : 0 ≤ d) (hlin : latest setsPlot .linear h = .linear)
    {p q : Vec ℝ} (hp : At h p) (hq : At (h ++ [.leaf (.d01 x y i j)]) q) :
    Agrees (h ++ [.leaf (.d01 x y i j)]) c' (s.add [⟨inDark h, {v | Swept p q (d * latest setsScaling 1 h : ℚ) v}⟩]) := by
  obtain ⟨-, -, a3⟩ := A.single id _ objects ht
  obtain ⟨new, n1, n2, n3, ss, rfl⟩ := stroke_shapes B.ran' B.after hreg hlin (t := (d : ℝ)) (by exact_mod_cast hd)
    (thickness_circle (current_single B hsel a3)) hp hq
  rw [B.avoids.strokes h x y i j [] rfl hreg, mul_one]
  exact shapes_agree B A hreg n1 n2 n3

theorem arc_agrees {x y : Option (List Char)} {ti tj : List Char}
    (B : Steps env h (.leaf (.d01 x y (some ti) (some tj))) c c') (A : Agrees h c s)
    {id : Name} {d : ℚ} {objects : List (Painted (Vec ℝ))} (hreg : inRegion h = false) (hsel : selected h = some id)
    (ht : s.tools id = some (.single (.circle d none) objects)) (hd : 0 ≤ d) (hlin : latest setsPlot .linear h ≠ .linear)
    (hquad : latest setsQuad .single h = .multi) {i j : ℚ} (hi : Offset h .x ti i) (hj : Offset h .y tj j)
    {p q : Vec ℝ} (hp : At h p) (hq : At (h ++ [.leaf (.d01 x y (some ti) (some tj))]) q)
    (hne : p ≠ p + ⟨i, j⟩) (hrad : vlen (p - (p + ⟨i, j⟩)) = vlen (q - (p + ⟨i, j⟩))) :
    Agrees (h ++ [.leaf (.d01 x y (some ti) (some tj))]) c'
      (s.add [⟨inDark h, {v | SweptAlong (decide (latest setsPlot .linear h = .arc)) p q (p + ⟨i, j⟩)
        (d * latest setsScaling 1 h : ℚ) v}⟩]) := by
  obtain ⟨-, -, a3⟩ := A.single id _ objects ht
  obtain ⟨new, n1, n2, n3, ss, rfl⟩ := arc_shapes B.ran' B.after hreg hlin hquad (t := (d : ℝ)) (by exact_mod_cast hd)
    (thickness_circle (current_single B hsel a3)) hp hq hi hj hne hrad
  rw [B.avoids.strokes h x y _ _ [] rfl hreg, mul_one]
  exact shapes_agree B A hreg n1 n2 n3

/-! ### Regions -/

theorem filled_shows (ls : List (Spec.Layer LayerId)) (h : List Atom) (g : List Segment) :
    ShowsAll within ls (contourShape (decide (latest setsPolarity .dark h = .clear)) g) (filledContour (inDark h) g) := by
  cases g with
  | nil => exact .nil
  | cons g gs =>
    have := ShowsAll.shape (outline := within) (layers := ls) ⟨g, gs, decide (latest setsPolarity .dark h = .clear)⟩ _ [] []
      rfl .nil
    rw [dark_clear] at this
    exact this

theorem region_line {x y i j : Option (List Char)} (B : Steps env h (.leaf (.d01 x y i j)) c c') (A : Agrees h c s)
    (hreg : inRegion h = true) (hlin : latest setsPlot .linear h = .linear)
    {p q : Vec ℝ} (hp : At h p) (hq : At (h ++ [.leaf (.d01 x y i j)]) q) :
    Agrees (h ++ [.leaf (.d01 x y i j)]) c' { s with contour := s.contour ++ [.line ⟨p, q⟩] } := by
  obtain ⟨e1, c0, e2, e3⟩ := d01_inside B.ran' B.after hreg
  rw [B.before] at e2; cases e2
  refine A.draws_nothing B e1 nofun fun _ => ?_
  rw [e3, A.contour hreg, Option.map_some]
  have hst := at_unique hp (startPoint_at B.ran x y i j)
  have hen := at_unique hq (endPoint_at (Or.inr rfl) B.ran' (Or.inl rfl))
  have hkind : drawingOf (latest setsPlot .linear h) (latest setsQuad .single h) = .line := by
    rw [hlin]; cases latest setsQuad .single h <;> rfl
  rw [hkind, hst, hen]
  rfl

theorem region_fill {l : Leaf} (B : Steps env h (.leaf l) c c') (A : Agrees h c s) (hreg : inRegion h = true)
    (hl : (∃ x y, l = .d02 x y) ∨ l = .g37) :
    Agrees (h ++ [.leaf l]) c' (Sheet.add { s with contour := [] } (filledContour (inDark h) s.contour)) := by
  have hcon := A.contour hreg
  rcases hl with ⟨x, y, rfl⟩ | rfl
  · obtain ⟨c0, e1, e2⟩ := d02_draws B.ran' B.after
    rw [B.before] at e1; cases e1
    rw [if_pos (show latest setsRegion false h = true from hreg)] at e2
    obtain ⟨g, g1, g2, g3⟩ := e2
    rw [hcon] at g1; cases g1
    exact A.draws B g3 (filled_shows _ _ _) (.refl _) nofun fun _ => g2
  · obtain ⟨c0, g, e1, g1, -, g3⟩ := g37_draws B.ran' B.after
    rw [B.before] at e1; cases e1
    rw [hcon] at g1; cases g1
    refine A.draws B g3 (filled_shows _ _ _) (.refl _) nofun fun hr => ?_
    rw [latest_snoc] at hr
    cases hr

/-! ### Blocks -/

theorem open_agrees (B : Steps env h a c c') (A : Agrees h c s) (hreg : inRegion h = false)
    (ha : (∃ id, a = .abOpen id) ∨ ∃ p, a = .srOpen p) :
    Agrees (h ++ [a]) c' { s with drawn := [] :: s.drawn } := by
  obtain ⟨k, hc', hset, hnone, had, hab⟩ : ∃ k, c'.stack = k :: c.stack ∧ (c'.buffers = c.buffers.set k []) ∧
      setsRegion a = none ∧ (∀ id, adOf id a = none) ∧ ∀ id, abOf id a = none := by
    have hf := B.fed
    rcases ha with ⟨id, rfl⟩ | ⟨p, rfl⟩
    · change feed env [.abOpen id] c = .ok c' at hf
      rw [feed_singleton] at hf
      cases hf
      exact ⟨_, rfl, rfl, rfl, fun _ => rfl, fun _ => rfl⟩
    · change feed env [.srOpen p] c = .ok c' at hf
      rw [feed_singleton] at hf
      cases hf
      exact ⟨_, rfl, rfl, rfl, fun _ => rfl, fun _ => rfl⟩
  have hnd := stack_nodup B.tidy' B.nested B.avoids
  rw [hc'] at hnd
  refine ⟨?_, ?_, ?_, fun hr => absurd hr (region_same hreg hnone)⟩
  · rw [hc']
    refine .cons ⟨[], shows_buffer (b := []) (by rw [hset, Dict.get?_set_self]) .nil, .refl _⟩ ?_
    refine forall₂_imp A.drawn fun k' hk' o ho => ho.keep B.tidy.synced B.keeps fun b hb => ?_
    rw [hset, Dict.get?_set, if_neg]
    · exact hb
    · rintro rfl
      exact (List.nodup_cons.1 hnd).1 hk'
  · intro id d objs ht; exact single_next B A ht (had id)
  · intro id objs ht; exact block_next B A ht (had id) (hab id)

theorem close_agrees {id : Name} (B : Steps env h (.abClose id) c c') (A : Agrees h c s) (hreg : inRegion h = false)
    {body : List (Painted (Vec ℝ))} {rest : List (List (Painted (Vec ℝ)))} (hs : s.drawn = body :: rest) :
    Agrees (h ++ [.abClose id]) c' (Sheet.define { s with drawn := rest } id (.block body)) := by
  have hnd := stack_nodup B.tidy (nested_prefix B.nested) B.avoids.before
  have hf := B.fed
  change feed env [.abClose id] c = .ok c' at hf
  rw [feed_singleton] at hf
  have hlast := (B.nested h (.abClose id) [] rfl).1 id rfl
  obtain ⟨front, e1, e2⟩ := B.tidy.stack
  have hd := A.drawn
  rw [hs] at hd
  cases ho : openBlocks h with
  | nil => rw [ho] at hlast; cases hlast
  | cons o os =>
    rw [ho] at e2 hlast
    cases hlast
    cases e2 with
    | @cons k _ ks _ h1 h2 =>
      have hk : k = .ap id := by
        cases k <;> first | exact h1.elim | (cases h1; rfl)
      subst hk
      simp only [Compiler.step, e1, List.cons_append] at hf
      cases hf
      rw [e1, List.cons_append] at hd hnd
      cases hd with
      | cons hd1 hd2 =>
        have had : latest (adOf id) none (h ++ [.abClose id]) = none := by
          have hno := no_ad B.avoids.once B.nested (id := id) (by simp)
          have := latest_append_of_none (adOf id) none [] (h ++ [.abClose id]) (by
            intro b hb
            cases b with
            | leaf l =>
              cases l
              case ad i d =>
                simp only [adOf]
                rw [if_neg]
                rintro rfl
                exact hno d hb
              all_goals rfl
            | _ => rfl)
          simpa using this
        refine ⟨hd2, ?_, ?_, fun hr => absurd hr (region_same hreg rfl)⟩
        · intro i d objs ht
          simp only [Sheet.define] at ht
          split at ht
          · cases ht
          · exact single_next B A ht rfl
        · intro i objs ht
          simp only [Sheet.define] at ht
          split at ht
          · next e =>
            cases ht
            subst e
            refine ⟨hd1, (List.nodup_cons.1 hnd).1, had, ?_⟩
            rw [latest_snoc]
            simp [abOf]
          · next e =>
            refine block_next B A ht rfl ?_
            simp only [abOf]
            rw [if_neg (fun h => e h.symm)]

theorem showsAll_flatMap {α : Type} {ls : List (Spec.Layer LayerId)} {F : α → List (Draw LayerId)}
    {G : α → List (Painted (Vec ℝ))} (l : List α) (h : ∀ x ∈ l, ShowsAll within ls (F x) (G x)) :
    ShowsAll within ls (l.flatMap F) (l.flatMap G) := by
  induction l with
  | nil => exact .nil
  | cons a l ih =>
    rw [List.flatMap_cons, List.flatMap_cons]
    exact showsAll_append (h a (by simp)) (ih fun x hx => h x (by simp [hx]))

theorem repeat_agrees {p : SrParams} (B : Steps env h (.srClose p) c c') (A : Agrees h c s) (hreg : inRegion h = false)
    {body : List (Painted (Vec ℝ))} {rest : List (List (Painted (Vec ℝ)))} (hs : s.drawn = body :: rest) :
    Agrees (h ++ [.srClose p]) c' (Sheet.add { s with drawn := rest } (repeated p body)) := by
  have hnd := stack_nodup B.tidy (nested_prefix B.nested) B.avoids.before
  have hf := B.fed
  change feed env [.srClose p _] c = .ok c' at hf
  rw [feed_singleton] at hf
  obtain ⟨id, ks, cmds, c1, f1, f2, -, -, f5, rfl⟩ := closeSr_ok hf
  obtain ⟨a1, -, -, a4⟩ := append_ok f5
  simp only at a1 a4
  -- the current point is the origin
  have hat := B.avoids.repeats h p [] rfl
  obtain ⟨l1, l2⟩ := current_inv _ B.ran
  have hst := settled _ B.ran
  have hcur := at_unique hat ⟨_, _, l1, l2, rfl⟩
  simp only [Vec.mk.injEq] at hcur
  rw [← settled_coordX hst, ← settled_coordY hst] at hcur
  have hadd : (Sheet.add { s with drawn := rest } (repeated p body)).tools = s.tools := by
    unfold Sheet.add; split <;> rfl
  refine ⟨?_, ?_, ?_, fun hr => absurd hr (region_same hreg rfl)⟩
  · have hd := A.drawn
    rw [hs, f1] at hd
    rw [f1] at hnd
    simp only [a1]
    cases hd with
    | cons hd1 hd2 =>
      obtain ⟨os, s1, s2⟩ := hd1
      obtain ⟨b, hb, s3⟩ := shows_inv s1
      rw [f2] at hb; cases hb
      have s4 : ShowsAll within (layersOf { c1 with buffers := c1.buffers.pop id }) cmds os :=
        showsAll_fixed (fun k b hb s hs => (B.tidy.synced.known k b hb s hs).1)
          (fun k b hf hb => (B.keeps k b (B.tidy.synced.settled hf) hb).2) s3
          (fun s hs => (B.tidy.synced.known id cmds f2 s hs).1)
      have s5 : ShowsAll within (layersOf { c1 with buffers := c1.buffers.pop id }) (copies p (run {} h).st cmds)
          (repeated p os) := by
        rw [copies_eq]
        refine showsAll_flatMap _ fun k _ => showsAll_flatMap _ fun l _ => ?_
        rw [← hcur.1, ← hcur.2, ← moved_translate, zero_add, zero_add]
        exact shows_moved ⟨(k : ℝ) * p.xDelta, (l : ℝ) * p.yDelta⟩ s4
      have s6 : Same (repeated p os) (repeated p body) := by
        refine Same.flatMap _ fun k _ => Same.flatMap _ fun l _ => s2.image ?_
        intro v w hvw
        have hx := congrArg Vec.x hvw
        have hy := congrArg Vec.y hvw
        simp only [Vec.add_x, Vec.add_y, add_left_inj] at hx hy
        ext
        · exact hx
        · exact hy
      have hpop : ∀ k ∈ ks, (c1.buffers.pop id).get? k = c1.buffers.get? k := by
        intro k hk
        rw [Dict.get?_pop, if_neg]
        rintro rfl
        exact (List.nodup_cons.1 hnd).1 hk
      have hnd2 := (List.nodup_cons.1 hnd).2
      cases rest with
      | nil => cases hd2; exact .nil
      | cons o rest =>
        cases hd2 with
        | @cons k _ ks' _ hd3 hd4 =>
          obtain ⟨os0, t1, t2⟩ := hd3
          obtain ⟨b0, hb0, t3⟩ := shows_inv t1
          refine .cons ⟨os0 ++ repeated p os, shows_buffer (b := b0 ++ copies p (run {} h).st cmds) ?_
            (showsAll_append (showsAll_fixed (fun k b hb s hs => (B.tidy.synced.known k b hb s hs).1)
              (fun k b hf hb => (B.keeps k b (B.tidy.synced.settled hf) hb).2) t3
              (fun s hs => (B.tidy.synced.known k b0 hb0 s hs).1)) s5), t2.append s6⟩ ?_
          · simp only
            rw [hpop k (by simp), a4, if_pos (by simp), hb0]; rfl
          · refine forall₂_imp hd4 fun k' hk' o' ho' => ho'.keep B.tidy.synced B.keeps fun b hb => ?_
            simp only
            rw [hpop k' (by simp [hk']), a4, if_neg]
            · exact hb
            · simp only [List.head?_cons, Option.some.injEq]
              rintro rfl
              exact (List.nodup_cons.1 hnd2).1 hk'
  · intro i d objs ht
    rw [hadd] at ht
    exact single_next B A ht rfl
  · intro i objs ht
    rw [hadd] at ht
    exact block_next B A ht rfl rfl

/-! ### Apertures -/

theorem aperture_agrees {id : Name} {d : ApDef} (B : Steps env h (.leaf (.ad id d)) c c') (A : Agrees h c s)
    (hreg : inRegion h = false) {figures : List (Bool × Figure)}
    (hfig : AperturePaints (fun name => latest (givesMacro name) none h) d figures) :
    Agrees (h ++ [.leaf (.ad id d)]) c' (s.define id (.single d (figures.map asObject))) := by
  have hf := B.fed
  change feed env [.define id d _] c = .ok c' at hf
  rw [feed_singleton] at hf
  have hnew : c.buffers.get? (.ap id) = none := B.tidy.aps id (once_new B.avoids.once (by simp [opensCode]))
  have hte := thermalsOf_eq B.ran id d (storeAttributes id { (run {} h).st with apertures := (run {} h).st.apertures.set id d })
    rfl
  have hth := B.avoids.thermals
  rw [drawnThermals_snoc] at hth
  obtain ⟨n1, n2, n3⟩ := List.nodup_append.1 hth
  have hd : (thermalsOf d (storeAttributes id { (run {} h).st with apertures := (run {} h).st.apertures.set id d })).Nodup := by
    rw [hte]; exact n2
  have hu : Unused (thermalsOf d (storeAttributes id { (run {} h).st with apertures := (run {} h).st.apertures.set id d })) c := by
    intro n hn1 t
    rw [hte] at hn1
    exact B.tidy.therm n (fun hm => n3 n hm n hn1 rfl) t
  have hmac : (fun name => latest (givesMacro name) none h) = (run {} h).st.macros.get? := by
    funext name
    exact (macros_latest h B.ran name).symm
  have hsound := B.avoids.apertures h id d [] rfl
  rw [hmac] at hfig hsound
  have hpaint := define_paints hf B.tidy.synced hnew hd hu hfig hsound
  have r := define_ok hf
  have hnot : .ap id ∉ c.stack := fun hm => B.tidy.live id hm hnew
  have hother : ∀ k ∈ c.stack, c'.buffers.get? k = c.buffers.get? k := by
    intro k hk
    refine r.other k (by rintro rfl; exact hnot hk) ?_
    rintro n t rfl
    exact B.tidy.synced.plain _ hk (.inr ⟨n, t, rfl⟩)
  refine ⟨?_, ?_, ?_, fun hr => absurd hr (region_same hreg rfl)⟩
  · rw [r.stack]
    refine forall₂_imp A.drawn fun k hk o ho => ho.keep B.tidy.synced B.keeps fun b hb => ?_
    rw [hother k hk]; exact hb
  · intro i d' objs ht
    simp only [Sheet.define] at ht
    split at ht
    · next e =>
      cases ht
      subst e
      refine ⟨⟨_, hpaint, .refl _⟩, by rw [r.stack]; exact hnot, ?_⟩
      rw [latest_snoc]
      simp [adOf]
    · next e =>
      refine single_next B A ht ?_
      simp only [adOf]
      rw [if_neg (fun h => e h.symm)]
  · intro i objs ht
    simp only [Sheet.define] at ht
    split at ht
    · cases ht
    · next e =>
      refine block_next B A ht ?_ rfl
      simp only [adOf]
      rw [if_neg (fun h => e h.symm)]

/-! ### C74 -/

/-- The compiler is in step with the picture. -/
theorem agrees {env : Env} {h : List Atom} {s : Sheet} (hp : Pictured h s) : ∀ c, (run {} h).exn = none →
    compiled env h = .ok c → Nested h → Avoids h → Agrees h c s := by
  induction hp with
  | start =>
    intro c _ hc _ _
    cases hc
    refine ⟨.cons ⟨[], shows_buffer (b := []) (by simp [CState.init, Dict.get?]) .nil, .refl _⟩ .nil, nofun, nofun, nofun⟩
  | aperture _ hreg hfig ih =>
    intro c' hr hc hn ha
    obtain ⟨c, B⟩ := steps hr hc hn ha
    exact aperture_agrees B (ih c B.ran B.before (nested_prefix hn) ha.before) hreg hfig
  | blockOpen _ hreg ih =>
    intro c' hr hc hn ha
    obtain ⟨c, B⟩ := steps hr hc hn ha
    exact open_agrees B (ih c B.ran B.before (nested_prefix hn) ha.before) hreg (.inl ⟨_, rfl⟩)
  | blockClose _ hreg hs ih =>
    intro c' hr hc hn ha
    obtain ⟨c, B⟩ := steps hr hc hn ha
    exact close_agrees B (ih c B.ran B.before (nested_prefix hn) ha.before) hreg hs
  | repeatOpen _ hreg ih =>
    intro c' hr hc hn ha
    obtain ⟨c, B⟩ := steps hr hc hn ha
    exact open_agrees B (ih c B.ran B.before (nested_prefix hn) ha.before) hreg (.inr ⟨_, rfl⟩)
  | repeatClose _ hreg hs ih =>
    intro c' hr hc hn ha
    obtain ⟨c, B⟩ := steps hr hc hn ha
    exact repeat_agrees B (ih c B.ran B.before (nested_prefix hn) ha.before) hreg hs
  | flash _ hreg hsel ht hp ih =>
    intro c' hr hc hn ha
    obtain ⟨c, B⟩ := steps hr hc hn ha
    exact flash_single B (ih c B.ran B.before (nested_prefix hn) ha.before) hreg hsel ht hp
  | flashBlock _ hreg hsel ht hp ih =>
    intro c' hr hc hn ha
    obtain ⟨c, B⟩ := steps hr hc hn ha
    exact flash_block B (ih c B.ran B.before (nested_prefix hn) ha.before) hreg hsel ht hp
  | stroke _ hreg hsel ht hd hlin hp hq ih =>
    intro c' hr hc hn ha
    obtain ⟨c, B⟩ := steps hr hc hn ha
    exact stroke_agrees B (ih c B.ran B.before (nested_prefix hn) ha.before) hreg hsel ht hd hlin hp hq
  | strokeArc _ hreg hsel ht hd hlin hquad hi hj hp hq hne hrad ih =>
    intro c' hr hc hn ha
    obtain ⟨c, B⟩ := steps hr hc hn ha
    exact arc_agrees B (ih c B.ran B.before (nested_prefix hn) ha.before) hreg hsel ht hd hlin hquad hi hj hp hq hne hrad
  | regionStart _ hreg ih =>
    intro c' hr hc hn ha
    obtain ⟨c, B⟩ := steps hr hc hn ha
    refine (ih c B.ran B.before (nested_prefix hn) ha.before).draws_nothing B
      (c21_other_commands env _ _ c' B.ran' B.after rfl nofun) nofun fun _ => ?_
    have hf := B.fed
    change feed env [.startRegion] c = .ok c' at hf
    rw [feed_singleton] at hf
    cases hf
    rfl
  | regionLine _ hreg hlin hp hq ih =>
    intro c' hr hc hn ha
    obtain ⟨c, B⟩ := steps hr hc hn ha
    exact region_line B (ih c B.ran B.before (nested_prefix hn) ha.before) hreg hlin hp hq
  | regionArc _ hreg hlin hq hi hj hp hp' hne ih =>
    intro c' hr hc hn ha
    obtain ⟨c, B⟩ := steps hr hc hn ha
    have A := ih c B.ran B.before (nested_prefix hn) ha.before
    obtain ⟨e1, c0, e2, e3⟩ := c22_region env _ _ _ _ _ c' B.ran' B.after hreg hq hlin _ _ hp hp' _ _ hi hj
    rw [B.before] at e2; cases e2
    exact A.draws_nothing B e1 nofun fun _ => (e3 _ (A.contour hreg)).1 hne
  | regionCircle _ hreg hlin hq hi hj hp hp' ih =>
    intro c' hr hc hn ha
    obtain ⟨c, B⟩ := steps hr hc hn ha
    have A := ih c B.ran B.before (nested_prefix hn) ha.before
    obtain ⟨e1, c0, e2, e3⟩ := c22_region env _ _ _ _ _ c' B.ran' B.after hreg hq hlin _ _ hp hp' _ _ hi hj
    rw [B.before] at e2; cases e2
    exact A.draws_nothing B e1 nofun fun _ => (e3 _ (A.contour hreg)).2 rfl
  | regionMove _ hreg ih =>
    intro c' hr hc hn ha
    obtain ⟨c, B⟩ := steps hr hc hn ha
    exact region_fill B (ih c B.ran B.before (nested_prefix hn) ha.before) hreg (.inl ⟨_, _, rfl⟩)
  | regionEnd _ hreg ih =>
    intro c' hr hc hn ha
    obtain ⟨c, B⟩ := steps hr hc hn ha
    exact region_fill B (ih c B.ran B.before (nested_prefix hn) ha.before) hreg (.inr rfl)
  | move _ hreg ih =>
    intro c' hr hc hn ha
    obtain ⟨c, B⟩ := steps hr hc hn ha
    have A := ih c B.ran B.before (nested_prefix hn) ha.before
    obtain ⟨c0, e1, e2⟩ := d02_draws B.ran' B.after
    rw [B.before] at e1; cases e1
    rw [if_neg (by simpa [inRegion] using hreg)] at e2
    exact A.draws_nothing B e2.2 nofun (fun hr => absurd hr (region_same hreg rfl))
  | other _ hl ih =>
    rename_i h s l _
    intro c' hr hc hn ha
    obtain ⟨c, B⟩ := steps hr hc hn ha
    have A := ih c B.ran B.before (nested_prefix hn) ha.before
    obtain ⟨rfl, e⟩ := silent_step hl B.ran' B.before B.after
    have had : ∀ id d, l ≠ .ad id d := by rintro id d rfl; cases hl
    have hmay : mayDraw (.leaf l) = false := by cases l <;> first | rfl | cases hl
    refine A.draws_nothing B (c21_other_commands env _ _ _ B.ran' B.after hmay had) had fun hr => ?_
    rw [e] at hr
    exact A.contour hr

theorem shows_unique {c : CState} {k : LayerId} {os os' : List (Painted (Vec ℝ))} (h : Shows within (layersOf c) k os)
    (h' : Shows within (layersOf c) k os') : os = os' := by
  refine Shows.rec (motive_1 := fun id os _ => ∀ os', Shows within (layersOf c) id os' → os = os')
    (motive_2 := fun ds os _ => ∀ os', ShowsAll within (layersOf c) ds os' → os = os') ?_ ?_ ?_ ?_ h os' h'
  · intro l os mem _ ih os' h'
    obtain ⟨b, hb, hs⟩ := shows_inv h'
    rw [mem_layersOf.1 mem] at hb; cases hb
    exact ih _ hs
  · intro os' h'; cases h'; rfl
  · intro s points ds os inside _ ih os' h'
    cases h' with
    | shape _ points' _ os'' inside' more' =>
      rw [inside] at inside'; cases inside'
      rw [ih _ more']
  · intro source center negative objects ds os _ _ ih1 ih2 os' h'
    cases h' with
    | paste _ _ _ objects' _ os'' pasted' more' => rw [ih1 _ pasted', ih2 _ more']

theorem forall₂_last {α β : Type} {R : α → β → Prop} {x : α} {y : β} : ∀ {as : List α} {bs : List β},
    List.Forall₂ R (as ++ [x]) bs → bs.getLast? = some y → R x y := by
  intro as
  induction as with
  | nil =>
    intro bs h hy
    cases h with
    | cons h1 h2 => cases h2; cases hy; exact h1
  | cons a as ih =>
    intro bs h hy
    cases h with
    | @cons _ b _ bs h1 h2 =>
      refine ih h2 ?_
      cases bs with
      | nil => cases as <;> cases h2
      | cons b' bs => rw [← hy]; simp [List.getLast?_cons_cons]

theorem compile_exn {env : Env} {ignore : Bool} {file : List Visitor.Cmd} {prog : List (Command LayerId)}
    (h : compile env ignore file = .ok prog) : (run {} (executed (!ignore) file)).exn = none := by
  unfold compile finish at h
  obtain ⟨c, h1, h2⟩ := Vm.bind_ok.1 h
  rw [file_is_run] at h2
  split at h2
  · cases h2
  · assumption

/-- **C74** (partial: the constructs in which the code is known to deviate do not occur, see `Avoids`; draws outside of
regions are made with solid circles). The picture of a file.  Whatever file compiles and is rendered (with
exact areas for the shapes): the points covered in the result are those covered in the picture that the commands of the
file describe, as prescribed by `Pictured`. -/
theorem c74_picture_partial (env : Env) (ignore : Bool) (file : List Visitor.Cmd) (prog : List (Command LayerId))
    (hc : compile env ignore file = .ok prog) (fail : Bool) (e : Eager (List (Painted (Vec ℝ))))
    (hr : Vm.run (painting within) fail .main prog = .ok (some e))
    (s : Sheet) (picture : List (Painted (Vec ℝ))) (hs : Pictured (executed (!ignore) file) s)
    (hp : s.drawn.getLast? = some picture) (ha : Avoids (executed (!ignore) file)) :
    e.origin = ⟨0, 0⟩ ∧ ∀ p, Covered e.content p ↔ Covered picture p := by
  have hexn := compile_exn hc
  obtain ⟨c, layers, h1, rfl, h2⟩ := compile_layers hc
  unfold Vm.run at hr
  obtain ⟨m, h6, h7⟩ := Vm.bind_ok.1 hr
  obtain ⟨k1, k2⟩ := exec_program fail layers [] Machine.init m rfl (by intro k e h; cases h) (by simp) (by simp) h6
  have hg : m.layers.get? .main = some (.eager e) := by
    revert h7
    cases m.layers.get? LayerId.main with
    | none => intro h7; cases fail <;> cases h7
    | some x =>
      cases x with
      | deferred _ _ => intro h7; cases h7
      | eager e => intro h7; cases h7; rfl
  obtain ⟨k3, k4⟩ := k1 _ _ hg
  refine ⟨k3, ?_⟩
  rw [List.nil_append] at k4
  have k5 := shows_more (ms := layersOf c) (fun l hl => mem_layersOf.2 (h2 l hl)) k4
  have hn := c17_files_nested (!ignore) file _ [] (List.append_nil _).symm
  have A := agrees hs c hexn h1 hn ha
  obtain ⟨front, e1, -⟩ := (tidy _ hexn c h1 ha.once hn ha.thermals).stack
  have hd := A.drawn
  rw [e1] at hd
  obtain ⟨os, s1, s2⟩ := forall₂_last hd hp
  rw [shows_unique k5 s1]
  exact s2.covered

/-! ### Non-vacuity -/

/-- A file with an aperture, a block, a repetition, a draw and a clear region. -/
def sampleFile : List Visitor.Cmd :=
  [.leaf (.fs {}), .leaf (.ad ['D','1','0'] (.circle 1 none)), .ab ['D','1','1'] [.leaf (.dnn ['D','1','0']), .leaf (.d03 none none)],
    .leaf (.dnn ['D','1','1']), .sr ⟨0, 2, 1, 5, 5⟩ [.leaf (.d03 none none)], .leaf (.dnn ['D','1','0']),
    .leaf (.d01 (some ['5']) none none none), .leaf (.lp .clear), .leaf .g36, .leaf (.d01 none (some ['7']) none none),
    .leaf (.d01 (some ['9']) (some ['3']) none none), .leaf .g37]

/-- What it executes. -/
def sampleAtoms : List Atom :=
  [.leaf (.fs {}), .leaf (.ad ['D','1','0'] (.circle 1 none)), .abOpen ['D','1','1'], .leaf (.dnn ['D','1','0']),
    .leaf (.d03 none none), .abClose ['D','1','1'], .leaf (.dnn ['D','1','1']), .srOpen ⟨0, 2, 1, 5, 5⟩, .leaf (.d03 none none),
    .srClose ⟨0, 2, 1, 5, 5⟩, .leaf (.dnn ['D','1','0']), .leaf (.d01 (some ['5']) none none none), .leaf (.lp .clear),
    .leaf .g36, .leaf (.d01 none (some ['7']) none none), .leaf (.d01 (some ['9']) (some ['3']) none none), .leaf .g37]

theorem sample_executed : executed true sampleFile = sampleAtoms := rfl

example : ∃ prog, compile env0 false sampleFile = .ok prog ∧
    ∃ e, Vm.run (painting within) false .main prog = .ok (some e) := by
  eval_compiler [compile, finish, file_is_run, executed, isStop, atomsOf, atomsOfAll, sampleFile, convert, resolve_step,
    resolve.loop, dependsOn, Draw.sources, List.dedup_cons_of_mem, List.dedup_cons_of_notMem, closeSr, copies, moved, retarget,
    unpack5, unpack7, unpack9, unpack3, draw, drawShapes, lineShapes, lineThickness, flushRegion, contourSegments,
    VState.startRegion, VState.endRegion, VState.dispatch, VState.drawTable, VState.putX, VState.putY, Dict.pop,
    List.range_succ, Shape.newLine, Shape.ln, Shape.newCircle]
  simp [layerCommands, Vm.run, exec, Vm.step, onStart, Machine.init, Dict.get?_set, onDraw, record, onEnd, deferredBox, commandBox,
    boxLoop, bind, Except.bind, pure, Except.pure, replay, paint, target, painting, within, settle]

/-- A condition on every command of a list and the commands before it. -/
def Throughout (P : List Atom → Atom → Prop) : List Atom → List Atom → Prop
  | _, [] => True
  | done, a :: rest => P done a ∧ Throughout P (done ++ [a]) rest

theorem throughout {P : List Atom → Atom → Prop} : ∀ {rest done : List Atom}, Throughout P done rest →
    ∀ p a q, rest = p ++ a :: q → P (done ++ p) a
  | [], _, _, p, a, q, e => by simp at e
  | b :: rest, done, h, [], a, q, e => by cases e; simpa using h.1
  | b :: rest, done, h, b' :: p, a, q, e => by
    cases e
    have := throughout h.2 p a q rfl
    simpa using this

/-- The current point after a history that raises nothing. -/
theorem at_run {h : List Atom} (hr : (run {} h).exn = none) :
    At h ⟨((run {} h).st.currentX : ℚ), ((run {} h).st.currentY : ℚ)⟩ := by
  obtain ⟨l1, l2⟩ := current_inv _ hr
  exact ⟨_, _, l1, l2, rfl⟩

theorem sample_avoids : Avoids sampleAtoms := by
  refine ⟨?_, by decide +kernel, ?_, ?_, ?_, ?_, ?_, ?_⟩
  · intro id
    simp only [sampleAtoms, opensCode, List.countP_cons, List.countP_nil]
    by_cases h1 : (['D','1','0'] : Name) = id
    · subst h1; decide +kernel
    · simp [h1]
      split <;> omega
  · intro p id d q e
    have := throughout (P := fun p a => ∀ id d, a = .leaf (.ad id d) →
      SoundAperture (fun name => latest (givesMacro name) none p) d) (rest := sampleAtoms) (done := []) (by
        simp [Throughout, sampleAtoms, SoundAperture]) p _ q e id d rfl
    exact this
  · intro p x y q e
    have := throughout (P := fun p a => ∀ x y, a = .leaf (.d03 x y) →
      latest setsScaling 1 p ≠ 0)
      (rest := sampleAtoms) (done := []) (by
        simp [Throughout, sampleAtoms, latest, List.findSome?, setsRotation, setsScaling]) p _ q e x y rfl
    exact this
  · intro p x y q id e _ _
    have := throughout (P := fun p a => ∀ x y, a = .leaf (.d03 x y) → latest setsPolarity .dark p = .dark)
      (rest := sampleAtoms) (done := []) (by simp [Throughout, sampleAtoms, latest, List.findSome?, setsPolarity]) p _ q e x y rfl
    exact this
  · intro p x y i j q e _
    have := throughout (P := fun p a => ∀ x y i j, a = .leaf (.d01 x y i j) → latest setsScaling 1 p = 1)
      (rest := sampleAtoms) (done := []) (by simp [Throughout, sampleAtoms, latest, List.findSome?, setsScaling]) p _ q e x y i j rfl
    exact this
  · intro p r q e
    have := throughout (P := fun p a => ∀ r, a = .srClose r → At p ⟨0, 0⟩)
      (rest := sampleAtoms) (done := []) (by
        simp only [Throughout, sampleAtoms, List.nil_append, List.cons_append, reduceCtorEq, false_implies, implies_true, true_and,
          and_true, Atom.srClose.injEq]
        intro r _
        have h0 := at_run (h := [.leaf (.fs {}), .leaf (.ad ['D','1','0'] (.circle 1 none)), .abOpen ['D','1','1'],
          .leaf (.dnn ['D','1','0']), .leaf (.d03 none none), .abClose ['D','1','1'], .leaf (.dnn ['D','1','1']),
          .srOpen ⟨0, 2, 1, 5, 5⟩, .leaf (.d03 none none)]) (by decide +kernel)
        have e1 : (run {} [.leaf (.fs {}), .leaf (.ad ['D','1','0'] (.circle 1 none)), .abOpen ['D','1','1'],
          .leaf (.dnn ['D','1','0']), .leaf (.d03 none none), .abClose ['D','1','1'], .leaf (.dnn ['D','1','1']),
          .srOpen ⟨0, 2, 1, 5, 5⟩, .leaf (.d03 none none)]).st.currentX = 0 := by decide +kernel
        have e2 : (run {} [.leaf (.fs {}), .leaf (.ad ['D','1','0'] (.circle 1 none)), .abOpen ['D','1','1'],
          .leaf (.dnn ['D','1','0']), .leaf (.d03 none none), .abClose ['D','1','1'], .leaf (.dnn ['D','1','1']),
          .srOpen ⟨0, 2, 1, 5, 5⟩, .leaf (.d03 none none)]).st.currentY = 0 := by decide +kernel
        rw [e1, e2, Rat.cast_zero] at h0
        exact h0) p _ q e r rfl
    exact this
  · intro p q e
    have : ∀ n ≤ 17, (openBlocks (sampleAtoms.take n)).count none ≤ 1 := by decide +kernel
    have hp : p = sampleAtoms.take p.length := by rw [e]; simp
    have hl : p.length ≤ 17 := by
      have := congrArg List.length e
      simp [sampleAtoms] at this
      omega
    rw [hp]
    exact this _ hl

theorem sample_at (n : ℕ) (hr : (run {} (sampleAtoms.take n)).exn = none) : ∃ p, At (sampleAtoms.take n) p := ⟨_, at_run hr⟩

/-- The picture that the sample describes. -/
theorem sample_pictured : ∃ s picture, Pictured sampleAtoms s ∧ s.drawn.getLast? = some picture ∧ picture.length = 4 := by
  obtain ⟨p4, a4⟩ := sample_at 5 (by decide +kernel)
  obtain ⟨p8, a8⟩ := sample_at 9 (by decide +kernel)
  obtain ⟨q11, b11⟩ := sample_at 11 (by decide +kernel)
  obtain ⟨p11, a11⟩ := sample_at 12 (by decide +kernel)
  obtain ⟨q14, b14⟩ := sample_at 14 (by decide +kernel)
  obtain ⟨p14, a14⟩ := sample_at 15 (by decide +kernel)
  obtain ⟨p15, a15⟩ := sample_at 16 (by decide +kernel)
  have h1 := Pictured.other (l := .fs {}) .start rfl
  have h2 := Pictured.aperture (id := ['D','1','0']) (d := .circle 1 none) h1 rfl (.standard nofun (.circle (by norm_num)))
  have h3 := Pictured.blockOpen (id := ['D','1','1']) h2 rfl
  have h4 := Pictured.other (l := .dnn ['D','1','0']) h3 rfl
  have h5 := Pictured.flash (x := none) (y := none) h4 rfl rfl rfl a4
  have h6 := Pictured.blockClose (id := ['D','1','1']) h5 rfl rfl
  have h7 := Pictured.other (l := .dnn ['D','1','1']) h6 rfl
  have h8 := Pictured.repeatOpen (p := ⟨0, 2, 1, 5, 5⟩) h7 rfl
  have h9 := Pictured.flashBlock (x := none) (y := none) h8 rfl rfl rfl a8
  have h10 := Pictured.repeatClose (p := ⟨0, 2, 1, 5, 5⟩) h9 rfl rfl
  have h11 := Pictured.other (l := .dnn ['D','1','0']) h10 rfl
  have h12 := Pictured.stroke (x := some ['5']) (y := none) (i := none) (j := none) h11 rfl rfl rfl (by norm_num) rfl b11 a11
  have h13 := Pictured.other (l := .lp .clear) h12 rfl
  have h14 := Pictured.regionStart h13 rfl
  have h15 := Pictured.regionLine (x := none) (y := some ['7']) (i := none) (j := none) h14 rfl rfl b14 a14
  have h16 := Pictured.regionLine (x := some ['9']) (y := some ['3']) (i := none) (j := none) h15 rfl rfl a14 a15
  have h17 := Pictured.regionEnd h16 rfl
  exact ⟨_, _, h17, rfl, rfl⟩

end
end Verif.Props.Picture
