import Verif.Lemmas.Vm
import Verif.Model.Compiler

/-!
# Programs that are executed to the end
-/

namespace Verif.Vm
open Verif.Geom Verif.Rvmc
noncomputable section

/-- Boxes of layers that a backend can create. -/
structure Roomy (Room : Box ℝ → Prop) : Prop where
  left : ∀ a b : Box ℝ, Room a → Room (a.union b)
  right : ∀ a b : Box ℝ, Room b → Room (a.union b)
  moved : ∀ (a : Box ℝ) (v w : Vec ℝ), Room a → Room ((a.translate v).translateBack w)

variable {ι κ : Type} [DecidableEq ι] {B : Backend κ} {Room : Box ℝ → Prop}

/-- Layers that are done have a box with room. -/
def Finished (Room : Box ℝ → Prop) (L : Dict ι (Layer ι κ)) (k : ι) : Prop := ∃ e, L.get? k = some (.eager e) ∧ Room e.box

theorem commandBox_succeeds (hR : Roomy Room) {L : Dict ι (Layer ι κ)} {d : Draw ι}
    (hs : ∀ s ∈ Draw.sources [d], Finished Room L s) : ∃ b, commandBox L d = .ok b ∧
      (Room b ∨ ∃ s, d = .shape s ∧ b = s.outerBox) := by
  cases d with
  | shape s => exact ⟨_, rfl, .inr ⟨s, rfl, rfl⟩⟩
  | paste source center negative =>
    obtain ⟨e, h1, h2⟩ := hs source (by simp [Draw.sources])
    exact ⟨_, by simp only [commandBox, h1]; rfl, .inl (hR.moved _ _ _ h2)⟩

omit [DecidableEq ι] in
theorem sources_head {d : Draw ι} {ds : List (Draw ι)} {s : ι} (h : s ∈ Draw.sources [d]) : s ∈ Draw.sources (d :: ds) := by
  simp only [Draw.sources, List.filterMap_cons, List.filterMap_nil] at h ⊢
  split at h
  · cases h
  · rw [List.mem_singleton] at h; subst h; simp

omit [DecidableEq ι] in
theorem sources_tail {d : Draw ι} {ds : List (Draw ι)} {s : ι} (h : s ∈ Draw.sources ds) : s ∈ Draw.sources (d :: ds) := by
  simp only [Draw.sources, List.filterMap_cons] at h ⊢
  split
  · exact h
  · exact List.mem_cons_of_mem _ h

/-- A command that gives a layer room. -/
def Fills (Room : Box ℝ → Prop) (d : Draw ι) : Prop := ∀ s, d = .shape s → Room s.outerBox

theorem boxLoop_succeeds (hR : Roomy Room) {L : Dict ι (Layer ι κ)} : ∀ (ds : List (Draw ι)) (b : Box ℝ),
    (∀ s ∈ Draw.sources ds, Finished Room L s) → ∃ b', boxLoop L ds b = .ok b' ∧
      ((Room b ∨ ∃ d ∈ ds, Fills Room d) → Room b') := by
  intro ds
  induction ds with
  | nil =>
    intro b _
    refine ⟨b, rfl, ?_⟩
    rintro (h | ⟨d, hd, -⟩)
    · exact h
    · cases hd
  | cons d ds ih =>
    intro b hs
    obtain ⟨b1, h1, h2⟩ := commandBox_succeeds hR (d := d) (fun s h => hs s (sources_head h))
    obtain ⟨b', h3, h4⟩ := ih (b.union b1) (fun s h => hs s (sources_tail h))
    refine ⟨b', by simp only [boxLoop, h1, bind, Except.bind]; exact h3, ?_⟩
    rintro (h | ⟨x, hx, hf⟩)
    · exact h4 (.inl (hR.left _ _ h))
    · rcases List.mem_cons.1 hx with rfl | hx
      · refine h4 (.inl (hR.right _ _ ?_))
        rcases h2 with h2 | ⟨s, e, rfl⟩
        · exact h2
        · exact hf s e
      · exact h4 (.inr ⟨x, hx, hf⟩)

theorem deferredBox_succeeds (hR : Roomy Room) {L : Dict ι (Layer ι κ)} {ds : List (Draw ι)}
    (hs : ∀ s ∈ Draw.sources ds, Finished Room L s) (hf : ∃ d ∈ ds, Fills Room d) :
    ∃ b, deferredBox L ds = .ok (some b) ∧ Room b := by
  cases ds with
  | nil => obtain ⟨d, hd, -⟩ := hf; cases hd
  | cons d ds =>
    obtain ⟨b1, h1, h2⟩ := commandBox_succeeds hR (d := d) (fun s h => hs s (sources_head h))
    obtain ⟨b', h3, h4⟩ := boxLoop_succeeds hR ds b1 (fun s h => hs s (sources_tail h))
    refine ⟨b', by simp only [deferredBox, h1, h3, bind, Except.bind]; rfl, h4 ?_⟩
    obtain ⟨x, hx, hf⟩ := hf
    rcases List.mem_cons.1 hx with rfl | hx
    · left
      rcases h2 with h2 | ⟨s, e, rfl⟩
      · exact h2
      · exact hf s e
    · exact .inr ⟨x, hx, hf⟩

/-- The backend can do what is asked of it. -/
structure Able (B : Backend κ) (Room : Box ℝ → Prop) (shapes : Shape → Prop) : Prop where
  create : ∀ o b, Room b → ∃ k, B.create o b = .ok k
  shape : ∀ e s, shapes s → ∃ k, B.shape e s = .ok k
  paste : ∀ e src v n, ∃ k, B.paste e src v n = .ok k

variable {shapes : Shape → Prop}

theorem replay_succeeds (hB : Able B Room shapes) {id : ι} : ∀ (ds : List (Draw ι)) (L : Dict ι (Layer ι κ)),
    (∀ s, .shape s ∈ ds → shapes s) → (∀ s ∈ Draw.sources ds, Finished Room L s) → Finished Room L id →
    ∃ L', replay B id ds L = .ok L' ∧ Finished Room L' id ∧ ∀ k, k ≠ id → L'.get? k = L.get? k := by
  intro ds
  induction ds with
  | nil => intro L _ _ h; exact ⟨L, rfl, h, fun _ _ => rfl⟩
  | cons d ds ih =>
    intro L hsh hsrc hid
    have step : ∃ k e, L.get? id = some (.eager e) ∧ Room e.box ∧ paint B id d L = .ok (L.set id (.eager { e with content := k })) := by
      obtain ⟨e, h1, h2⟩ := hid
      cases d with
      | shape s =>
        obtain ⟨k, hk⟩ := hB.shape e s (hsh s (by simp))
        exact ⟨k, e, h1, h2, by simp only [paint, target, h1, hk, bind, Except.bind]; rfl⟩
      | paste source center negative =>
        obtain ⟨src, h3, h4⟩ := hsrc source (by simp [Draw.sources])
        obtain ⟨k, hk⟩ := hB.paste e src center negative
        exact ⟨k, e, h1, h2, by simp only [paint, target, h1, h3, hk, bind, Except.bind]; rfl⟩
    obtain ⟨k, e, h1, h2, h3⟩ := step
    have hkeep : ∀ x, Finished Room L x → Finished Room (L.set id (.eager { e with content := k })) x := by
      rintro x ⟨ex, hx1, hx2⟩
      by_cases hx : id = x
      · subst hx
        exact ⟨{ e with content := k }, by rw [Dict.get?_set, if_pos rfl], h2⟩
      · exact ⟨ex, by rw [Dict.get?_set, if_neg hx]; exact hx1, hx2⟩
    obtain ⟨L', h4, h5, h6⟩ := ih _ (fun s h => hsh s (List.mem_cons_of_mem _ h)) (fun s h => hkeep s (hsrc s (sources_tail h)))
      (hkeep id ⟨e, h1, h2⟩)
    refine ⟨L', by simp only [replay, h3, bind, Except.bind]; exact h4, h5, fun x hx => ?_⟩
    rw [h6 x hx, Dict.get?_set, if_neg (Ne.symm hx)]

theorem exec_draws {fail : Bool} {id : ι} {rest : List ι} {origin : Vec ℝ} : ∀ (ds done : List (Draw ι)) (L : Dict ι (Layer ι κ)),
    L.get? id = some (.deferred origin done) → ∃ L', exec B fail (ds.map .draw) ⟨true, L, id :: rest⟩ = .ok ⟨true, L', id :: rest⟩ ∧
      L'.get? id = some (.deferred origin (done ++ ds)) ∧ ∀ k, k ≠ id → L'.get? k = L.get? k := by
  intro ds
  induction ds with
  | nil => intro done L h; exact ⟨L, rfl, by simpa using h, fun _ _ => rfl⟩
  | cons d ds ih =>
    intro done L h
    obtain ⟨L', h1, h2, h3⟩ := ih (done ++ [d]) (L.set id (.deferred origin (done ++ [d]))) (by rw [Dict.get?_set, if_pos rfl])
    refine ⟨L', ?_, by rw [h2]; simp, fun k hk => by rw [h3 k hk, Dict.get?_set, if_neg (Ne.symm hk)]⟩
    simp only [List.map_cons, exec, Vm.step, onDraw, if_true, record, h, bind, Except.bind, pure, Except.pure]
    exact h1

/-- Layers in an order in which every layer comes after those that it pastes are made one after another. -/
theorem exec_succeeds (hR : Roomy Room) (hB : Able B Room shapes) (fail : Bool) (f : ι → List (Draw ι)) :
    ∀ (order : List ι) (L : Dict ι (Layer ι κ)), order.Nodup → (∀ id ∈ order, L.get? id = none) →
      (∀ id ∈ order, (∀ s, .shape s ∈ f id → shapes s) ∧ ∃ d ∈ f id, Fills Room d) →
      (∀ pre id post, order = pre ++ id :: post → ∀ s ∈ Draw.sources (f id), s ∈ pre ∨ Finished Room L s) →
      ∃ L', exec B fail (order.flatMap fun id => (.start id none ⟨0, 0⟩ :: (f id).map .draw ++ [.stop] : List (Command ι)))
          ⟨false, L, []⟩ = .ok ⟨false, L', []⟩ ∧
        (∀ id ∈ order, Finished Room L' id) ∧ ∀ k, k ∉ order → L'.get? k = L.get? k := by
  intro order
  induction order with
  | nil => intro L _ _ _ _; exact ⟨L, rfl, (by intro id h; cases h), fun _ _ => rfl⟩
  | cons id order ih =>
    intro L hnd hnew hok hsrc
    obtain ⟨hnd1, hnd2⟩ := List.nodup_cons.1 hnd
    obtain ⟨L1, d1, d2, d3⟩ := exec_draws (B := B) (fail := fail) (rest := []) (origin := ⟨0, 0⟩) (f id) []
      (L.set id (.deferred ⟨0, 0⟩ [])) (by rw [Dict.get?_set, if_pos rfl])
    have hother : ∀ k, k ≠ id → L1.get? k = L.get? k := fun k hk => by
      rw [d3 k hk, Dict.get?_set, if_neg (Ne.symm hk)]
    have hfin : ∀ s ∈ Draw.sources (f id), Finished Room L s ∧ s ≠ id := by
      intro s hs
      rcases hsrc [] id order rfl s hs with h | h
      · cases h
      · refine ⟨h, ?_⟩
        rintro rfl
        obtain ⟨e, h1, -⟩ := h
        rw [hnew s (by simp)] at h1; cases h1
    obtain ⟨o1, o2⟩ := hok id (by simp)
    obtain ⟨box, b1, b2⟩ := deferredBox_succeeds hR (L := L1) (ds := f id) (by
      intro s hs
      obtain ⟨⟨e, h1, h2⟩, h3⟩ := hfin s hs
      exact ⟨e, by rw [hother s h3]; exact h1, h2⟩) o2
    obtain ⟨content, hc⟩ := hB.create ⟨0, 0⟩ box b2
    obtain ⟨L2, r1, r2, r3⟩ := replay_succeeds hB (id := id) (f id) (L1.set id (.eager ⟨⟨0, 0⟩, box, content⟩)) o1 (by
      intro s hs
      obtain ⟨⟨e, h1, h2⟩, h3⟩ := hfin s hs
      exact ⟨e, by rw [Dict.get?_set, if_neg (Ne.symm h3), hother s h3]; exact h1, h2⟩)
      ⟨_, by rw [Dict.get?_set, if_pos rfl], b2⟩
    have hL2 : ∀ k, k ≠ id → L2.get? k = L.get? k := fun k hk => by
      rw [r3 k hk, Dict.get?_set, if_neg (Ne.symm hk), hother k hk]
    have hstop : onEnd B fail ⟨true, L1, [id]⟩ = .ok ⟨false, L2, []⟩ := by
      simp only [onEnd, d2, List.nil_append, b1, hc, r1, bind, Except.bind]; rfl
    obtain ⟨L', k1, k2, k3⟩ := ih L2 hnd2
      (fun x hx => by rw [hL2 x (by rintro rfl; exact hnd1 hx)]; exact hnew x (by simp [hx]))
      (fun x hx => hok x (by simp [hx]))
      (by
        intro pre x post e s hs
        rcases hsrc (id :: pre) x post (by rw [e]; rfl) s hs with h | h
        · rcases List.mem_cons.1 h with rfl | h
          · exact .inr r2
          · exact .inl h
        · right
          by_cases he : s = id
          · rw [he]; exact r2
          · obtain ⟨ex, h1, h2⟩ := h
            exact ⟨ex, by rw [hL2 s he]; exact h1, h2⟩)
    refine ⟨L', ?_, ?_, ?_⟩
    · rw [List.flatMap_cons, exec_append, List.cons_append]
      have e1 : exec B fail (.start id none ⟨0, 0⟩ :: ((f id).map .draw ++ [.stop])) ⟨false, L, []⟩ = .ok ⟨false, L2, []⟩ := by
        simp only [exec, Vm.step, onStart, hnew id (by simp), bind, Except.bind]
        rw [exec_append, d1]
        simp only [bind, Except.bind, exec, Vm.step, hstop]
      rw [e1]
      exact k1
    · intro x hx
      rcases List.mem_cons.1 hx with rfl | hx
      · obtain ⟨e, h1, h2⟩ := r2
        exact ⟨e, by rw [k3 x hnd1]; exact h1, h2⟩
      · exact k2 x hx
    · intro k hk
      rw [k3 k (fun h => hk (by simp [h])), hL2 k (fun h => hk (by simp [h]))]

end
end Verif.Vm
