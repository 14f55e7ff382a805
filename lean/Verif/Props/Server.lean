import Verif.Lemmas.Server
import Mathlib.Data.List.Induction
import Mathlib.Data.List.Perm.Subperm

/-!
# Language server: answers are up to date (C48) and handlers never block (C49)
-/

namespace Verif.Props.Server
open Verif.Server
variable {L : Lang}

theorem serve_snoc (evs : List (Event L)) (e : Event L) : serve (evs ++ [e]) = step (serve evs) e := by
  simp [serve, List.foldl_append]

theorem messages_append (a b : List (Event L)) : messages (a ++ b) = messages a ++ messages b := by
  simp [messages, List.filterMap_append]

theorem messages_receive (m : Msg L) (b : List (Event L)) : messages (.receive m :: b) = m :: messages b := rfl

/-- Equal numbers mean the same message. -/
theorem same_arrival {m m' : Msg L} : ∀ {a b c d : List (Event L)}, a ++ .receive m :: b = c ++ .receive m' :: d →
    (messages a).length = (messages c).length → a = c ∧ m = m' ∧ b = d := by
  intro a
  induction a with
  | nil =>
    intro b c d h hl
    cases c with
    | nil => simp at h; exact ⟨rfl, h.1, h.2⟩
    | cons e c =>
      simp only [List.nil_append, List.cons_append, List.cons.injEq] at h
      rw [← h.1] at hl
      simp [messages_receive] at hl
      simp [messages] at hl
  | cons e a ih =>
    intro b c d h hl
    cases c with
    | nil =>
      simp only [List.nil_append, List.cons_append, List.cons.injEq] at h
      rw [h.1] at hl
      simp [messages_receive] at hl
      simp [messages] at hl
    | cons e' c =>
      simp only [List.cons_append, List.cons.injEq] at h
      obtain ⟨h1, h2⟩ := h
      subst h1
      have hl' : (messages a).length = (messages c).length := by
        cases e <;> simpa [messages] using hl
      obtain ⟨g1, g2, g3⟩ := ih h2 hl'
      exact ⟨by rw [g1], g2, g3⟩

/-- A split of a history with one more event. -/
theorem split_snoc {evs pre post : List (Event L)} {e x : Event L} (h : evs ++ [e] = pre ++ x :: post) :
    (post = [] ∧ pre = evs ∧ x = e) ∨ ∃ post', post = post' ++ [e] ∧ evs = pre ++ x :: post' := by
  rcases List.eq_nil_or_concat post with rfl | ⟨p, y, rfl⟩
  · have := List.append_inj' h rfl
    left
    simp only [List.cons.injEq, and_true] at this
    exact ⟨rfl, this.1.symm, this.2.symm⟩
  · right
    have h' : evs ++ [e] = (pre ++ x :: p) ++ [y] := by simp [h]
    have := List.append_inj' h' rfl
    simp only [List.cons.injEq, and_true] at this
    exact ⟨p, by simp [this.2], this.1⟩

/-- What holds of the loop after every history. -/
structure Good (evs : List (Event L)) (s : Loop L) : Prop where
  hung : s.hung = false
  waiting : s.waiting = []
  free : Free s.world
  stored : Stored s.world
  received : s.received = (messages evs).length
  fresh : ∀ t ∈ s.ready, t.rest = handler t.msg
  arrived : ∀ t ∈ s.ready, ∃ pre post, evs = pre ++ .receive t.msg :: post ∧ (messages pre).length = t.number
  order : s.ready.Pairwise (fun t u => t.number < u.number)
  replied : ∀ n ∈ s.replies.map Prod.fst, n < s.received ∧ ∀ t ∈ s.ready, n < t.number
  inOrder : (s.replies.map Prod.fst).Pairwise (· < ·)
  kept : ∀ pre m post, evs = pre ++ .receive m :: post →
    (∃ t ∈ s.ready, t.number = (messages pre).length ∧ t.msg = m) ∨ (messages pre).length ∈ s.replies.map Prod.fst ∨
      (m.isRequest = true ∧ Event.cancel (messages pre).length ∈ post)

theorem wake_idle {s : Loop L} (h : s.waiting = []) : wake s = s := by
  unfold wake
  rw [h]
  rfl

theorem run_step {evs : List (Event L)} {s : Loop L} (h : Good evs s) {t : Task L} {ts : List (Task L)}
    (ht : s.ready = t :: ts) :
    ∃ w', Free w' ∧ Stored w' ∧ w'.workspace = s.world.workspace ∧
      (∀ u, u ≠ t.msg.uri → w'.view u = s.world.view u) ∧
      (w'.view t.msg.uri = if supported t.msg.uri then
        (effect s.world.workspace ((s.world.view t.msg.uri).getD (Document.flushed L)) t.msg).1 else none) ∧
      step s .run = { s with
        world := w'
        ready := ts
        replies := s.replies ++ [(t.number, if supported t.msg.uri then
          (effect s.world.workspace ((s.world.view t.msg.uri).getD (Document.flushed L)) t.msg).2
          else .error (.unsupported t.msg.uri))] } := by
  obtain ⟨w', h1, h2, h3, h4, h5, h6⟩ := handler_ran t.msg s.world h.free h.stored
  refine ⟨w', h2, h3, h4, h5, h6, ?_⟩
  have hrest := h.fresh t (by rw [ht]; exact List.mem_cons_self ..)
  unfold step
  rw [h.hung, ht]
  simp only [hrest, h1, Bool.false_eq_true, if_false]
  rw [wake_idle (by exact h.waiting)]

theorem good (evs : List (Event L)) : Good evs (serve evs) := by
  induction evs using List.reverseRecOn with
  | nil =>
    constructor <;> simp [serve, Free, messages]
    constructor <;> simp
  | append_singleton evs e ih =>
    rw [serve_snoc]
    generalize serve evs = s at ih ⊢
    cases e with
    | receive m =>
      have hstep : step s (.receive m) = { s with
        world := { s.world with workspace := updateWorkspace s.world.workspace m }
        received := s.received + 1
        ready := s.ready ++ [⟨s.received, m, handler m⟩] } := by
        unfold step; rw [ih.hung]; rfl
      rw [hstep]
      have hlt : ∀ t ∈ s.ready, t.number < s.received := by
        intro t ht
        obtain ⟨pre, post, h1, h2⟩ := ih.arrived t ht
        rw [ih.received, h1, messages_append, messages_receive, ← h2]
        simp
      constructor
      · exact ih.hung
      · exact ih.waiting
      · exact ih.free
      · exact ⟨ih.stored.below, ih.stored.served, ih.stored.distinct⟩
      · simp [messages_append, messages, ih.received]
      · intro t ht
        simp only [List.mem_append, List.mem_singleton] at ht
        rcases ht with ht | rfl
        · exact ih.fresh t ht
        · rfl
      · intro t ht
        simp only [List.mem_append, List.mem_singleton] at ht
        rcases ht with ht | rfl
        · obtain ⟨pre, post, h1, h2⟩ := ih.arrived t ht
          exact ⟨pre, post ++ [.receive m], by rw [h1]; simp, h2⟩
        · exact ⟨evs, [], rfl, ih.received.symm⟩
      · rw [List.pairwise_append]
        refine ⟨ih.order, List.pairwise_singleton _ _, ?_⟩
        intro t ht u hu
        simp only [List.mem_singleton] at hu
        subst hu
        exact hlt t ht
      · intro n hn
        obtain ⟨h1, h2⟩ := ih.replied n hn
        refine ⟨by simp only; omega, ?_⟩
        intro t ht
        simp only [List.mem_append, List.mem_singleton] at ht
        rcases ht with ht | rfl
        · exact h2 t ht
        · exact h1
      · exact ih.inOrder
      · intro pre m' post h
        rcases split_snoc h with ⟨rfl, rfl, hx⟩ | ⟨post', rfl, h'⟩
        · injection hx with hx
          subst hx
          exact .inl ⟨⟨s.received, m', handler m'⟩, by simp, ih.received, rfl⟩
        · rcases ih.kept pre m' post' h' with ⟨t, h1, h2⟩ | h1 | ⟨h1, h2⟩
          · exact .inl ⟨t, by simp [h1], h2⟩
          · exact .inr (.inl h1)
          · exact .inr (.inr ⟨h1, by simp [h2]⟩)
    | cancel n =>
      have hstep : step s (.cancel n) = { s with
        ready := s.ready.filter (fun t => !drop n t)
        waiting := s.waiting.filter (fun p => !drop n p.2) } := by
        unfold step; rw [ih.hung]; rfl
      rw [hstep]
      constructor
      · exact ih.hung
      · simp [ih.waiting]
      · exact ih.free
      · exact ih.stored
      · simpa [messages_append, messages] using ih.received
      · intro t ht
        exact ih.fresh t (List.mem_of_mem_filter ht)
      · intro t ht
        obtain ⟨pre, post, h1, h2⟩ := ih.arrived t (List.mem_of_mem_filter ht)
        exact ⟨pre, post ++ [.cancel n], by rw [h1]; simp, h2⟩
      · exact ih.order.filter _
      · intro k hk
        obtain ⟨h1, h2⟩ := ih.replied k hk
        exact ⟨h1, fun t ht => h2 t (List.mem_of_mem_filter ht)⟩
      · exact ih.inOrder
      · intro pre m' post h
        rcases split_snoc h with ⟨rfl, rfl, hx⟩ | ⟨post', rfl, h'⟩
        · simp at hx
        · rcases ih.kept pre m' post' h' with ⟨t, h1, h2, h3⟩ | h1 | ⟨h1, h2⟩
          · by_cases hd : drop n t = true
            · simp only [drop, Bool.and_eq_true, decide_eq_true_eq] at hd
              exact .inr (.inr ⟨h3 ▸ hd.2, by simp [← h2, hd.1]⟩)
            · exact .inl ⟨t, by simp [h1, hd], h2, h3⟩
          · exact .inr (.inl h1)
          · exact .inr (.inr ⟨h1, by simp [h2]⟩)
    | run =>
      have hnone : ∀ pre m' post, evs ++ [Event.run] = pre ++ .receive m' :: post →
          ∃ post', post = post' ++ [.run] ∧ evs = pre ++ .receive m' :: post' := by
        intro pre m' post h
        rcases split_snoc h with ⟨rfl, rfl, hx⟩ | h
        · simp at hx
        · exact h
      rcases hr : s.ready with _ | ⟨t, ts⟩
      · have hstep : step s .run = s := by
          unfold step; rw [ih.hung, hr]; rfl
        rw [hstep]
        constructor
        · exact ih.hung
        · exact ih.waiting
        · exact ih.free
        · exact ih.stored
        · simpa [messages_append, messages] using ih.received
        · exact ih.fresh
        · simp [hr]
        · exact ih.order
        · exact ih.replied
        · exact ih.inOrder
        · intro pre m' post h
          obtain ⟨post', rfl, h'⟩ := hnone _ _ _ h
          rcases ih.kept pre m' post' h' with h1 | h1 | ⟨h1, h2⟩
          · exact .inl h1
          · exact .inr (.inl h1)
          · exact .inr (.inr ⟨h1, by simp [h2]⟩)
      · obtain ⟨w', h1, h2, h3, h4, h5, h6⟩ := run_step ih hr
        rw [h6]
        have hord := ih.order
        rw [hr, List.pairwise_cons] at hord
        have hmem : t ∈ s.ready := by rw [hr]; exact List.mem_cons_self ..
        have hsub : ∀ u ∈ ts, u ∈ s.ready := by intro u hu; rw [hr]; exact List.mem_cons_of_mem _ hu
        constructor
        · exact ih.hung
        · exact ih.waiting
        · exact h1
        · exact h2
        · simpa [messages_append, messages] using ih.received
        · intro u hu; exact ih.fresh u (hsub u hu)
        · intro u hu
          obtain ⟨pre, post, g1, g2⟩ := ih.arrived u (hsub u hu)
          exact ⟨pre, post ++ [.run], by rw [g1]; simp, g2⟩
        · exact hord.2
        · intro n hn
          simp only [List.map_append, List.map_cons, List.map_nil, List.mem_append, List.mem_singleton] at hn
          rcases hn with hn | rfl
          · exact ⟨(ih.replied n hn).1, fun u hu => (ih.replied n hn).2 u (hsub u hu)⟩
          · refine ⟨?_, fun u hu => hord.1 u hu⟩
            obtain ⟨pre, post, g1, g2⟩ := ih.arrived t hmem
            simp only [ih.received]
            rw [g1, messages_append, messages_receive, ← g2]
            simp
        · simp only [List.map_append, List.map_cons, List.map_nil]
          rw [List.pairwise_append]
          refine ⟨ih.inOrder, List.pairwise_singleton _ _, ?_⟩
          intro a ha b hb
          simp only [List.mem_singleton] at hb
          subst hb
          exact (ih.replied a ha).2 t hmem
        · intro pre m' post h
          obtain ⟨post', rfl, h'⟩ := hnone _ _ _ h
          rcases ih.kept pre m' post' h' with ⟨u, g1, g2⟩ | g1 | ⟨g1, g2⟩
          · rw [hr] at g1
            rcases List.mem_cons.1 g1 with rfl | g1
            · exact .inr (.inl (by simp [g2.1]))
            · exact .inl ⟨u, g1, g2⟩
          · exact .inr (.inl (by simp only [List.map_append, List.mem_append]; exact .inl g1))
          · exact .inr (.inr ⟨g1, by simp [g2]⟩)

/-! ## C49 -/

/-- **C49**: after every history of messages, cancellations and steps of the loop, whatever the handlers compute and
whichever of them raise, the event loop is not blocked, no handler is suspended and every lock is free. -/
theorem c49_never_blocked (L : Lang) (evs : List (Event L)) :
    (serve evs).hung = false ∧ (serve evs).waiting = [] ∧
      (serve evs).world.threadLocks = [] ∧ (serve evs).world.asyncLocks = [] :=
  ⟨(good evs).hung, (good evs).waiting, (good evs).free.1, (good evs).free.2⟩

theorem run_length (evs : List (Event L)) :
    (serve (evs ++ [.run])).ready = (serve evs).ready.tail := by
  rw [serve_snoc]
  rcases hr : (serve evs).ready with _ | ⟨t, ts⟩
  · unfold step; rw [(good evs).hung, hr]; simp [hr]
  · obtain ⟨w', h1, h2, h3, h4, h5, h6⟩ := run_step (good evs) hr
    rw [h6]; rfl

theorem run_all (evs : List (Event L)) (k : Nat) :
    (serve (evs ++ List.replicate k .run)).ready = (serve evs).ready.drop k := by
  induction k with
  | zero => simp
  | succ k ih =>
    rw [List.replicate_succ', ← List.append_assoc, run_length, ih]
    simp

/-- **C49**: every step of the loop finishes one handler, so as many steps as there are waiting messages finish all of
them; then every message has been handled, except the requests that were cancelled, and in the order of arrival. -/
theorem c49_all_handled (L : Lang) (evs : List (Event L)) (k : Nat) (hk : (serve evs).ready.length ≤ k)
    (pre : List (Event L)) (m : Msg L) (post : List (Event L)) (h : evs = pre ++ .receive m :: post) :
    let s := serve (evs ++ List.replicate k .run)
    ((messages pre).length ∈ s.replies.map Prod.fst ∨
      (m.isRequest = true ∧ Event.cancel (messages pre).length ∈ post)) ∧
    (s.replies.map Prod.fst).Pairwise (· < ·) := by
  intro s
  have hg := good (evs ++ List.replicate k .run)
  refine ⟨?_, hg.inOrder⟩
  have hready : s.ready = [] := by
    show (serve (evs ++ List.replicate k .run)).ready = []
    rw [run_all]
    exact List.drop_eq_nil_of_le hk
  rcases hg.kept pre m (post ++ List.replicate k .run) (by rw [h]; simp) with ⟨t, h1, _⟩ | h1 | ⟨h1, h2⟩
  · rw [show (serve (evs ++ List.replicate k .run)).ready = [] from hready] at h1
    simp at h1
  · exact .inl h1
  · refine .inr ⟨h1, ?_⟩
    simp only [List.mem_append, List.mem_replicate] at h2
    rcases h2 with h2 | ⟨_, h2⟩
    · exact h2
    · simp at h2

/-- **C49**: the number of waiting messages is at most the number of those received, so the bound can be met. -/
theorem c49_bound (L : Lang) (evs : List (Event L)) : (serve evs).ready.length ≤ (messages evs).length := by
  have hg := good evs
  have h1 : ((serve evs).ready.map Task.number).Nodup := by
    have := hg.order
    rw [List.Nodup, List.pairwise_map]
    exact this.imp (fun h => Nat.ne_of_lt h)
  have h2 : (serve evs).ready.map Task.number ⊆ List.range (messages evs).length := by
    intro n hn
    simp only [List.mem_map] at hn
    obtain ⟨t, ht, rfl⟩ := hn
    obtain ⟨pre, post, g1, g2⟩ := hg.arrived t ht
    rw [List.mem_range, g1, messages_append, messages_receive, ← g2]
    simp
  have := (List.subperm_of_subset h1 h2).length_le
  simpa using this

/-! ## C48 -/

theorem textAfter_append (u : Uri) : ∀ (a b : List (Event L)) (t : Option Source),
    textAfter u (a ++ b) t = textAfter u b (textAfter u a t)
  | [], _, _ => rfl
  | .receive (.opened v x) :: a, b, t => by simp only [List.cons_append, textAfter]; exact textAfter_append u a b _
  | .receive (.changed v x) :: a, b, t => by simp only [List.cons_append, textAfter]; exact textAfter_append u a b _
  | .receive (.closed v) :: a, b, t => by simp only [List.cons_append, textAfter]; exact textAfter_append u a b _
  | .receive (.hover v p) :: a, b, t => by simp only [List.cons_append, textAfter]; exact textAfter_append u a b _
  | .receive (.complete v p) :: a, b, t => by simp only [List.cons_append, textAfter]; exact textAfter_append u a b _
  | .cancel n :: a, b, t => by simp only [List.cons_append, textAfter]; exact textAfter_append u a b _
  | .run :: a, b, t => by simp only [List.cons_append, textAfter]; exact textAfter_append u a b _

/-- Without notifications about the document its text stays. -/
theorem textAfter_quiet (u : Uri) : ∀ (b : List (Event L)) (t : Option Source),
    (∀ m, Event.receive m ∈ b → m.isRequest = false → m.uri ≠ u) → textAfter u b t = t
  | [], _, _ => rfl
  | .receive (.opened v x) :: b, t, h => by
    have hv : v ≠ u := h _ (List.mem_cons_self ..) rfl
    simp only [textAfter]
    rw [if_neg hv]
    exact textAfter_quiet u b t (fun m hm => h m (List.mem_cons_of_mem _ hm))
  | .receive (.changed v x) :: b, t, h => by
    have hv : v ≠ u := h _ (List.mem_cons_self ..) rfl
    simp only [textAfter]
    rw [if_neg hv]
    exact textAfter_quiet u b t (fun m hm => h m (List.mem_cons_of_mem _ hm))
  | .receive (.closed v) :: b, t, h => by
    have hv : v ≠ u := h _ (List.mem_cons_self ..) rfl
    simp only [textAfter]
    rw [if_neg hv]
    exact textAfter_quiet u b t (fun m hm => h m (List.mem_cons_of_mem _ hm))
  | .receive (.hover v p) :: b, t, h => textAfter_quiet u b t (fun m hm => h m (List.mem_cons_of_mem _ hm))
  | .receive (.complete v p) :: b, t, h => textAfter_quiet u b t (fun m hm => h m (List.mem_cons_of_mem _ hm))
  | .cancel n :: b, t, h => textAfter_quiet u b t (fun m hm => h m (List.mem_cons_of_mem _ hm))
  | .run :: b, t, h => textAfter_quiet u b t (fun m hm => h m (List.mem_cons_of_mem _ hm))

/-- An open document that is not open later was closed. -/
theorem textAfter_closed (u : Uri) : ∀ (b : List (Event L)) (t : Option Source), t.isSome → textAfter u b t = none →
    Event.receive (.closed u) ∈ b
  | [], t, h, hn => by simp only [textAfter] at hn; rw [hn] at h; simp at h
  | .receive (.opened v x) :: b, t, h, hn =>
    List.mem_cons_of_mem _ (textAfter_closed u b _ (by split <;> simp [h]) hn)
  | .receive (.changed v x) :: b, t, h, hn =>
    List.mem_cons_of_mem _ (textAfter_closed u b _ (by split <;> simp [h]) hn)
  | .receive (.closed v) :: b, t, h, hn => by
    by_cases hv : v = u
    · rw [hv]; exact List.mem_cons_self ..
    · simp only [textAfter, if_neg hv] at hn
      exact List.mem_cons_of_mem _ (textAfter_closed u b _ h hn)
  | .receive (.hover v p) :: b, t, h, hn => List.mem_cons_of_mem _ (textAfter_closed u b t h hn)
  | .receive (.complete v p) :: b, t, h, hn => List.mem_cons_of_mem _ (textAfter_closed u b t h hn)
  | .cancel n :: b, t, h, hn => List.mem_cons_of_mem _ (textAfter_closed u b t h hn)
  | .run :: b, t, h, hn => List.mem_cons_of_mem _ (textAfter_closed u b t h hn)

theorem changesOpen_init {evs : List (Event L)} {e : Event L} (h : ChangesOpen (evs ++ [e])) : ChangesOpen evs :=
  fun pre uri text post hs => h pre uri text (post ++ [e]) (by rw [hs]; simp)

theorem step_workspace_other {s : Loop L} {evs : List (Event L)} (h : Good evs s) {e : Event L}
    (he : ∀ m, e ≠ .receive m) : (step s e).world.workspace = s.world.workspace := by
  cases e with
  | receive m => exact absurd rfl (he m)
  | cancel n => unfold step; rw [h.hung]; rfl
  | run =>
    rcases hr : s.ready with _ | ⟨t, ts⟩
    · unfold step; rw [h.hung, hr]; rfl
    · obtain ⟨w', h1, h2, h3, h4, h5, h6⟩ := run_step h hr
      rw [h6]; exact h3

/-- The workspace holds the texts the editor shows. -/
theorem workspace (evs : List (Event L)) : ChangesOpen evs → ∀ u,
    (serve evs).world.workspace.get? u = textAfter u evs none := by
  induction evs using List.reverseRecOn with
  | nil => intro _ u; rfl
  | append_singleton evs e ih =>
    intro hc u
    have ih := ih (changesOpen_init hc)
    rw [serve_snoc, textAfter_append]
    cases e with
    | receive m =>
      have hstep : (step (serve evs) (.receive m)).world.workspace = updateWorkspace (serve evs).world.workspace m := by
        unfold step; rw [(good evs).hung]; rfl
      rw [hstep]
      cases m with
      | opened v x => simp only [updateWorkspace, Dict.get?_set, textAfter, ih]
      | changed v x =>
        have := hc evs v x [] rfl
        simp only [updateWorkspace, ih v, this, if_true, Dict.get?_set, textAfter, ih u]
      | closed v => simp only [updateWorkspace, Dict.get?_pop, textAfter, ih]
      | hover v p => simp only [updateWorkspace, textAfter, ih]
      | complete v p => simp only [updateWorkspace, textAfter, ih]
    | cancel n =>
      rw [step_workspace_other (good evs) (by simp)]
      simp only [textAfter, ih]
    | run =>
      rw [step_workspace_other (good evs) (by simp)]
      simp only [textAfter, ih]

/-- A notification that arrived after a waiting message is waiting too. -/
theorem waits {evs : List (Event L)} {s : Loop L} (hg : Good evs s) {t : Task L} (ht : t ∈ s.ready)
    {pre post : List (Event L)} {m : Msg L} (h : evs = pre ++ .receive m :: post) (hm : m.isRequest = false)
    (hn : t.number < (messages pre).length) :
    ∃ u ∈ s.ready, u.number = (messages pre).length ∧ u.msg = m := by
  rcases hg.kept pre m post h with h1 | h1 | ⟨h1, _⟩
  · exact h1
  · have := (hg.replied _ h1).2 t ht; omega
  · rw [hm] at h1; simp at h1

/-- The stored document is computed from the text after some part of the history, after which no notification has been
handled; or a close notification is waiting. -/
def UpToDate (u : Uri) (evs : List (Event L)) (s : Loop L) : Prop :=
  (∃ pre post, evs = pre ++ post ∧
    Knows ((s.world.view u).getD (Document.flushed L)) (textAfter u pre none) ∧
    ∀ a m b, post = a ++ .receive m :: b → m.isRequest = false → m.uri = u →
      ∃ t ∈ s.ready, t.number = (messages (pre ++ a)).length ∧ t.msg = m) ∨
  ∃ t ∈ s.ready, t.msg = .closed u

theorem upToDate (u : Uri) (hu : supported u = true) (evs : List (Event L)) (hc : ChangesOpen evs) :
    UpToDate u evs (serve evs) := by
  induction evs using List.reverseRecOn with
  | nil =>
    refine .inl ⟨[], [], rfl, ?_, by simp⟩
    exact knows_flushed
  | append_singleton evs e ih =>
    have hws := workspace evs (changesOpen_init hc)
    have ih := ih (changesOpen_init hc)
    have hg := good evs
    rw [serve_snoc]
    generalize serve evs = s at ih hg hws ⊢
    cases e with
    | receive m =>
      have hstep : step s (.receive m) = { s with
        world := { s.world with workspace := updateWorkspace s.world.workspace m }
        received := s.received + 1
        ready := s.ready ++ [⟨s.received, m, handler m⟩] } := by
        unfold step; rw [hg.hung]; rfl
      rw [hstep]
      rcases ih with ⟨pre, post, h1, h2, h3⟩ | ⟨t, h1, h2⟩
      · refine .inl ⟨pre, post ++ [.receive m], by rw [h1]; simp, h2, ?_⟩
        intro a m' b hs hm hmu
        rcases split_snoc hs with ⟨rfl, rfl, hx⟩ | ⟨b', rfl, h'⟩
        · injection hx with hx
          subst hx
          refine ⟨⟨s.received, m', handler m'⟩, by simp, ?_, rfl⟩
          rw [← h1]; exact hg.received
        · obtain ⟨t, g1, g2⟩ := h3 a m' b' h' hm hmu
          exact ⟨t, by simp [g1], g2⟩
      · exact .inr ⟨t, by simp [h1], h2⟩
    | cancel n =>
      have hstep : step s (.cancel n) = { s with
        ready := s.ready.filter (fun t => !drop n t)
        waiting := s.waiting.filter (fun p => !drop n p.2) } := by
        unfold step; rw [hg.hung]; rfl
      rw [hstep]
      have hkeep : ∀ t ∈ s.ready, t.msg.isRequest = false → t ∈ s.ready.filter (fun t => !drop n t) := by
        intro t ht hr
        rw [List.mem_filter]
        exact ⟨ht, by simp [drop, hr]⟩
      rcases ih with ⟨pre, post, h1, h2, h3⟩ | ⟨t, h1, h2⟩
      · refine .inl ⟨pre, post ++ [.cancel n], by rw [h1]; simp, h2, ?_⟩
        intro a m' b hs hm hmu
        rcases split_snoc hs with ⟨rfl, rfl, hx⟩ | ⟨b', rfl, h'⟩
        · simp at hx
        · obtain ⟨t, g1, g2, g3⟩ := h3 a m' b' h' hm hmu
          exact ⟨t, hkeep t g1 (g3 ▸ hm), g2, g3⟩
      · exact .inr ⟨t, hkeep t h1 (h2 ▸ rfl), h2⟩
    | run =>
      rcases hr : s.ready with _ | ⟨t, ts⟩
      · have hstep : step s .run = s := by
          unfold step; rw [hg.hung, hr]; rfl
        rw [hstep]
        rcases ih with ⟨pre, post, h1, h2, h3⟩ | ⟨t, h1, h2⟩
        · refine .inl ⟨pre, post ++ [.run], by rw [h1]; simp, h2, ?_⟩
          intro a m' b hs hm hmu
          rcases split_snoc hs with ⟨rfl, rfl, hx⟩ | ⟨b', rfl, h'⟩
          · simp at hx
          · exact h3 a m' b' h' hm hmu
        · exact .inr ⟨t, h1, h2⟩
      · obtain ⟨w', h1, h2, h3, h4, h5, h6⟩ := run_step hg hr
        rw [h6]
        have hmem : t ∈ s.ready := by rw [hr]; exact List.mem_cons_self ..
        have hord := hg.order
        rw [hr, List.pairwise_cons] at hord
        have htail : ∀ v ∈ s.ready, v.msg ≠ t.msg ∨ t.number ≠ v.number → v ∈ ts := by
          intro v hv hne
          rw [hr] at hv
          rcases List.mem_cons.1 hv with rfl | hv
          · simp at hne
          · exact hv
        obtain ⟨tpre, tpost, ta, tn⟩ := hg.arrived t hmem
        -- notifications after the arrival of the first task still wait
        have hlater : ∀ a m b, tpost ++ [Event.run] = a ++ .receive m :: b → m.isRequest = false →
            ∃ v ∈ ts, v.number = (messages ((tpre ++ [.receive t.msg]) ++ a)).length ∧ v.msg = m := by
          intro a m b hs hm
          rcases split_snoc hs with ⟨rfl, rfl, hx⟩ | ⟨b', rfl, h'⟩
          · simp at hx
          · have hlen : (messages ((tpre ++ [.receive t.msg]) ++ a)).length = t.number + 1 + (messages a).length := by
              rw [messages_append, messages_append, List.length_append, List.length_append, tn]; rfl
            obtain ⟨v, g1, g2, g3⟩ := waits hg hmem (pre := (tpre ++ [.receive t.msg]) ++ a) (post := b') (m := m)
              (by rw [ta, h']; simp) hm (by rw [hlen]; omega)
            exact ⟨v, htail v g1 (.inr (by rw [g2, hlen]; omega)), g2, g3⟩
        by_cases hmu : t.msg.uri = u
        · rw [hmu, if_pos hu] at h5
          cases hmsg : t.msg with
          | opened v text =>
            rw [hmsg] at hmu h5 ta hlater
            simp only [Msg.uri] at hmu
            subst hmu
            simp only [effect] at h5
            refine .inl ⟨tpre ++ [.receive (.opened v text)], tpost ++ [.run], by rw [ta]; simp, ?_, ?_⟩
            · simp only [h5, Option.getD_some, textAfter_append, textAfter, if_true]
              exact knows_loaded text
            · intro a m b hs hm _; exact hlater a m b hs hm
          | closed v =>
            rw [hmsg] at hmu h5 ta hlater
            simp only [Msg.uri] at hmu
            subst hmu
            simp only [effect] at h5
            refine .inl ⟨tpre ++ [.receive (.closed v)], tpost ++ [.run], by rw [ta]; simp, ?_, ?_⟩
            · simp only [h5, Option.getD_none, textAfter_append, textAfter, if_true]
              exact knows_flushed
            · intro a m b hs hm _; exact hlater a m b hs hm
          | changed v text =>
            rw [hmsg] at hmu h5 ta hlater
            simp only [Msg.uri] at hmu
            subst hmu
            simp only [effect, changedDoc, readText, hws] at h5
            rcases htext : textAfter v evs none with _ | text'
            · -- closed in the meantime
              right
              rw [ta, textAfter_append] at htext
              simp only [textAfter, if_true] at htext
              have hcl := textAfter_closed v tpost (some text) rfl htext
              obtain ⟨a, b, hab⟩ := List.append_of_mem hcl
              obtain ⟨x, g1, g2, g3⟩ := hlater a (.closed v) (b ++ [.run]) (by rw [hab]; simp) rfl
              exact ⟨x, g1, g3⟩
            · left
              rw [htext] at h5
              refine ⟨evs ++ [.run], [], by simp, ?_, by simp⟩
              simp only [h5, Option.getD_some, textAfter_append, textAfter, htext]
              exact knows_loaded text'
          | hover v pos =>
            rcases ih with ⟨pre, post, g1, g2, g3⟩ | ⟨x, g1, g2⟩
            · left
              have hk := knows_request g2 s.world.workspace t.msg (by rw [hmsg]; rfl) (by rw [hmu]; exact hu)
              obtain ⟨⟨y, hy, hky⟩, _⟩ := hk
              rw [hy] at h5
              refine ⟨pre, post ++ [.run], by rw [g1]; simp, ?_, ?_⟩
              · simp only [h5, Option.getD_some]; exact hky
              · intro a m b hs hm hmu'
                rcases split_snoc hs with ⟨rfl, rfl, hx⟩ | ⟨b', rfl, h'⟩
                · simp at hx
                · obtain ⟨x, k1, k2, k3⟩ := g3 a m b' h' hm hmu'
                  refine ⟨x, htail x k1 (.inl ?_), k2, k3⟩
                  rw [k3, hmsg]; rintro rfl; simp [Msg.isRequest] at hm
            · exact .inr ⟨x, htail x g1 (.inl (by rw [g2, hmsg]; simp)), g2⟩
          | complete v pos =>
            rcases ih with ⟨pre, post, g1, g2, g3⟩ | ⟨x, g1, g2⟩
            · left
              have hk := knows_request g2 s.world.workspace t.msg (by rw [hmsg]; rfl) (by rw [hmu]; exact hu)
              obtain ⟨⟨y, hy, hky⟩, _⟩ := hk
              rw [hy] at h5
              refine ⟨pre, post ++ [.run], by rw [g1]; simp, ?_, ?_⟩
              · simp only [h5, Option.getD_some]; exact hky
              · intro a m b hs hm hmu'
                rcases split_snoc hs with ⟨rfl, rfl, hx⟩ | ⟨b', rfl, h'⟩
                · simp at hx
                · obtain ⟨x, k1, k2, k3⟩ := g3 a m b' h' hm hmu'
                  refine ⟨x, htail x k1 (.inl ?_), k2, k3⟩
                  rw [k3, hmsg]; rintro rfl; simp [Msg.isRequest] at hm
            · exact .inr ⟨x, htail x g1 (.inl (by rw [g2, hmsg]; simp)), g2⟩
        · rcases ih with ⟨pre, post, g1, g2, g3⟩ | ⟨x, g1, g2⟩
          · left
            refine ⟨pre, post ++ [.run], by rw [g1]; simp, ?_, ?_⟩
            · simp only [h4 u (Ne.symm hmu)]; exact g2
            · intro a m b hs hm hmu'
              rcases split_snoc hs with ⟨rfl, rfl, hx⟩ | ⟨b', rfl, h'⟩
              · simp at hx
              · obtain ⟨x, k1, k2, k3⟩ := g3 a m b' h' hm hmu'
                refine ⟨x, htail x k1 (.inl ?_), k2, k3⟩
                rw [k3]; rintro rfl; exact hmu hmu'
          · refine .inr ⟨x, htail x g1 (.inl ?_), g2⟩
            rw [g2]; intro hx; rw [← hx] at hmu; exact hmu rfl

/-- **C48** (partial: for requests whose document is not closed before they are answered; see `c48_false_closing`).
For every history in which the client changes only open documents, and every request in it: when it is answered, the
answer is computed from a text that the document had at some moment from the arrival of the request to the answer, and
from that text alone: no earlier text, no earlier state and no earlier completion list matters, nor failed handlers. -/
theorem c48_answer_partial (L : Lang) (before after : List (Event L)) (m : Msg L) (hm : m.isRequest = true)
    (hc : ChangesOpen (before ++ .receive m :: after)) (hclose : Event.receive (.closed m.uri) ∉ after)
    (r : Except Exn (Reply L))
    (hr : (serve (before ++ .receive m :: after ++ [.run])).replies =
      (serve (before ++ .receive m :: after)).replies ++ [((messages before).length, r)]) :
    ∃ since later, after = since ++ later ∧ r = answer (textAfter m.uri (before ++ .receive m :: since) none) m := by
  have hg := good (before ++ .receive m :: after)
  have hup := fun hu => upToDate m.uri hu _ hc
  rw [serve_snoc] at hr
  generalize serve (before ++ Event.receive m :: after) = s at hr hg hup
  rcases hready : s.ready with _ | ⟨t, ts⟩
  · have : step s .run = s := by unfold step; rw [hg.hung, hready]; rfl
    rw [this] at hr
    simp at hr
  · obtain ⟨w', h1, h2, h3, h4, h5, h6⟩ := run_step hg hready
    have hmem : t ∈ s.ready := by rw [hready]; exact List.mem_cons_self ..
    have hord := hg.order
    rw [hready, List.pairwise_cons] at hord
    have hmin : ∀ v ∈ s.ready, t.number ≤ v.number := by
      intro v hv
      rw [hready] at hv
      rcases List.mem_cons.1 hv with rfl | hv
      · exact le_refl _
      · exact le_of_lt (hord.1 v hv)
    rw [h6] at hr
    simp only [List.append_cancel_left_eq, List.cons.injEq, Prod.mk.injEq, and_true] at hr
    obtain ⟨hn, hr⟩ := hr
    obtain ⟨tpre, tpost, ta, tn⟩ := hg.arrived t hmem
    obtain ⟨e1, e2, e3⟩ := same_arrival ta (by rw [tn, hn])
    rw [← e2] at hr
    subst hr
    by_cases hu : supported m.uri = true
    · rw [if_pos hu]
      rcases hup hu with ⟨pre, post, g1, g2, g3⟩ | ⟨x, g1, g2⟩
      · have hans := (knows_request g2 s.world.workspace m hm hu).2
        rw [hans]
        rcases List.append_eq_append_iff.1 g1 with ⟨q, q1, q2⟩ | ⟨q, q1, q2⟩
        · -- the text is at least as new as the request
          cases q with
          | nil =>
            refine ⟨[], after, rfl, ?_⟩
            rw [q1, List.append_nil, textAfter_append]
            congr 1
            rw [textAfter_quiet m.uri [.receive m]]
            intro m' hm' hreq
            simp only [List.mem_singleton, Event.receive.injEq] at hm'
            rw [hm', hm] at hreq; simp at hreq
          | cons e q =>
            simp only [List.cons_append, List.cons.injEq] at q2
            refine ⟨q, post, q2.2, ?_⟩
            rw [q1, ← q2.1]
        · -- no notification between the text and the request
          refine ⟨[], after, rfl, ?_⟩
          rw [q1, textAfter_append, textAfter_append]
          congr 1
          have hq : textAfter m.uri q (textAfter m.uri pre none) = textAfter m.uri pre none := by
            apply textAfter_quiet
            intro m' hm' hreq hmu'
            obtain ⟨a, b, hab⟩ := List.append_of_mem hm'
            obtain ⟨x, k1, k2, k3⟩ := g3 a m' (b ++ .receive m :: after) (by rw [q2, hab]; simp) hreq hmu'
            have := hmin x k1
            rw [k2, hn, q1, hab] at this
            simp only [messages_append, messages_receive, List.length_append, List.length_cons] at this
            omega
          rw [hq, textAfter_quiet m.uri [.receive m]]
          intro m' hm' hreq
          simp only [List.mem_singleton, Event.receive.injEq] at hm'
          rw [hm', hm] at hreq; simp at hreq
      · -- a waiting close notification arrived after the request
        exfalso
        obtain ⟨xpre, xpost, xa, xn⟩ := hg.arrived x g1
        rw [g2] at xa
        have hle := hmin x g1
        rcases List.append_eq_append_iff.1 xa with ⟨q, q1, q2⟩ | ⟨q, q1, q2⟩
        · cases q with
          | nil =>
            simp only [List.nil_append, List.cons.injEq, Event.receive.injEq] at q2
            rw [q2.1] at hm; simp [Msg.isRequest] at hm
          | cons e q =>
            simp only [List.cons_append, List.cons.injEq] at q2
            exact hclose (by rw [q2.2]; simp)
        · cases q with
          | nil =>
            simp only [List.nil_append, List.cons.injEq, Event.receive.injEq] at q2
            rw [← q2.1] at hm; simp [Msg.isRequest] at hm
          | cons e q =>
            simp only [List.cons_append, List.cons.injEq] at q2
            have : (messages before).length = (messages xpre).length + 1 + (messages q).length := by
              rw [q1, messages_append, ← q2.1, messages_receive]
              simp only [List.length_append, List.length_cons]; omega
            omega
    · rw [if_neg hu]
      refine ⟨[], after, rfl, ?_⟩
      cases m with
      | opened _ _ => simp [Msg.isRequest] at hm
      | changed _ _ => simp [Msg.isRequest] at hm
      | closed _ => simp [Msg.isRequest] at hm
      | hover v p =>
        simp only [Msg.uri] at hu
        simp only [answer, Msg.uri, if_neg hu]
      | complete v p =>
        simp only [Msg.uri] at hu
        simp only [answer, Msg.uri, if_neg hu]

/-- **C48**: when no notification about the document arrives between a request and its answer, the answer is computed
from the text the document had when the request was sent. -/
theorem c48_settled (L : Lang) (before after : List (Event L)) (m : Msg L) (hm : m.isRequest = true)
    (hc : ChangesOpen (before ++ .receive m :: after))
    (hquiet : ∀ n, Event.receive n ∈ after → n.isRequest = false → n.uri ≠ m.uri)
    (r : Except Exn (Reply L))
    (hr : (serve (before ++ .receive m :: after ++ [.run])).replies =
      (serve (before ++ .receive m :: after)).replies ++ [((messages before).length, r)]) :
    r = answer (textAfter m.uri before none) m := by
  obtain ⟨since, later, h1, h2⟩ := c48_answer_partial L before after m hm hc
    (fun h => hquiet _ h rfl rfl) r hr
  rw [h2, textAfter_append]
  congr 1
  apply textAfter_quiet
  intro n hn hreq
  rcases List.mem_cons.1 hn with hn | hn
  · injection hn with hn; rw [hn, hm] at hreq; simp at hreq
  · exact hquiet n (by rw [h1]; simp [hn]) hreq

/-- A toy language: texts that contain `!` cannot be parsed, hovering over `?` fails, the hover text is the whole text and
the completion list is the text. -/
def toy : Lang where
  Ast := List Char
  State := List Char
  Hash := Nat
  Position := Unit
  Hover := List Char
  Items := List Char
  parse t := if '!' ∈ t then .error (.computation t) else .ok t
  sha256 t := t.length
  hover a _ := if '?' ∈ a then .error (.computation a) else .ok (some a)
  kindAt _ _ := .ok (some .aperture)
  track a := .ok a
  gCodes := []
  apertures s := .ok s
  extended s := .ok s
  nothing := []
  disk _ := .ok ['d', 'i', 's', 'k']

/-- The name of a supported document. -/
def board : Uri := ['f', 'i', 'l', 'e', ':', '/', '/', '/', 'b', '.', 'g', 'b', 'r']

/-- A history with an edit that cannot be parsed, one that makes hovering fail, an unsupported file and a text that
hashes like the previous one. -/
def session : List (Event toy) :=
  [.receive (.opened board ['a']), .receive (.complete board ()), .run, .run,
   .receive (.changed board ['!']), .run, .receive (.hover board ()), .run,
   .receive (.opened ['x', '.', 't', 'x', 't'] ['q']), .run,
   .receive (.changed board ['?']), .receive (.hover board ()), .run, .run,
   .receive (.changed board ['b'])]

/-- `ChangesOpen` for a given history. -/
def checks (pre : List (Event L)) : List (Event L) → Bool
  | [] => true
  | .receive (.changed u x) :: es => (textAfter u pre none).isSome && checks (pre ++ [.receive (.changed u x)]) es
  | e :: es => checks (pre ++ [e]) es

theorem of_checks : ∀ (es pre : List (Event L)), checks pre es = true → ∀ a u x b,
    es = a ++ .receive (.changed u x) :: b → (textAfter u (pre ++ a) none).isSome
  | [], _, _, a, u, x, b, h => by simp at h
  | e :: es, pre, hk, [], u, x, b, h => by
    simp only [List.nil_append, List.cons.injEq] at h
    rw [h.1, checks, Bool.and_eq_true] at hk
    simpa using hk.1
  | e :: es, pre, hk, e' :: a, u, x, b, h => by
    simp only [List.cons_append, List.cons.injEq] at h
    have hk' : checks (pre ++ [e]) es = true := by
      revert hk
      cases e with
      | receive m => cases m <;> simp [checks]
      | cancel n => simp [checks]
      | run => simp [checks]
    have := of_checks es (pre ++ [e]) hk' a u x b h.2
    rw [← h.1]
    simpa using this

theorem changesOpen_of_checks {es : List (Event L)} (h : checks [] es = true) : ChangesOpen es :=
  fun pre uri text post hs => of_checks es [] h pre uri text post hs

/-- The hypotheses of `c48_answer_partial` and `c48_settled` are met: the answer after the edits is that of the last
text, and in between there were a failed parse, a failed hover and a rejected file. -/
example : ChangesOpen (session ++ .receive (.complete board ()) :: [.run]) ∧
    (serve (session ++ .receive (.complete board ()) :: [.run] ++ [.run])).replies =
      (serve (session ++ .receive (.complete board ()) :: [.run])).replies ++ [(8, .ok (.completion (some ['b'])))] ∧
    (messages session).length = 8 ∧
    (serve (session ++ .receive (.complete board ()) :: [.run])).replies =
      [(0, .ok .handled), (1, .ok (.completion (some ['a']))), (2, .error (.computation ['!'])), (3, .ok (.hover none)),
       (4, .error (.unsupported ['x', '.', 't', 'x', 't'])), (5, .ok .handled), (6, .error (.computation ['?'])),
       (7, .ok .handled)] :=
  ⟨changesOpen_of_checks rfl, rfl, rfl, rfl⟩

/-- Edits, a request and a close that arrive together. -/
def hurry : List (Event toy) :=
  [.receive (.opened board ['a']), .receive (.changed board ['b'])]

/-- **C48** in full is false: a close notification that overtakes the handler of a change makes this handler read the
file from the disk, and a hover request sent after the change and before the close is answered with it, although the
document never had that text. -/
theorem c48_false_closing : ¬ ∀ (L : Lang) (before after : List (Event L)) (m : Msg L) (r : Except Exn (Reply L)),
    m.isRequest = true → ChangesOpen (before ++ .receive m :: after) →
    (serve (before ++ .receive m :: after ++ [.run])).replies =
      (serve (before ++ .receive m :: after)).replies ++ [((messages before).length, r)] →
    ∃ pre post, before ++ .receive m :: after = pre ++ post ∧ r = answer (textAfter m.uri pre none) m := by
  intro h
  obtain ⟨pre, post, h1, h2⟩ := h toy hurry [.receive (.closed board), .run, .run] (.hover board ())
    (.ok (.hover (some ['d', 'i', 's', 'k']))) rfl (changesOpen_of_checks rfl) rfl
  have h3 : pre = (hurry ++ Event.receive (Msg.hover board ()) :: [.receive (.closed board), .run, .run]).take pre.length := by
    rw [h1]; simp
  have h4 : pre.length ≤ 6 := by
    have := congrArg List.length h1
    simp [hurry] at this
    omega
  rw [h3] at h2
  generalize pre.length = k at h2 h4
  have : k = 0 ∨ k = 1 ∨ k = 2 ∨ k = 3 ∨ k = 4 ∨ k = 5 ∨ k = 6 := by omega
  rcases this with rfl | rfl | rfl | rfl | rfl | rfl | rfl <;>
    exact absurd h2 (by
      intro hh
      have hh := congrArg (fun x : Except Exn (Reply toy) => match x with
        | .ok (.hover (some (c : List Char))) => c.length
        | _ => 0) hh
      exact absurd hh (by decide +kernel))

/-- The hypotheses of `c49_all_handled` are met: nine messages, of which one request is cancelled. -/
example : (serve (session ++ [.receive (.hover board ()), .cancel 8])).ready.length ≤ 1 ∧
    (serve (session ++ [.receive (.hover board ()), .cancel 8] ++ List.replicate 1 .run)).replies.map Prod.fst =
      [0, 1, 2, 3, 4, 5, 6, 7] := by decide +kernel

end Verif.Props.Server
