import Verif.Spec.Server

/-! # Handlers run without interruption -/

namespace Verif.Server
variable {L : Lang}

/-- All locks are free. -/
def Free (w : World L) : Prop := w.threadLocks = [] ∧ w.asyncLocks = []

/-- The document object stored for a URI. -/
def World.view (w : World L) (u : Uri) : Option (Document L) := (w.documents.get? u).map w.doc

/-- The stored documents exist, are distinct and have a supported URI. -/
structure Stored (w : World L) : Prop where
  below : ∀ u d, w.documents.get? u = some d → d < w.next
  served : ∀ u d, w.documents.get? u = some d → supported u = true
  distinct : ∀ u v d, w.documents.get? u = some d → w.documents.get? v = some d → u = v

/-- A body that only touches the attributes of one document and ends. -/
def Acts {α : Type} (d : Nat) (w : World L) (r : Res L α) (f : Document L × Except Exn α) : Prop :=
  ∃ w', r = .done w' f.2 ∧ w'.threadLocks = w.threadLocks ∧ w'.asyncLocks = w.asyncLocks ∧ w'.documents = w.documents ∧
    w'.next = w.next ∧ w'.workspace = w.workspace ∧ w'.doc d = f.1 ∧ ∀ e, e ≠ d → w'.doc e = w.doc e

theorem doc_setDoc (w : World L) (d e : Nat) (x : Document L) :
    (w.setDoc d x).doc e = if d = e then x else w.doc e := by
  simp only [World.setDoc, World.doc, Dict.get?_set]
  split <;> simp

theorem acts_same {α : Type} (d : Nat) (w : World L) (r : Except Exn α) : Acts d w (.done w r) (w.doc d, r) :=
  ⟨w, rfl, rfl, rfl, rfl, rfl, rfl, rfl, fun _ _ => rfl⟩

theorem acts_set {α : Type} (d : Nat) (w : World L) (x : Document L) (r : Except Exn α) :
    Acts d w (.done (w.setDoc d x) r) (x, r) :=
  ⟨_, rfl, rfl, rfl, rfl, rfl, rfl, by simp [doc_setDoc], fun e he => by simp [doc_setDoc, Ne.symm he]⟩

theorem Acts.after_set {α : Type} {d : Nat} {w : World L} {x : Document L} {r : Res L α} {f : Document L × Except Exn α}
    (h : Acts d (w.setDoc d x) r f) : Acts d w r f := by
  obtain ⟨w', h1, h2, h3, h4, h5, h6, h7, h8⟩ := h
  exact ⟨w', h1, h2, h3, h4, h5, h6, h7, fun e he => by rw [h8 e he, doc_setDoc, if_neg (Ne.symm he)]⟩

/-- The document after its text became `text`. -/
def loaded (L : Lang) (text : Source) : Document L × Except Exn Unit :=
  match L.parse text with
  | .ok a => (⟨some a, none, L.sha256 text, none⟩, .ok ())
  | .error e => (Document.flushed L, .error e)

theorem load_acts (d : Nat) (text : Source) (w : World L) :
    Acts d w (loadAst d text (w.setDoc d (Document.flushed L))) (loaded L text) := by
  apply Acts.after_set (x := Document.flushed L)
  unfold loadAst loaded
  have hd : (w.setDoc d (Document.flushed L)).doc d = Document.flushed L := by simp [doc_setDoc]
  rw [if_neg (by rw [hd]; simp [Document.flushed])]
  cases L.parse text with
  | ok a =>
    simp only [hd]
    exact acts_set _ _ _ _
  | error e => simpa [hd] using acts_same d (w.setDoc d (Document.flushed L)) (.error e : Except Exn Unit)

/-- The text a change handler reads. -/
def readText (L : Lang) (ws : Dict Uri Source) (uri : Uri) : Except Exn Source :=
  match ws.get? uri with
  | some text => .ok text
  | none => L.disk uri

/-- The document after a change handler. -/
def changedDoc (L : Lang) (ws : Dict Uri Source) (uri : Uri) : Document L × Except Exn Unit :=
  match readText L ws uri with
  | .ok text => loaded L text
  | .error e => (Document.flushed L, .error e)

theorem change_acts (d : Nat) (uri : Uri) (w : World L) : Acts d w (onChange d uri w) (changedDoc L w.workspace uri) := by
  unfold onChange changedDoc readText
  have hw : (w.setDoc d (Document.flushed L)).workspace = w.workspace := rfl
  simp only [hw]
  cases w.workspace.get? uri with
  | some t => exact load_acts d t w
  | none =>
    simp only []
    cases L.disk uri with
    | ok t => exact load_acts d t w
    | error e => exact acts_set _ _ _ _

/-- The answer to a hover request from the attributes of a document. -/
def hoverDoc (x : Document L) (pos : L.Position) : Document L × Except Exn (Option L.Hover) :=
  (x, match x.ast with
    | none => .ok none
    | some a => L.hover a pos)

theorem hover_acts (d : Nat) (pos : L.Position) (w : World L) : Acts d w (onHover d pos w) (hoverDoc (w.doc d) pos) := by
  unfold onHover hoverDoc
  cases (w.doc d).ast <;> exact acts_same _ _ _

/-- `get_gerber_state` on the attributes. -/
def stateDoc (x : Document L) : Document L × Except Exn (Option L.State) :=
  match x.state, x.ast with
  | some s, _ => (x, .ok (some s))
  | none, none => (x, .ok none)
  | none, some a => (match L.track a with
    | .ok s => ({ x with state := some s }, .ok (some s))
    | .error e => (x, .error e))

theorem state_acts (d : Nat) (w : World L) : Acts d w (gerberState d w) (stateDoc (w.doc d)) := by
  unfold gerberState stateDoc
  rcases hs : (w.doc d).state with _ | s
  · rcases ha : (w.doc d).ast with _ | a
    · exact acts_same _ _ _
    · rcases ht : L.track a with e | s
      · simp only [ht]; exact acts_same _ _ _
      · simp only [ht, ha]
        have := acts_set d w { w.doc d with state := some s } (.ok (some s) : Except Exn (Option L.State))
        simp only [ha] at this
        exact this
  · exact acts_same _ _ _

/-- A second part that runs when the first one succeeds. -/
def thenDoc {α β : Type} (f : Document L × Except Exn α) (g : α → Document L → Document L × Except Exn β) :
    Document L × Except Exn β :=
  match f.2 with
  | .ok a => g a f.1
  | .error e => (f.1, .error e)

theorem Acts.andThen {α β : Type} {d : Nat} {w : World L} {r : Res L α} {f : Document L × Except Exn α}
    (h : Acts d w r f) (k : α → Co L β) (g : α → Document L → Document L × Except Exn β)
    (hk : ∀ a v, v.doc d = f.1 → Acts d v (k a v) (g a f.1)) :
    Acts d w (r.andThen k) (thenDoc f g) := by
  obtain ⟨w', h1, h2, h3, h4, h5, h6, h7, h8⟩ := h
  subst h1
  obtain ⟨x, o⟩ := f
  cases o with
  | error e => exact ⟨w', rfl, h2, h3, h4, h5, h6, h7, h8⟩
  | ok a =>
    obtain ⟨v, g1, g2, g3, g4, g5, g6, g7, g8⟩ := hk a w' h7
    exact ⟨v, g1, g2.trans h2, g3.trans h3, g4.trans h4, g5.trans h5, g6.trans h6, g7,
      fun e he => (g8 e he).trans (h8 e he)⟩

/-- `get_completion_apertures` after the state is known. -/
def aperturesFrom (s : Option L.State) (x : Document L) : Document L × Except Exn (Option L.Items) :=
  match s with
  | none => (x, .ok none)
  | some s => (match L.apertures s with
    | .ok c => ({ x with completion := some c }, .ok (some c))
    | .error e => (x, .error e))

/-- `get_completion_apertures` on the attributes. -/
def aperturesDoc (x : Document L) : Document L × Except Exn (Option L.Items) :=
  match x.completion with
  | some c => (x, .ok (some c))
  | none => thenDoc (stateDoc x) aperturesFrom

theorem apertures_acts (d : Nat) (w : World L) : Acts d w (completeApertures d w) (aperturesDoc (w.doc d)) := by
  unfold completeApertures aperturesDoc
  rcases (w.doc d).completion with _ | c
  · refine (state_acts d w).andThen _ aperturesFrom ?_
    intro s v hv
    rw [← hv]
    cases s with
    | none => exact acts_same _ _ _
    | some s =>
      simp only [aperturesFrom]
      cases L.apertures s with
      | ok c => exact acts_set _ _ _ _
      | error e => exact acts_same _ _ _
  · exact acts_same _ _ _

/-- `get_completion_extended_command` after the state is known. -/
def extendedFrom (s : Option L.State) (x : Document L) : Document L × Except Exn (Option L.Items) :=
  (x, match s with
    | none => .ok none
    | some s => (L.extended s).map some)

/-- `get_completion_extended_command` on the attributes. -/
def extendedDoc (x : Document L) : Document L × Except Exn (Option L.Items) := thenDoc (stateDoc x) extendedFrom

theorem extended_acts (d : Nat) (w : World L) : Acts d w (completeExtended d w) (extendedDoc (w.doc d)) := by
  refine (state_acts d w).andThen _ extendedFrom ?_
  intro s v hv
  rw [← hv]
  cases s <;> exact acts_same _ _ _

/-- `on_completion` on the attributes. -/
def completionDoc (x : Document L) (pos : L.Position) : Document L × Except Exn (Option L.Items) :=
  match x.ast with
  | none => (x, .ok none)
  | some a => (match L.kindAt a pos with
    | .error e => (x, .error e)
    | .ok none => (x, .ok none)
    | .ok (some .gCode) => (x, .ok (some L.gCodes))
    | .ok (some .aperture) => aperturesDoc x
    | .ok (some .extended) => extendedDoc x
    | .ok (some .unknown) => (x, .ok (some L.nothing)))

theorem completion_acts (d : Nat) (pos : L.Position) (w : World L) :
    Acts d w (onCompletion d pos w) (completionDoc (w.doc d) pos) := by
  unfold onCompletion completionDoc
  cases (w.doc d).ast with
  | none => exact acts_same _ _ _
  | some a =>
    simp only []
    rcases L.kindAt a pos with e | (_ | (_ | _ | _ | _))
    · exact acts_same _ _ _
    · exact acts_same _ _ _
    · exact acts_same _ _ _
    · exact apertures_acts _ _
    · exact extended_acts _ _
    · exact acts_same _ _ _

/-- What running a handler without interruption means for the world. -/
structure Ran {α : Type} (uri : Uri) (w : World L) (r : Res L α) (f : Document L × Except Exn α) (w' : World L) : Prop where
  ended : r = .done w' (if supported uri then f.2 else .error (.unsupported uri))
  free : Free w'
  stored : Stored w'
  workspace : w'.workspace = w.workspace
  others : ∀ u, u ≠ uri → w'.view u = w.view u

theorem withDocument_ran {α : Type} (uri : Uri) (body : Nat → Co L α) (f : Document L → Document L × Except Exn α)
    (w : World L) (hf : Free w) (hs : Stored w)
    (hb : ∀ d v, v.workspace = w.workspace → Acts d v (body d v) (f (v.doc d))) :
    ∃ w', Ran uri w (withDocument uri body w) (f ((w.view uri).getD (Document.flushed L))) w' ∧
      w'.view uri = if supported uri then some (f ((w.view uri).getD (Document.flushed L))).1 else none := by
  obtain ⟨ht, ha⟩ := hf
  rcases hd : w.documents.get? uri with _ | d
  · by_cases hsup : supported uri = true
    · -- a new document
      have hnot : ∀ e : Nat, Owner.document e ∉ ([] : List Owner) := by simp
      obtain ⟨w', h1, h2, h3, h4, h5, h6, h7, h8⟩ := hb w.next
        { w with
          threadLocks := [.document w.next]
          asyncLocks := [.document w.next]
          documents := w.documents.set uri w.next
          heap := w.heap.set w.next (Document.flushed L)
          next := w.next + 1 } rfl
      have hdoc : World.doc (L := L) { w with
          threadLocks := [.document w.next]
          asyncLocks := [.document w.next]
          documents := w.documents.set uri w.next
          heap := w.heap.set w.next (Document.flushed L)
          next := w.next + 1 } w.next = Document.flushed L := by
        simp [World.doc]
      rw [hdoc] at h1 h7
      simp only at h2 h3 h4 h5 h6
      have hview : w.view uri = none := by simp [World.view, hd]
      refine ⟨{ w' with threadLocks := [], asyncLocks := [] }, ⟨?_, ⟨rfl, rfl⟩, ?_, h6, ?_⟩, ?_⟩
      · simp [withDocument, holding, getDocument, acquire, release, Res.andThen, Res.finally_, hd, hsup, ht, ha, h1, h2, h3, hview]
      · constructor
        · intro u e
          simp only [h4, h5, Dict.get?_set]
          split
          · intro h; simp at h; omega
          · intro h; have := hs.below u e h; omega
        · intro u e
          simp only [h4, Dict.get?_set]
          split
          · rename_i h; subst h; intro; exact hsup
          · exact hs.served u e
        · intro u v e
          simp only [h4, Dict.get?_set]
          split <;> split
          · rename_i a b; intros; exact a.symm.trans b
          · intro h1 h2; simp at h1; subst h1; exact absurd (hs.below _ _ h2) (by omega)
          · intro h1 h2; simp at h2; subst h2; exact absurd (hs.below _ _ h1) (by omega)
          · exact hs.distinct u v e
      · intro u hu
        simp only [World.view, h4, Dict.get?_set, if_neg (Ne.symm hu)]
        rcases hu' : w.documents.get? u with _ | e
        · rfl
        · have hlt := hs.below u e hu'
          have hne : e ≠ w.next := by omega
          have := h8 e hne
          simp only [Option.map_some]
          congr 1
          refine Eq.trans this ?_
          simp [World.doc, Dict.get?_set, Ne.symm hne]
      · rw [if_pos hsup]
        simp only [World.view, h4, Dict.get?_set_self, Option.map_some]
        congr 1
        refine Eq.trans h7 ?_
        simp [hd]
    · refine ⟨w, ⟨?_, ⟨ht, ha⟩, hs, rfl, fun _ _ => rfl⟩, ?_⟩
      · obtain ⟨tl, al, dd, hh, nn, ww⟩ := w
        simp only at ht ha hd
        subst ht ha
        simp [withDocument, holding, getDocument, acquire, release, Res.andThen, Res.finally_, hd, hsup]
      · simp [hsup, World.view, hd]
  · have hsup := hs.served uri d hd
    obtain ⟨w', h1, h2, h3, h4, h5, h6, h7, h8⟩ := hb d
      { w with threadLocks := [.document d], asyncLocks := [.document d] } rfl
    have hdoc : World.doc (L := L) { w with threadLocks := [.document d], asyncLocks := [.document d] } d = w.doc d := rfl
    rw [hdoc] at h1 h7
    simp only at h2 h3 h4 h5 h6
    have hview : w.view uri = some (w.doc d) := by simp [World.view, hd]
    refine ⟨{ w' with threadLocks := [], asyncLocks := [] }, ⟨?_, ⟨rfl, rfl⟩, ?_, h6, ?_⟩, ?_⟩
    · simp [withDocument, holding, getDocument, acquire, release, Res.andThen, Res.finally_, hd, hsup, ht, ha, h1, h2, h3, hview]
    · constructor
      · intro u e h; simp only [h4] at h; simp only [h5]; exact hs.below u e h
      · intro u e h; simp only [h4] at h; exact hs.served u e h
      · intro u v e h h'; simp only [h4] at h h'; exact hs.distinct u v e h h'
    · intro u hu
      simp only [World.view, h4]
      rcases hu' : w.documents.get? u with _ | e
      · rfl
      · have hne : e ≠ d := fun he => hu (hs.distinct u uri d (he ▸ hu') hd)
        simp only [Option.map_some]
        congr 1
        exact h8 e hne
    · rw [if_pos hsup]
      simp only [World.view, h4, hd, Option.map_some, Option.getD_some]
      congr 1

theorem close_ran (uri : Uri) (w : World L) (hf : Free w) (hs : Stored w) :
    ∃ w', Ran uri w (closeHandler uri w) ((Document.flushed L), .ok ()) w' ∧ w'.view uri = none := by
  obtain ⟨tl, al, dd, hh, nn, ww⟩ := w
  obtain ⟨ht, ha⟩ := hf
  simp only at ht ha
  subst ht ha
  rcases hd : dd.get? uri with _ | d
  · by_cases hsup : supported uri = true
    · refine ⟨⟨[], [], (dd.set uri nn).pop uri, hh.set nn (Document.flushed L), nn + 1, ww⟩,
        ⟨?_, ⟨rfl, rfl⟩, ?_, rfl, ?_⟩, ?_⟩
      · simp [closeHandler, holding, getDocument, acquire, release, Res.andThen, Res.finally_, hd, hsup, onClose]
      · constructor
        · intro u e
          simp only [Dict.get?_set, Dict.get?_pop]
          split
          · simp
          · intro h; have := hs.below u e h; simp only at this; omega
        · intro u e
          simp only [Dict.get?_set, Dict.get?_pop]
          split
          · simp
          · exact hs.served u e
        · intro u v e
          simp only [Dict.get?_set, Dict.get?_pop]
          split
          · simp
          · split
            · simp
            · exact hs.distinct u v e
      · intro u hu
        simp only [World.view, Dict.get?_set, Dict.get?_pop, if_neg (Ne.symm hu)]
        rcases hu' : dd.get? u with _ | e
        · rfl
        · have hlt := hs.below u e hu'
          simp only at hlt
          have hne : nn ≠ e := by omega
          simp [World.doc, Dict.get?_set, hne]
      · simp [World.view, Dict.get?_pop]
    · refine ⟨⟨[], [], dd, hh, nn, ww⟩, ⟨?_, ⟨rfl, rfl⟩, hs, rfl, fun _ _ => rfl⟩, ?_⟩
      · simp [closeHandler, holding, getDocument, acquire, release, Res.andThen, Res.finally_, hd, hsup]
      · simp [World.view, hd]
  · have hsup := hs.served uri d hd
    refine ⟨⟨[], [], dd.pop uri, hh, nn, ww⟩, ⟨?_, ⟨rfl, rfl⟩, ?_, rfl, ?_⟩, ?_⟩
    · simp [closeHandler, holding, getDocument, acquire, release, Res.andThen, Res.finally_, hd, hsup, onClose]
    · constructor
      · intro u e
        simp only [Dict.get?_pop]
        split
        · simp
        · exact hs.below u e
      · intro u e
        simp only [Dict.get?_pop]
        split
        · simp
        · exact hs.served u e
      · intro u v e
        simp only [Dict.get?_pop]
        split
        · simp
        · split
          · simp
          · exact hs.distinct u v e
    · intro u hu
      simp [World.view, Dict.get?_pop, Ne.symm hu]
      rfl
    · simp [World.view, Dict.get?_pop]

/-- Effect of a handler on the stored document, and its reply. -/
def effect (ws : Dict Uri Source) (x : Document L) : Msg L → Option (Document L) × Except Exn (Reply L)
  | .opened _ text => (some (loaded L text).1, (loaded L text).2.map fun _ => .handled)
  | .changed uri _ => (some (changedDoc L ws uri).1, (changedDoc L ws uri).2.map fun _ => .handled)
  | .closed _ => (none, .ok .handled)
  | .hover _ pos => (some (hoverDoc x pos).1, (hoverDoc x pos).2.map .hover)
  | .complete _ pos => (some (completionDoc x pos).1, (completionDoc x pos).2.map .completion)

theorem handler_ran (m : Msg L) (w : World L) (hf : Free w) (hs : Stored w) :
    ∃ w', handler m w = .done w' (if supported m.uri then
        (effect w.workspace ((w.view m.uri).getD (Document.flushed L)) m).2 else .error (.unsupported m.uri)) ∧
      Free w' ∧ Stored w' ∧ w'.workspace = w.workspace ∧ (∀ u, u ≠ m.uri → w'.view u = w.view u) ∧
      w'.view m.uri = if supported m.uri then
        (effect w.workspace ((w.view m.uri).getD (Document.flushed L)) m).1 else none := by
  cases m with
  | opened uri text =>
    obtain ⟨w', h, hv⟩ := withDocument_ran uri (fun d => onOpen d text) (fun _ => loaded L text) w hf hs
      (fun d v _ => load_acts d text v)
    refine ⟨w', ?_, h.free, h.stored, h.workspace, h.others, hv⟩
    simp only [handler, h.ended, Msg.uri, effect]
    by_cases hu : supported uri = true
    · simp only [hu, if_true]
      cases (loaded L text).2 <;> rfl
    · simp only [hu]; rfl
  | changed uri text =>
    obtain ⟨w', h, hv⟩ := withDocument_ran uri (fun d => onChange d uri) (fun _ => changedDoc L w.workspace uri) w hf hs
      (fun d v e => e ▸ change_acts d uri v)
    refine ⟨w', ?_, h.free, h.stored, h.workspace, h.others, hv⟩
    simp only [handler, h.ended, Msg.uri, effect]
    by_cases hu : supported uri = true
    · simp only [hu, if_true]
      cases (changedDoc L w.workspace uri).2 <;> rfl
    · simp only [hu]; rfl
  | closed uri =>
    obtain ⟨w', h, hv⟩ := close_ran uri w hf hs
    refine ⟨w', ?_, h.free, h.stored, h.workspace, h.others, ?_⟩
    · simp only [handler, h.ended, Msg.uri, effect]
      by_cases hu : supported uri = true
      · simp only [hu]; rfl
      · simp only [hu]; rfl
    · by_cases hu : supported uri = true
      · simp only [Msg.uri, effect, hv, hu]; rfl
      · simp only [Msg.uri, effect, hv, hu]; rfl
  | hover uri pos =>
    obtain ⟨w', h, hv⟩ := withDocument_ran uri (fun d => onHover d pos) (fun x => hoverDoc x pos) w hf hs
      (fun d v _ => hover_acts d pos v)
    refine ⟨w', ?_, h.free, h.stored, h.workspace, h.others, hv⟩
    simp only [handler, h.ended, Msg.uri, effect]
    by_cases hu : supported uri = true
    · simp only [hu, if_true]
      cases (hoverDoc ((w.view uri).getD (Document.flushed L)) pos).2 <;> rfl
    · simp only [hu]; rfl
  | complete uri pos =>
    obtain ⟨w', h, hv⟩ := withDocument_ran uri (fun d => onCompletion d pos) (fun x => completionDoc x pos) w hf hs
      (fun d v _ => completion_acts d pos v)
    refine ⟨w', ?_, h.free, h.stored, h.workspace, h.others, hv⟩
    simp only [handler, h.ended, Msg.uri, effect]
    by_cases hu : supported uri = true
    · simp only [hu, if_true]
      cases (completionDoc ((w.view uri).getD (Document.flushed L)) pos).2 <;> rfl
    · simp only [hu]; rfl

/-- The attributes of a document are those computed from a text. -/
structure Knows (x : Document L) (t : Option Source) : Prop where
  ast : x.ast = (t.map L.parse).bind Except.toOption
  state : ∀ s, x.state = some s → ∃ a, x.ast = some a ∧ L.track a = .ok s
  completion : ∀ c, x.completion = some c → ∃ a s, x.ast = some a ∧ L.track a = .ok s ∧ L.apertures s = .ok c

theorem knows_flushed : Knows (Document.flushed L) none := by
  constructor <;> simp [Document.flushed]

theorem knows_loaded (text : Source) : Knows (loaded L text).1 (some text) := by
  unfold loaded
  rcases h : L.parse text with e | a
  · constructor <;> simp [Document.flushed, h, Except.toOption]
  · constructor <;> simp [h, Except.toOption]

theorem knows_state {x : Document L} {t : Option Source} (h : Knows x t) :
    Knows (stateDoc x).1 t ∧ (stateDoc x).1.ast = x.ast ∧ (stateDoc x).1.completion = x.completion ∧
      ∀ a, x.ast = some a → (stateDoc x).2 = (L.track a).map some := by
  rcases hs : x.state with _ | s
  · rcases ha : x.ast with _ | a
    · have : stateDoc x = (x, .ok none) := by simp [stateDoc, hs, ha]
      rw [this]
      exact ⟨h, ha, rfl, by simp⟩
    · rcases ht : L.track a with e | s
      · have : stateDoc x = (x, .error e) := by simp [stateDoc, hs, ha, ht]
        rw [this]
        exact ⟨h, ha, rfl, by intro b hb; injection hb with hb; subst hb; rw [ht]; rfl⟩
      · have : stateDoc x = ({ x with state := some s }, .ok (some s)) := by simp [stateDoc, hs, ha, ht]
        rw [this]
        refine ⟨⟨?_, ?_, ?_⟩, ha, rfl, by intro b hb; injection hb with hb; subst hb; rw [ht]; rfl⟩
        · exact h.ast
        · rintro s' ⟨⟩; exact ⟨a, ha, ht⟩
        · exact h.completion
  · have : stateDoc x = (x, .ok (some s)) := by simp [stateDoc, hs]
    rw [this]
    refine ⟨h, rfl, rfl, ?_⟩
    intro a ha
    obtain ⟨b, hb, ht⟩ := h.state s hs
    rw [ha] at hb; injection hb with hb; subst hb
    rw [ht]; rfl

theorem knows_apertures {x : Document L} {t : Option Source} (h : Knows x t) {a : L.Ast} (ha : x.ast = some a) :
    Knows (aperturesDoc x).1 t ∧
      (aperturesDoc x).2 = (L.track a).bind fun s => (L.apertures s).map some := by
  unfold aperturesDoc
  rcases hc : x.completion with _ | c
  · obtain ⟨h1, h2, h3, h4⟩ := knows_state h
    have h4 := h4 a ha
    rw [ha] at h2
    simp only [thenDoc, h4]
    rcases ht : L.track a with e | s
    · exact ⟨h1, rfl⟩
    · simp only [Except.map, aperturesFrom]
      rcases hap : L.apertures s with e | c
      · exact ⟨h1, by simp [Except.bind, hap]⟩
      · refine ⟨⟨h1.ast, h1.state, ?_⟩, by simp [Except.bind, hap]⟩
        rintro c' ⟨⟩
        exact ⟨a, s, h2, ht, hap⟩
  · refine ⟨h, ?_⟩
    obtain ⟨b, s, h1, h2, h3⟩ := h.completion c hc
    rw [ha] at h1; injection h1 with h1; subst h1
    simp [h2, Except.bind, h3, Except.map]

theorem knows_extended {x : Document L} {t : Option Source} (h : Knows x t) {a : L.Ast} (ha : x.ast = some a) :
    Knows (extendedDoc x).1 t ∧
      (extendedDoc x).2 = (L.track a).bind fun s => (L.extended s).map some := by
  unfold extendedDoc
  obtain ⟨h1, h2, h3, h4⟩ := knows_state h
  have h4 := h4 a ha
  simp only [thenDoc, h4]
  rcases ht : L.track a with e | s
  · exact ⟨h1, rfl⟩
  · exact ⟨h1, rfl⟩

theorem parsed_ast {x : Document L} {t : Option Source} (h : Knows x t) :
    x.ast = none ∧ (∀ a, t.map L.parse ≠ some (.ok a)) ∨ ∃ a, x.ast = some a ∧ t.map L.parse = some (.ok a) := by
  have := h.ast
  rcases ht : t.map L.parse with _ | (e | a)
  · rw [ht] at this; exact .inl ⟨this, by simp⟩
  · rw [ht] at this; exact .inl ⟨this, by simp⟩
  · rw [ht] at this; exact .inr ⟨a, this, rfl⟩

theorem knows_request {x : Document L} {t : Option Source} (h : Knows x t) (ws : Dict Uri Source) (m : Msg L)
    (hm : m.isRequest = true) (hsup : supported m.uri = true) :
    (∃ y, (effect ws x m).1 = some y ∧ Knows y t) ∧ (effect ws x m).2 = answer t m := by
  cases m with
  | opened _ _ => simp [Msg.isRequest] at hm
  | changed _ _ => simp [Msg.isRequest] at hm
  | closed _ => simp [Msg.isRequest] at hm
  | hover uri pos =>
    simp only [Msg.uri] at hsup
    simp only [effect, hoverDoc, answer, hsup, if_true]
    refine ⟨⟨x, rfl, h⟩, ?_⟩
    rcases parsed_ast h with ⟨h1, h2⟩ | ⟨a, h1, h2⟩
    · rw [h1]
      rcases hp : t.map L.parse with _ | (e | a)
      · rfl
      · rfl
      · exact absurd hp (h2 a)
    · rw [h1, h2]
  | complete uri pos =>
    simp only [Msg.uri] at hsup
    simp only [effect, completionDoc, answer, hsup, if_true]
    rcases parsed_ast h with ⟨h1, h2⟩ | ⟨a, h1, h2⟩
    · rw [h1]
      refine ⟨⟨x, rfl, h⟩, ?_⟩
      rcases hp : t.map L.parse with _ | (e | a)
      · rfl
      · rfl
      · exact absurd hp (h2 a)
    · rw [h1, h2]
      simp only []
      rcases hk : L.kindAt a pos with e | (_ | (_ | _ | _ | _))
      · exact ⟨⟨x, rfl, h⟩, rfl⟩
      · exact ⟨⟨x, rfl, h⟩, rfl⟩
      · exact ⟨⟨x, rfl, h⟩, rfl⟩
      · obtain ⟨g1, g2⟩ := knows_apertures h h1
        refine ⟨⟨_, rfl, g1⟩, ?_⟩
        simp only [g2]
        rcases L.track a with e | s
        · rfl
        · show Except.map Reply.completion (Except.map some (L.apertures s)) =
            (L.apertures s).bind fun c => .ok (.completion (some c))
          cases L.apertures s <;> rfl
      · obtain ⟨g1, g2⟩ := knows_extended h h1
        refine ⟨⟨_, rfl, g1⟩, ?_⟩
        simp only [g2]
        rcases L.track a with e | s
        · rfl
        · show Except.map Reply.completion (Except.map some (L.extended s)) =
            (L.extended s).bind fun c => .ok (.completion (some c))
          cases L.extended s <;> rfl
      · exact ⟨⟨x, rfl, h⟩, rfl⟩

end Verif.Server
