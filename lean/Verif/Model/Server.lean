import Verif.Model.Dict
import Verif.Model.Text

/-!
# The language server (gerber/language_server/_server/{server,document_cache}.py, documents/{document,gerber}.py)

Coroutines are modelled as trees: a coroutine that runs on the event loop either ends, or blocks the only thread of the
loop on a held `threading.Lock`, or is suspended on a held `asyncio.Lock`.  What parsing, hovering and completion compute
is a parameter (`Lang`); each of them may raise.  Log messages are not modelled.
-/

namespace Verif.Server

/-- `params.text_document.uri`. -/
abbrev Uri := List Char

/-- Contents of documents. -/
abbrev Source := List Char

/-- Exceptions: of `get_document` (server.py 41-43), of the computations in a handler, and the `KeyError` of
document_cache.py 28-29. -/
inductive Exn
  | unsupported (uri : Uri) | computation (message : List Char) | keyError
  deriving DecidableEq

/-- What the node under the cursor allows to complete (documents/gerber.py 117-127). -/
inductive Kind
  | gCode | aperture | extended | unknown

/-- The computations used by a document, all arbitrary. -/
structure Lang where
  Ast : Type
  State : Type
  Hash : Type
  [hashEq : DecidableEq Hash]
  Position : Type
  Hover : Type
  Items : Type
  /-- `Parser(resilient=True).parse` (documents/gerber.py 54). -/
  parse : Source → Except Exn Ast
  /-- `sha256`, 22-24. -/
  sha256 : Source → Hash
  /-- `NodeFinder.find_node`, `GerberHoverCreator.create_hover_markdown` and the range, 83-99. -/
  hover : Ast → Position → Except Exn (Option Hover)
  /-- `NodeFinder.find_node` and the regular expressions, 109-125; `none` stands for the `return None` of 115. -/
  kindAt : Ast → Position → Except Exn (Option Kind)
  /-- the visit by `StateTrackingVisitor(ignore_program_stop=True)`, 176-181. -/
  track : Ast → Except Exn State
  /-- 185-258. -/
  gCodes : Items
  /-- 139-167. -/
  apertures : State → Except Exn Items
  /-- 260-347. -/
  extended : State → Except Exn Items
  /-- 128. -/
  nothing : Items
  /-- Text of a document that is not open in the editor: pygls reads it from the disk. -/
  disk : Uri → Except Exn Source

attribute [instance] Lang.hashEq

/-- The owner of a pair of locks: the cache (document_cache.py 17-20) or a document (documents/document.py 23-26). -/
inductive Owner
  | cache | document (id : Nat)
  deriving DecidableEq

/-- The attributes of a `GerberDocument` (documents/gerber.py 34-40); `parser` has no state that matters and `uri` is only
logged. -/
structure Document (L : Lang) where
  ast : Option L.Ast
  state : Option L.State
  sourceHash : L.Hash
  completion : Option L.Items

/-- documents/gerber.py 34-40 (`flush_cached_values`). -/
def Document.flushed (L : Lang) : Document L := ⟨none, none, L.sha256 [], none⟩

/-- Everything the handlers share.  `threadLocks` and `asyncLocks` list the held locks. -/
structure World (L : Lang) where
  threadLocks : List Owner := []
  asyncLocks : List Owner := []
  /-- `DocumentCache.documents` (document_cache.py 18). -/
  documents : Dict Uri Nat := []
  /-- Document objects by identity. -/
  heap : Dict Nat (Document L) := []
  /-- Identity of the next object. -/
  next : Nat := 0
  /-- `gls.workspace`: text of the documents that are open in the editor. -/
  workspace : Dict Uri Source := []

/-- A running coroutine: it ended (normally or with an exception), it blocked the thread for ever, or it waits for an
`asyncio.Lock`. -/
inductive Res (L : Lang) (α : Type)
  | done (w : World L) (r : Except Exn α)
  | hang
  | wait (lock : Owner) (w : World L) (resume : World L → Res L α)

/-- A coroutine. -/
abbrev Co (L : Lang) (α : Type) := World L → Res L α

variable {L : Lang} {α β : Type}

/-- Sequence: `await` on a coroutine does not suspend by itself. -/
def Res.andThen : Res L α → (α → Co L β) → Res L β
  | .done w (.ok a), f => f a w
  | .done w (.error e), _ => .done w (.error e)
  | .hang, _ => .hang
  | .wait l w k, f => .wait l w (fun w' => (k w').andThen f)

/-- `try: ... finally: ...`. -/
def Res.finally_ : Res L α → Co L Unit → Res L α
  | .done w r, g => (match g w with
      | .done w' (.ok _) => .done w' r
      | .done w' (.error e) => .done w' (.error e)
      | .hang => .hang
      | .wait l w' k => .wait l w' (fun v => (k v).andThen (fun _ v' => .done v' r)))
  | .hang, _ => .hang
  | .wait l w k, g => .wait l w (fun w' => (k w').finally_ g)

/-- document_cache.py 35-47, documents/document.py 53-65 (`acquire`): `threading.Lock.acquire` blocks the thread of the
event loop when the lock is held, and only that thread could release it; `asyncio.Lock.acquire` does not suspend when the
lock is free.  Neither raises an `Exception`, so the `except` branch is never taken. -/
def acquire (o : Owner) : Co L Unit := fun w =>
  if o ∈ w.threadLocks then .hang
  else if o ∈ w.asyncLocks then
    .wait o { w with threadLocks := o :: w.threadLocks }
      (fun v => .done { v with asyncLocks := o :: v.asyncLocks } (.ok ()))
  else .done { w with threadLocks := o :: w.threadLocks, asyncLocks := o :: w.asyncLocks } (.ok ())

/-- document_cache.py 57-62, documents/document.py 75-80 (`release`). -/
def release (o : Owner) : Co L Unit := fun w =>
  .done { w with asyncLocks := w.asyncLocks.erase o, threadLocks := w.threadLocks.erase o } (.ok ())

/-- `async with` (document_cache.py 31-33, 49-55; documents/document.py 49-51, 67-73). -/
def holding (o : Owner) (body : Co L α) : Co L α := fun w =>
  (acquire o w).andThen fun _ v => (body v).finally_ (release o)

/-- `Path(uri).parts[-1]`: empty and `.` components are dropped. -/
def lastPart (uri : Uri) : Option (List Char) :=
  ((uri.splitOn '/').filter (fun part => part ≠ [] ∧ part ≠ ['.'])).getLast?

/-- `fnmatch(name, "*.g*")`. -/
def hasDotG : List Char → Bool
  | '.' :: 'g' :: _ => true
  | _ :: cs => hasDotG cs
  | [] => false

/-- server.py 37-38: `Path(uri).match("*.g*")`. -/
def supported (uri : Uri) : Bool :=
  match lastPart uri with
  | some name => hasDotG name
  | none => false

/-- server.py 32-48 (`get_document`). -/
def getDocument (uri : Uri) : Co L Nat := fun w =>
  match w.documents.get? uri with
  | some d => .done w (.ok d)
  | none =>
    if supported uri then
      (holding (.document w.next) (fun v => .done { v with documents := v.documents.set uri w.next } (.ok ()))
        { w with heap := w.heap.set w.next (Document.flushed L), next := w.next + 1 }).andThen
        fun _ v => .done v (.ok w.next)
    else .done w (.error (.unsupported uri))

/-- Attributes of the document object `d`. -/
def World.doc (w : World L) (d : Nat) : Document L := (w.heap.get? d).getD (Document.flushed L)

/-- Assignment to the attributes of the document object `d`. -/
def World.setDoc (w : World L) (d : Nat) (x : Document L) : World L := { w with heap := w.heap.set d x }

/-- documents/gerber.py 47-58 (`load_ast_from_code`). -/
def loadAst (d : Nat) (code : Source) : Co L Unit := fun w =>
  if L.sha256 code = (w.doc d).sourceHash ∧ (w.doc d).ast.isSome then .done w (.ok ())
  else match L.parse code with
    | .ok a => .done (w.setDoc d { w.doc d with ast := some a, sourceHash := L.sha256 code }) (.ok ())
    | .error e => .done w (.error e)

/-- documents/gerber.py 60-64 (`on_open`). -/
def onOpen (d : Nat) (text : Source) : Co L Unit := fun w =>
  loadAst d text (w.setDoc d (Document.flushed L))

/-- documents/gerber.py 69-72 (`on_change`) and 42-45 (`load_ast_from_uri`). -/
def onChange (d : Nat) (uri : Uri) : Co L Unit := fun w =>
  let v := w.setDoc d (Document.flushed L)
  match v.workspace.get? uri with
  | some text => loadAst d text v
  | none => (match L.disk uri with
      | .ok text => loadAst d text v
      | .error e => .done v (.error e))

/-- documents/gerber.py 66-67 (`on_close`). -/
def onClose (_d : Nat) : Co L Unit := fun w => .done w (.ok ())

/-- documents/gerber.py 74-100 (`on_hover`). -/
def onHover (d : Nat) (pos : L.Position) : Co L (Option L.Hover) := fun w =>
  match (w.doc d).ast with
  | none => .done w (.ok none)
  | some a => .done w (L.hover a pos)

/-- documents/gerber.py 173-183 (`get_gerber_state`). -/
def gerberState (d : Nat) : Co L (Option L.State) := fun w =>
  match (w.doc d).state with
  | some s => .done w (.ok (some s))
  | none => (match (w.doc d).ast with
      | none => .done w (.ok none)
      | some a => (match L.track a with
          | .ok s => .done (w.setDoc d { w.doc d with state := some s }) (.ok (some s))
          | .error e => .done w (.error e)))

/-- documents/gerber.py 130-171 (`get_completion_apertures`). -/
def completeApertures (d : Nat) : Co L (Option L.Items) := fun w =>
  match (w.doc d).completion with
  | some c => .done w (.ok (some c))
  | none => (gerberState d w).andThen fun s v =>
      match s with
      | none => .done v (.ok none)
      | some s => (match L.apertures s with
          | .ok c => .done (v.setDoc d { v.doc d with completion := some c }) (.ok (some c))
          | .error e => .done v (.error e))

/-- documents/gerber.py 260-347 (`get_completion_extended_command`).  The branch of 300-301 without aperture items is not
taken, because the caller has checked that there is an abstract syntax tree. -/
def completeExtended (d : Nat) : Co L (Option L.Items) := fun w =>
  (gerberState d w).andThen fun s v =>
    match s with
    | none => .done v (.ok none)
    | some s => .done v ((L.extended s).map some)

/-- documents/gerber.py 102-128 (`on_completion`). -/
def onCompletion (d : Nat) (pos : L.Position) : Co L (Option L.Items) := fun w =>
  match (w.doc d).ast with
  | none => .done w (.ok none)
  | some a => (match L.kindAt a pos with
      | .error e => .done w (.error e)
      | .ok none => .done w (.ok none)
      | .ok (some .gCode) => .done w (.ok (some L.gCodes))
      | .ok (some .aperture) => completeApertures d w
      | .ok (some .extended) => completeExtended d w
      | .ok (some .unknown) => .done w (.ok (some L.nothing)))

/-- Messages of the client.  A change carries the text after it was applied. -/
inductive Msg (L : Lang)
  | opened (uri : Uri) (text : Source)
  | changed (uri : Uri) (text : Source)
  | closed (uri : Uri)
  | hover (uri : Uri) (pos : L.Position)
  | complete (uri : Uri) (pos : L.Position)

/-- What a handler returns. -/
inductive Reply (L : Lang)
  | handled
  | hover (h : Option L.Hover)
  | completion (c : Option L.Items)

/-- The common form of the handlers for open, change, hover and completion (server.py 69-78, 95-104, 107-119, 124-133). -/
def withDocument (uri : Uri) (body : Nat → Co L α) : Co L α := fun w =>
  (holding .cache (fun v => (getDocument uri v).andThen fun d v' =>
      (acquire (.document d) v').andThen fun _ v'' => .done v'' (.ok d)) w).andThen
    fun d v => (body d v).finally_ (release (.document d))

/-- server.py 81-93 (close), with document_cache.py 28-29 (`delete`). -/
def closeHandler (uri : Uri) : Co L Unit :=
  holding .cache fun v => (getDocument uri v).andThen fun d v1 =>
    (acquire (.document d) v1).andThen fun _ v2 =>
      ((onClose d v2).finally_ (release (.document d))).andThen fun _ v3 =>
        match v3.documents.get? uri with
        | some _ => .done { v3 with documents := v3.documents.pop uri } (.ok ())
        | none => .done v3 (.error .keyError)

/-- The registered features (server.py 68-133). -/
def handler : Msg L → Co L (Reply L)
  | .opened uri text => fun w => (withDocument uri (fun d => onOpen d text) w).andThen fun _ v => .done v (.ok .handled)
  | .changed uri _ => fun w => (withDocument uri (fun d => onChange d uri) w).andThen fun _ v => .done v (.ok .handled)
  | .closed uri => fun w => (closeHandler uri w).andThen fun _ v => .done v (.ok .handled)
  | .hover uri pos => fun w => (withDocument uri (fun d => onHover d pos) w).andThen fun h v => .done v (.ok (.hover h))
  | .complete uri pos => fun w =>
    (withDocument uri (fun d => onCompletion d pos) w).andThen fun c v => .done v (.ok (.completion c))

/-- pygls updates its workspace when the message arrives, before the registered feature runs. -/
def updateWorkspace (ws : Dict Uri Source) : Msg L → Dict Uri Source
  | .opened uri text => ws.set uri text
  | .changed uri text => if (ws.get? uri).isSome then ws.set uri text else ws
  | .closed uri => ws.pop uri
  | .hover _ _ => ws
  | .complete _ _ => ws

/-- Requests, which a client may cancel. -/
def Msg.isRequest : Msg L → Bool
  | .hover _ _ => true
  | .complete _ _ => true
  | _ => false

/-- A task of the event loop: the number and content of the message and what is left to run. -/
structure Task (L : Lang) where
  number : Nat
  msg : Msg L
  rest : Co L (Reply L)

/-- The event loop: pygls runs every `async` feature as a task of the one loop, first come, first served. -/
structure Loop (L : Lang) where
  world : World L := {}
  /-- number of messages received -/
  received : Nat := 0
  ready : List (Task L) := []
  waiting : List (Owner × Task L) := []
  replies : List (Nat × Except Exn (Reply L)) := []
  /-- the thread is blocked for ever -/
  hung : Bool := false

/-- What happens on the loop: a message arrives, the client cancels a request (`$/cancelRequest`), or the first ready
task runs. -/
inductive Event (L : Lang)
  | receive (m : Msg L)
  | cancel (number : Nat)
  | run

/-- `asyncio.Lock.release` wakes up the first waiter. -/
def wake (s : Loop L) : Loop L :=
  match s.waiting.find? (fun p => p.1 ∉ s.world.asyncLocks) with
  | none => s
  | some p => { s with
      waiting := s.waiting.eraseP (fun q => q.1 ∉ s.world.asyncLocks)
      ready := s.ready ++ [p.2] }

/-- The client cancels a request: a task that has not started never starts; a suspended one ends with `CancelledError`,
which is no `Exception`, so its locks stay as they are. -/
def drop (n : Nat) (t : Task L) : Bool := decide (t.number = n) && t.msg.isRequest

/-- One step of the loop. -/
def step (s : Loop L) (e : Event L) : Loop L :=
  if s.hung then s
  else match e with
    | .receive m => { s with
        world := { s.world with workspace := updateWorkspace s.world.workspace m }
        received := s.received + 1
        ready := s.ready ++ [⟨s.received, m, handler m⟩] }
    | .cancel n => { s with
        ready := s.ready.filter (fun t => !drop n t)
        waiting := s.waiting.filter (fun p => !drop n p.2) }
    | .run => (match s.ready with
        | [] => s
        | t :: ts => (match t.rest s.world with
            | .done w r => wake { s with world := w, ready := ts, replies := s.replies ++ [(t.number, r)] }
            | .hang => { s with hung := true }
            | .wait o w k => wake { s with world := w, ready := ts, waiting := s.waiting ++ [(o, { t with rest := k })] }))

/-- The server after a history of events. -/
def serve (evs : List (Event L)) : Loop L := evs.foldl step {}

end Verif.Server
