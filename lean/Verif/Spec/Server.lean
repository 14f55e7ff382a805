import Verif.Model.Server

/-!
# What a user expects of the language server

The text of a document as the editor shows it, and the answer to a request that follows from a text.
-/

namespace Verif.Server
variable {L : Lang}

/-- The text of the document in the editor after a history: that of the last `opened` or `changed`, none before the first
or after a `closed`. -/
def textAfter (uri : Uri) : List (Event L) → Option Source → Option Source
  | [], t => t
  | .receive (.opened u text) :: es, t => textAfter uri es (if u = uri then some text else t)
  | .receive (.changed u text) :: es, t => textAfter uri es (if u = uri then some text else t)
  | .receive (.closed u) :: es, t => textAfter uri es (if u = uri then none else t)
  | _ :: es, t => textAfter uri es t

/-- The client changes only documents that are open. -/
def ChangesOpen (evs : List (Event L)) : Prop :=
  ∀ pre uri text post, evs = pre ++ .receive (.changed uri text) :: post → (textAfter uri pre none).isSome

/-- The messages of a history. -/
def messages (evs : List (Event L)) : List (Msg L) :=
  evs.filterMap fun e => match e with
    | .receive m => some m
    | _ => none

/-- The answer to a request for a document whose text is `text`: computed from that text alone.  There is no answer
when the document is not open or its text cannot be parsed. -/
def answer (text : Option Source) : Msg L → Except Exn (Reply L)
  | .hover uri pos =>
    if supported uri then
      match text.map L.parse with
      | some (.ok ast) => (L.hover ast pos).map .hover
      | _ => .ok (.hover none)
    else .error (.unsupported uri)
  | .complete uri pos =>
    if supported uri then
      match text.map L.parse with
      | some (.ok ast) => do
        match ← L.kindAt ast pos with
        | none => return .completion none
        | some .gCode => return .completion (some L.gCodes)
        | some .aperture => return .completion (some (← L.apertures (← L.track ast)))
        | some .extended => return .completion (some (← L.extended (← L.track ast)))
        | some .unknown => return .completion (some L.nothing)
      | _ => .ok (.completion none)
    else .error (.unsupported uri)
  | _ => .ok .handled

/-- The document a message is about. -/
def Msg.uri : Msg L → Uri
  | .opened u _ => u
  | .changed u _ => u
  | .closed u => u
  | .hover u _ => u
  | .complete u _ => u

end Verif.Server
