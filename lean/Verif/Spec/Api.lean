import Verif.Model.GerberFile

/-!
# What the last setting is, and what a new object with the same settings is
-/

namespace Verif.Spec
open Verif.Api

/-- The last value set in a history of calls, or the initial one. -/
def lastSet {α β : Type} (pick : α → Option β) (initial : β) (history : List α) : β :=
  ((history.filterMap pick).getLast?).getD initial

/-- The parser options a call sets. -/
def parserOptionsSet {env : Env} : Call env → Option env.POpt
  | .setParserOptions o => some o
  | _ => none
/-- The compiler options a call sets. -/
def compilerOptionsSet {env : Env} : Call env → Option env.COpt
  | .setCompilerOptions o => some o
  | _ => none
/-- The colour map a call sets. -/
def colorMapSet {env : Env} : Call env → Option (Dict FileType env.Style)
  | .setColorMap m => some m
  | _ => none

/-- A new object for the same source and file type, with the settings in force after a history: nothing has been
computed with it. -/
def newObject (env : Env) (t : FileType) (src : Source) (history : List (Call env)) : GFile env :=
  { GFile.create env t src with
    popts := lastSet parserOptionsSet env.noPOpt history
    copts := lastSet compilerOptionsSet env.noCOpt history
    colorMap := lastSet colorMapSet env.defaultMap history }

/-- The parser options in force at some moment of a history. -/
def parserOptionsUsed {env : Env} (history : List (Call env)) : List env.POpt :=
  env.noPOpt :: history.filterMap parserOptionsSet

/-- The file function the source declares under given parser options, when it can be parsed and executed. -/
def declares {env : Env} (o : env.POpt) (f : Option FileFunction) : Prop :=
  ∃ a s, env.parse o = .ok a ∧ env.finalState a = .ok s ∧ s.fileFunction = f

/-- Whether the type of a file may depend on its attributes: the requested type says so and the suffix does not
decide. -/
def mayUseAttributes (t : FileType) (src : Source) : Prop :=
  t = .inferFromAttributes ∨
  (t = .infer ∧ ∀ suffix, src = .path suffix → inferFromExtension suffix = .undefined ∨ inferFromExtension suffix = .inferFromAttributes) ∨
  (t = .inferFromExtension ∧ ∃ suffix, src = .path suffix ∧ inferFromExtension suffix = .inferFromAttributes)

/-- The requests to infer the type. -/
def isRequest (t : FileType) : Prop := t = .infer ∨ t = .inferFromExtension ∨ t = .inferFromAttributes

end Verif.Spec
