import Verif.Model.FileType

/-!
# `GerberFile` (gerber/api/_gerber_file.py)

Parsing, the final state, compiling, rendering and formatting are parameters (`Env`): arbitrary functions that may
fail.  Simplification: they are functions of the source text, the options and their arguments only (so that two
calls of `compile` on one tree give the same program).
-/

namespace Verif.Api

/-- `State.unit_mode` as `ImageSpace` reads it (_gerber_file.py 40-41). -/
inductive Unit' | mm | inch
  deriving DecidableEq, Repr

/-- What `GerberFile` reads from the final state: the attribute `.FileFunction` (_gerber_file.py 664) and the unit. -/
structure FinalState where
  /-- `attributes.file_attributes.get(".FileFunction")`. -/
  fileFunction : Option FileFunction
  /-- `unit_mode`. -/
  unit : Unit'

/-- The rest of the library, for one fixed source text. -/
structure Env where
  /-- Parser options. -/
  POpt : Type
  /-- Compiler options. -/
  COpt : Type
  /-- Formatter options. -/
  FOpt : Type
  /-- Syntax trees. -/
  Ast : Type
  /-- Compiled programs. -/
  Rvmc : Type
  /-- Rendering results. -/
  Result : Type
  /-- Styles. -/
  Style : Type
  /-- Exceptions raised by the rest of the library. -/
  Err : Type
  /-- `parse(source, **options)`. -/
  parse : POpt → Except Err Ast
  /-- `get_final_state(ast)`. -/
  finalState : Ast → Except Err FinalState
  /-- `compile(ast, **options)`. -/
  compile : COpt → Ast → Except Err Rvmc
  /-- `render(rvmc, backend="pillow", dpmm)`. -/
  renderPillow : Rvmc → Nat → Except Err Result
  /-- `render(rvmc, backend="shapely")`. -/
  renderShapely : Rvmc → Except Err Result
  /-- `formatter.formats(ast, options)`. -/
  format : Ast → FOpt → Except Err (List Char)
  /-- The options of a new object: `{}`. -/
  noPOpt : POpt
  /-- The options of a new object: `{}`. -/
  noCOpt : COpt
  /-- `DEFAULT_ALPHA_COLOR_MAP`. -/
  defaultMap : Dict FileType Style

/-- An exception: one raised by the rest of the library, a missing key of the colour map, or the
`NotImplementedError` of `_get_file_type_from_extension`. -/
inductive Failure (E : Type)
  | lib (e : E)
  | keyError (t : FileType)
  | notImplemented
  deriving DecidableEq, Repr

/-- `_source_type_or_path` (_gerber_file.py 402): a text, a buffer, or a path with its suffix. -/
inductive Source
  | string
  | buffer
  | path (suffix : List Char)
  deriving DecidableEq, Repr

/-- The attributes of `GerberFile` (_gerber_file.py 404-412). -/
structure GFile (env : Env) where
  /-- `_file_type`. -/
  fileType : FileType
  /-- `_parser_options`. -/
  popts : env.POpt
  /-- `_compiler_options`. -/
  copts : env.COpt
  /-- `_cached_ast`. -/
  ast : Option env.Ast
  /-- `_cached_rvmc`. -/
  rvmc : Option env.Rvmc
  /-- `_cached_final_state`. -/
  final : Option FinalState
  /-- `_color_map`. -/
  colorMap : Dict FileType env.Style
  /-- `_source_type_or_path`. -/
  source : Source

variable {env : Env}

/-- _gerber_file.py 398-412 (`__init__`). -/
def GFile.new (env : Env) (t : FileType) (src : Source) : GFile env :=
  { fileType := t, popts := env.noPOpt, copts := env.noCOpt, ast := none, rvmc := none, final := none,
    colorMap := env.defaultMap, source := src }

/-- _gerber_file.py 429-454 (`from_file`), 456-479 (`from_str`), 481-499 (`from_buffer`). -/
def GFile.create (env : Env) (t : FileType) (src : Source) : GFile env :=
  match src with
  | .path suffix =>
    let t1 := if t = .inferFromExtension then Api.inferFromExtension suffix else t
    let t2 :=
      if t1 = .infer then
        if Api.inferFromExtension suffix = .undefined then .inferFromAttributes else Api.inferFromExtension suffix
      else t1
    GFile.new env t2 src
  | _ => GFile.new env (if t = .inferFromExtension then .undefined else t) src

/-- A method: its result or exception, and the object afterwards. -/
abbrev Method (env : Env) (α : Type) := GFile env → Except (Failure env.Err) α × GFile env

/-- Sequencing; an exception leaves the method, changes made before stay. -/
def Method.bind {α β : Type} (m : Method env α) (f : α → Method env β) : Method env β := fun s =>
  match (m s).1 with
  | .ok a => f a (m s).2
  | .error e => (.error e, (m s).2)

/-- A call of the rest of the library. -/
def Method.lib {α : Type} (r : Except env.Err α) : Method env α := fun s =>
  (match r with | .ok a => .ok a | .error e => .error (.lib e), s)

/-- `return`. -/
def Method.ret {α : Type} (a : α) : Method env α := fun s => (.ok a, s)

/-- _gerber_file.py 424-427 (`_flush_cached`). -/
def GFile.flush (s : GFile env) : GFile env := { s with ast := none, rvmc := none, final := none }

/-- _gerber_file.py 501-521 (`set_parser_options`). -/
def GFile.setParserOptions (o : env.POpt) (s : GFile env) : GFile env := { s.flush with popts := o }

/-- _gerber_file.py 523-543 (`set_compiler_options`). -/
def GFile.setCompilerOptions (o : env.COpt) (s : GFile env) : GFile env := { s.flush with copts := o }

/-- _gerber_file.py 545-568 (`set_color_map`). -/
def GFile.setColorMap (m : Dict FileType env.Style) (s : GFile env) : GFile env := { s with colorMap := m }

/-- _gerber_file.py 576-581 (`_get_ast`). -/
def getAst : Method env env.Ast := fun s =>
  match s.ast with
  | some a => (.ok a, s)
  | none =>
    match env.parse s.popts with
    | .ok a => (.ok a, { s with ast := some a })
    | .error e => (.error (.lib e), s)

/-- _gerber_file.py 572: computing the final state and storing it. -/
def storeFinal (a : env.Ast) : Method env FinalState := fun s =>
  match env.finalState a with
  | .ok f => (.ok f, { s with final := some f })
  | .error e => (.error (.lib e), s)

/-- _gerber_file.py 570-574 (`_get_final_state`). -/
def getFinalState : Method env FinalState := fun s =>
  match s.final with
  | some f => (.ok f, s)
  | none => Method.bind getAst storeFinal s

/-- _gerber_file.py 586-590: the compiled program, computed and stored when there is none. -/
def storeRvmc (a : env.Ast) : Method env env.Rvmc := fun s =>
  match s.rvmc with
  | some r => (.ok r, s)
  | none =>
    match env.compile s.copts a with
    | .ok r => (.ok r, { s with rvmc := some r })
    | .error e => (.error (.lib e), s)

/-- _gerber_file.py 583-590 (`_get_rvmc`). -/
def getRvmc : Method env env.Rvmc := Method.bind getAst storeRvmc

/-- _gerber_file.py 640-661 (`_get_file_type_from_extension`); `none` is the `NotImplementedError`. -/
def typeFromExtension (t : FileType) (src : Source) : Option FileType :=
  match src with
  | .path suffix =>
    if Api.inferFromExtension suffix = .undefined then
      if t = .inferFromExtension then some .undefined
      else if t = .infer then some .inferFromAttributes
      else none
    else some (Api.inferFromExtension suffix)
  | _ =>
    if t = .inferFromExtension then some .undefined
    else if t = .infer then some .inferFromAttributes
    else none

/-- _gerber_file.py 663-673 (`_get_file_type_from_attributes`). -/
def typeFromAttributes : Method env FileType :=
  Method.bind getFinalState fun f => Method.ret (inferFromAttributes (f.fileFunction.map FileFunction.value))

/-- _gerber_file.py 632-633. -/
def useExtension : Method env PUnit := fun s =>
  if s.fileType = .inferFromExtension ∨ s.fileType = .infer then
    match typeFromExtension s.fileType s.source with
    | some t => (.ok ⟨⟩, { s with fileType := t })
    | none => (.error .notImplemented, s)
  else (.ok ⟨⟩, s)

/-- _gerber_file.py 635-636. -/
def useAttributes : Method env PUnit := fun s =>
  if s.fileType = .inferFromAttributes ∨ s.fileType = .infer then
    Method.bind typeFromAttributes (fun t s => (.ok ⟨⟩, { s with fileType := t })) s
  else (.ok ⟨⟩, s)

/-- _gerber_file.py 638. -/
def lookupStyle : Method env env.Style := fun s =>
  match s.colorMap.get? s.fileType with
  | some st => (.ok st, s)
  | none => (.error (.keyError s.fileType), s)

/-- _gerber_file.py 628-638 (`_dispatch_style`). -/
def dispatchStyle (style : Option env.Style) : Method env env.Style := fun s =>
  match style with
  | some st => (.ok st, s)
  | none => Method.bind useExtension (fun _ => Method.bind useAttributes (fun _ => lookupStyle)) s

/-- What a call returns to the user. -/
inductive Answer (env : Env)
  | nothing
  | image (unit : Unit') (dpmm : Nat) (result : env.Result) (style : env.Style)
  | text (t : List Char)
  | type (t : FileType)

/-- The calls of the API.  `image` answers carry what `PillowImage` and `ShapelyImage` are made of. -/
inductive Call (env : Env)
  | setParserOptions (o : env.POpt)
  | setCompilerOptions (o : env.COpt)
  | setColorMap (m : Dict FileType env.Style)
  | renderPillow (style : Option env.Style) (dpmm : Nat)
  | renderShapely (style : Option env.Style)
  | formats (o : env.FOpt)
  | fileType

/-- One call. -/
def call : Call env → Method env (Answer env)
  | .setParserOptions o => fun s => (.ok .nothing, s.setParserOptions o)
  | .setCompilerOptions o => fun s => (.ok .nothing, s.setCompilerOptions o)
  | .setColorMap m => fun s => (.ok .nothing, s.setColorMap m)
  -- _gerber_file.py 592-626
  | .renderPillow style dpmm =>
    Method.bind (dispatchStyle style) fun st =>
      Method.bind getRvmc fun r =>
        Method.bind (Method.lib (env.renderPillow r dpmm)) fun res =>
          Method.bind getFinalState fun f => Method.ret (.image f.unit dpmm res st)
  -- _gerber_file.py 675-702
  | .renderShapely style =>
    Method.bind (dispatchStyle style) fun st =>
      Method.bind getRvmc fun r =>
        Method.bind (Method.lib (env.renderShapely r)) fun res =>
          Method.bind getFinalState fun f => Method.ret (.image f.unit 0 res st)
  -- _gerber_file.py 704-710
  | .formats o =>
    Method.bind getAst fun a =>
      Method.bind (Method.lib (env.format a o)) fun t => Method.ret (.text t)
  -- _gerber_file.py 419-422
  | .fileType => fun s => (.ok (.type s.fileType), s)

/-- The object after a history of calls; exceptions are caught by the user, who carries on. -/
def after (s : GFile env) : List (Call env) → GFile env
  | [] => s
  | c :: cs => after (call c s).2 cs

end Verif.Api
