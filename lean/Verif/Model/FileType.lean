import Verif.Model.Dict

/-!
# File types and colour maps (gerber/api/_enums.py)

Texts are lists of characters.  Simplification: `str.upper` and `str.lower` are modelled for ASCII letters; other
characters are left alone.
-/

namespace Verif.Api

/-- _enums.py 34-134 (`FileTypeEnum`). -/
inductive FileType
  | copper | mask | paste | silk | edge | plated | nonPlated | profile | soldermask | legend | component | glue
  | carbonmask | goldmask | heatsinkmask | peelablemask | silvermask | tinmask | depthrout | vcut | viafill | pads
  | drillmap | fabricationDrawing | vcutmap | assemblyDrawing | arrayDrawing | otherDrawing | other | undefined
  | inferFromExtension | inferFromAttributes | infer
  deriving DecidableEq, Repr

/-- _enums.py 38-134: the values of the members. -/
def FileType.members : List (String × FileType) :=
  [("COPPER", .copper), ("MASK", .mask), ("PASTE", .paste), ("SILK", .silk), ("EDGE", .edge), ("PLATED", .plated),
   ("NONPLATED", .nonPlated), ("PROFILE", .profile), ("SOLDERMASK", .soldermask), ("LEGEND", .legend),
   ("COMPONENT", .component), ("GLUE", .glue), ("CARBONMASK", .carbonmask), ("GOLDMASK", .goldmask),
   ("HEATSINKMASK", .heatsinkmask), ("PEELABLEMASK", .peelablemask), ("SILVERMASK", .silvermask),
   ("TINMASK", .tinmask), ("DEPTHROUT", .depthrout), ("VCUT", .vcut), ("VIAFILL", .viafill), ("PADS", .pads),
   ("DRILLMAP", .drillmap), ("FABRICATIONDRAWING", .fabricationDrawing), ("VCUTMAP", .vcutmap),
   ("ASSEMBLYDRAWING", .assemblyDrawing), ("ARRAYDRAWING", .arrayDrawing), ("OTHERDRAWING", .otherDrawing),
   ("OTHER", .other), ("UNDEFINED", .undefined), ("INFER_FROM_EXTENSION", .inferFromExtension),
   ("INFER_FROM_ATTRIBUTES", .inferFromAttributes), ("INFER", .infer)]

/-- _enums.py 136-141 (`FileTypeEnum(value)` with `_missing_`). -/
def FileType.ofValue (value : List Char) : FileType :=
  match FileType.members.find? (fun e => e.1.toList == value) with
  | some e => e.2
  | none => if value = "SOLDERPASTE".toList then .paste else .undefined

/-- `str.upper` (ASCII). -/
def upper (t : List Char) : List Char := t.map Char.toUpper
/-- `str.lower` (ASCII). -/
def lower (t : List Char) : List Char := t.map Char.toLower

/-- `str.split(",")`. -/
def splitComma : List Char → List (List Char)
  | [] => [[]]
  | c :: cs =>
    if c = ',' then [] :: splitComma cs
    else
      match splitComma cs with
      | p :: ps => (c :: p) :: ps
      | [] => [[c]]

/-- _enums.py 143-156 (`infer_from_attributes`). -/
def inferFromAttributes (fileFunction : Option (List Char)) : FileType :=
  match fileFunction with
  | none => .undefined
  | some f => FileType.ofValue (upper ((splitComma f).headD []))

/-- The regular expressions of _enums.py 159-167: the prefix, then at least one digit. -/
def matchesNumbered (pre ext : List Char) : Bool :=
  pre.isPrefixOf ext && ((ext.drop pre.length).head?.any Char.isDigit)

/-- _enums.py 173-186 (`GERBER_EXTENSION_TO_FILE_TYPE_MAPPING`). -/
def extensionMap : List (String × FileType) :=
  [(".grb", .inferFromAttributes), (".gbr", .inferFromAttributes), (".gto", .silk), (".gbo", .silk),
   (".gpt", .pads), (".gpb", .pads), (".gts", .soldermask), (".gbs", .soldermask), (".gtl", .copper),
   (".gbl", .copper), (".gtp", .paste), (".gbp", .paste)]

/-- _enums.py 158-170 (`infer_from_extension`). -/
def inferFromExtension (ext : List Char) : FileType :=
  if matchesNumbered ".g".toList ext then .copper
  else if matchesNumbered ".gp".toList ext then .copper
  else if matchesNumbered ".gm".toList ext then .copper
  else
    match extensionMap.find? (fun e => e.1.toList == lower ext) with
    | some e => e.2
    | none => .undefined

/-- The presets of `Style` the maps use (vm/types/style.py). -/
inductive Preset
  | copper | solderMask | pasteMask | silk | copperAlpha | solderMaskAlpha | pasteMaskAlpha | silkAlpha | debug1Alpha
  deriving DecidableEq, Repr

/-- _enums.py 189-220 (`DEFAULT_COLOR_MAP`). -/
def defaultColorMap : Dict FileType Preset :=
  [(.copper, .copper), (.mask, .solderMask), (.paste, .pasteMask), (.silk, .silk), (.edge, .silk),
   (.other, .debug1Alpha), (.undefined, .debug1Alpha), (.plated, .solderMask), (.nonPlated, .pasteMask),
   (.profile, .silk), (.soldermask, .solderMask), (.legend, .silk), (.component, .pasteMask), (.glue, .pasteMask),
   (.carbonmask, .solderMask), (.goldmask, .solderMask), (.heatsinkmask, .solderMask),
   (.peelablemask, .solderMask), (.silvermask, .solderMask), (.tinmask, .solderMask), (.depthrout, .pasteMask),
   (.vcut, .pasteMask), (.viafill, .pasteMask), (.pads, .pasteMask), (.drillmap, .silk),
   (.fabricationDrawing, .silk), (.vcutmap, .silk), (.assemblyDrawing, .silk), (.arrayDrawing, .silk),
   (.otherDrawing, .silk)]

/-- _enums.py 221-251 (`DEFAULT_ALPHA_COLOR_MAP`). -/
def defaultAlphaColorMap : Dict FileType Preset :=
  [(.copper, .copperAlpha), (.mask, .solderMaskAlpha), (.paste, .pasteMaskAlpha), (.silk, .silkAlpha),
   (.edge, .silkAlpha), (.other, .debug1Alpha), (.undefined, .debug1Alpha), (.plated, .solderMaskAlpha),
   (.nonPlated, .pasteMaskAlpha), (.profile, .silkAlpha), (.soldermask, .solderMaskAlpha), (.legend, .silkAlpha),
   (.component, .pasteMaskAlpha), (.glue, .pasteMaskAlpha), (.carbonmask, .solderMaskAlpha),
   (.goldmask, .solderMaskAlpha), (.heatsinkmask, .solderMaskAlpha), (.peelablemask, .solderMaskAlpha),
   (.silvermask, .solderMaskAlpha), (.tinmask, .solderMaskAlpha), (.depthrout, .pasteMaskAlpha),
   (.vcut, .pasteMaskAlpha), (.viafill, .pasteMaskAlpha), (.pads, .pasteMaskAlpha),
   (.fabricationDrawing, .silkAlpha), (.vcutmap, .silkAlpha), (.assemblyDrawing, .silkAlpha),
   (.arrayDrawing, .silkAlpha), (.otherDrawing, .silkAlpha)]

/-- gerber/ast/nodes/enums.py 93-126 (`FileFunction`): the values of the attribute that are accepted. -/
inductive FileFunction
  | copper | plated | nonPlated | profile | soldermask | legend | component | paste | glue | carbonmask | goldmask
  | heatsinkmask | peelablemask | silvermask | tinmask | depthrout | vcut | viafill | pads | other | drillmap
  | fabricationDrawing | vcutmap | assemblyDrawing | arrayDrawing | otherDrawing
  deriving DecidableEq, Repr

/-- gerber/ast/nodes/enums.py 96-121 (`FileFunction.value`). -/
def FileFunction.value : FileFunction → List Char
  | .copper => "Copper".toList
  | .plated => "Plated".toList
  | .nonPlated => "NonPlated".toList
  | .profile => "Profile".toList
  | .soldermask => "Soldermask".toList
  | .legend => "Legend".toList
  | .component => "Component".toList
  | .paste => "Paste".toList
  | .glue => "Glue".toList
  | .carbonmask => "Carbonmask".toList
  | .goldmask => "Goldmask".toList
  | .heatsinkmask => "Heatsinkmask".toList
  | .peelablemask => "Peelablemask".toList
  | .silvermask => "Silvermask".toList
  | .tinmask => "Tinmask".toList
  | .depthrout => "Depthrout".toList
  | .vcut => "Vcut".toList
  | .viafill => "Viafill".toList
  | .pads => "Pads".toList
  | .other => "Other".toList
  | .drillmap => "Drillmap".toList
  | .fabricationDrawing => "FabricationDrawing".toList
  | .vcutmap => "Vcutmap".toList
  | .assemblyDrawing => "AssemblyDrawing".toList
  | .arrayDrawing => "ArrayDrawing".toList
  | .otherDrawing => "OtherDrawing".toList

end Verif.Api
