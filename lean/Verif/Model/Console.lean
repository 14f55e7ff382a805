import Verif.Model.GerberFile
import Verif.Model.Color
import Verif.Model.Composite

/-!
# The commands `convert` and `merge-convert` (console/gerber.py)

A command line is modelled by the words given to its options.  Simplifications: options a command does not have, repeated
options, words that are not numbers where a number is expected, and source files that do not exist are refused by
`click` before the command runs and are not modelled; the resolution is not negative.
-/

namespace Verif.Console
open Verif.Api Verif.Color

/-- vm/types/style.py 12-18 (`Style`). -/
structure Style where
  /-- `foreground`. -/
  foreground : Color
  /-- `background`. -/
  background : Color
  deriving DecidableEq, Repr

/-- The style with the given red, green and blue of the foreground and alpha of the background; every preset has an
opaque foreground and a black background (vm/types/style.py 96-153). -/
def preset (r g b : Fin 256) (back : Fin 256) : Style := ⟨⟨r, g, b, 255⟩, ⟨0, 0, 0, back⟩⟩

/-- vm/types/style.py 90-93 (`get_styles`) with the values of lines 96-153. -/
def presets : List (String × Style) :=
  [("SILK", preset 255 255 255 255), ("SILK_ALPHA", preset 255 255 255 0),
   ("COPPER", preset 40 143 40 255), ("COPPER_ALPHA", preset 40 143 40 0),
   ("PASTE_MASK", preset 117 117 117 255), ("PASTE_MASK_ALPHA", preset 117 117 117 0),
   ("SOLDER_MASK", preset 117 117 117 255), ("SOLDER_MASK_ALPHA", preset 153 153 153 0),
   ("DEFAULT_GRAYSCALE", preset 255 255 255 0),
   ("DEBUG_1", preset 19 61 145 0), ("DEBUG_1_ALPHA", preset 19 61 145 0),
   ("BLACK_WHITE", preset 255 255 255 255), ("BLACK_WHITE_ALPHA", preset 255 255 255 0)]

/-- The presets the colour maps use (`Preset`), with their values (vm/types/style.py 96-144). -/
def styleOfPreset : Preset → Style
  | .copper => preset 40 143 40 255
  | .solderMask => preset 117 117 117 255
  | .pasteMask => preset 117 117 117 255
  | .silk => preset 255 255 255 255
  | .copperAlpha => preset 40 143 40 0
  | .solderMaskAlpha => preset 153 153 153 0
  | .pasteMaskAlpha => preset 117 117 117 0
  | .silkAlpha => preset 255 255 255 0
  | .debug1Alpha => preset 19 61 145 0

/-- gerber/api/_enums.py 37-134: the names of the members of `FileTypeEnum` (`__members__.keys()`). -/
def typeNames : List String :=
  ["COPPER", "MASK", "PASTE", "SILK", "EDGE", "PLATED", "NON_PLATED", "PROFILE", "SOLDERMASK", "LEGEND", "COMPONENT",
   "GLUE", "CARBONMASK", "GOLDMASK", "HEATSINKMASK", "PEELABLEMASK", "SILVERMASK", "TINMASK", "DEPTHROUT", "VCUT",
   "VIAFILL", "PADS", "DRILLMAP", "FABRICATIONDRAWING", "VCUTMAP", "ASSEMBLYDRAWING", "ARRAYDRAWING", "OTHERDRAWING",
   "OTHER", "UNDEFINED", "INFER_FROM_EXTENSION", "INFER_FROM_ATTRIBUTES", "INFER"]

/-- console/gerber.py 47-49: the choices of `--style`. -/
def styleChoices : List String := presets.map (·.1) ++ ["CUSTOM"]

/-- console/gerber.py 257-274: the choices of `--compression`. -/
def compressions : List String :=
  ["group3", "group4", "jpeg", "lzma", "packbits", "tiff_adobe_deflate", "tiff_ccitt", "tiff_lzw", "tiff_raw_16",
   "tiff_sgilog", "tiff_sgilog24", "tiff_thunderscan", "webp", "zstd"]

/-- The options that can be at fault. -/
inductive Opt | fileType | style | foreground | background | implementation | compression
  deriving DecidableEq, Repr

/-- Exceptions `click` turns into a usage message that names an option (`BadParameter`, `BadOptionUsage`). -/
abbrev Refusal := Opt

/-- `click.Choice(choices, case_sensitive=False)`: a word that is a choice but for case; the choice is handed on. -/
def choice (choices : List String) (word : List Char) : Option (List Char) :=
  (choices.find? fun c => lower c.toList == lower word).map String.toList

/-- `click.Choice(choices)`: case matters. -/
def exactChoice (choices : List String) (word : List Char) : Option (List Char) :=
  (choices.find? fun c => c.toList == word).map String.toList

/-- An option with choices: left out, given with a choice, or refused. -/
def checked (o : Opt) (pick : List Char → Option (List Char)) :
    Option (List Char) → Except Refusal (Option (List Char))
  | none => .ok none
  | some w =>
    match pick w with
    | some c => .ok (some c)
    | none => .error o

/-- `Color.from_hex` inside `try ... except InvalidHexColorLiteralError` (console/gerber.py 177-187).
Simplification: `from_hex` raises nothing else (`fromHex_error` in the proofs). -/
def colour (blamed : Opt) (literal : List Char) : Except Refusal Color :=
  match fromHex literal with
  | .ok c => .ok c
  | .error _ => .error blamed

/-- console/gerber.py 158-203 (`_sanitize_style`). -/
def sanitizeStyle (style foreground background : Option (List Char)) : Except Refusal (Option Style) :=
  match style with
  | none => .ok none
  | some s =>
    if upper s = "CUSTOM".toList then
      match foreground, background with
      | none, _ => .error .foreground
      | some _, none => .error .background
      | some f, some b =>
        match colour .background b with
        | .error e => .error e
        | .ok bg =>
          -- line 187 names "background" for the foreground too
          match colour .background f with
          | .error e => .error e
          | .ok fg => .ok (some ⟨fg, bg⟩)
    else
      match presets.find? (fun p => upper p.1.toList == upper s) with
      | some p => .ok (some p.2)
      | none => .error .style

/-- The commands of the group `convert`. -/
inductive Format | png | jpeg | tiff | bmp | webp | svg
  deriving DecidableEq, Repr

/-- The words of a command line. -/
structure Args where
  /-- The suffix of the path of the source. -/
  suffix : List Char
  /-- `-o`. -/
  output : Option (List Char) := none
  /-- `-d`. -/
  dpmm : Option Nat := none
  /-- `-t`. -/
  fileType : Option (List Char) := none
  /-- `-s`. -/
  style : Option (List Char) := none
  /-- `-f`. -/
  foreground : Option (List Char) := none
  /-- `-b`. -/
  background : Option (List Char) := none
  /-- `-i`. -/
  implementation : Option (List Char) := none
  /-- `-c` of `tiff`. -/
  compression : Option (List Char) := none
  /-- `-q` of `jpeg`, `tiff` and `webp`. -/
  quality : Option Int := none
  /-- `-l` of `webp`. -/
  lossless : Bool := false

/-- The keyword arguments of `PIL.Image.save`. -/
structure Encoding where
  /-- `compression`. -/
  compression : Option (List Char) := none
  /-- `quality`. -/
  quality : Option Int := none
  /-- `lossless`. -/
  lossless : Option Bool := none
  deriving DecidableEq, Repr

/-- The default of `-o` (console/gerber.py 128, 207, 247, 320, 352, 405). -/
def Format.defaultOutput : Format → String
  | .png => "output.png"
  | .jpeg => "output.jpg"
  | .tiff => "output.tiff"
  | .bmp => "output.bmp"
  | .webp => "output.webp"
  | .svg => "output.svg"

/-- The only choice of `-i` (console/gerber.py 134, 213, 253, 326, 358, 410). -/
def Format.backend : Format → String
  | .svg => "shapely"
  | _ => "pillow"

/-- What the commands hand to `save_...` (console/gerber.py 151, 238, 307-311, 343, 394, 426). -/
def Format.encoding (f : Format) (compression : Option (List Char)) (a : Args) : Encoding :=
  match f with
  | .png | .bmp | .svg => {}
  | .jpeg => { quality := some (a.quality.getD 95) }
  | .tiff =>
    let c := compression.getD "lzma".toList
    if c = "jpeg".toList then { compression := some c, quality := some (a.quality.getD 95) }
    else { compression := some c }
  | .webp => { quality := some (a.quality.getD 80), lossless := some a.lossless }

/-- How a run of a command ends: with a usage message, with an exception of the library, or with a file. -/
inductive Outcome (E : Type) (A : Type)
  | refused (r : Refusal)
  | failed (e : E)
  | saved (format : Format) (output : List Char) (encoding : Encoding) (image : A)
  deriving DecidableEq

/-- `FileTypeEnum(file_type.upper())` (console/gerber.py 147), with the default of line 34. -/
def fileTypeOf (word : Option (List Char)) : FileType := FileType.ofValue (upper (word.getD "INFER".toList))

/-- console/gerber.py 126-155 (`png`), 205-242 (`jpeg`), 245-315 (`tiff`), 318-347 (`bmp`), 350-398 (`webp`), 403-430
(`svg`): `click` checks the options, then the command runs.  `paint` makes a style of the library.  Simplification:
the order in which `click` checks the options with choices is that of the declarations. -/
def convert (env : Env) (paint : Style → env.Style) (f : Format) (a : Args) :
    Outcome (Failure env.Err) (Answer env) :=
  match checked .fileType (choice typeNames) a.fileType with
  | .error r => .refused r
  | .ok fileType =>
    match checked .style (choice styleChoices) a.style with
    | .error r => .refused r
    | .ok style =>
      match checked .implementation (choice [f.backend]) a.implementation with
      | .error r => .refused r
      | .ok _ =>
        match checked .compression (exactChoice compressions) (if f = .tiff then a.compression else none) with
        | .error r => .refused r
        | .ok compression =>
          match sanitizeStyle style a.foreground a.background with
          | .error r => .refused r
          | .ok st =>
            let file := GFile.create env (fileTypeOf fileType) (.path a.suffix)
            let rendered :=
              match f with
              | .svg => call (.renderShapely (st.map paint)) file
              | _ => call (.renderPillow (st.map paint) (a.dpmm.getD 100)) file
            match rendered.1 with
            | .error e => .failed e
            | .ok image =>
              .saved f (a.output.getD f.defaultOutput.toList) (f.encoding compression a) image

/-- The exceptions of `merge-convert`: the library's, and the `ValueError` of `max` for no sources. -/
inductive MergeFailure (E : Type)
  | lib (e : E)
  | noSources
  deriving DecidableEq

/-- Renders the sources one after the other (gerber/api/_composite_view.py 66-68); `render` is `from_file` with
`render_with_pillow`. -/
def renderAll {E : Type} (render : List Char → FileType → Nat → Except E SubImage) (t : FileType) (dpmm : Nat) :
    List (List Char) → Except E (List SubImage)
  | [] => .ok []
  | s :: ss =>
    match render s t dpmm with
    | .error e => .error e
    | .ok i =>
      match renderAll render t dpmm ss with
      | .error e => .error e
      | .ok is => .ok (i :: is)

/-- console/gerber.py 511-542 (`merge_convert_png`), 545-576 (`merge_convert_jpeg`). -/
def mergeConvert {E : Type} (render : List Char → FileType → Nat → Except E SubImage) (f : Format) (a : Args)
    (sources : List (List Char)) : Outcome (MergeFailure E) Composite :=
  match checked .fileType (choice typeNames) a.fileType with
  | .error r => .refused r
  | .ok fileType =>
    match checked .implementation (choice [f.backend]) a.implementation with
    | .error r => .refused r
    | .ok _ =>
      match renderAll render (fileTypeOf fileType) (a.dpmm.getD 100) sources with
      | .error e => .failed (.lib e)
      | .ok images =>
        match composite (a.dpmm.getD 100) images with
        | none => .failed .noSources
        | some c => .saved f (a.output.getD f.defaultOutput.toList) {} c

end Verif.Console
