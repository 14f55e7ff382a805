import Verif.Model.Console
import Verif.Spec.Color

/-!
# What a command line asks for
-/

namespace Verif.Spec
open Verif.Api Verif.Color Verif.Console

/-- Words that differ at most in case. -/
def SameWord (v w : List Char) : Prop := v.map Char.toLower = w.map Char.toLower

/-- The file types by name. -/
def typesByName : List (String × FileType) :=
  [("COPPER", .copper), ("MASK", .mask), ("PASTE", .paste), ("SILK", .silk), ("EDGE", .edge), ("PLATED", .plated),
   ("NON_PLATED", .nonPlated), ("PROFILE", .profile), ("SOLDERMASK", .soldermask), ("LEGEND", .legend),
   ("COMPONENT", .component), ("GLUE", .glue), ("CARBONMASK", .carbonmask), ("GOLDMASK", .goldmask),
   ("HEATSINKMASK", .heatsinkmask), ("PEELABLEMASK", .peelablemask), ("SILVERMASK", .silvermask),
   ("TINMASK", .tinmask), ("DEPTHROUT", .depthrout), ("VCUT", .vcut), ("VIAFILL", .viafill), ("PADS", .pads),
   ("DRILLMAP", .drillmap), ("FABRICATIONDRAWING", .fabricationDrawing), ("VCUTMAP", .vcutmap),
   ("ASSEMBLYDRAWING", .assemblyDrawing), ("ARRAYDRAWING", .arrayDrawing), ("OTHERDRAWING", .otherDrawing),
   ("OTHER", .other), ("UNDEFINED", .undefined), ("INFER_FROM_EXTENSION", .inferFromExtension),
   ("INFER_FROM_ATTRIBUTES", .inferFromAttributes), ("INFER", .infer)]

/-- The type a command line asks for: the one it names, otherwise the type is to be inferred. -/
inductive AsksType : Option (List Char) → FileType → Prop
  | left_out : AsksType none .infer
  | named {w : List Char} {name : String} {t : FileType} (listed : (name, t) ∈ typesByName)
      (same : SameWord w name.toList) : AsksType (some w) t

/-- A text that denotes a colour: `#` or nothing, then two hexadecimal digits for red, green, blue and, if it is given,
alpha; a line feed may follow. -/
def ColourText (s : List Char) (c : Color) : Prop :=
  ∃ hash feed r1 r2 g1 g2 b1 b2 al, (hash = [] ∨ hash = ['#']) ∧ (feed = [] ∨ feed = ['\n']) ∧
    s = hash ++ [r1, r2, g1, g2, b1, b2] ++ al ++ feed ∧
    HexByte r1 r2 c.red ∧ HexByte g1 g2 c.green ∧ HexByte b1 b2 c.blue ∧
    (al = [] ∧ c.alpha.1 = 255 ∨ ∃ a1 a2, al = [a1, a2] ∧ HexByte a1 a2 c.alpha)

/-- An opaque foreground on opaque black. -/
def onBlack (red green blue : Fin 256) : Style := ⟨⟨red, green, blue, 255⟩, ⟨0, 0, 0, 255⟩⟩

/-- An opaque foreground on nothing. -/
def onNothing (red green blue : Fin 256) : Style := ⟨⟨red, green, blue, 255⟩, ⟨0, 0, 0, 0⟩⟩

/-- The styles by name: those of silk screens are white, those of copper green, those of masks grey. -/
def stylesByName : List (String × Style) :=
  [("SILK", onBlack 255 255 255), ("SILK_ALPHA", onNothing 255 255 255), ("COPPER", onBlack 40 143 40),
   ("COPPER_ALPHA", onNothing 40 143 40), ("PASTE_MASK", onBlack 117 117 117),
   ("PASTE_MASK_ALPHA", onNothing 117 117 117), ("SOLDER_MASK", onBlack 117 117 117),
   ("SOLDER_MASK_ALPHA", onNothing 153 153 153), ("DEFAULT_GRAYSCALE", onNothing 255 255 255),
   ("DEBUG_1", onNothing 19 61 145), ("DEBUG_1_ALPHA", onNothing 19 61 145), ("BLACK_WHITE", onBlack 255 255 255),
   ("BLACK_WHITE_ALPHA", onNothing 255 255 255)]

/-- The style a command line asks for with `-s`, `-f` and `-b`: none, a preset, or the two colours. -/
inductive AsksStyle : Option (List Char) → Option (List Char) → Option (List Char) → Option Style → Prop
  | left_out {f b : Option (List Char)} : AsksStyle none f b none
  | preset {w : List Char} {f b : Option (List Char)} {name : String} {st : Style} (listed : (name, st) ∈ stylesByName)
      (same : SameWord w name.toList) : AsksStyle (some w) f b (some st)
  | custom {w f b : List Char} {fg bg : Color} (same : SameWord w "CUSTOM".toList) (hf : ColourText f fg)
      (hb : ColourText b bg) : AsksStyle (some w) (some f) (some b) (some ⟨fg, bg⟩)

/-- A word was given that is none of the listed ones, whatever their case. -/
def Unlisted (word : Option (List Char)) (names : List String) : Prop :=
  ∃ w, word = some w ∧ ∀ n ∈ names, ¬ SameWord w n.toList

/-- `-s CUSTOM` was given, in any case. -/
def AsksCustom (a : Args) : Prop := ∃ w, a.style = some w ∧ SameWord w "CUSTOM".toList

/-- No colour was given, or a text that denotes none. -/
def NoColour (word : Option (List Char)) : Prop := ∀ w c, word = some w → ¬ ColourText w c

/-- The compressions of TIFF files. -/
def tiffCompressions : List String :=
  ["jpeg", "webp", "zstd", "lzma", "packbits", "group3", "group4", "tiff_lzw", "tiff_ccitt", "tiff_adobe_deflate", "tiff_raw_16",
   "tiff_sgilog", "tiff_sgilog24", "tiff_thunderscan"]

/-- What is wrong with the options of a command. -/
def AtFault (f : Format) (a : Args) : Opt → Prop
  | .fileType => Unlisted a.fileType (typesByName.map (·.1))
  | .style => Unlisted a.style ("CUSTOM" :: stylesByName.map (·.1))
  | .foreground => AsksCustom a ∧ NoColour a.foreground
  | .background => AsksCustom a ∧ NoColour a.background
  | .implementation => Unlisted a.implementation [if f = .svg then "shapely" else "pillow"]
  | .compression => f = .tiff ∧ ∃ w, a.compression = some w ∧ ∀ c ∈ tiffCompressions, w ≠ c.toList

/-- The file written when `-o` is left out. -/
def outputFile (f : Format) (a : Args) : List Char :=
  match a.output, f with
  | some o, _ => o
  | none, .png => "output.png".toList
  | none, .jpeg => "output.jpg".toList
  | none, .tiff => "output.tiff".toList
  | none, .bmp => "output.bmp".toList
  | none, .webp => "output.webp".toList
  | none, .svg => "output.svg".toList

/-- The encoding asked for: JPEG has the quality asked for or 95, TIFF the compression asked for or `lzma` and a quality
only with JPEG compression, WEBP the quality asked for or 80, lossless if asked. -/
def Encodes (f : Format) (a : Args) (e : Encoding) : Prop :=
  match f with
  | .png | .bmp | .svg => e = {}
  | .jpeg => e.quality = some (a.quality.getD 95) ∧ e.compression = none ∧ e.lossless = none
  | .tiff =>
    e.compression = some (a.compression.getD "lzma".toList) ∧ e.lossless = none ∧
    e.quality = if a.compression = some "jpeg".toList then some (a.quality.getD 95) else none
  | .webp => e.quality = some (a.quality.getD 80) ∧ e.compression = none ∧ e.lossless = some a.lossless

/-- The call of the API that renders in a format: at the resolution asked for or 100 dots per millimetre, SVG without. -/
def rendering {env : Env} (f : Format) (a : Args) (style : Option env.Style) : Call env :=
  match f with
  | .svg => .renderShapely style
  | _ => .renderPillow style (a.dpmm.getD 100)

end Verif.Spec
