import Verif.Spec.Api

/-!
# What kind of layer a file is (C95)

The kinds that suffixes and the attribute `.FileFunction` stand for, written as tables.
-/

namespace Verif.Spec.FileKind
open Verif.Api

/-- The same letters, capital or not. -/
def SameLetters (a b : List Char) : Prop := a.map Char.toLower = b.map Char.toLower

instance (a b : List Char) : Decidable (SameLetters a b) := by unfold SameLetters; infer_instance

/-- Inner copper layers, planes and mechanical layers have numbers in their suffixes. -/
def Numbered (suffix : List Char) : Prop :=
  ∃ kind ∈ [".g", ".gp", ".gm"], ∃ d rest, Char.isDigit d = true ∧ suffix = kind.toList ++ d :: rest

/-- The suffixes of the other layers; general suffixes say nothing of the layer, which the file has to declare. -/
def suffixes : List (String × Option FileType) :=
  [(".gtl", some .copper), (".gbl", some .copper), (".gts", some .soldermask), (".gbs", some .soldermask),
   (".gto", some .silk), (".gbo", some .silk), (".gtp", some .paste), (".gbp", some .paste), (".gpt", some .pads),
   (".gpb", some .pads), (".gbr", none), (".grb", none)]

/-- What a suffix says: the kind of the layer, that the file declares it, or nothing. -/
inductive SuffixSays (suffix : List Char) : Option (Option FileType) → Prop
  | numbered : Numbered suffix → SuffixSays suffix (some (some .copper))
  | listed (p : String × Option FileType) : ¬ Numbered suffix → p ∈ suffixes → SameLetters suffix p.1.toList →
      SuffixSays suffix (some p.2)
  | unknown : ¬ Numbered suffix → (∀ p ∈ suffixes, ¬ SameLetters suffix p.1.toList) → SuffixSays suffix none

/-- The answer to what a suffix says. -/
def meant : Option (Option FileType) → FileType
  | none => .undefined
  | some none => .inferFromAttributes
  | some (some k) => k

/-- Names of kinds, and of requests, that are not functions of files. -/
def kindNames : List String :=
  ["Mask", "Silk", "Edge", "SolderPaste", "Undefined", "Infer", "Infer_from_extension", "Infer_from_attributes"]

/-- The kind a file declares with `.FileFunction`. -/
def declared : Option FileFunction → FileType
  | none => .undefined
  | some .copper => .copper
  | some .plated => .plated
  | some .nonPlated => .nonPlated
  | some .profile => .profile
  | some .soldermask => .soldermask
  | some .legend => .legend
  | some .component => .component
  | some .paste => .paste
  | some .glue => .glue
  | some .carbonmask => .carbonmask
  | some .goldmask => .goldmask
  | some .heatsinkmask => .heatsinkmask
  | some .peelablemask => .peelablemask
  | some .silvermask => .silvermask
  | some .tinmask => .tinmask
  | some .depthrout => .depthrout
  | some .vcut => .vcut
  | some .viafill => .viafill
  | some .pads => .pads
  | some .other => .other
  | some .drillmap => .drillmap
  | some .fabricationDrawing => .fabricationDrawing
  | some .vcutmap => .vcutmap
  | some .assemblyDrawing => .assemblyDrawing
  | some .arrayDrawing => .arrayDrawing
  | some .otherDrawing => .otherDrawing

/-- The kind of a file, as requested by the user: a suffix that names a layer comes first, then what the file declares. -/
inductive Kind : FileType → Source → Option FileFunction → FileType → Prop
  | given (t src f) : ¬ isRequest t → Kind t src f t
  | declared (src f) : Kind .inferFromAttributes src f (declared f)
  | suffix (t e f k) : t = .infer ∨ t = .inferFromExtension → SuffixSays e (some (some k)) → Kind t (.path e) f k
  | general (t e f) : t = .infer ∨ t = .inferFromExtension → SuffixSays e (some none) → Kind t (.path e) f (FileKind.declared f)
  | unknown (e f) : SuffixSays e none → Kind .infer (.path e) f (FileKind.declared f)
  | undefined (e f) : SuffixSays e none → Kind .inferFromExtension (.path e) f .undefined
  | noName (src f) : (∀ e, src ≠ .path e) → Kind .infer src f (FileKind.declared f)
  | nothing (src f) : (∀ e, src ≠ .path e) → Kind .inferFromExtension src f .undefined

end Verif.Spec.FileKind
