import Verif.Model.Spans

/-!
# The text that nodes refer to, and the check of the MD5 attribute
-/

namespace Verif.SourceHash

open Verif.Peg (Text)

/-- `source[:k]` of Python, where `k` is `location - 1`: for `location = 0` it is `source[:-1]`. -/
def textBefore (source : Text) (location : Nat) : Text :=
  match location with
  | 0 => source.dropLast
  | k + 1 => source.take k

/-- gerber/ast/nodes/attribute/TF.py 222-236 (`TF_MD5.check_source_hash`), where `digest` is
`hashlib.md5(text.encode("utf-8")).hexdigest()`, any function here. -/
def checkSourceHash (digest : Text → Text) (source : Text) (location : Nat) (md5 : Text) : Bool :=
  digest (((textBefore source location).filter (fun c => c != '\n')).filter (fun c => c != '\r')) == md5

end Verif.SourceHash
