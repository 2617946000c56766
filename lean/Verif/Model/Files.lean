import Verif.Model.MeshFile
import Verif.Model.BoundFile

/-! Model of `src/file/mod.rs`: which files are read, and the errors of reading. -/

namespace Bugi
namespace Files
open Parse Mesh

variable {K α : Type}

/-- `FileError` (src/file/mod.rs:51-58) without the messages of parsing, or a panic. -/
inductive FErr
  | noExt
  | noOpen
  | nonUni
  | badParse
  | badType (ext : Txt)
  | fault (f : Fault)
  deriving DecidableEq, Repr

/-- The file system as seen by the program. `ext` is `Path::extension` followed by `to_str` (src/file/mod.rs:13-17): no extension, one that is not Unicode, or a text.
`content` is `fs::read_to_string` (src/file/mod.rs:20), `writes` tells if `fs::write` succeeds (src/file/mod.rs:48) and `saves` if `RgbImage::save` does
(src/visual/mod.rs:220). -/
structure Disk where
  ext : Txt → Option (Option Txt)
  content : Txt → Option Txt
  writes : Txt → Bool
  saves : Txt → Bool

/-- The result of a parser (src/file/mod.rs:25, 40): its errors are `BadParse`. -/
def ofParser : Res α → Except FErr α
  | .ok x => .ok x
  | .error .err => .error .badParse
  | .error f => .error (.fault f)

/-- The extension (src/file/mod.rs:13-18, 32-36). -/
def extension (D : Disk) (path : Txt) : Except FErr Txt :=
  match D.ext path with
  | none => .error .noExt
  | some none => .error .nonUni
  | some (some e) => .ok e

/-- The content (src/file/mod.rs:20, 38). -/
def content (D : Disk) (path : Txt) : Except FErr Txt :=
  match D.content path with
  | none => .error .noOpen
  | some c => .ok c

/-- `read_to_elas` (src/file/mod.rs:12-28). -/
def readElas [Field K] [LinearOrder K] (T : Text K) (D : Disk) (path : Txt) : Except FErr (Assemblage K) := do
  let e ← extension D path
  let c ← content D path
  if e = "bmsh".toList then ofParser (MeshFile.read T c) else .error (.badType e)

/-- `read_to_bound` (src/file/mod.rs:30-43). -/
def readBound [Field K] [LinearOrder K] (g : Geo K) (T : Text K) (pos : List (K × K)) (D : Disk) (path : Txt) : Except FErr (Boundary K) := do
  let e ← extension D path
  let c ← content D path
  if e = "bbnd".toList then ofParser (BoundFile.readBound g T pos c) else .error (.badType e)

/-- `save_elas` (src/file/mod.rs:45-49): the text that is written. -/
def saveElas [DecidableEq K] (T : Text K) (D : Disk) (path : Txt) (a : Assemblage K) : Res Txt := do
  let text ← MeshFile.write T a
  if D.writes path then .ok text else .error .panic

end Files
end Bugi
