import Verif.Model.OsFuncs
import Verif.Spec.FileSpec

/-!
Specification for C83: folders and files.
-/

namespace Verif.Spec
open Verif Verif.Text Verif.OsFuncs

/-- There is a folder at this place. -/
def IsFolder (d : Disk) (q : Place) : Prop := ∃ m, d q = some (.dir m)
/-- There is a file with this content at this place. -/
def HasFile (d : Disk) (q : Place) (content : List UInt8) : Prop := ∃ m, d q = some (.file m content)

/-- The root is a folder, and what exists is in a folder. -/
def DiskOk (d : Disk) : Prop := IsFolder d [] ∧ ∀ q e, d (q ++ [e]) ≠ none → IsFolder d q

/-- An ordinary path: names separated by slashes, after a slash if it is absolute. -/
def ordinary (abs : Bool) (names : List Text) : Text := (if abs then ['/'] else []) ++ join ['/'] names

/-- The names are names of files. -/
def Names (l : List Text) : Prop := ∀ e ∈ l, FileName e

/-- What happens to a file that is written: it keeps its permissions; a new one can be read by all and written by its owner. -/
def written (d : Disk) (q : Place) (content : List UInt8) : Item :=
  match d q with
  | some (.file m _) => .file m content
  | _ => .file 0o644 content

end Verif.Spec
