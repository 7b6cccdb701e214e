import Verif.Model.Extensions
/-!
# What the extensions define
-/

namespace Verif.Spec
open Extensions

variable {Tree : Type}

/-- The file defines a template of that name. -/
def FileDefines (w : World Tree) (file name : Text) (tree : Tree) : Prop := ∃ own defs, w.load file = .code own defs ∧ (name, tree) ∈ defs

/-- The definitions of a name in a file, in order. -/
def fileDefinitions (w : World Tree) (name file : Text) : List Tree :=
  match w.load file with
  | .code _ defs => (defs.filter (fun e => e.1 = name)).map Prod.snd
  | _ => []

/-- The definitions of a name in the files of a folder, in the order of the files. -/
def folderDefinitions (w : World Tree) (files : List Text) (name folder : Text) : List Tree :=
  (files.filter (fun file => dir file = folder)).flatMap (fileDefinitions w name)

/-- The definition that stands after others: an empty one does not replace another. -/
def standing (isEmpty : Tree → Bool) (trees : List Tree) : Option Tree :=
  match (trees.filter (fun t => !isEmpty t)).getLast? with
  | some t => some t
  | none => trees.head?

end Verif.Spec
