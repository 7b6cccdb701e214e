import Verif.Model.Lookup
/-!
# What a source designates
-/

namespace Verif.Spec
open Lookup

/-- The code a source stands for. -/
inductive Meaning (Tree : Type) where
  /-- a template defined under this name -/
  | named (tree : Tree)
  /-- the content of a file -/
  | file (path content : Text)
  /-- the source itself -/
  | inline (text : Text)
  /-- nothing: the file cannot be read -/
  | failure (error : Text)

/-- The file a source may be the name of: only a source in one line is the name of a file; it is relative to the folder of the template. -/
inductive FileOf (folder : Text) : Text → Text → Prop
  | absolute (p : Text) : '\n' ∉ '/' :: p → FileOf folder ('/' :: p) ('/' :: p)
  | relative (p : Text) : '\n' ∉ p → (¬ ∃ q, p = '/' :: q) → FileOf folder p (Path.joinPath folder p)

/-- Templates come first, then files, then the text. -/
inductive StandsFor {Tree : Type} (w : World Tree) (table : GoMap Tree) : Text → Meaning Tree → Prop
  | named (source : Text) (tree : Tree) : table.get? source = some tree → StandsFor w table source (.named tree)
  | file (source path content : Text) : table.get? source = none → FileOf w.folder source path → w.read path = .content content →
      StandsFor w table source (.file path content)
  | noFile (source path : Text) : table.get? source = none → FileOf w.folder source path → w.read path = .missing → StandsFor w table source (.inline source)
  | lines (source : Text) : table.get? source = none → '\n' ∈ source → StandsFor w table source (.inline source)
  | failure (source path error : Text) : table.get? source = none → FileOf w.folder source path → w.read path = .broken error →
      StandsFor w table source (.failure error)

/-- The definitions that are made when a code is used: `inline` is the code itself. -/
def Defines {Tree : Type} (main : Tree) (defs : List (Text × Tree)) (name : Text) (tree : Tree) : Prop :=
  (name = T "inline" ∧ tree = main) ∨ (name, tree) ∈ defs

/-- Each name is defined once, and `inline` is not among them. -/
def DefinedOnce {Tree : Type} (defs : List (Text × Tree)) : Prop := (T "inline" :: defs.map Prod.fst).Nodup

end Verif.Spec
