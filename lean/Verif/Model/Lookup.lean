import Verif.Base.Map
import Verif.Model.Path
import Verif.Model.Include
/-!
# Where the code of a sub-template comes from

Model of the search of a template by `optimizedRunTemplate` (template/extra_runtime.go:467-495), with the table of the defined templates (which
the search modifies), and of `include` (194-200). `Verif.Model.Include` has the rest of that function. The translation of razor, the parser and
the trees it makes are parameters.
-/

namespace Verif.Lookup
open Verif Text

/-- What `os.ReadFile` gives: the content, a `*os.PathError` (no such file, a folder, no permission) or another error. -/
inductive FileState where
  | content (c : Text)
  | missing
  | broken (error : Text)

/-- What the search depends on. `parse` gives the tree of the code itself and those of the templates it defines (with names other than `inline`).
`isEmpty` is `parse.IsEmptyTree`. -/
structure World (Tree : Type) where
  folder : Text
  read : Text → FileState
  razor : Text → Text
  parse : Text → Except Text (Tree × List (Text × Tree))
  isEmpty : Tree → Bool

/-- The name given to the code, extra_runtime.go:490. -/
def inlineName : Text := T "inline"

/-- `Template.associate` of text/template (library function): a template of the table is not replaced by an empty one. -/
def associate {Tree : Type} (isEmpty : Tree → Bool) (table : GoMap Tree) (entry : Text × Tree) : GoMap Tree :=
  if isEmpty entry.2 && (table.get? entry.1).isSome then table else table.set entry.1 entry.2

/-- extra_runtime.go:472-475. -/
def fileName (folder source : Text) : Text := if Path.isAbs source then source else Path.joinPath folder source

/-- extra_runtime.go:470-485: the content and the name of the file. -/
def contentOf {Tree : Type} (w : World Tree) (source : Text) : Except Text (Text × Text) :=
  if '\n' ∈ source then .ok (source, [])
  else
    match w.read (fileName w.folder source) with
    | .content c => .ok (c, fileName w.folder source)
    | .missing => .ok (source, [])
    | .broken e => .error e

/-- The template to execute, with the source and the file as they are known from then on. -/
structure Located (Tree : Type) where
  tree : Tree
  source : Text
  file : Text

/-- extra_runtime.go:486-494: the code is parsed and its definitions are added to the table (`Parse` and `AddParseTree` of text/template). -/
def compile {Tree : Type} (w : World Tree) (table : GoMap Tree) (code file : Text) : Except Text (Located Tree) × GoMap Tree :=
  match w.parse code with
  | .error e => (.error e, table)
  | .ok (main, defs) => (.ok ⟨main, code, file⟩, ((inlineName, main) :: defs).foldl (associate w.isEmpty) table)

/-- extra_runtime.go:467-495: the template found for a source, and the table afterwards. -/
def locate {Tree : Type} (w : World Tree) (table : GoMap Tree) (source : Text) : Except Text (Located Tree) × GoMap Tree :=
  match table.get? source with
  | some tree => (.ok ⟨tree, source, []⟩, table)
  | none =>
    match contentOf w source with
    | .error e => (.error e, table)
    | .ok (content, file) => compile w table (w.razor content) file

/-- The search made by the second attempt, extra_runtime.go:508-513: the variable `source` holds the code found by the first one. -/
def locateAgain {Tree : Type} (w : World Tree) (table : GoMap Tree) (found : Located Tree) : Except Text (Located Tree) × GoMap Tree :=
  locate w table found.source

/-- `include`, extra_runtime.go:194-200, from the reply of `runTemplate`. `isText`: the source is a `string` (the comparison is false for other
types). Simplification: when there is an error already, its text is kept. -/
def included (isText : Bool) (source : Text) : Include.Reply → Include.Reply
  | .text result _ => if isText && result = source then .error (T "unable to find a template or a file named " ++ source) else .text result []
  | .error e => .error e
  | .panic => .panic

/-- The sources given to `runTemplate` one after the other by some code, with the table they leave. -/
def tableAfter {Tree : Type} (w : World Tree) (table : GoMap Tree) (sources : List Text) : GoMap Tree :=
  sources.foldl (fun table source => (locate w table source).2) table

end Verif.Lookup
