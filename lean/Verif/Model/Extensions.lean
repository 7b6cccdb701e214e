import Verif.Model.Lookup
import Verif.Model.Strings
/-!
# The extensions

Model of `initExtension` (template/template.go:258-295): the files that are loaded, the template of each folder they are in (`GetNewContext`, C82),
the templates they define, and the import of these in the main template (`importTemplates`, template.go:332-338). The parser is a parameter.
-/

namespace Verif.Extensions
open Verif Text

/-- What `ReadFile` and `processContentInternal` (template_handler.go:136-282) do with a file. The definitions are those that remain, also when the
file has errors. Simplification: they do not depend on the files loaded before. -/
inductive Loaded (Tree : Type) where
  /-- the file cannot be read (template.go:279) -/
  | unreadable
  /-- there is no code in it (template_handler.go:202) -/
  | plain
  /-- the tree of the file itself and the templates it defines -/
  | code (own : Tree) (defs : List (Text × Tree))

/-- What the extensions depend on. `find` gives the files of a folder whose names end with `.gte` (C52). -/
structure World (Tree : Type) where
  pathVariable : Text
  folder : Text
  find : Text → List Text
  load : Text → Loaded Tree
  isEmpty : Tree → Bool

/-- The templates associated with a template: each name has a tree and the `ParseName` of that tree. -/
abbrev Table (Tree : Type) := GoMap (Tree × Text)

/-- `filepath.Dir` (library function). -/
def dir (file : Text) : Text := Path.clean (file.reverse.dropWhile (· ≠ '/')).reverse

variable {Tree : Type}

/-- template.go:263-272. -/
def extensionFiles (w : World Tree) : List Text :=
  let paths := trimSpace w.pathVariable
  (if paths ≠ [] then ((splitC ':' paths).filter (· ≠ [])).flatMap w.find else []) ++ w.find w.folder

/-- `AddParseTree` of text/template: `associate` of `Lookup`, with the `ParseName` of the tree. -/
def addTree (isEmpty : Tree → Bool) (table : Table Tree) (entry : Text × (Tree × Text)) : Table Tree := Lookup.associate (fun x => isEmpty x.1) table entry

/-- template.go:276-285 for one file. The trees of a text have the name of its template as `ParseName`. -/
def loadFile (w : World Tree) (children : GoMap (Table Tree)) (file : Text) : Option (GoMap (Table Tree)) :=
  match w.load file with
  | .unreadable => none
  | .plain => some children
  | .code own defs =>
    some (children.set (dir file) ((((file, own) :: defs).map (fun e => (e.1, e.2, file))).foldl (addTree w.isEmpty) ((children.get? (dir file)).getD [])))

/-- template.go:275-286: the templates of the folders, or a panic. -/
def loadFiles (w : World Tree) (files : List Text) : Option (GoMap (Table Tree)) := files.foldlM (loadFile w) []

/-- `importTemplates`, template.go:332-338. -/
def importTemplates (isEmpty : Tree → Bool) (target source : Table Tree) : Table Tree :=
  source.foldl (fun t e => if e.1 ≠ e.2.2 then addTree isEmpty t e else t) target

/-- template.go:288-291, when the iteration on the map of the children gives these templates. The main template has no definition before. -/
def importAll (isEmpty : Tree → Bool) (tables : List (Table Tree)) : Table Tree := tables.foldl (importTemplates isEmpty) []

/-- The tables that an iteration on the maps may give, in the order it gives them: the folders in any order, and the templates of each of them in any
order. -/
def Iteration (children : GoMap (Table Tree)) (tables : List (Table Tree)) : Prop :=
  ∃ (order : GoMap (Table Tree)) (shuffle : Text → Table Tree → Table Tree), order.Perm children ∧ (∀ folder table, (shuffle folder table).Perm table) ∧
    tables = order.map (fun c => shuffle c.1 c.2)

/-- `initExtension` (template.go:258-295) may end with these definitions. -/
def MayGive (w : World Tree) (result : Table Tree) : Prop :=
  ∃ children, loadFiles w (extensionFiles w) = some children ∧ ∃ tables, Iteration children tables ∧ result = importAll w.isEmpty tables

end Verif.Extensions
