import Verif.Spec.TreeSpec
/-!
# Searching files

Model of `FindFilesMaxDepth` (utils/io.go:24-75) on a tree of folders and symbolic links. What the patterns match in one folder
(`findFiles`, io.go:78-88) is a parameter. Errors of reading are not modelled.
-/

namespace Verif
namespace FindFiles

open Spec

/-- The disk, the options, and the files that the patterns match in the folder at a path, in order. -/
structure Config where
  root : Node
  maxDepth : Nat
  followLinks : Bool
  find : List Text → List Text

/-- `results` and `visited` (io.go:25, 28). -/
structure St where
  results : List Text
  visited : List (List Text)

mutual
/-- `filepath.Walk` with the function of io.go:34-70 on an entry. `walker` is the call for the target of a link (its results and the visited
folders). The depth is the number of names below the start (io.go:40, the number of `..` in the way up). -/
def walkNode (c : Config) (walker : List Text → List (List Text) → Option St) (path : List Text) (depth : Nat) : Node → St → Option St
  | .file, s => some s
  | .link target, s =>
    if c.followLinks = true ∧ target ∉ s.visited then
      (walker target s.visited).map (fun s' => ⟨s.results ++ s'.results, s'.visited⟩)
    else some s
  | .dir es, s =>
    if depth > c.maxDepth then some ⟨s.results, path :: s.visited⟩
    else walkEntries c walker path depth es ⟨s.results ++ c.find path, path :: s.visited⟩
/-- The entries of a folder, in order. -/
def walkEntries (c : Config) (walker : List Text → List (List Text) → Option St) (path : List Text) (depth : Nat) : List (Text × Node) → St → Option St
  | [], s => some s
  | (name, x) :: es, s => (walkNode c walker (path ++ [name]) (depth + 1) x s).bind (walkEntries c walker path depth es)
end

/-- `walker`, io.go:27-73. The first argument bounds the number of nested calls: `none` for every bound means that it never ends. -/
def walker (c : Config) : Nat → List Text → List (List Text) → Option St
  | 0, _, _ => none
  | n + 1, folder, visited =>
    if c.maxDepth = 0 then some ⟨c.find folder, visited⟩
    else
      match c.root.at folder with
      | some (.dir es) => walkEntries c (walker c n) folder 0 es ⟨c.find folder, visited⟩
      | _ => some ⟨c.find folder, visited⟩

/-- `FindFilesMaxDepth`, io.go:24-75. -/
def findFilesMaxDepth (c : Config) (n : Nat) (folder : List Text) : Option (List Text) := (walker c n folder []).map St.results

/-- `findFiles`, io.go:79-89. `glob` gives the files that one pattern matches in a folder; its errors are not modelled. -/
def findFiles (glob : Text → List Text → List Text) (patterns : List Text) (folder : List Text) : List Text := patterns.flatMap (fun p => glob p folder)

/-- `FindFiles`, io.go:15-21: the depth. -/
def depthOf (recursive : Bool) : Nat := if recursive then 2 ^ 16 else 0

/-- `FindFiles`, io.go:15-21: `c` gives the tree, the links and the patterns, and its depth is not used. -/
def findFilesIn (c : Config) (recursive : Bool) (n : Nat) (folder : List Text) : Option (List Text) := findFilesMaxDepth { c with maxDepth := depthOf recursive } n folder

end FindFiles
end Verif
