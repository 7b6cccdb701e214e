import Verif.Base.Text
/-!
# Trees of folders
-/

namespace Verif
namespace Spec

/-- What is on a disk: a file, a symbolic link to an absolute path, or a folder. -/
inductive Node where
  | file
  | link (target : List Text)
  | dir (entries : List (Text × Node))

/-- The entry of a folder. -/
def Node.entry : List (Text × Node) → Text → Option Node
  | [], _ => none
  | (n, x) :: es, name => if n = name then some x else Node.entry es name

/-- What is at a path (links are not followed). -/
def Node.at (x : Node) : List Text → Option Node
  | [] => some x
  | name :: path =>
    match x with
    | .dir es => (Node.entry es name).bind (fun y => Node.at y path)
    | _ => none

/-- There is a folder at a path. -/
def IsDir (x : Node) (path : List Text) : Prop := ∃ es, x.at path = some (.dir es)

/-- There is a link at a path. -/
def IsLink (x : Node) (path target : List Text) : Prop := x.at path = some (.link target)

/-- The names in a folder are distinct, at every level. -/
def DistinctNames (x : Node) : Prop := ∀ path es, x.at path = some (.dir es) → (es.map Prod.fst).Nodup

/-- The folders from which a search with a maximum depth starts: the given one and the targets of the links at that depth or above. -/
inductive StartFolder (root : Node) (maxDepth : Nat) (folder : List Text) : List Text → Prop
  | given : StartFolder root maxDepth folder folder
  | linked (r q t : List Text) : StartFolder root maxDepth folder r → q.length ≤ maxDepth + 1 → IsLink root (r ++ q) t → StartFolder root maxDepth folder t

/-- What can be reached from a folder by entering folders and following links. -/
inductive Reachable (root : Node) (folder : List Text) : List Text → Prop
  | start : Reachable root folder folder
  | enter (p : List Text) (name : Text) : Reachable root folder p → IsDir root (p ++ [name]) → Reachable root folder (p ++ [name])
  | follow (p : List Text) (name : Text) (t : List Text) : Reachable root folder p → IsLink root (p ++ [name]) t → Reachable root folder t

end Spec
end Verif
