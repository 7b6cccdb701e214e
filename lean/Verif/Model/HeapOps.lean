import Verif.Spec.HeapSpec
import Verif.Model.DictOps
/-!
# Dictionaries and lists as references

`Clone` and `Merge` on a heap, where dictionaries are Go maps (references) and lists are slices over an array cell
(the capacity beyond the length is left out here, see `SliceHeap`).

Recursion is over a fuel argument: on a cyclic structure the Go functions never return, here the result is `none`
for every fuel.  All collections have the same implementation type, so the conversions made by `Set`, `Append`,
`TryAsDictionary` and `TryAsList` return the object itself (base_helper.go:114-116, 173-175, `NeedConversion` false).
-/

namespace Verif.HeapOps
open Verif Spec

/-- `map[key]` with the "ok" flag, of the dictionary at an address. -/
def entry (h : Heap) (a : Nat) (k : Text) : Option HVal := child h (.dict a) (.key k)

/-- `map[key] = v`, for the dictionary at an address. -/
def setKey (h : Heap) (a : Nat) (k : Text) (v : HVal) : Heap :=
  match h[a]? with
  | some (.dict m) => h.set a (.dict (m.set k v))
  | _ => h

/-- `for key := range map`: the keys, in iteration order. -/
def mapKeys (h : Heap) (a : Nat) : Option (List Text) :=
  match h[a]? with
  | some (.dict m) => some m.keys
  | _ => none

/-- `AsArray()` of the list at an address. -/
def arrayOf (h : Heap) (a : Nat) : Option (List HVal) :=
  match h[a]? with
  | some (.arr l) => some l
  | _ => none

/-- The items `NewList` copies, base_helper.go:23-33: if the only element is a list, the elements of that list. -/
def cloneItems (h : Heap) : List HVal → Option (List HVal)
  | [.list b] => arrayOf h b
  | items => some items

/-- `ListHelper.Clone`, collections/implementation/list_helper.go:31-33 with `NewList`, base_helper.go:22-39: a new
array with the same elements (references are copied, not what they refer to). -/
def cloneList (h : Heap) (a : Nat) : Option (Heap × HVal) := do
  let items ← arrayOf h a
  let items ← cloneItems h items
  pure (h ++ [.arr items], .list h.length)

/-- The value stored by `DictHelper.Clone` for one key, dict_helper.go:38-45; `cloneDict` is the recursive call. -/
def cloneVal (cloneDict : Heap → Nat → Option (Heap × Nat)) (h : Heap) : HVal → Option (Heap × HVal)
  | .atom v => some (h, .atom v)
  | .dict a => (cloneDict h a).map (fun r => (r.1, .dict r.2))
  | .list a => cloneList h a

/-- The loop of `DictHelper.Clone`, dict_helper.go:37-47, from the dictionary `src` to the new one `dst`. -/
def cloneLoop (cloneDict : Heap → Nat → Option (Heap × Nat)) (src dst : Nat) : List Text → Heap → Option Heap
  | [], h => some h
  | k :: ks, h => do
    let v := (entry h src k).getD (.atom .nil)
    let r ← cloneVal cloneDict h v
    cloneLoop cloneDict src dst ks (setKey r.1 dst k r.2)

/-- `DictHelper.Clone(dict, nil)`, dict_helper.go:32-49. -/
def cloneDict : Nat → Heap → Nat → Option (Heap × Nat)
  | 0, _, _ => none
  | n + 1, h, a => do
    let keys ← mapKeys h a
    let h' ← cloneLoop (cloneDict n) a h.length (Text.sortBy id keys) (h ++ [.dict []])
    pure (h', h.length)

/-- One iteration of `deepMerge`, dict_helper.go:143-156, for target `t`, source `s` and a key. -/
def mergeKey (deepMerge : Heap → Nat → Nat → Option Heap) (t s : Nat) (k : Text) (h : Heap) : Option Heap :=
  match entry h s k with
  | none => some h
  | some sv =>
    match entry h t k with
    | none => some (setKey h t k sv)
    | some tv =>
      match tv, sv with
      | .dict a, .dict b => (deepMerge h a b).map (fun h' => setKey h' t k (.dict a))
      | _, _ => some h

/-- The loop of `deepMerge`. -/
def mergeLoop (deepMerge : Heap → Nat → Nat → Option Heap) (t s : Nat) : List Text → Heap → Option Heap
  | [], h => some h
  | k :: ks, h => (mergeKey deepMerge t s k h).bind (mergeLoop deepMerge t s ks)

/-- `DictHelper.deepMerge(target, source)`, dict_helper.go:139-160. The keys iterated over are those the source has
at the beginning (Go leaves open whether keys added during the iteration are visited; this only happens when the
source contains the target). -/
def deepMerge : Nat → Heap → Nat → Nat → Option Heap
  | 0, _, _, _ => none
  | n + 1, h, t, s => (mapKeys h s).bind (fun keys => mergeLoop (deepMerge n) t s keys h)

/-- `DictHelper.Merge(target, sources)`, dict_helper.go:129-137. -/
def merge (n : Nat) : Heap → Nat → List Nat → Option Heap
  | h, _, [] => some h
  | h, t, s :: rest => (deepMerge n h t s).bind (fun h' => merge n h' t rest)

end Verif.HeapOps
