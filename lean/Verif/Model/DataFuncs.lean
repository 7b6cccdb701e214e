import Verif.Model.DictOps
import Verif.Model.Strings

/-!
Model of the functions that templates use on dictionaries and lists without knowing the type of their arguments: `get`, `hasKey`, `set`, `unset`,
`key`, `content`, `contains`, `containsStrict` and `find` (/repo/template/extra_data.go:360-434, 578-638, /repo/template/slice.go:159-192).

The arguments are `Value`s: native maps and slices are not among them (C20 describes their conversion).
`none` is an error returned to the template.
-/

namespace Verif.DataFuncs
open Verif.Value

/-- `collections.TryAsDictionary(v)` (/repo/collections/dictionary.go:84-90, /repo/collections/implementation/base_helper.go:108-145):
a dictionary is itself, nil is a new empty one, anything else is an error. -/
def tryAsDict : Value → Option Dict
  | .dict d => some d
  | .nil => some []
  | _ => none

/-- The value given for a missing entry (/repo/template/extra_data.go:371-380). -/
def orDefault (result : Value) (defaults : List Value) : Value :=
  match result with
  | .nil =>
    match defaults with
    | [] => .nil
    | [v] => v
    | vs => .list vs
  | v => v

/-- `get(arg1, arg2, defValue...)` (/repo/template/extra_data.go:360-382). -/
def getFn (arg1 arg2 : Value) (defaults : List Value) : Option Value :=
  match tryAsDict arg1 with
  | some d => some (orDefault (DictOps.get d [arg2]) defaults)
  | none =>
    match tryAsDict arg2 with
    | some d => some (orDefault (DictOps.get d [arg1]) defaults)
    | none => none

/-- `hasKey(arg1, arg2)` (/repo/template/extra_data.go:384-394). -/
def hasKeyFn (arg1 arg2 : Value) : Option Bool :=
  match tryAsDict arg1 with
  | some d => some (DictOps.has d [arg2])
  | none =>
    match tryAsDict arg2 with
    | some d => some (DictOps.has d [arg1])
    | none => none

/-- What a function that changes a dictionary leaves in its arguments: `after v d` is the argument `v`, changed into `d` if it is a dictionary; nil is not one, so that
the new dictionary made for it is lost. -/
def after : Value → Dict → Value
  | .dict _, d => .dict d
  | v, _ => v

/-- `set(arg1, arg2, arg3)` (/repo/template/extra_data.go:396-407): the three arguments as they are after the call. -/
def setFn (arg1 arg2 arg3 : Value) : Option (Value × Value × Value) :=
  match tryAsDict arg1 with
  | some d => some (after arg1 (DictOps.set d arg2 arg3), arg2, arg3)
  | none =>
    match tryAsDict arg3 with
    | some d => some (arg1, arg2, after arg3 (DictOps.set d arg1 arg2))
    | none => none

/-- `unset(arg1, arg2)` (/repo/template/extra_data.go:409-420): the two arguments as they are after the call; the error of `Delete` is ignored. -/
def unsetFn (arg1 arg2 : Value) : Option (Value × Value) :=
  match tryAsDict arg1 with
  | some d => some (after arg1 (DictOps.delete d arg2 []).1, arg2)
  | none =>
    match tryAsDict arg2 with
    | some d => some (arg1, after arg2 (DictOps.delete d arg1 []).1)
    | none => none

/-- The dictionary built from the keys and the values of a list (/repo/template/slice.go:183-187). -/
def collectPairs (ps : List (Value × Value)) : Dict :=
  ps.foldl (fun (d : Dict) p => GoMap.set d (sprint p.1) p.2) []

/-- The result for a list (/repo/template/slice.go:183-187). -/
def pairsResult (ps : List (Value × Value)) : Value × Value := (.list (ps.map Prod.fst), .dict (collectPairs ps))

/-- Both results, or the error of either (/repo/template/slice.go:177-181). -/
def consPair : Option (Value × Value) → Option (List (Value × Value)) → Option (List (Value × Value))
  | some p, some ps => some (p :: ps)
  | _, _ => none

mutual
/-- `getSingleMapElement(m)` (/repo/template/slice.go:159-192): the key and the value. -/
def single : Value → Option (Value × Value)
  | .dict [(k, v)] => some (.str k, v)
  | .list l => (singles l).map pairsResult
  | _ => none
/-- The loop over the elements of a list (/repo/template/slice.go:177-181). -/
def singles : List Value → Option (List (Value × Value))
  | [] => some []
  | v :: vs => consPair (single v) (singles vs)
end

/-- `key(v)` (/repo/template/extra_data.go:426-429). -/
def keyFn (v : Value) : Option Value := (single v).map Prod.fst

/-- `content(v)` (/repo/template/extra_data.go:431-434). -/
def contentFn (v : Value) : Option Value := (single v).map Prod.snd

/-- `collections.AsList(v)` (/repo/collections/generic_list.go:84-90): what is not a list is an element. -/
def asList (v : Value) : List Value :=
  match DictOps.tryAsList v with
  | some l => l
  | none => [v]

/-- The search in a list (/repo/template/extra_data.go:606-609); `none` is the panic of a strict comparison, that `trapError` turns into an error. -/
def containsList (strict : Bool) (l elements : List Value) : Option Bool :=
  if strict then ListOps.containsStrict l elements else some (ListOps.contains l elements)

/-- `containsInternal(list, elements, strict)` (/repo/template/extra_data.go:586-610). -/
def containsFn (strict : Bool) (list : Value) (elements : List Value) : Option Bool :=
  match DictOps.tryAsList list, elements with
  | none, [e] =>
    match DictOps.tryAsList e with
    | none =>
      match e with
      | .str s => some (Text.contains (sprint list) s)
      | _ => none
    | some l => containsList strict l [list]
  | _, es => containsList strict (asList list) es

/-- `findInternal(list, element, strict)` (/repo/template/extra_data.go:620-638); positions in a text are counted in characters here (in bytes in the code, which is the same for ASCII). -/
def findFn (strict : Bool) (list element : Value) : Option (List Value) :=
  match list with
  | .str s => some ((Strings.indexAll s (sprint element)).map fun i : Nat => Value.int i)
  | v => if strict then ListOps.findStrict (asList v) element else some (ListOps.find (asList v) element)

end Verif.DataFuncs
