import Verif.Model.ListOps
/-!
# Dictionaries (`IDictionary`)

Model of collections/implementation/dict_helper.go and generic.go (95-140) on pure values.  A dictionary is a
`GoMap Value` whose order is Go's iteration order.

Simplifications: a nil map is the empty map (Go reads and deletes on a nil map like on an empty one, and `Set`/`Add`
replace it by a fresh one, dict_helper.go:182-184, 191-193, so the dictionary they return is the same); a function
that changes its receiver returns the new dictionary; `Convert` is the identity on `Value`s.
-/

namespace Verif
open Value

/-- The contents of a dictionary. -/
abbrev Dict := GoMap Value

namespace DictOps
open ListOps

/-- `DictHelper.KeysAsString`, collections/implementation/dict_helper.go:120-126. -/
def keysAsString (d : Dict) : List Text := Text.sortBy id (GoMap.keys d)

/-- `DictHelper.GetKeys`, collections/implementation/dict_helper.go:99-107. -/
def getKeys (d : Dict) : List Value := fill 0 ((keysAsString d).map .str) (create d.length)

/-- `DictHelper.Get` with one key, collections/implementation/dict_helper.go:78-79: the map lookup, nil when the key
is missing. -/
def getOne (d : Dict) (key : Value) : Value := (GoMap.get? d (sprint key)).getD .nil

/-- `DictHelper.Get`, collections/implementation/dict_helper.go:74-86. -/
def get (d : Dict) (keys : List Value) : Value :=
  match keys with
  | [] => .nil
  | [k] => getOne d k
  | ks => .list (fill 0 (ks.map (getOne d)) (create ks.length))

/-- `DictHelper.Has`, collections/implementation/dict_helper.go:89-96. -/
def has (d : Dict) (keys : List Value) : Bool :=
  keys.all (fun key => GoMap.has d (sprint key)) && decide (d.length > 0)

/-- `DictHelper.Default`, collections/implementation/dict_helper.go:52-57. -/
def default (d : Dict) (key defVal : Value) : Value :=
  if !(has d [key]) then defVal else get d [key]

/-- `DictHelper.GetValues`, collections/implementation/dict_helper.go:211-217. -/
def getValues (d : Dict) : List Value :=
  fill 0 ((keysAsString d).map (fun k => get d [.str k])) (create d.length)

/-- `DictHelper.delete`, collections/implementation/dict_helper.go:242-250: the dictionary after the call, and the
key named in the error, if any. -/
def deleteLoop (mustExist : Bool) (d : Dict) : List Value → Dict × Option Value
  | [] => (d, none)
  | key :: rest =>
    if mustExist && !(has d [key]) then (d, some key)
    else deleteLoop mustExist (GoMap.erase d (sprint key)) rest

/-- `baseDict.Delete`, collections/implementation/generic.go:130-132 and dict_helper.go:60-62. -/
def delete (d : Dict) (key : Value) (otherKeys : List Value) : Dict × Option Value :=
  deleteLoop true d (key :: otherKeys)

/-- `DictHelper.Flush`, collections/implementation/dict_helper.go:65-71. -/
def flush (d : Dict) (keys : List Value) : Dict :=
  let keys := if keys.length = 0 then getKeys d else keys
  (deleteLoop false d keys).1

/-- `DictHelper.Pop`, collections/implementation/dict_helper.go:171-178. -/
def pop (d : Dict) (keys : List Value) : Value × Dict :=
  if keys.length = 0 then (.nil, d)
  else (get d keys, (deleteLoop false d keys).1)

/-- `DictHelper.Set`, collections/implementation/dict_helper.go:181-187. -/
def set (d : Dict) (key value : Value) : Dict := GoMap.set d (sprint key) value

/-- `collections.TryAsList(v)` restricted to `Value`s, collections/generic_list.go:111-117 and
implementation/base_helper.go:167-205: lists are returned as they are, nil gives an empty list (176-177), anything
else is an error. -/
def tryAsList : Value → Option (List Value)
  | .list l => some l
  | .nil => some []
  | _ => none

/-- `DictHelper.Add`, collections/implementation/dict_helper.go:190-208. -/
def add (d : Dict) (key value : Value) : Dict :=
  let k := sprint key
  match GoMap.get? d k with
  | some current =>
    match tryAsList current with
    | some l => GoMap.set d k (.list (append l [value]))
    | none => GoMap.set d k (.list (append (create 0) [current, value]))
  | none => GoMap.set d k value

/-- `DictHelper.Transpose`, collections/implementation/dict_helper.go:221-235. -/
def transpose (d : Dict) : Dict :=
  (getKeys d).foldl (fun result key =>
    let value := get d [key]
    match tryAsList value with
    | some l => l.foldl (fun result v => add result v key) result
    | none => add result value key) []

mutual
/-- What `DictHelper.Clone` stores for a value, collections/implementation/dict_helper.go:38-45: nested
dictionaries are cloned with all their keys, lists through `list.Clone` (which does not go deeper). -/
def cloneValue : Value → Value
  | .dict d =>
    let copies := cloneEntries d
    .dict ((keysAsString copies).foldl (fun newDict k => GoMap.set newDict k ((GoMap.get? copies k).getD .nil)) [])
  | .list l => .list (ListOps.clone l)
  | v => v
/-- The copies of the values, by key. -/
def cloneEntries : List (Text × Value) → List (Text × Value)
  | [] => []
  | (k, v) :: rest => (k, cloneValue v) :: cloneEntries rest
end

/-- `DictHelper.Clone`, collections/implementation/dict_helper.go:32-49. -/
def clone (d : Dict) (keys : List Value) : Dict :=
  let keys := if keys.length = 0 then getKeys d else keys
  keys.foldl (fun newDict k => set newDict k (cloneValue (getOne d k))) []

/-- `DictHelper.Omit`, collections/implementation/dict_helper.go:163-168; the public `Omit` requires at least one key
(generic.go:138-140). -/
def omitKeys (d : Dict) (key : Value) (otherKeys : List Value) : Dict :=
  flush (clone d []) (key :: otherKeys)

mutual
/-- The value stored for a key present on both sides, collections/implementation/dict_helper.go:151-156: the merge of two
dictionaries; `none` when the target is left as it is. -/
def mergeValue (targetValue sourceValue : Value) : Option Value :=
  match sourceValue with
  | .dict sourceDict =>
    match targetValue with
    | .dict targetDict => some (.dict (deepMerge targetDict sourceDict))
    | _ => none
  | _ => none
termination_by structural sourceValue
/-- `DictHelper.deepMerge`, collections/implementation/dict_helper.go:139-160: the loop over the entries of the
source. Keys missing in the target are copied (146-149). -/
def deepMerge (target source : List (Text × Value)) : List (Text × Value) :=
  match source with
  | [] => target
  | (key, sourceValue) :: rest =>
    match GoMap.get? target key with
    | none => deepMerge (GoMap.set target key sourceValue) rest
    | some targetValue =>
      match mergeValue targetValue sourceValue with
      | some merged => deepMerge (GoMap.set target key merged) rest
      | none => deepMerge target rest
termination_by structural source
end

/-- `DictHelper.Merge`, collections/implementation/dict_helper.go:129-137; a nil source (`none`) is skipped. -/
def merge (target : Dict) (sources : List (Option Dict)) : Dict :=
  sources.foldl (fun target s =>
    match s with
    | none => target
    | some source => deepMerge target source) target

/-- `pick`, template/extra_data.go:506-508. -/
def pick (d : Dict) (keys : List Value) : Dict := clone d keys

/-- `pickv`, template/extra_data.go:514-528. `none` is the error on unwanted keys. The requested keys are passed to
`pick` as one argument (527: `append(otherKeys, key)` without `...`), a list of keys. -/
def pickv (d : Dict) (key : Value) (otherKeys : List Value) : Option Dict :=
  let o := omitKeys d key otherKeys
  if o.length > 0 then none
  else some (pick d [.list (otherKeys ++ [key])])

/-- `pluck`, template/extra_data.go:545-553: the list returned by `Append` is dropped, `result` keeps length 0. -/
def pluck (key : Value) (dicts : List Dict) : List Value :=
  dicts.foldl (fun result d =>
    if has d [key] then (let _ := append result [getOne d key]; result) else result) (create 0)

/-- `createDict` (template function `dict`), template/extra_data.go:533-543. `none` is the error on an odd number of
arguments. -/
def createDict (v : List Value) : Option Dict :=
  if v.length % 2 ≠ 0 then none else some (go [] v)
where
  /-- The loop 539-541. -/
  go (result : Dict) : List Value → Dict
    | k :: v :: rest => go (set result k v) rest
    | _ => result

end DictOps
end Verif
