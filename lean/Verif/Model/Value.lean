import Verif.Base.Map
/-!
# Values and their printed form
-/

namespace Verif

/-- The values handled by lists and dictionaries, after conversion by
`BaseHelper.TryConvert` (collections/implementation/base_helper.go:209-218): scalars, generic lists
(`baseList`, collections/implementation/generic.go:13) and dictionaries (`baseDict`, generic.go:98).

Simplifications: one implementation type of lists and dictionaries (the json, yaml, hcl and xml variants are
generated from the same code); integers are unbounded; a float is identified by its printed form (`flt`, NaN
excluded); other Go types (structs, functions, times, ...) are left out.  `list` and `dict` are pure values here:
aliasing is treated in the heap models. -/
inductive Value where
  | nil
  | bool (b : Bool)
  | int (i : Int)
  | flt (repr : Text)
  | str (s : Text)
  | list (l : List Value)
  | dict (d : List (Text × Value))
  deriving Inhabited

namespace Value

/-- Decimal text of an integer (`%d`/`%v`). -/
def intText : Int → Text
  | .ofNat n => Nat.toDigits 10 n
  | .negSucc n => '-' :: Nat.toDigits 10 (n + 1)

mutual
/-- `fmt.Sprint(v)` (the `%v` form).  Lists print through `baseList.String`
(collections/implementation/list_helper.go:10, `fmt.Sprint` of the slice: elements in `%v` form separated by one
space within brackets) and dictionaries through `baseDict.String`
(collections/implementation/dict_helper.go:10-17: `dict[k:v k:v]`, keys in increasing order). -/
def sprint : Value → Text
  | .nil => T "<nil>"
  | .bool true => T "true"
  | .bool false => T "false"
  | .int i => intText i
  | .flt r => r
  | .str s => s
  | .list l => T "[" ++ Text.join [' '] (sprintElems l) ++ T "]"
  | .dict d =>
    T "dict[" ++ Text.join [' '] ((Text.sortBy Prod.fst (sprintEntries d)).map (fun e => e.1 ++ ':' :: e.2)) ++ T "]"
/-- Printed elements of a list. -/
def sprintElems : List Value → List Text
  | [] => []
  | v :: l => sprint v :: sprintElems l
/-- Printed values of a dictionary with their keys, in iteration order. -/
def sprintEntries : List (Text × Value) → List (Text × Text)
  | [] => []
  | (k, v) :: l => (k, sprint v) :: sprintEntries l
end

theorem sprintElems_eq_map (l : List Value) : sprintElems l = l.map sprint := by
  induction l with
  | nil => simp [sprintElems]
  | cons v l ih => simp [sprintElems, ih]

theorem sprintEntries_eq_map (l : List (Text × Value)) :
    sprintEntries l = l.map (fun e => (e.1, sprint e.2)) := by
  induction l with
  | nil => simp [sprintEntries]
  | cons e l ih => obtain ⟨k, v⟩ := e; simp [sprintEntries, ih]

/-- Go's `a == b` on interface values: `none` is the runtime panic raised when both sides hold the same
non-comparable type (two lists or two dictionaries); different dynamic types are simply different. -/
def goEq : Value → Value → Option Bool
  | .nil, .nil => some true
  | .bool a, .bool b => some (a == b)
  | .int a, .int b => some (a == b)
  | .flt a, .flt b => some (a == b)
  | .str a, .str b => some (a == b)
  | .list _, .list _ => none
  | .dict _, .dict _ => none
  | _, _ => some false

/-- Scalars: the values that are neither lists nor dictionaries. -/
def isScalar : Value → Bool
  | .list _ => false
  | .dict _ => false
  | _ => true

end Value
end Verif
