import Verif.Base.Map
import Verif.Model.Value
/-!
# Go values of any kind

Model of the helpers that look at values through reflection: `IsEmptyValue`, `IIf`, `Default`, `IfUndef` (collections/utils.go:5-53) and the conversions of native
maps and slices to collections (collections/implementation/base_helper.go:99-254).
-/

namespace Verif

/-- Types of signed integers. -/
inductive IntTy where
  | int | i8 | i16 | i32 | i64
  deriving DecidableEq, Repr

/-- Types of unsigned integers. -/
inductive UintTy where
  | uint | u8 | u16 | u32 | u64
  deriving DecidableEq, Repr

/-- How a map or a slice is typed: a collection of the library (`IDictionary`, `IGenericList`), a type convertible to the base collection
(`map[string]interface{}`, `[]interface{}`), a slice of maps (`[]map[string]interface{}`), or another type (`map[int]string`, `[]string`, `[3]int`...). -/
inductive NodeTy where
  | coll | any | maps | typed
  deriving DecidableEq, Repr

/-- The declaration of a field of a structure: its name and its tags by category. -/
structure FieldInfo where
  name : Text
  tags : GoMap Text := []
  deriving DecidableEq, Repr

/-- Go values. Floats are finite and represented by their value; entries of maps are in any order, their keys printed by `fmt.Sprint` (which may give the same
text for two keys of a map of type `typed`); `opaque` stands for the other kinds (functions, channels, complex numbers) with the printed form of the value.
Simplifications: `ptr` points to something else than an interface; nil maps and slices are not distinguished from empty ones; integers are unbounded. -/
inductive GoVal where
  | nil
  | bool (b : Bool)
  | int (ty : IntTy) (i : Int)
  | uint (ty : UintTy) (n : Nat)
  | flt (single : Bool) (q : Rat)
  | str (named : Bool) (s : Text)
  | slice (ty : NodeTy) (es : List GoVal)
  | map (ty : NodeTy) (es : List (Text × GoVal))
  | nilptr
  | ptr (o : GoVal)
  | struct (fs : List (FieldInfo × GoVal))
  | opaque (isNil : Bool) (s : Text)

namespace GoVal

/-- `IsEmptyValue`, collections/utils.go:6-24. -/
def isEmpty : GoVal → Bool
  | .nil => true
  | .bool b => !b
  | .int _ i => i = 0
  | .uint _ n => n = 0
  | .flt _ q => q = 0
  | .str _ s => s.length = 0
  | .slice _ es => es.length = 0
  | .map _ es => es.length = 0
  | .nilptr => true
  | .ptr _ => false
  | .struct _ => false
  | .opaque _ _ => false

/-- `IIf`, collections/utils.go:43-48. -/
def iif (test valueTrue valueFalse : GoVal) : GoVal := if test.isEmpty then valueFalse else valueTrue

/-- `Default`, collections/utils.go:51-53. -/
def default (value defaultValue : GoVal) : GoVal := iif value value defaultValue

/-- The test of `IfUndef`, collections/utils.go:32: nil, or a pointer that is nil. -/
def isUndef : GoVal → Bool
  | .nil => true
  | .nilptr => true
  | _ => false

/-- `IfUndef`, collections/utils.go:27-39. Several values are returned as they are, as a slice. -/
def ifUndef (dflt : GoVal) : List GoVal → GoVal
  | [] => dflt
  | [v] => if v.isUndef then dflt else v
  | vs => .slice .any vs

mutual
/-- `NeedConversion`, base_helper.go:224-254, when it is not strict. -/
def needs : GoVal → Bool
  | .map ty es => ty ≠ .coll || needsEntries es
  | .slice ty es => ty ≠ .coll || needsElems es
  | _ => false
def needsElems : List GoVal → Bool
  | [] => false
  | v :: l => needs v || needsElems l
def needsEntries : List (Text × GoVal) → Bool
  | [] => false
  | (_, v) :: l => needs v || needsEntries l
end

/-- The entries put one by one in a new dictionary: `newDict.Set(key, val)`, base_helper.go:131,144. -/
def setAll (es : List (Text × GoVal)) : GoMap GoVal := es.foldl (fun (m : GoMap GoVal) e => m.set e.1 e.2) []

/-- Adds a converted element. -/
def consM {α : Type} : Option α → Option (List α) → Option (List α)
  | some x, some l => some (x :: l)
  | _, _ => none
/-- The dictionary made from a map whose values are `es`, converted to `conv`: base_helper.go:113-147. -/
def convertMap (ty : NodeTy) (es : List (Text × GoVal)) (conv : Option (List (Text × GoVal))) : Option GoVal :=
  if ty = .typed ∨ ty = .maps ∨ needsEntries es = true then conv.map (fun r => .map .coll (setAll r)) else some (.map .coll es)
/-- The list made from a slice, base_helper.go:172-202. -/
def convertSlice (ty : NodeTy) (es : List GoVal) (conv : Option (List GoVal)) : Option GoVal :=
  if ty = .typed ∨ ty = .maps ∨ needsElems es = true then conv.map (.slice .coll) else some (.slice .coll es)

mutual
/-- `TryConvert`, base_helper.go:209-218, with `tryAsDictionary` 108-150 and `TryAsList` 167-205; `none` is a panic. `Set` of dictionaries and lists calls it
on the value (dict_helper.go:185, list_helper.go:133). The second pass of 139-147 and 196-202 after the first one filled a new collection has
nothing to do (`Lemmas.needs_convert`). -/
def convert : GoVal → Option GoVal
  | .nil => some .nil
  | .nilptr => none
  | .ptr (.map ty es) => convertMap ty es (convertEntries es)
  | .ptr (.slice ty es) => convertSlice ty es (convertElems es)
  | .ptr o => some (.ptr o)
  | .map ty es => convertMap ty es (convertEntries es)
  | .slice ty es => convertSlice ty es (convertElems es)
  | v => some v
/-- The values of a slice, converted. -/
def convertElems : List GoVal → Option (List GoVal)
  | [] => some []
  | v :: l => consM (convert v) (convertElems l)
/-- The values of a map, converted. -/
def convertEntries : List (Text × GoVal) → Option (List (Text × GoVal))
  | [] => some []
  | (k, v) :: l => consM ((convert v).map (Prod.mk k)) (convertEntries l)
end

mutual
/-- `fmt.Sprint`, with `ff` the text of a float: native maps print as `map[k:v ...]` with sorted keys, dictionaries through `baseDict.String`
(dict_helper.go:10-17), slices and lists in brackets. Pointers and structures, printed in other ways, are given a fixed text: nothing is said about them. -/
def print (ff : Rat → Text) : GoVal → Text
  | .nil => T "<nil>"
  | .bool b => if b then T "true" else T "false"
  | .int _ i => Value.intText i
  | .uint _ n => Value.intText n
  | .flt _ q => ff q
  | .str _ s => s
  | .slice _ es => T "[" ++ Text.join [' '] (printElems ff es) ++ T "]"
  | .map ty es =>
    (if ty = .coll then T "dict[" else T "map[") ++
      Text.join [' '] ((Text.sortBy Prod.fst (printEntries ff es)).map (fun e => e.1 ++ ':' :: e.2)) ++ T "]"
  | .nilptr => T "<nil>"
  | .ptr _ => T "&"
  | .struct _ => T "{}"
  | .opaque _ s => s
def printElems (ff : Rat → Text) : List GoVal → List Text
  | [] => []
  | v :: l => print ff v :: printElems ff l
def printEntries (ff : Rat → Text) : List (Text × GoVal) → List (Text × Text)
  | [] => []
  | (k, v) :: l => (k, print ff v) :: printEntries ff l
end

end GoVal
end Verif
