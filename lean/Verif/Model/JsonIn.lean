import Verif.Model.Marshal
import Verif.Spec.JsonSpec
/-!
# Reading JSON

Model of `Unmarshal` (/repo/json/json.go:41-47), with the reader of the specification in place of the one of the library.
-/

namespace Verif.JsonIn
open Verif Verif.Spec

mutual
/-- What the library makes of data in an `interface{}`: numbers are floats, read by `num`; the last of several entries with a key is kept. -/
def decoded (num : Text → Rat) : JData → GoVal
  | .null => .nil
  | .bool b => .bool b
  | .num t => .flt false (num t)
  | .str s => .str false s
  | .list l => .slice .any (decodedElems num l)
  | .obj es => .map .any (GoVal.setAll (decodedEntries num es))
/-- The elements of a list. -/
def decodedElems (num : Text → Rat) : List JData → List GoVal
  | [] => []
  | d :: l => decoded num d :: decodedElems num l
/-- The entries of an object. -/
def decodedEntries (num : Text → Rat) : List (Text × JData) → List (Text × GoVal)
  | [] => []
  | (k, d) :: l => (k, decoded num d) :: decodedEntries num l
end

/-- `Unmarshal` (/repo/json/json.go:41-47) into an `interface{}`; `none` is an error. -/
def unmarshal (num : Text → Rat) (t : Text) : Option GoVal := (readJson t).map (fun d => GoVal.jsonElement (decoded num d))

end Verif.JsonIn
