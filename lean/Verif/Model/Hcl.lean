import Verif.Model.GoVal
import Verif.Model.Quote
/-!
# HCL: flattening of decoded data and keys of the output

Model of `flatten` and `id` (hcl/utilities.go:14-41, 250-258).
-/

namespace Verif
namespace Hcl

/-- The case of a slice of maps, once its maps are flattened, hcl/utilities.go:18-28. -/
def flattenMaps : List GoVal → GoVal
  | [m] => m
  | ms => .slice .maps ms

mutual
/-- `flatten`, hcl/utilities.go:16-41. The maps are changed in place, which is left out: the decoded data is not used elsewhere. -/
def flatten : GoVal → GoVal
  | .slice .maps es => flattenMaps (flattenElems es)
  | .map .any es => .map .any (flattenEntries es)
  | .slice .any es => .slice .any (flattenElems es)
  | v => v
def flattenElems : List GoVal → List GoVal
  | [] => []
  | v :: l => flatten v :: flattenElems l
def flattenEntries : List (Text × GoVal) → List (Text × GoVal)
  | [] => []
  | (k, v) :: l => (k, flatten v) :: flattenEntries l
end

/-- `\w` of regular expressions. -/
def isWord (c : Char) : Bool := ('a' ≤ c && c ≤ 'z') || ('A' ≤ c && c ≤ 'Z') || ('0' ≤ c && c ≤ '9') || c == '_'

/-- `identifierRegex`, hcl/utilities.go:250: `^[A-za-z][\w-]*$`. -/
def isIdentifier : Text → Bool
  | [] => false
  | c :: t => (('A' ≤ c && c ≤ 'z') || ('a' ≤ c && c ≤ 'z')) && t.all (fun c => isWord c || c == '-')

/-- `id`, hcl/utilities.go:252-258. -/
def id (pr : Char → Bool) (key : Text) : Text := if isIdentifier key then key else Quote.quote pr key

end Hcl
end Verif
