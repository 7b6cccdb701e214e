import Verif.Model.Marshal
import Verif.Model.Quote
/-!
# Bash variables

Model of `ToBash`, `toBash` and `quote` (collections/convert_data.go:74-138, 313-318).
-/

namespace Verif
namespace Bash
open Text

/-- Library functions: `unicode.IsPrint` for characters that are not ASCII, and the text of a value that is not a string (`fmt.Sprint`; for lists and dictionaries
it depends on the type of collections in use). -/
structure Lib where
  isPrint : Char → Bool
  sprint : GoVal → Text

variable (lib : Lib)

/-- The text of a value: a string is its own text. -/
def textOf : GoVal → Text
  | .str _ s => s
  | v => lib.sprint v

/-- `quote`, convert_data.go:313-318. -/
def quote (s : Text) : Text := if s.any (fun c => c ∈ T " \t,[]()") then Quote.quote lib.isPrint s else s

/-- Whether a value is nil. -/
def isNil : GoVal → Bool
  | .nil => true
  | _ => false

/-- `value.Strings()`, convert_data.go:89: `toStrings` of the library sprig, which leaves out nil elements. -/
def strings (es : List GoVal) : List Text := (es.filter (fun e => !isNil e)).map (textOf lib)

/-- A list, convert_data.go:88-100. -/
def bashList (level : Nat) (es : List GoVal) : Text :=
  if level = 2 then join [','] ((strings lib es).map (quote lib)) else T "(" ++ join [' '] ((strings lib es).map (quote lib)) ++ T ")"

/-- What `TryAsList` and `TryAsDictionary` accept, convert_data.go:110-113: nil is a list for them. -/
inductive Shape where
  | array | assoc | scalar
  deriving DecidableEq

/-- The shape of a value. -/
def shape : GoVal → Shape
  | .nil => .array
  | .slice _ _ => .array
  | .map _ _ => .assoc
  | _ => .scalar

/-- One variable at level 0, convert_data.go:110-116. -/
def variableText (k : Text) : Shape × Text → Text
  | (.array, val) => T "declare -a " ++ k ++ T "\n" ++ k ++ T "=" ++ val
  | (.assoc, val) => T "declare -A " ++ k ++ T "\n" ++ k ++ T "=" ++ val
  | (.scalar, val) => k ++ T "=" ++ val

/-- A dictionary from its rendered entries in increasing order of the keys, convert_data.go:105-135. -/
def bashDict (level : Nat) (es : List (Text × Shape × Text)) : Text :=
  match level with
  | 0 => join ['\n'] (es.map (fun e => variableText e.1 e.2))
  | 1 => T "(" ++ join [' '] (es.map (fun e => T "[" ++ e.1 ++ T "]=" ++ replaceAll (T "$") (T "\\$") e.2.2)) ++ T ")"
  | _ => join [','] (es.map (fun e => e.1 ++ T "=" ++ quote lib e.2.2))

mutual
/-- `toBash`, convert_data.go:79-138, on native values. -/
def toBash (level : Nat) : GoVal → Text
  | .str false s => if s.any (fun c => c ∈ T " \t\n[]()") then Quote.quote lib.isPrint s else s
  | .nil => bashList lib level []
  | .slice _ es => bashList lib level es
  | .map _ es => bashDict lib level (sortBy Prod.fst (bashEntries (level + 1) es))
  | v => lib.sprint v
/-- The entries of a dictionary, rendered. -/
def bashEntries (level : Nat) : List (Text × GoVal) → List (Text × Shape × Text)
  | [] => []
  | (k, v) :: l => (k, shape v, toBash level v) :: bashEntries level l
end

/-- `ToBash`, convert_data.go:75-77; `none` is the panic of `must`, or another one. -/
def ToBash (v : GoVal) : Option Text :=
  match GoVal.marshal v with
  | .ok r => some (toBash lib 0 r)
  | _ => none

end Bash
end Verif
