import Verif.Model.AutoWrap
import Verif.Model.HclOut
/-!
# Writing JSON

Model of `toJson`, `toPrettyJson` and `toQuotedJson` (/repo/template/extra_data.go:332-346), and of the quoted forms of HCL (305-309, 321-325). The first ones call `json.Marshal` and `json.MarshalIndent` of the standard
library (/repo/json/json.go:13-22), modelled here.
-/

namespace Verif.JsonOut
open Verif Verif.Text

/-- A character of a text, as the library writes it: quotes, backslashes, control characters, `<`, `>`, `&` and two line separators are escaped. -/
def escape (c : Char) : Text :=
  if c = '"' ∨ c = '\\' then ['\\', c]
  else if c = '\n' then ['\\', 'n']
  else if c = '\r' then ['\\', 'r']
  else if c = '\t' then ['\\', 't']
  else if c.toNat = 8 then ['\\', 'b']
  else if c.toNat = 12 then ['\\', 'f']
  else if c.toNat < 32 ∨ c = '<' ∨ c = '>' ∨ c = '&' ∨ c.toNat = 0x2028 ∨ c.toNat = 0x2029 then '\\' :: 'u' :: Quote.hex 4 c.toNat
  else [c]

/-- A text in quotes. Texts are valid UTF-8. -/
def string (s : Text) : Text := '"' :: (s.flatMap escape ++ ['"'])

mutual
/-- A value as the library writes it at a depth: `nl` is put before the elements and before the end of collections that are not empty, `colon` after keys; keys
are in increasing order. `fl` writes floats. Lists and dictionaries of the tool are slices and maps for the library. Simplification: the nil list, written `null`, is
left out, and so are infinite numbers, which are an error. -/
def write (fl : Text → Text) (nl : Nat → Text) (colon : Text) (depth : Nat) : Value → Text
  | .nil => T "null"
  | .bool true => T "true"
  | .bool false => T "false"
  | .int i => Value.intText i
  | .flt r => fl r
  | .str s => string s
  | .list [] => T "[]"
  | .list (v :: l) =>
    '[' :: (nl (depth + 1) ++ join (',' :: nl (depth + 1)) (writeElems fl nl colon (depth + 1) (v :: l)) ++ nl depth ++ [']'])
  | .dict [] => T "{}"
  | .dict (e :: d) =>
    '{' :: (nl (depth + 1) ++ join (',' :: nl (depth + 1))
      ((sortBy Prod.fst (writeEntries fl nl colon (depth + 1) (e :: d))).map (fun e => string e.1 ++ colon ++ e.2)) ++ nl depth ++ ['}'])
/-- The elements of a list. -/
def writeElems (fl : Text → Text) (nl : Nat → Text) (colon : Text) (depth : Nat) : List Value → List Text
  | [] => []
  | v :: l => write fl nl colon depth v :: writeElems fl nl colon depth l
/-- The values of a dictionary, with their keys. -/
def writeEntries (fl : Text → Text) (nl : Nat → Text) (colon : Text) (depth : Nat) : List (Text × Value) → List (Text × Text)
  | [] => []
  | (k, v) :: l => (k, write fl nl colon depth v) :: writeEntries fl nl colon depth l
end

/-- `toJson` (/repo/template/extra_data.go:332-335). -/
def toJson (fl : Text → Text) (v : Value) : Text := write fl (fun _ => []) (T ":") 0 v

/-- `toPrettyJson` (/repo/template/extra_data.go:337-340): two spaces for each depth. -/
def toPrettyJson (fl : Text → Text) (v : Value) : Text := write fl (fun d => '\n' :: List.replicate (2 * d) ' ') (T ": ") 0 v

/-- `toQuotedJson` (/repo/template/extra_data.go:342-346): the JSON as `%q` writes it, without the quotes at both ends; `pr` is `unicode.IsPrint`. -/
def toQuotedJson (pr : Char → Bool) (fl : Text → Text) (v : Value) : Text := AutoWrap.escape pr (toJson fl v)

/-- `toQuotedHcl` (/repo/template/extra_data.go:305-309). -/
def toQuotedHcl (pr : Char → Bool) (v : Value) : Text := AutoWrap.escape pr (HclOut.toHcl pr [] [] v)

/-- `toQuotedTFVars` (/repo/template/extra_data.go:321-325). -/
def toQuotedTFVars (pr : Char → Bool) (v : Value) : Text := AutoWrap.escape pr (HclOut.toTFVars pr [] [] v)

end Verif.JsonOut
