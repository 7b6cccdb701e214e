import Verif.Model.Value
import Verif.Model.Hcl
import Verif.Model.Strings
import Verif.Base.Space
/-!
# HCL output

Model of `marshalHCL` (hcl/utilities.go:67-248) and of its entry points (hcl/hcl.go). The data is already native
(collections.ToNativeRepresentation): null, booleans, numbers, texts, lists and maps.
-/

namespace Verif
namespace HclOut

open Text

/-- `specialFormat`, hcl/utilities.go:74. -/
def marker : Text := T "#HCL_ARRAY_MAP#!"

/-- The replacements of lines 88-95. -/
def heredocBody (quoted : Text) : Text :=
  let t := (quoted.drop 1).dropLast
  let t := replaceAll (T "\\n") (T "\n") t
  let t := replaceAll (T "\\\\") (T "\\") t
  let t := replaceAll (T "\\\"") (T "\"") t
  let t := replaceAll (T "\\r") (T "\r") t
  let t := replaceAll (T "\\t") (T "\t") t
  Strings.unIndent t

/-- The case of a string, hcl/utilities.go:84-100. -/
def renderText (pr : Char → Bool) (indent : Text) (s : Text) : Text :=
  let q := Quote.quote pr s
  if indent ≠ [] ∧ contains (T "\\n") q then
    let body := heredocBody q
    if hasSuffix (T "\n") body then T "<<HCLVALUE\n" ++ body ++ T "HCLVALUE" else q
  else q

/-- The layout of a list from its rendered elements, hcl/utilities.go:121-134. -/
def layoutList (pre indent : Text) (rs : List Text) : Text :=
  let total := (rs.map byteLen).foldl (· + ·) 0
  let newLine := rs.any (contains (T "\n"))
  if (total > 60 ∧ indent ≠ []) ∨ newLine then T "[\n" ++ Strings.indent (join (T ",\n") rs) (pre ++ indent) ++ T ",\n]"
  else T "[" ++ join (if indent ≠ [] then T ", " else T ",") rs ++ T "]"

/-- What `TryAsDictionary` accepts among native values (line 184); nil is converted to an empty dictionary. -/
def dictLike : Value → Bool
  | .dict _ => true
  | .nil => true
  | _ => false

/-- `%*s` with a negative width: blanks are added on the right; the width counts characters. -/
def padRight (w : Nat) (s : Text) : Text := s ++ List.replicate (w - s.length) ' '

/-- `keyLen` after the loop of lines 154-164: the longest key (in bytes) of the entries rendered on one line, if there is an
indentation. The loop follows the random order of the map; the maximum does not depend on it. -/
def keyWidth (indent : Text) (es : List (Text × Value × Text)) : Nat :=
  if indent = [] then 0
  else es.foldl (fun n e => if contains (T "\n") e.2.2 then n else max n (byteLen e.1)) 0

/-- The value of `equal`, hcl/utilities.go:183-190. -/
def equalSign (full multi : Bool) (indent : Text) (v : Value) : Text :=
  if dictLike v && full then
    if multi then T " " else if indent = [] then [] else T " = "
  else if indent ≠ [] then T " = " else T "="

/-- The width of the key of an entry, hcl/utilities.go:196-201. -/
def entryWidth (pr : Char → Bool) (indent eq k r : Text) (width : Nat) : Nat :=
  if indent = [] then if eq = [] ∧ ¬ hasPrefix (T "{") r then byteLen (Hcl.id pr k) + 1 else 0 else width

/-- The text of an entry, hcl/utilities.go:192-203. -/
def entryText (pr : Char → Bool) (indent eq k r : Text) (width : Nat) : Text :=
  if contains marker r then replaceAll marker (Hcl.id pr k) r
  else padRight (entryWidth pr indent eq k r width) (Hcl.id pr k) ++ eq ++ r

/-- One turn of the loop over the keys, hcl/utilities.go:168-204: the items and `keyLen`. -/
def itemStep (pr : Char → Bool) (full multi : Bool) (indent : Text) (st : List Text × Nat) (e : Text × Value × Text) : List Text × Nat :=
  if contains (T "\n") e.2.2 ≠ multi then st
  else
    let st := if multi ∧ st.1 ≠ [] then (st.1 ++ [[]], 0) else st
    let eq := equalSign full multi indent e.2.1
    (st.1 ++ [entryText pr indent eq e.1 e.2.2 st.2],
     if contains marker e.2.2 then st.2 else entryWidth pr indent eq e.1 e.2.2 st.2)

/-- The items of a map from its rendered entries in the order of the keys, hcl/utilities.go:166-205: the ones of one line first. -/
def itemTexts (pr : Char → Bool) (full : Bool) (indent : Text) (es : List (Text × Value × Text)) : List Text :=
  let st := es.foldl (itemStep pr full false indent) ([], keyWidth indent es)
  (es.foldl (itemStep pr full true indent) st).1

/-- The end of the case of a map, hcl/utilities.go:207-217. -/
def wrapItems (head : Bool) (pre indent : Text) (items : List Text) : Text :=
  if head then join (if indent ≠ [] then T "\n" else T " ") items
  else if indent = [] ∨ items = [] then T "{" ++ join (T " ") items ++ T "}"
  else T "{\n" ++ Strings.indent (join (T "\n") items) (pre ++ indent) ++ T "\n}"

/-- The case of a map from its rendered entries, hcl/utilities.go:136-217: alone, a key with a map is written as a label. -/
def layoutDict (pr : Char → Bool) (full head : Bool) (pre indent : Text) : List (Text × Value × Text) → Text
  | [(k, .dict d, r)] =>
    if full ∧ k ≠ [] then Hcl.id pr k ++ T " " ++ r
    else wrapItems head pre indent (itemTexts pr full indent [(k, .dict d, r)])
  | es => wrapItems head pre indent (itemTexts pr full indent (sortBy Prod.fst es))

/-- A list with one map is replaced by this map, hcl/utilities.go:76-79. The branch of lines 104-120 is therefore never taken. -/
def layoutElems (pre indent : Text) : List Value → List Text → Text
  | [.dict _], [r] => r
  | _, rs => layoutList pre indent rs

/-- Numbers and booleans, hcl/utilities.go:82-83, and nil, lines 68-71. -/
def scalarText : Value → Text
  | .nil => T "null"
  | v => v.sprint

mutual
/-- `marshalHCL` below the top, with `head` false and no prefix, hcl/utilities.go:67-224. The error of unknown types cannot occur:
the data is native. -/
def render (pr : Char → Bool) (full : Bool) (indent : Text) : Value → Text
  | .nil => scalarText .nil
  | .bool b => scalarText (.bool b)
  | .int i => scalarText (.int i)
  | .flt r => scalarText (.flt r)
  | .str s => renderText pr indent s
  | .list l => layoutElems [] indent l (renderElems pr full indent l)
  | .dict d => layoutDict pr full false [] indent (renderEntries pr full indent d)
def renderElems (pr : Char → Bool) (full : Bool) (indent : Text) : List Value → List Text
  | [] => []
  | v :: l => render pr full indent v :: renderElems pr full indent l
def renderEntries (pr : Char → Bool) (full : Bool) (indent : Text) : List (Text × Value) → List (Text × Value × Text)
  | [] => []
  | (k, v) :: l => (k, v, render pr full indent v) :: renderEntries pr full indent l
end

/-- `marshalHCL` with all its arguments, hcl/utilities.go:67-224. -/
def marshal (pr : Char → Bool) (full head : Bool) (pre indent : Text) : Value → Text
  | .list [.dict d] => layoutDict pr full head pre indent (renderEntries pr full indent d)
  | .list l => layoutList pre indent (renderElems pr full indent l)
  | .dict d => layoutDict pr full head pre indent (renderEntries pr full indent d)
  | v => render pr full indent v

/-- `Marshal` and `MarshalIndent`, hcl/hcl.go. -/
def toHcl (pr : Char → Bool) (pre indent : Text) (v : Value) : Text := marshal pr true true pre indent v
/-- `MarshalInternal`, hcl/hcl.go. -/
def toInternal (pr : Char → Bool) (v : Value) : Text := marshal pr false false [] [] v
/-- `MarshalTFVars` and `MarshalTFVarsIndent`, hcl/hcl.go. -/
def toTFVars (pr : Char → Bool) (pre indent : Text) (v : Value) : Text := marshal pr false true pre indent v

end HclOut
end Verif
