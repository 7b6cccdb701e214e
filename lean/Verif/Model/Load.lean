import Verif.Base.Space
import Verif.Base.Map
/-!
# Loading YAML and HCL

Model of `Unmarshal` of YAML (yaml/yaml.go:30-38, 49-71) and of HCL (hcl/hcl.go:52-68). The parsers of the libraries are
parameters.
-/

namespace Verif
namespace Load
open Text

/-- The text given to the YAML library, yaml/yaml.go:32: each tab is replaced by four spaces, wherever it is. -/
def yamlText (data : Text) : Text := replaceAll (T "\t") (T "    ") data

/-- A key of a YAML mapping, as decoded by the library. Simplification: no keys that are numbers with decimals, dates,
lists or mappings. -/
inductive YKey where
  | null
  | bool (b : Bool)
  | int (i : Int)
  | str (s : Text)
  deriving DecidableEq

/-- `fmt.Sprint(key)`, yaml/yaml.go:54. -/
def YKey.print : YKey → Text
  | .null => T "<nil>"
  | .bool b => if b then T "true" else T "false"
  | .int i => (toString i).toList
  | .str s => s

/-- A decoded YAML document. `α`: the scalars. -/
inductive YDoc (α : Type) where
  | null
  | leaf (a : α)
  | seq (l : List (YDoc α))
  | map (es : List (YKey × YDoc α))

/-- What is loaded: collections with keys that are texts. -/
inductive Loaded (α : Type) where
  | leaf (a : α)
  | list (l : List (Loaded α))
  | dict (d : List (Text × Loaded α))

/-- `transformElement`, yaml/yaml.go:49-71. A mapping is enumerated in any order (a permutation), its keys are printed
and a value replaces the previous one of the same key (lines 52-55); then the values are transformed (lines 58-61), the
elements of lists too (lines 63-66). Nil is taken for an empty dictionary (base_helper.go:117-118). -/
inductive Loads {α : Type} : YDoc α → Loaded α → Prop
  | null : Loads .null (.dict [])
  | leaf (a : α) : Loads (.leaf a) (.leaf a)
  | seq (l : List (YDoc α)) (l' : List (Loaded α)) : l.length = l'.length →
      (∀ (i : Nat) x y, l[i]? = some x → l'[i]? = some y → Loads x y) → Loads (.seq l) (.list l')
  | map (es es' : List (YKey × YDoc α)) (vs : List (Loaded α)) : es.Perm es' → es'.length = vs.length →
      (∀ (i : Nat) e y, es'[i]? = some e → vs[i]? = some y → Loads e.2 y) →
      Loads (.map es) (.dict (((es'.map (fun e => e.1.print)).zip vs).foldl (fun m e => GoMap.set m e.1 e.2) []))

/-- What `Unmarshal` of HCL gives: entries, or a single value. -/
inductive HclResult (α : Type) where
  | entries (es : List (Text × α))
  | value (v : α)

/-- `Unmarshal` of HCL, hcl/hcl.go:52-68, with the parser `lib` of the library, which gives the entries of a text or
fails. When the text is refused it is read again as the value of a key `_`, and only this value is kept (lines 56-63).
Without this key the assignment of nil panics, which gives an error. The transformation of the result (line 66) is
modelled by `Hcl.flatten` and `GoVal.yamlElement`. Simplification: when the key `_` appears again the last entry counts. -/
def hcl {α : Type} (lib : Text → Option (List (Text × α))) (data : Text) : Option (HclResult α) :=
  let bs := trimSpace data ++ T "\n"
  match lib bs with
  | some es => some (.entries es)
  | none =>
    match lib (T "_=" ++ bs) with
    | none => none
    | some es => (es.reverse.find? (fun e => e.1 = T "_")).map (fun e => .value e.2)

end Load
end Verif
