import Verif.Model.GoVal
import Verif.Model.Float64
/-!
# Native Go values and decoded data

Model of `MarshalGo` with `getTags` (collections/convert_data.go:146-311) and of the transformation of decoded JSON and YAML (json/json.go:49-76, yaml/yaml.go:40-71).
-/

namespace Verif
namespace GoVal
open Text

/-- A result, an error or a panic. -/
inductive MRes (α : Type) where
  | ok (a : α)
  | error
  | panic
  deriving DecidableEq

/-- Applies a function to a result. -/
def MRes.map {α β : Type} (f : α → β) : MRes α → MRes β
  | .ok a => .ok (f a)
  | .error => .error
  | .panic => .panic

/-- Adds a result to results: the first failure is kept. -/
def MRes.cons {α : Type} : MRes α → MRes (List α) → MRes (List α)
  | .ok a, .ok l => .ok (a :: l)
  | .ok _, e => e
  | .error, _ => .error
  | .panic, _ => .panic

/-- The tag of a field: the first category with a tag that is not empty, convert_data.go:284-289. -/
def tagText (f : FieldInfo) : Text :=
  (([T "hcl", T "json", T "yaml", T "xml", T "toml"].map (fun c => (GoMap.get? f.tags c).getD [])).find? (fun t => t ≠ [])).getD []

/-- The name given by the tag, convert_data.go:291,302. -/
def tagName (f : FieldInfo) : Text := (splitC ',' (tagText f)).headD []

/-- The options given by the tag, convert_data.go:292-295. -/
def tagOptions (f : FieldInfo) : List Text := (splitC ',' (tagText f)).tail

/-- `IsExported`, convert_data.go:308-311. Simplification: letters are ASCII. -/
def isExported : Text → Bool
  | [] => false
  | c :: _ => c.isUpper

/-- The fields with the option `key`, convert_data.go:296-301: no key, the text of the field, or an error for several of them. The text of a value that is not
a string is `<T Value>` in Go, for any type `T`; the type is left out here. -/
def keyOf (fs : List (FieldInfo × GoVal)) : MRes (Option Text) :=
  match fs.filter (fun f => T "key" ∈ tagOptions f.1) with
  | [] => .ok none
  | [(_, .str _ s)] => .ok (some s)
  | [_] => .ok (some (T "<Value>"))
  | _ => .error

/-- The name of a field in the map, convert_data.go:237-239. -/
def fieldName (f : FieldInfo) : Text := if tagName f = [] then f.name else tagName f

/-- The fields that are skipped, convert_data.go:215-236: embedded fields and others are kept only if their name is exported.
Simplification: the type of a field is not an interface. -/
def skipped (f : FieldInfo) (v : GoVal) : Prop := tagName f = T "-" ∨ isExported f.name = false ∨ T "omitempty" ∈ tagOptions f ∧ v.isEmpty = true

instance (f : FieldInfo) (v : GoVal) : Decidable (skipped f v) := inferInstanceAs (Decidable (_ ∨ _ ∨ _ ∧ _))

/-- The entries of a map put over others, convert_data.go:245-247. -/
def mergeEntries (m : GoMap GoVal) (es : List (Text × GoVal)) : GoMap GoVal := es.foldl (fun (m : GoMap GoVal) e => m.set e.1 e.2) m

/-- A field that is not inlined, once converted, convert_data.go:251-264. `v.Interface()` panics if the converted value is nil. -/
def putField (key : Option Text) (f : FieldInfo) (m : GoMap GoVal) : GoVal → MRes (GoMap GoVal)
  | .nil => .panic
  | .map ty es =>
    if es = [] ∧ T "omitempty" ∈ tagOptions f then .ok m
    else match key with
      | some k => .ok (m.set k (.map .any [(fieldName f, .map ty es)]))
      | none => .ok (m.set (fieldName f) (.map ty es))
  | v => match key with
      | some k => .ok (m.set k (.map .any [(fieldName f, v)]))
      | none => .ok (m.set (fieldName f) v)

/-- An inlined field, once converted, convert_data.go:242-250. -/
def inlineField (m : GoMap GoVal) : GoVal → MRes (GoMap GoVal)
  | .map _ es => .ok (mergeEntries m es)
  | _ => .error

/-- One field of a structure, convert_data.go:213-265, with the conversion of its value. -/
def fieldStep (key : Option Text) (f : FieldInfo) (v : GoVal) (r : MRes GoVal) (m : GoMap GoVal) : MRes (GoMap GoVal) :=
  if skipped f v then .ok m
  else match r with
    | .error => .error
    | .panic => .panic
    | .ok w => if T "inline" ∈ tagOptions f ∨ T "squash" ∈ tagOptions f then inlineField m w else putField key f m w

/-- The fields of a structure in order, with the conversions of their values. -/
def fieldSteps (key : Option Text) : List ((FieldInfo × GoVal) × MRes GoVal) → GoMap GoVal → MRes (GoMap GoVal)
  | [], m => .ok m
  | (f, r) :: l, m =>
    match fieldStep key f.1 f.2 r m with
    | .ok m' => fieldSteps key l m'
    | .error => .error
    | .panic => .panic

/-- A structure, convert_data.go:206-266. -/
def marshalStruct (fs : List (FieldInfo × GoVal)) (rs : List (MRes GoVal)) : MRes GoVal :=
  match keyOf fs with
  | .error => .error
  | .panic => .panic
  | .ok key => (fieldSteps key (fs.zip rs) []).map (.map .any)

mutual
/-- `MarshalGo`, convert_data.go:147-272. A pointer to a pointer is printed (as an address, which is left out here). No type of the repository implements
`GoMarshaler`: lines 161-164 are left out. -/
def marshal : GoVal → MRes GoVal
  | .nil => .ok .nil
  | .nilptr => .ok .nil
  | .ptr (.ptr _) => .ok (.str false (T "0x"))
  | .ptr .nilptr => .ok (.str false (T "0x"))
  | .ptr o => marshal o
  | .bool b => .ok (.bool b)
  | .int ty i => .ok (.int (if ty = .i64 then .i64 else .int) i)
  | .uint ty n => .ok (.uint (if ty = .u64 then .u64 else .uint) n)
  | .flt _ q => .ok (.flt false q)
  | .str _ s => .ok (.str false s)
  | .slice _ es => (marshalElems es).map (.slice .any)
  | .map _ es => (marshalEntries es).map (fun rs => .map .any (setAll rs))
  | .struct fs => marshalStruct fs (marshalFields fs)
  | .opaque _ s => .ok (.str false s)
def marshalElems : List GoVal → MRes (List GoVal)
  | [] => .ok []
  | v :: l => (marshal v).cons (marshalElems l)
def marshalEntries : List (Text × GoVal) → MRes (List (Text × GoVal))
  | [] => .ok []
  | (k, v) :: l => ((marshal v).map (Prod.mk k)).cons (marshalEntries l)
def marshalFields : List (FieldInfo × GoVal) → List (MRes GoVal)
  | [] => []
  | (_, v) :: l => marshal v :: marshalFields l
end

/-- A decoded number, json/json.go:69-74: `int(v)` if it has no fraction. -/
def jsonNumber (q : Rat) : GoVal := if (q.floor : Rat) = q then .int .int (F64.toInt64 q) else .flt false q

mutual
/-- `transformElement` of JSON, json/json.go:58-76. `TryAsDictionary` and `TryAsList` make collections of native maps and slices (as `convert`), and of nil an
empty dictionary (base_helper.go:117-118). -/
def jsonElement : GoVal → GoVal
  | .nil => .map .coll []
  | .map _ es => .map .coll (jsonEntries es)
  | .slice _ es => .slice .coll (jsonElems es)
  | .flt false q => jsonNumber q
  | v => v
def jsonElems : List GoVal → List GoVal
  | [] => []
  | v :: l => jsonElement v :: jsonElems l
def jsonEntries : List (Text × GoVal) → List (Text × GoVal)
  | [] => []
  | (k, v) :: l => (k, jsonElement v) :: jsonEntries l
end

mutual
/-- `transformElement` of YAML, yaml/yaml.go:49-71, and of HCL, hcl/utilities.go:52-65: the numbers stay. The keys of maps are already printed here. -/
def yamlElement : GoVal → GoVal
  | .nil => .map .coll []
  | .map _ es => .map .coll (yamlEntries es)
  | .slice _ es => .slice .coll (yamlElems es)
  | v => v
def yamlElems : List GoVal → List GoVal
  | [] => []
  | v :: l => yamlElement v :: yamlElems l
def yamlEntries : List (Text × GoVal) → List (Text × GoVal)
  | [] => []
  | (k, v) :: l => (k, yamlElement v) :: yamlEntries l
end

end GoVal
end Verif
