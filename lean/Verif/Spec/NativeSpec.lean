import Verif.Spec.GoValSpec
/-!
# What is meant by native values and decoded data
-/

namespace Verif
namespace Spec

/-- Only nil, booleans, `int`, `int64`, `uint`, `uint64`, `float64`, `string`, `[]interface{}` and `map[string]interface{}`, at every depth. -/
inductive NativeGo : GoVal → Prop
  | nil : NativeGo .nil
  | bool (b) : NativeGo (.bool b)
  | int (ty i) : ty = .int ∨ ty = .i64 → NativeGo (.int ty i)
  | uint (ty n) : ty = .uint ∨ ty = .u64 → NativeGo (.uint ty n)
  | flt (q) : NativeGo (.flt false q)
  | str (s) : NativeGo (.str false s)
  | slice (es : List GoVal) : (∀ e ∈ es, NativeGo e) → NativeGo (.slice .any es)
  | map (es : List (Text × GoVal)) : (es.map Prod.fst).Nodup → (∀ e ∈ es, NativeGo e.2) → NativeGo (.map .any es)

/-- The second value has the content of the first one: the same scalars, whatever their types, what pointers point to, the same elements in the same order, the
same keys with the same values. -/
inductive NativeOf : GoVal → GoVal → Prop
  | nil : NativeOf .nil .nil
  | nilptr : NativeOf .nilptr .nil
  | ptr (o r) : NativeOf o r → NativeOf (.ptr o) r
  | bool (b) : NativeOf (.bool b) (.bool b)
  | int (ty ty' i) : NativeOf (.int ty i) (.int ty' i)
  | uint (ty ty' n) : NativeOf (.uint ty n) (.uint ty' n)
  | flt (s s' q) : NativeOf (.flt s q) (.flt s' q)
  | str (n n' s) : NativeOf (.str n s) (.str n' s)
  | slice (ty ty') (es es' : List GoVal) : es.length = es'.length →
      (∀ (i : Nat) e e', es[i]? = some e → es'[i]? = some e' → NativeOf e e') → NativeOf (.slice ty es) (.slice ty' es')
  | map (ty ty') (es es' : List (Text × GoVal)) : (∀ k, k ∈ es.map Prod.fst ↔ k ∈ es'.map Prod.fst) →
      (∀ k v v', (k, v) ∈ es → (k, v') ∈ es' → NativeOf v v') → NativeOf (.map ty es) (.map ty' es')

/-- Scalars, pointers to something that is not a pointer, slices and maps of them; the printed keys of a map are different. -/
inductive PlainData : GoVal → Prop
  | nil : PlainData .nil
  | nilptr : PlainData .nilptr
  | ptr (o) : o ≠ .nilptr → (∀ p, o ≠ .ptr p) → PlainData o → PlainData (.ptr o)
  | bool (b) : PlainData (.bool b)
  | int (ty i) : PlainData (.int ty i)
  | uint (ty n) : PlainData (.uint ty n)
  | flt (s q) : PlainData (.flt s q)
  | str (n s) : PlainData (.str n s)
  | slice (ty) (es : List GoVal) : (∀ e ∈ es, PlainData e) → PlainData (.slice ty es)
  | map (ty) (es : List (Text × GoVal)) : (es.map Prod.fst).Nodup → (∀ e ∈ es, PlainData e.2) → PlainData (.map ty es)

/-- No structure in the value. -/
inductive StructFree : GoVal → Prop
  | leaf (v) : Leaf v → (∀ fs, v ≠ .struct fs) → (∀ o, v ≠ .ptr o) → StructFree v
  | ptr (o) : StructFree o → StructFree (.ptr o)
  | slice (ty) (es : List GoVal) : (∀ e ∈ es, StructFree e) → StructFree (.slice ty es)
  | map (ty) (es : List (Text × GoVal)) : (∀ e ∈ es, StructFree e.2) → StructFree (.map ty es)

/-- No nil in the lists and maps of the value. -/
inductive NilFree : GoVal → Prop
  | leaf (v) : Leaf v → v ≠ .nil → NilFree v
  | slice (ty) (es : List GoVal) : (∀ e ∈ es, NilFree e) → NilFree (.slice ty es)
  | map (ty) (es : List (Text × GoVal)) : (∀ e ∈ es, NilFree e.2) → NilFree (.map ty es)

/-- What reading JSON is expected to give from the decoded value: a number without fraction becomes an integer, everything else keeps its content. -/
inductive JsonOf : GoVal → GoVal → Prop
  | integer (i : Int) : JsonOf (.flt false i) (.int .int i)
  | number (q : Rat) : (∀ i : Int, q ≠ i) → JsonOf (.flt false q) (.flt false q)
  | bool (b) : JsonOf (.bool b) (.bool b)
  | str (s) : JsonOf (.str false s) (.str false s)
  | slice (ty) (es es' : List GoVal) : es.length = es'.length →
      (∀ (i : Nat) e e', es[i]? = some e → es'[i]? = some e' → JsonOf e e') → JsonOf (.slice ty es) (.slice .coll es')
  | map (ty) (es es' : List (Text × GoVal)) : es.map Prod.fst = es'.map Prod.fst →
      (∀ (i : Nat) e e', es[i]? = some e → es'[i]? = some e' → JsonOf e.2 e'.2) → JsonOf (.map ty es) (.map .coll es')

/-- What `encoding/json` decodes in an interface, without null and without integers that do not fit in 64 bits. -/
inductive JsonData : GoVal → Prop
  | flt (q : Rat) : (∀ i : Int, q = i → -2 ^ 63 ≤ i ∧ i < 2 ^ 63) → JsonData (.flt false q)
  | bool (b) : JsonData (.bool b)
  | str (s) : JsonData (.str false s)
  | slice (es : List GoVal) : (∀ e ∈ es, JsonData e) → JsonData (.slice .any es)
  | map (es : List (Text × GoVal)) : (∀ e ∈ es, JsonData e.2) → JsonData (.map .any es)

end Spec
end Verif

namespace Verif
namespace Spec

/-- The tag of a field: the first of the categories hcl, json, yaml, xml and toml that has one gives a name (possibly empty) and options. -/
inductive HasTag : FieldInfo → Text → List Text → Prop
  | none (f) : (∀ c, GoMap.get? f.tags c = .none) → HasTag f [] []
  | first (f) (before after : List Text) (c name : Text) (opts : List Text) :
      before ++ c :: after = [T "hcl", T "json", T "yaml", T "xml", T "toml"] → (∀ b ∈ before, GoMap.get? f.tags b = .none) →
      GoMap.get? f.tags c = some (Text.join [','] (name :: opts)) → Text.join [','] (name :: opts) ≠ [] → (∀ t ∈ name :: opts, ',' ∉ t) → HasTag f name opts

/-- A field that appears in the result: its name begins with a capital letter, its tag is not `-`, and it is not both empty and marked `omitempty`. -/
def ShownField (f : FieldInfo) (v : GoVal) (name : Text) (opts : List Text) : Prop :=
  name ≠ T "-" ∧ (∃ c rest, f.name = c :: rest ∧ c.isUpper = true) ∧ ¬ (T "omitempty" ∈ opts ∧ EmptyValue v)

/-- The name of a field in the result: the one of the tag, or the one of the field. -/
def shownName (f : FieldInfo) (name : Text) : Text := if name = [] then f.name else name

end Spec
end Verif
