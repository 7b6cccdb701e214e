import Verif.Model.GoVal
/-!
# What is meant by empty values, converted values and equal contents
-/

namespace Verif
namespace Spec

/-- Nothing, false, zero, a text or a collection without elements, a nil pointer. -/
inductive EmptyValue : GoVal → Prop
  | nothing : EmptyValue .nil
  | false : EmptyValue (.bool false)
  | int (ty) : EmptyValue (.int ty 0)
  | uint (ty) : EmptyValue (.uint ty 0)
  | flt (single) : EmptyValue (.flt single 0)
  | str (named) : EmptyValue (.str named [])
  | slice (ty) : EmptyValue (.slice ty [])
  | map (ty) : EmptyValue (.map ty [])
  | pointer : EmptyValue .nilptr

/-- The zero value of its type; for a structure, all the fields are zero values. -/
inductive ZeroValue : GoVal → Prop
  | nothing : ZeroValue .nil
  | false : ZeroValue (.bool false)
  | int (ty) : ZeroValue (.int ty 0)
  | uint (ty) : ZeroValue (.uint ty 0)
  | flt (single) : ZeroValue (.flt single 0)
  | str (named) : ZeroValue (.str named [])
  | slice (ty) : ZeroValue (.slice ty [])
  | map (ty) : ZeroValue (.map ty [])
  | pointer : ZeroValue .nilptr
  | struct (fs : List (FieldInfo × GoVal)) : (∀ f ∈ fs, ZeroValue f.2) → ZeroValue (.struct fs)
  | opaque (s) : ZeroValue (.opaque true s)

/-- Neither a map nor a slice. -/
def Leaf (v : GoVal) : Prop := (∀ ty es, v ≠ .map ty es) ∧ ∀ ty es, v ≠ .slice ty es

/-- Every map is a dictionary and every slice is a list, at every depth; what is behind pointers and in structures does not count. -/
inductive Converted : GoVal → Prop
  | leaf (v) : Leaf v → Converted v
  | slice (es : List GoVal) : (∀ e ∈ es, Converted e) → Converted (.slice .coll es)
  | map (es : List (Text × GoVal)) : (∀ e ∈ es, Converted e.2) → Converted (.map .coll es)

/-- No pointer in the maps and slices of the value. -/
inductive PointerFree : GoVal → Prop
  | leaf (v) : Leaf v → v ≠ .nilptr → (∀ o, v ≠ .ptr o) → PointerFree v
  | slice (ty) (es : List GoVal) : (∀ e ∈ es, PointerFree e) → PointerFree (.slice ty es)
  | map (ty) (es : List (Text × GoVal)) : (∀ e ∈ es, PointerFree e.2) → PointerFree (.map ty es)

/-- The printed keys of every map are different. -/
inductive KeysDiffer : GoVal → Prop
  | leaf (v) : Leaf v → KeysDiffer v
  | slice (ty) (es : List GoVal) : (∀ e ∈ es, KeysDiffer e) → KeysDiffer (.slice ty es)
  | map (ty) (es : List (Text × GoVal)) : (es.map Prod.fst).Nodup → (∀ e ∈ es, KeysDiffer e.2) → KeysDiffer (.map ty es)

/-- The same elements in the same order, the same keys with the same values, whatever the types of the maps and slices. -/
inductive SameGoContent : GoVal → GoVal → Prop
  | leaf (v) : Leaf v → SameGoContent v v
  | slice (ty ty') (es es' : List GoVal) : es.length = es'.length →
      (∀ (i : Nat) e e', es[i]? = some e → es'[i]? = some e' → SameGoContent e e') → SameGoContent (.slice ty es) (.slice ty' es')
  | map (ty ty') (es es' : List (Text × GoVal)) : (∀ k, k ∈ es.map Prod.fst ↔ k ∈ es'.map Prod.fst) →
      (∀ k v v', (k, v) ∈ es → (k, v') ∈ es' → SameGoContent v v') → SameGoContent (.map ty es) (.map ty' es')

/-- Every map is a dictionary (with different keys), at every depth; what is behind pointers and in structures does not count. -/
inductive NativeMapFree : GoVal → Prop
  | leaf (v) : Leaf v → NativeMapFree v
  | slice (ty) (es : List GoVal) : (∀ e ∈ es, NativeMapFree e) → NativeMapFree (.slice ty es)
  | dict (es : List (Text × GoVal)) : (es.map Prod.fst).Nodup → (∀ e ∈ es, NativeMapFree e.2) → NativeMapFree (.map .coll es)

end Spec
end Verif
