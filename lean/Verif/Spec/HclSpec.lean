import Verif.Spec.GoValSpec
/-!
# What is meant by keys and data of HCL
-/

namespace Verif
namespace Spec

/-- A Latin letter. -/
def Letter (c : Char) : Prop := 'a' ≤ c ∧ c ≤ 'z' ∨ 'A' ≤ c ∧ c ≤ 'Z'

/-- An identifier: a letter or `_`, then letters, digits, `_` and `-`. -/
inductive Identifier : Text → Prop
  | mk (c : Char) (t : Text) : Letter c ∨ c = '_' → (∀ d ∈ t, Letter d ∨ '0' ≤ d ∧ d ≤ '9' ∨ d = '_' ∨ d = '-') → Identifier (c :: t)

/-- What the HCL decoder gives: scalars, `map[string]interface{}`, `[]interface{}`, and `[]map[string]interface{}` whose elements are maps. -/
inductive HclData : GoVal → Prop
  | leaf (v) : Leaf v → HclData v
  | map (es : List (Text × GoVal)) : (∀ e ∈ es, HclData e.2) → HclData (.map .any es)
  | list (es : List GoVal) : (∀ e ∈ es, HclData e) → HclData (.slice .any es)
  | maps (es : List GoVal) : (∀ e ∈ es, ∃ m, e = .map .any m) → (∀ e ∈ es, HclData e) → HclData (.slice .maps es)

/-- `At v path leaf`: the scalar `leaf` is in the value under the keys of the path, in the lists met on the way. -/
inductive At : GoVal → List Text → GoVal → Prop
  | leaf (v) : Leaf v → At v [] v
  | map (ty) (es : List (Text × GoVal)) (k v path x) : (k, v) ∈ es → At v path x → At (.map ty es) (k :: path) x
  | slice (ty) (es : List GoVal) (v path x) : v ∈ es → At v path x → At (.slice ty es) path x

/-- The result of replacing, everywhere, a list of one map by that map. -/
inductive Unwrapped : GoVal → GoVal → Prop
  | leaf (v) : Leaf v → Unwrapped v v
  | map (es es' : List (Text × GoVal)) : es.map Prod.fst = es'.map Prod.fst →
      (∀ (i : Nat) e e', es[i]? = some e → es'[i]? = some e' → Unwrapped e.2 e'.2) → Unwrapped (.map .any es) (.map .any es')
  | list (es es' : List GoVal) : es.length = es'.length →
      (∀ (i : Nat) e e', es[i]? = some e → es'[i]? = some e' → Unwrapped e e') → Unwrapped (.slice .any es) (.slice .any es')
  | one (m r) : Unwrapped m r → Unwrapped (.slice .maps [m]) r
  | many (es es' : List GoVal) : es.length ≠ 1 → es.length = es'.length →
      (∀ (i : Nat) e e', es[i]? = some e → es'[i]? = some e' → Unwrapped e e') → Unwrapped (.slice .maps es) (.slice .maps es')

end Spec
end Verif
