import Verif.Model.Value
import Verif.Model.GoVal
/-!
# Specification of the functions of templates on texts
-/

namespace Verif.Spec
open Verif

/-- What a list of arguments designates: the elements of the list if it is the only argument, nothing for nil alone, otherwise the arguments. -/
inductive SpreadTo : List Value → List Value → Prop
  | list (l : List Value) : SpreadTo [.list l] l
  | nil : SpreadTo [.nil] []
  | one (v : Value) : v ≠ .nil → (∀ l, v ≠ .list l) → SpreadTo [v] [v]
  | none : SpreadTo [] []
  | many (v w : Value) (l : List Value) : SpreadTo (v :: w :: l) (v :: w :: l)

/-- The values that a test takes for false: nothing, false, zero, the empty text, an empty collection, a nil pointer or function. -/
inductive FalseTest : GoVal → Prop
  | nothing : FalseTest .nil
  | false : FalseTest (.bool false)
  | int (ty) : FalseTest (.int ty 0)
  | uint (ty) : FalseTest (.uint ty 0)
  | flt (single) : FalseTest (.flt single 0)
  | str (named) : FalseTest (.str named [])
  | slice (ty) : FalseTest (.slice ty [])
  | map (ty) : FalseTest (.map ty [])
  | pointer : FalseTest .nilptr
  | other (s) : FalseTest (.opaque true s)

end Verif.Spec
