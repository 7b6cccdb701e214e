import Verif.Model.DataFuncs
import Verif.Spec.ListSpec

/-!
Words used to state what the functions of templates on dictionaries and lists do (C76, C77).
-/

namespace Verif.Spec
open Verif Verif.Value

/-- Neither a dictionary nor nil: what the functions take for a key. -/
def KeyLike (v : Value) : Prop := (∀ d, v ≠ .dict d) ∧ v ≠ .nil

/-- Neither a list nor nil: what the functions take for an element. -/
def ItemLike (v : Value) : Prop := (∀ l, v ≠ .list l) ∧ v ≠ .nil

/-- Two values that designate the same entry of a dictionary. -/
def SameKey (a b : Value) : Prop := sprint a = sprint b

/-- The dictionary holds the value at the key. -/
def HoldsAt (d : Dict) (k v : Value) : Prop := GoMap.get? d (sprint k) = some v

end Verif.Spec
