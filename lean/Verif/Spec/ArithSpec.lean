import Verif.Model.Arith

/-!
Specification for C84: numbers among values.
-/

namespace Verif.Spec
open Verif Verif.Text Verif.Arith

/-- What is known of the reading of numbers: what is printed for a list, a dictionary or nil is not a number. -/
structure Reads (N : Nums) : Prop where
  list : ∀ t, N.parse ('[' :: t) = none
  dict : ∀ t, N.parse ('d' :: t) = none
  nil : ∀ t, N.parse ('<' :: t) = none

/-- The value is this number: that is how it is printed. -/
def IsNum (N : Nums) (v : Value) (x : N.F) : Prop := N.parse (Value.sprint v) = some x

/-- The values are these numbers, in order. -/
inductive AreNums (N : Nums) : List Value → List N.F → Prop
  | nil : AreNums N [] []
  | cons {v x vs xs} : IsNum N v x → AreNums N vs xs → AreNums N (v :: vs) (x :: xs)

/-- The value is not a number. -/
def NotNum (N : Nums) (v : Value) : Prop := ∀ x, ¬ IsNum N v x

/-- The sum, from the left. -/
def total (N : Nums) : N.F → List N.F → N.F
  | s, [] => s
  | s, x :: xs => total N (N.plus s x) xs

/-- The product, from the left. -/
def product (N : Nums) : N.F → List N.F → N.F
  | s, [] => s
  | s, x :: xs => product N (N.times s x) xs

/-- Something that is added to a list as one more element. -/
def OneElement : Value → Prop
  | .nil => False
  | .list _ => False
  | _ => True

/-- Not a list whose only element is a list. -/
def NotNested (l : List Value) : Prop := ∀ k, l ≠ [.list k]

end Verif.Spec
