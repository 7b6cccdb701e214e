import Verif.Spec.ArithSpec

/-!
Specification for C97: the first and the last of some values in an order.
-/

namespace Verif.Spec
open Verif Verif.Text Verif.Arith

/-- `m` is one of `l` and comes before all of them, in the order `r`. -/
def FirstOf {α : Type} (r : α → α → Prop) (l : List α) (m : α) : Prop := m ∈ l ∧ ∀ x ∈ l, r m x

/-- `smaller` and `larger` choose one of two numbers, in the order `r`. -/
structure Chooses {F : Type} (r : F → F → Prop) (smaller larger : F → F → F) : Prop where
  refl : ∀ a, r a a
  trans : ∀ a b c, r a b → r b c → r a c
  smaller : ∀ a b, FirstOf r [a, b] (smaller a b)
  larger : ∀ a b, FirstOf (fun x y => r y x) [a, b] (larger a b)

/-- The order of texts, character by character. -/
def TextLe (a b : Text) : Prop := Text.le a b = true

end Verif.Spec
