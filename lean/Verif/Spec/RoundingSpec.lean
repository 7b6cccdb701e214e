import Verif.Model.Math
import Mathlib.Algebra.Order.Ring.Rat
import Mathlib.Algebra.Order.AbsoluteValue.Basic
/-!
# Specification of the functions that round numbers
-/

namespace Verif.Spec
open Verif Math

/-- A number of 53 significant bits. -/
def IsFloat (x : ℚ) : Prop := ∃ (m e : Int), |m| ≤ 2 ^ 53 ∧ x = m * 2 ^ e

/-- A number of 53 significant bits, the last one being zero. -/
def EvenFloat (x : ℚ) : Prop := ∃ (m e : Int), 2 ^ 51 ≤ |m| ∧ |m| ≤ 2 ^ 52 ∧ x = (2 * m : Int) * 2 ^ e

/-- The floating point number that stands for a number: no other one is closer, and if another one is as close its last bit is zero; its distance is small. -/
def FloatFor (x q : ℚ) : Prop :=
  IsFloat x ∧ (∀ y, IsFloat y → |x - q| ≤ |y - q|) ∧ (∀ y, IsFloat y → y ≠ x → |x - q| = |y - q| → EvenFloat x) ∧ |x - q| * 2 ^ 53 ≤ |q|

/-- The result of a function denotes a number: an integer is given as an integer. -/
def NumberIs (r : Num) (x : ℚ) : Prop := (∃ n : Int, (n : ℚ) = x ∧ r = .int n) ∨ (∀ n : Int, (n : ℚ) ≠ x) ∧ r = .flt x

end Verif.Spec
