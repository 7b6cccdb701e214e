import Verif.Model.Value
import Mathlib.Data.List.Forall2
/-!
# Specification vocabulary for numbers

Nothing here refers to the model of the template functions.
-/

namespace Verif.Spec
open Verif

/-- The 64-bit signed integers. -/
def InInt64 (n : Int) : Prop := -2 ^ 63 ≤ n ∧ n < 2 ^ 63

/-- The number written by a sequence of digits. -/
def positional (base : Nat) : List Nat → Nat
  | [] => 0
  | d :: ds => d * base ^ ds.length + positional base ds

/-- `c` is the hexadecimal digit of value `d`, in lower or upper case. -/
def IsHexChar (c : Char) (d : Nat) : Prop :=
  (T "0123456789abcdef")[d]? = some c ∨ (T "0123456789ABCDEF")[d]? = some c

/-- `t` is a non-empty sequence of hexadecimal digits writing `n`. -/
def HexDigits (t : Text) (n : Nat) : Prop :=
  t ≠ [] ∧ ∃ ds : List Nat, List.Forall₂ IsHexChar t ds ∧ n = positional 16 ds

/-- `t` is a hexadecimal number, with an optional sign. -/
def HexNumber (t : Text) (z : Int) : Prop :=
  (∃ n : Nat, HexDigits t n ∧ z = n) ∨ (∃ r, ∃ n : Nat, t = '+' :: r ∧ HexDigits r n ∧ z = n) ∨
    ∃ r, ∃ n : Nat, t = '-' :: r ∧ HexDigits r n ∧ z = -n

/-- Bit `i` of an integer in two's complement. -/
def bit (n : Int) (i : Nat) : Bool := decide (n / 2 ^ i % 2 = 1)

end Verif.Spec
