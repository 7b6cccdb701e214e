import Verif.Model.Value
/-!
# Specification vocabulary for numeric ranges
-/

namespace Verif.Spec

/-- `x` belongs to the range from `start` toward `stop`; `limit` tells whether `stop` itself belongs to it. -/
def InRange (limit : Bool) (start stop x : Int) : Prop :=
  if start < stop then (if limit then x ≤ stop else x < stop) else (if limit then stop ≤ x else stop < x)

/-- The `i`-th number of the arithmetic progression from `start` toward `stop`. -/
def term (start stop step : Int) (i : Nat) : Int := if start < stop then start + i * step else start - i * step

/-- The number of characters after the point when the integer `m * 10 ^ k` is written as Go does with `%g`: none below one million; from there the notation
has an exponent, as in `1.5e+06`, and its four characters count as decimals. -/
def stepDecimals (m k : Nat) : Nat := if m * 10 ^ k < 10 ^ 6 ∨ m < 10 then 0 else (Nat.toDigits 10 m).length + 3

end Verif.Spec
