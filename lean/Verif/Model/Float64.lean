import Verif.Base.Text
/-!
# Floating point numbers

Go's `float64` (IEEE 754 binary64, a library notion): the rational numbers whose mantissa fits in 53 bits. An operation
gives the representable number nearest to the exact result, ties going to the even mantissa.

Simplifications: the exponent is unbounded (no overflow to infinity, no subnormal numbers), there is no NaN and no
negative zero.
-/

namespace Verif.F64

/-- The integer nearest to `a / b`, ties to even. -/
def rdiv (a b : Nat) : Nat :=
  let q := a / b
  let r := a % b
  if 2 * r < b then q else if b < 2 * r then q + 1 else q + q % 2

/-- `n / d < 2 ^ k`, without fractions. -/
def ltPow (n d : Nat) : Int → Bool
  | .ofNat k => n < d * 2 ^ k
  | .negSucc k => n * 2 ^ (k + 1) < d

/-- The exponent of the last mantissa bit of `n / d`: `2 ^ 52 ≤ (n / d) / 2 ^ e < 2 ^ 53`. -/
def expo (n d : Nat) : Int :=
  let e : Int := (Nat.log2 n : Int) - Nat.log2 d
  if ltPow n d e then e - 53 else e - 52

/-- The nearest representable number to the positive fraction `n / d`. -/
def rndPos (n d : Nat) : Rat :=
  match expo n d with
  | .ofNat k => ((rdiv n (d * 2 ^ k) * 2 ^ k : Nat) : Rat)
  | .negSucc k => mkRat (rdiv (n * 2 ^ (k + 1)) d) (2 ^ (k + 1))

/-- The representable number nearest to a rational number: the rounding of IEEE 754. -/
def rnd (q : Rat) : Rat :=
  if q.num = 0 then 0
  else if q.num < 0 then -(rndPos q.num.natAbs q.den) else rndPos q.num.natAbs q.den

/-- The conversion `int64(f)`, truncation toward zero. Out of range Go leaves the result to the implementation; this is
the one of amd64. -/
def toInt64 (f : Rat) : Int :=
  let t : Int := if f < 0 then -(-f).floor else f.floor
  if -2 ^ 63 ≤ t ∧ t < 2 ^ 63 then t else -2 ^ 63

end Verif.F64
