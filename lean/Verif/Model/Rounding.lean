import Verif.Model.Math
/-!
# The functions that round numbers

Model of the functions of template/extra_math.go and template/math_base.go built on `math.Floor`, `math.Ceil`, `math.Trunc`, `math.Abs`, `math.Dim` and `math.Modf`,
for one number, given by the exact value of its text; that a list of numbers gives the list of the results is in the model `Arith`. The functions of the library
are exact (a part of a floating point number is one), apart from the difference in `math.Dim`.
-/

namespace Verif.Rounding
open Verif Math F64

/-- `floor`, extra_math.go:420-423. -/
def floor (q : Rat) : Num := simplify ((toFloat q).floor : Int)

/-- `ceil`, extra_math.go:390-393. -/
def ceil (q : Rat) : Num := simplify (-(-toFloat q).floor : Int)

/-- `math.Trunc`: the integer part (library function). -/
def goTrunc (x : Rat) : Int := if x < 0 then -(-x).floor else x.floor

/-- `trunc`, extra_math.go:497-500. -/
def trunc (q : Rat) : Num := simplify (goTrunc (toFloat q))

/-- `abs`, extra_math.go:380-383. -/
def abs (q : Rat) : Num := simplify (if toFloat q < 0 then -toFloat q else toFloat q)

/-- `dim`, extra_math.go:397-400: the difference, or zero when it is negative. -/
def dim (a b : Rat) : Num :=
  let v := rnd (toFloat a - toFloat b)
  simplify (if v ≤ 0 then 0 else v)

/-- `modf`, math_base.go:135-138: the integer part and the rest, as floating point numbers (math_utilities.go:96-108: they are not simplified). -/
def modf (q : Rat) : Num × Num := (.flt (goTrunc (toFloat q)), .flt (toFloat q - goTrunc (toFloat q)))

end Verif.Rounding
