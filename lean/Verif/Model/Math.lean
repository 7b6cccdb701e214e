import Verif.Model.Float64
import Verif.Model.Strings
/-!
# Arithmetic of templates and numeric ranges

Model of template/math_base.go and template/math_utilities.go on numbers. A numeric argument is given by the exact value of its
text; `toFloat` (math_utilities.go:26-29) rounds it. The conversions of lists and texts that are not numbers are left out.
-/

namespace Verif

namespace Math
open F64

/-- A number returned by a template function. -/
inductive Num where
  | int (i : Int)
  | flt (q : Rat)
  deriving DecidableEq, Repr

/-- `toFloat`, math_utilities.go:26-29: `strconv.ParseFloat` gives the nearest number. -/
def toFloat (q : Rat) : Rat := rnd q

/-- `simplify`, math_utilities.go:129-131. -/
def simplify (v : Rat) : Num := if (v.floor : Rat) = v then .int (F64.toInt64 v) else .flt v

/-- `add` on numbers, math_base.go:52-56. -/
def add (values : List Rat) : Num :=
  simplify (values.foldl (fun result v => rnd (result + toFloat v)) 0)

/-- `multiply` on numbers, math_base.go:101-112. -/
def multiply (values : List Rat) : Num :=
  if values.length = 0 then .int 0
  else simplify (values.foldl (fun result v => rnd (result * toFloat v)) 1)

/-- `subtract`, math_base.go:115-118. -/
def subtract (a b : Rat) : Num := simplify (rnd (toFloat a - toFloat b))

/-- `divide`, math_base.go:120-128; `none` is the error. -/
def divide (a b : Rat) : Option Num :=
  if toFloat b = 0 then none else some (simplify (rnd (toFloat a / toFloat b)))

/-- `math.Mod` (library): the remainder of the truncated division, which is exact. -/
def goMod (a b : Rat) : Rat :=
  let q := a / b
  let t : Int := if q < 0 then -(-q).floor else q.floor
  a - b * t

/-- `modulo`, math_base.go:130-133, for a divisor other than zero (which gives NaN). -/
def modulo (a b : Rat) : Num := simplify (goMod (toFloat a) (toFloat b))

/-- `compareNumerics`, math_utilities.go:133-147, on numbers: the template functions `min` and `max`. -/
def compareNumerics (useMinFunc : Bool) : List Rat → Option Num
  | [] => none
  | v :: rest =>
    some (simplify ((rest.map toFloat).foldl (fun result v => if useMinFunc then min result v else max result v) (toFloat v)))

/-- A decimal number: `± m * 10 ^ e`. -/
structure Dec where
  neg : Bool
  m : Nat
  e : Int
  deriving DecidableEq, Repr

/-- `10 ^ e`. -/
def pow10 : Int → Rat
  | .ofNat k => ((10 ^ k : Nat) : Rat)
  | .negSucc k => mkRat 1 (10 ^ (k + 1))

/-- The value of a decimal number without its sign. -/
def Dec.abs (d : Dec) : Rat := (d.m : Rat) * pow10 d.e

/-- The value of a decimal number. -/
def Dec.value (d : Dec) : Rat := if d.neg then -d.abs else d.abs

/-- The exponent suffix of the verb `%e`: at least two digits. -/
def expText (x : Int) : Text :=
  let digits := Nat.toDigits 10 x.natAbs
  'e' :: (if x < 0 then '-' else '+') :: (if digits.length < 2 then '0' :: digits else digits)

/-- The verb `%g` on the absolute value of a number, given its shortest decimal form (library function: the `%e`
form when the exponent is less than -4 or at least 6, the `%f` form otherwise). Simplification:
the decimal form of the argument is taken as the shortest form of the floating point number, which it is up to 15 digits. -/
def gText (d : Dec) : Text :=
  if d.m = 0 then ['0']
  else
    let digits := Nat.toDigits 10 d.m
    let dp : Int := digits.length + d.e
    let x := dp - 1
    if x < -4 ∨ x ≥ 6 then
      (match digits with
        | [] => []
        | [c] => [c]
        | c :: cs => c :: '.' :: cs) ++ expText x
    else if dp ≤ 0 then '0' :: '.' :: (List.replicate (-dp).toNat '0' ++ digits)
    else if dp < digits.length then digits.take dp.toNat ++ '.' :: digits.drop dp.toNat
    else digits ++ List.replicate (dp - digits.length).toNat '0'

/-- `sprigRound` (library function, sprig's `round`), used by math_utilities.go:190. -/
def sprigRound (val : Rat) (places : Nat) : Rat :=
  let pow := rnd ((10 ^ places : Nat) : Rat)
  let digit := rnd (pow * val)
  let trunc : Int := if digit < 0 then -(-digit).floor else digit.floor
  let div := digit - trunc
  let round : Int := if div ≥ mkRat 1 2 then -(-digit).floor else digit.floor
  rnd (round / pow)

/-- The condition of the loop of `generateNumericArray`, math_utilities.go:189. -/
def rangeCond (limit forward : Bool) (stop current : Rat) : Bool :=
  ((forward && decide (current ≤ stop)) || (!forward && decide (stop ≤ current))) && (limit || decide (current ≠ stop))

/-- The loop of `generateNumericArray`, math_utilities.go:189-193; `none` means that it is still running when the fuel is
exhausted. -/
def rangeLoop (limit forward : Bool) (stop step : Rat) (precision : Nat) : Nat → Rat → List Num → Option (List Num)
  | 0, _, _ => none
  | fuel + 1, current, array =>
    if rangeCond limit forward stop current then
      let current := sprigRound current precision
      rangeLoop limit forward stop step precision fuel (rnd (current + step)) (array ++ [simplify current])
    else some array

/-- The outcome of `generateNumericArray`. -/
inductive RangeResult where
  | error
  | running
  | done (values : List Num)
  deriving DecidableEq, Repr

/-- `generateNumericArray`, math_utilities.go:160-196, for numeric parameters and with a bound on the number of iterations. The
initial capacity of the array (184) is ignored: a very large one makes Go run out of memory. -/
def generate (fuel : Nat) (limit : Bool) (params : List Dec) : RangeResult :=
  let run (start stop step : Rat) (precision : Nat) : RangeResult :=
    if step = 0 then .error
    else
      let forward := decide (start < stop)
      match rangeLoop limit forward stop (if forward then step else -step) precision fuel start [] with
      | some values => .done values
      | none => .running
  match params with
  | [stop] => run (if limit then 1 else 0) (toFloat stop.value) 1 0
  | [start, stop] => run (toFloat start.value) (toFloat stop.value) 1 0
  | [start, stop, step] =>
    match Strings.split2 (gText step) ['.'] with
    | some (_, frac) => run (toFloat start.value) (toFloat stop.value) (toFloat step.abs) frac.length
    | none => .error
  | _ => .error

end Math
end Verif
