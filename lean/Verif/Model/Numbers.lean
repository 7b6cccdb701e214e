import Verif.Model.DictOps
/-!
# Conversions between texts and integers

`strconv.ParseInt`, `strconv.ParseUint` and the integer verbs of `fmt` (library functions), and the conversions of
template/math_utilities.go built on them.
-/

namespace Verif
open Value

namespace Numbers

/-- The value of a digit, in any base up to 36: the switch of `strconv.ParseUint`. -/
def digitVal (c : Char) : Option Nat :=
  let n := c.toNat
  if 48 ≤ n ∧ n ≤ 57 then some (n - 48)
  else if 97 ≤ n ∧ n ≤ 122 then some (n - 97 + 10)
  else if 65 ≤ n ∧ n ≤ 90 then some (n - 65 + 10)
  else none

/-- The loop of `strconv.ParseUint`, without the bound. -/
def digitsLoop (base : Nat) : Text → Nat → Option Nat
  | [], acc => some acc
  | c :: cs, acc =>
    match digitVal c with
    | some d => if d < base then digitsLoop base cs (acc * base + d) else none
    | none => none

/-- `strconv.ParseUint(s, base, 64)` for a base between 2 and 36; `none` is an error. -/
def parseUint (base : Nat) (s : Text) : Option Nat :=
  if s = [] then none
  else match digitsLoop base s 0 with
    | some n => if n < 2 ^ 64 then some n else none
    | none => none

/-- `strconv.ParseInt(s, base, 64)`, also `strconv.Atoi` with base 10 (`int` has 64 bits). -/
def parseInt (base : Nat) (s : Text) : Option Int :=
  let (neg, digits) := match s with
    | '+' :: r => (false, r)
    | '-' :: r => (true, r)
    | r => (false, r)
  match parseUint base digits with
  | none => none
  | some n =>
    if neg then (if n ≤ 2 ^ 63 then some (-(n : Int)) else none)
    else (if n < 2 ^ 63 then some (n : Int) else none)

/-- The upper case digit of `%X`. -/
def hexDigit (c : Char) : Char :=
  if 97 ≤ c.toNat ∧ c.toNat ≤ 102 then Char.ofNat (c.toNat - 32) else c

/-- The verb `%X` on an integer. -/
def hexText : Int → Text
  | .ofNat n => (Nat.toDigits 16 n).map hexDigit
  | .negSucc n => '-' :: (Nat.toDigits 16 (n + 1)).map hexDigit

/-- `toInt` and `toInt64`, template/math_utilities.go:11-19; `none` is the panic, turned into an error by the callers. -/
def toInt (v : Value) : Option Int := parseInt 10 (sprint v)

/-- `toUnsignedInteger`, template/math_utilities.go:21-24. -/
def toUnsigned (v : Value) : Option Nat := parseUint 10 (sprint v)

/-- `collections.AsList`, collections/generic_list.go:84-90: a list as it is, nil as an empty list, anything else as a
list of one element. -/
def asList : Value → List Value
  | .list l => l
  | .nil => []
  | v => [v]

/-- `convertArgs(nil, args...)`, template/math_utilities.go:110-127. -/
def convertArgs : List Value → List Value
  | [] => []
  | [x] => asList x
  | args => args

/-- `process`, template/math_utilities.go:64-84, for a handler that may fail: nil for no value, the result for one value, the
list of results for several. -/
def process (arg : Value) (handler : Value → Option Value) : Option Value :=
  match asList arg with
  | [] => some .nil
  | [x] => handler x
  | xs => (xs.mapM handler).map .list

/-- `hex`, template/math_bits.go:55-60. -/
def hex (a : Value) : Option Value :=
  process a (fun a => (toInt a).map (fun n => .str (T "0x" ++ hexText n)))

/-- `decimal`, template/math_bits.go:62-67. -/
def decimal (a : Value) : Option Value :=
  process a (fun a => (parseInt 16 (Text.trimPrefix (T "0x") (sprint a))).map .int)

/-! ## Bitwise functions -/

/-- A Go `int64`. -/
abbrev Word := BitVec 64

/-- `toInt64` as a machine word. -/
def toWord (v : Value) : Option Word := (toInt v).map (BitVec.ofInt 64)

/-- The common form of `bitwiseOr`, `bitwiseAnd`, `bitwiseXor`, `bitwiseClear`, template/math_bits.go:19-53. -/
def bitwise (op : Word → Word → Word) (a b : Value) (rest : List Value) : Option Value := do
  let a ← toWord a
  let b ← toWord b
  let rest ← rest.mapM toWord
  pure (.int (rest.foldl op (op a b)).toInt)

/-- `bitwiseOr`, template/math_bits.go:19-26. -/
def bitwiseOr (a b : Value) (rest : List Value) : Option Value := bitwise (· ||| ·) a b rest

/-- `bitwiseAnd`, template/math_bits.go:28-35. -/
def bitwiseAnd (a b : Value) (rest : List Value) : Option Value := bitwise (· &&& ·) a b rest

/-- `bitwiseXor`, template/math_bits.go:37-44. -/
def bitwiseXor (a b : Value) (rest : List Value) : Option Value := bitwise (· ^^^ ·) a b rest

/-- `bitwiseClear`, template/math_bits.go:46-53. -/
def bitwiseClear (a b : Value) (rest : List Value) : Option Value := bitwise (fun x y => x &&& ~~~y) a b rest

/-- `leftShift`, template/math_bits.go:9-12. -/
def leftShift (a b : Value) : Option Value :=
  process a (fun a => do
    let a ← toWord a
    let b ← toUnsigned b
    pure (.int (a <<< b).toInt))

/-- `rightShift`, template/math_bits.go:14-17. -/
def rightShift (a b : Value) : Option Value :=
  process a (fun a => do
    let a ← toWord a
    let b ← toUnsigned b
    pure (.int (a.sshiftRight b).toInt))

end Numbers
end Verif
