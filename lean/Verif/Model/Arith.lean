import Verif.Model.Numbers
import Verif.Model.ListFuncs

/-!
Model of `add`, `mul`, `sub`, `div`, `avg` and of the functions of one number, for arguments that are not only numbers: texts and lists (/repo/template/math_base.go, /repo/template/math_utilities.go:31-127, /repo/template/math_stats.go:7-19).
What is done with numbers themselves is in the model `Math`.
-/

namespace Verif.Arith
open Verif Verif.Value Verif.Text Verif.Numbers

/-- The numbers of `float64`: how they are read (`strconv.ParseFloat`), computed with, and given back (`simplify`, /repo/template/math_utilities.go:129-131). A number that is printed with `%v` and read again is the same number, so that
numbers in lists stay numbers. -/
structure Nums where
  F : Type
  parse : Text → Option F
  plus : F → F → F
  times : F → F → F
  over : F → F → F
  ofNat : Nat → F
  out : F → Value

/-- `toFloat(value)` (/repo/template/math_utilities.go:26-29); `none` is the panic, turned into an error. -/
def toFloat (N : Nums) (v : Value) : Option N.F := N.parse (sprint v)

/-- `toListOfFloats(values)` (/repo/template/math_utilities.go:31-46). -/
def floats (N : Nums) (values : List Value) : Option (List N.F) := (ListOps.clone (convertArgs values)).mapM (toFloat N)

/-- `process(arg, handler)` for numbers (/repo/template/math_utilities.go:64-84). -/
def processF (N : Nums) (values : List N.F) (f : N.F → N.F) : Value :=
  match values with
  | [] => .nil
  | [x] => N.out (f x)
  | xs => .list (xs.map fun x => N.out (f x))

/-- `fmt.Sprint(args...)`: a space between two arguments if neither is a text. -/
def sprintAll : List Value → Text
  | [] => []
  | [v] => sprint v
  | v :: w :: l =>
    let gap := match v, w with
      | .str _, _ => []
      | _, .str _ => []
      | _, _ => [' ']
    sprint v ++ gap ++ sprintAll (w :: l)

/-- The part of `add` for two arguments (/repo/template/math_base.go:23-32): the first is a list of numbers and the second a number. -/
def addPair (N : Nums) : List Value → Option Value
  | [x, y] =>
    match floats N (convertArgs [x]), toFloat N y with
    | some af, some b => some (processF N af fun a => N.plus a b)
    | _, _ => none
  | _ => none

/-- The part of `add` for lists and texts (/repo/template/math_base.go:34-49); `none` is a panic, turned into an error: a missing argument, or the type of nil. -/
def addOther : List Value → Option Value
  | .list x :: rest =>
    match rest with
    | [] => none
    | .nil :: _ => none
    | .list y :: _ => some (.list (ListFuncs.mergeLists [x, y]))
    | y :: _ => some (.list (ListOps.append x [y]))
  | .nil :: _ => none
  | args => some (.str (sprintAll args))

/-- `add(a, args...)` (/repo/template/math_base.go:13-57); `none` is an error. -/
def add (N : Nums) (a : Value) (args : List Value) : Option Value :=
  match a with
  | .nil => some .nil
  | a =>
    let args := convertArgs (a :: args)
    match floats N args with
    | some values => some (N.out (values.foldl N.plus (N.ofNat 0)))
    | none =>
      match addPair N args with
      | some r => some r
      | none => addOther args

/-- The last part of `multiply` for two arguments (/repo/template/math_base.go:83-92): a text is repeated, anything else gives a list. -/
def mulRepeat (x y : Value) : Option Value :=
  match toInt y with
  | none => none
  | some n =>
    if n < 0 then none
    else match x with
      | .str s => some (.str ((List.replicate n.toNat s).flatten))
      | x => some (.list (List.replicate n.toNat x))

/-- `multiply` when the arguments are not all numbers (/repo/template/math_base.go:66-94). The calls of `multiply` for each number of the second list find again a list of numbers and a number. -/
def mulOther (N : Nums) : List Value → Option Value
  | [x, y] =>
    match floats N (convertArgs [x]) with
    | some af =>
      match toFloat N y with
      | some b => some (processF N af fun a => N.times a b)
      | none =>
        match floats N (convertArgs [y]) with
        | some af2 => some (.list (af2.map fun b => processF N af fun a => N.times a b))
        | none => mulRepeat x y
    | none => mulRepeat x y
  | _ => none

/-- `multiply(a, args...)` (/repo/template/math_base.go:59-108). -/
def multiply (N : Nums) (a : Value) (args : List Value) : Option Value :=
  let all := match a with
    | .nil => args
    | a => a :: args
  match a, args with
  | .nil, [] => some .nil
  | .nil, [_] => some .nil
  | _, _ =>
    match floats N (convertArgs all) with
    | some [] => some (.int 0)
    | some values => some (N.out (values.foldl N.times (N.ofNat 1)))
    | none => mulOther N (convertArgs all)

/-- `process(arg, handler)` with any handler of one number (/repo/template/math_utilities.go:64-84, 86-108): `abs`, `ceil`, `sqrt` ... -/
def unary (N : Nums) (f : N.F → N.F) (a : Value) : Option Value := process a fun v => (toFloat N v).map fun x => N.out (f x)

/-- `processFloat2(a, b, handler)` (/repo/template/math_utilities.go:90-94): `sub`, `div`, `mod`, `pow`. The handler can panic (division by zero), the second argument is read for each element. -/
def binary (N : Nums) (f : N.F → N.F → Option N.F) (a b : Value) : Option Value :=
  process a fun v => (toFloat N v).bind fun x => (toFloat N b).bind fun y => (f x y).map N.out

/-- `average(arg1, args...)` (/repo/template/math_stats.go:7-19). -/
def average (N : Nums) (a : Value) (args : List Value) : Option Value :=
  match a with
  | .nil => none
  | a =>
    match convertArgs (a :: args) with
    | [] => some (.int 0)
    | x :: xs => (add N x xs).bind fun sum => (toFloat N sum).map fun s => N.out (N.over s (N.ofNat (x :: xs).length))

end Verif.Arith
