import Verif.Model.Arith

/-!
Model of `min` and `max` for any arguments (/repo/template/math_stats.go:21-22, /repo/template/math_utilities.go:133-158). What is done with numbers only is in the model `Math`.
-/

namespace Verif.MinMax
open Verif Verif.Value Verif.Text Verif.Arith

/-- `collections.ToStrings(values)`, /repo/collections/string_util.go:80: the function `toStrings` of the library sprig, which drops the values that are nil. -/
def texts (values : List Value) : List Text := (values.filter fun v => match v with | .nil => false | _ => true).map sprint

/-- One round of the loop of `compareStrings`, /repo/template/math_utilities.go:153-155. -/
def better (useMin : Bool) (result value : Text) : Text := if useMin && lt value result || !useMin && lt result value then value else result

/-- `compareStrings`, /repo/template/math_utilities.go:149-158; `none` is the panic of `sa[0]` when there is no text. -/
def compareStrings (useMin : Bool) (values : List Value) : Option Text :=
  match texts values with
  | [] => none
  | t :: ts => some (ts.foldl (better useMin) t)

/-- `compareNumerics`, /repo/template/math_utilities.go:133-147: `min` with `true` and `max` with `false`. `smaller` and `larger` are `math.Min` and `math.Max`; `none` is the panic of `numerics[0]` or of
`compareStrings`, which the template engine turns into an error. -/
def compareNumerics (N : Nums) (smaller larger : N.F → N.F → N.F) (useMin : Bool) (values : List Value) : Option Value :=
  if values.length = 0 then some .nil
  else
    match floats N values with
    | none => (compareStrings useMin values).map .str
    | some [] => none
    | some (x :: xs) => some (N.out (xs.foldl (if useMin then smaller else larger) x))

/-- `min(values...)`, /repo/template/math_stats.go:21. -/
def min (N : Nums) (smaller larger : N.F → N.F → N.F) (values : List Value) : Option Value := compareNumerics N smaller larger true values

/-- `max(values...)`, /repo/template/math_stats.go:22. -/
def max (N : Nums) (smaller larger : N.F → N.F → N.F) (values : List Value) : Option Value := compareNumerics N smaller larger false values

end Verif.MinMax
