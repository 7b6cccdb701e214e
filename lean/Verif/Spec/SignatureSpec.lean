import Verif.Model.Signature
/-!
# Specification of the signatures shown in the help
-/

namespace Verif.Spec
open Verif Verif.Text

/-- A type as it is shown: `interface{}` without a space, and without the name of the package `collections`. -/
def shownType (t : Text) : Text := replaceAll (T "collections.") [] (replaceAll (T "interface {}") (T "interface{}") t)

/-- The name shown for the parameter at position `i` (from 0): the one declared, otherwise `args` for the last one of a variadic function and `arg` with the position
(from 1) for the others. -/
inductive ParameterName (names : List Text) (i : Nat) : Bool → Text → Prop
  | declared (rest : Bool) (n : Text) : names[i]? = some n → ParameterName names i rest n
  | rest : names.length ≤ i → ParameterName names i true (T "args")
  | position : names.length ≤ i → ParameterName names i false (T "arg" ++ Nat.toDigits 10 (i + 1))

/-- The type shown for a parameter: `...` and the type of the elements for the last one of a variadic function, whose type is a slice. -/
inductive ParameterType : Bool → Text → Text → Prop
  | rest (e : Text) : ParameterType true (T "[]" ++ e) (T "..." ++ shownType e)
  | plain (t : Text) : ParameterType false t (shownType t)

/-- The results shown: all of them, but an error at the end. -/
inductive ShownResults : List Text → List Text → Prop
  | error (rs : List Text) : ShownResults (rs ++ [T "error"]) (rs.map shownType)
  | plain (rs : List Text) : rs.getLast? ≠ some (T "error") → ShownResults rs (rs.map shownType)

/-- A type of function that the language has: the last parameter of a variadic function is a slice. -/
def FunctionType (f : Signature.FuncType) : Prop := f.variadic = true → ∃ before e, f.ins = before ++ [T "[]" ++ e]

end Verif.Spec
