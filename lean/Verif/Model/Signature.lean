import Verif.Base.Text
/-!
# Signatures of functions in the help

Model of `Arguments`, `Result`, `Signature`, `Aliases`, `Description`, `Group`, `RealName`, `IsAlias` and `String` of `FuncInfo`
(/repo/template/func_table.go:49-160), of `getMethods` and of the joining of `getSignature` (/repo/template/extra_runtime.go:607-630).
-/

namespace Verif.Signature
open Verif Verif.Text

/-- What reflection gives of a function: the types of its parameters and results as they are printed. The last parameter of a variadic function is printed as a slice. -/
structure FuncType where
  ins : List Text
  variadic : Bool
  outs : List Text
deriving DecidableEq

/-- The fields of `FuncInfo` (/repo/template/func_table.go:14-26) but `alias` and `examples`. -/
structure Info where
  name : Text
  function : Option FuncType := none
  group : Text := []
  aliases : List Text := []
  arguments : List Text := []
  description : Text := []
  ins : Text := []
  outs : Text := []

/-- A `FuncInfo`: with `alias`, which is itself never an alias (/repo/template/func_table.go:236-243). -/
structure FuncInfo where
  own : Info
  alias : Option Info := none

/-- The colours of the library, which are texts around the text. -/
structure Colors where
  cyan : Text → Text
  hiBlue : Text → Text
  hiBlack : Text → Text
  green : Text → Text

/-- The two replacements done on the name of a type (/repo/template/func_table.go:119-120, 154-155). -/
def typeName (t : Text) : Text :=
  replaceAll (T "collections.") [] (replaceAll (T "interface {}") (T "interface{}") t)

/-- The loop of `getArguments` (/repo/template/func_table.go:118-140), for the parameters from the `i`-th. -/
def parameters (col : Colors) (isMethod : Bool) (names : List Text) (f : FuncType) (i : Nat) : List Text → List Text
  | [] => []
  | t :: ts =>
    let arg := typeName t
    let last : Bool := f.variadic && ts.isEmpty
    let argName := match names[i]? with
      | some n => n
      | none => if last then T "args" else T "arg" ++ Nat.toDigits 10 (i + 1)
    let arg := if last then T "..." ++ arg.drop 2 else arg
    (if isMethod then col.cyan arg else argName ++ ' ' :: col.cyan arg) :: parameters col isMethod names f (i + 1) ts

/-- `getArguments(isMethod)` (/repo/template/func_table.go:107-141). -/
def getArguments (col : Colors) (isMethod : Bool) (fi : FuncInfo) : Text :=
  match fi.own.ins, fi.own.function with
  | [], some _ =>
    let real := fi.alias.getD fi.own
    match real.function with
    | none => [] -- reflection fails: an alias has the function of its target (/repo/template/func_table.go:241)
    | some f => join (T ", ") (parameters col isMethod real.arguments f (if isMethod then 1 else 0) (f.ins.drop (if isMethod then 1 else 0)))
  | ins, _ => ins

/-- `Arguments()` (/repo/template/func_table.go:52). -/
def arguments (col : Colors) (fi : FuncInfo) : Text := getArguments col false fi

/-- The loop of `Result` (/repo/template/func_table.go:149-157). -/
def outputs : List Text → List Text
  | [] => []
  | [r] => if r = T "error" then [] else [typeName r]
  | r :: r' :: rs => typeName r :: outputs (r' :: rs)

/-- `Result()` (/repo/template/func_table.go:144-163). -/
def result (fi : FuncInfo) : Text :=
  match fi.own.outs, fi.own.function with
  | [], some f =>
    match outputs f.outs with
    | [r] => r
    | rs => T "(" ++ join (T ", ") rs ++ T ")"
  | outs, _ => outs

/-- `getSignature(isMethod)` (/repo/template/func_table.go:96-105). -/
def getSignature (col : Colors) (isMethod : Bool) (fi : FuncInfo) : Text :=
  let c := if fi.alias.isSome then col.hiBlack else col.hiBlue
  let real : FuncInfo := { own := fi.alias.getD fi.own }
  c fi.own.name ++ T "(" ++ getArguments col isMethod real ++ T ") " ++ col.hiBlack (result real)

/-- `Signature()` (/repo/template/func_table.go:64). -/
def signature (col : Colors) (fi : FuncInfo) : Text := getSignature col false fi

/-- `Aliases()`, `Description()`, `Group()` (/repo/template/func_table.go:49, 55, 58). -/
def aliases (fi : FuncInfo) : List Text := (fi.alias.getD fi.own).aliases
@[inherit_doc aliases] def description (fi : FuncInfo) : Text := (fi.alias.getD fi.own).description
@[inherit_doc aliases] def group (fi : FuncInfo) : Text := (fi.alias.getD fi.own).group

/-- `String()` (/repo/template/func_table.go:78-91); the colours surround the formats. -/
def toText (col : Colors) (fi : FuncInfo) : Text :=
  let real := fi.alias.getD fi.own
  (if real.group ≠ [] then col.green (T "Group: " ++ real.group ++ ['\n']) else [])
    ++ (if real.description ≠ [] then col.green (real.description ++ ['\n']) else [])
    ++ signature col fi

/-- `getMethods(object)` (/repo/template/extra_runtime.go:607-621): the methods with their types, the receiver first. -/
def getMethods (col : Colors) (methods : List (Text × FuncType)) : Text :=
  join ['\n'] (methods.map fun m => getSignature col true { own := { name := m.1, function := some m.2 } })

/-- `getSignature(object)` (/repo/template/extra_runtime.go:623-630). -/
def objectSignature (attributes methods : Text) : Text :=
  if attributes ≠ [] ∧ methods ≠ [] then attributes ++ T "\n\n" ++ methods else attributes ++ methods

/-- The entries added for a function and its aliases (/repo/template/func_table.go:236-243). -/
def aliasOf (f : Info) (name : Text) : FuncInfo := { own := { name := name, function := f.function }, alias := some f }

end Verif.Signature
