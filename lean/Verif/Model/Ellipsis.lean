import Verif.Base.Space
import Verif.Model.ConvertData
/-!
# Calls with a list of arguments, and results read as data

Model of `ellipsis`, `tryConvert` and `exec` (template/extra_runtime.go:404-430 and 543-582) and of `data` (template/extra_data.go:440-506). The
execution of templates (see `Verif.Model.Include`) and of commands (see `Verif.Model.Script`) are parameters, as are the formats of data.
-/

namespace Verif.Ellipsis
open Verif Text

/-- What the calls depend on. `render` is `runTemplate` with a dictionary or without argument: the text or an error (simplification: with an
error there is no text; the code keeps what was written before the error). -/
structure Env where
  left : Text
  right : Text
  render : Text → Option (GoMap GoVal) → Except Text Text
  converters : GoMap Convert.Converter

/-- extra_runtime.go:544-549 and 562-568: the arguments with the last one spread, `none` is the error. Arrays (which are not slices) are left out. -/
def expand (args : List GoVal) : Option (List GoVal) :=
  match args.getLast? with
  | some .nil => some args.dropLast
  | some (.slice _ es) => some (args.dropLast ++ es)
  | _ => none

/-- The name of an argument, extra_runtime.go:556. -/
def argName (i : Nat) : Text := T "ARG" ++ Nat.toDigits 10 i

/-- `convertArg`, extra_runtime.go:555-559: the words of the code and the dictionary. -/
def convertArg (s : List Text × GoMap GoVal) (arg : GoVal) : List Text × GoMap GoVal :=
  (s.1 ++ ['.' :: argName (s.1.length + 1)], s.2.set (argName (s.1.length + 1)) arg)

/-- The loops, extra_runtime.go:562-568. -/
def convertArgs (args : List GoVal) : List Text × GoMap GoVal := args.foldl convertArg ([], [])

/-- The code of the call, extra_runtime.go:570. -/
def callCode (env : Env) (function : Text) (words : List Text) : Text :=
  env.left ++ ' ' :: (function ++ ' ' :: (join [' '] words ++ ' ' :: env.right))

/-- `strings.SplitN(text, ">: ", 2)`, extra_runtime.go:573: the second part, if there is one. -/
def afterPosition : Text → Option Text
  | [] => none
  | c :: t =>
    match dropPrefix? (T ">: ") (c :: t) with
    | some r => some r
    | none => afterPosition t

/-- The text of an error, extra_runtime.go:572-578. -/
def errorText (e : Text) : Text := (afterPosition e).getD e

/-- How a call ends. -/
inductive Reply where
  | value (v : GoVal)
  | error (e : Text)
  | panic

/-- `dataConverter` on a text, extra_data.go:454-481 and 495-500: the text is executed as a template and its result is converted. -/
def dataConverter (env : Env) (source : Text) : Except Text GoVal :=
  match env.render source none with
  | .error e => .error e
  | .ok content =>
    match Convert.convert true env.converters content .nil with
    | (none, v) => .ok v
    | (some _, _) => .error (T "conversion")

/-- `tryConvert`, extra_runtime.go:404-412: data that is no text replaces the text. `reflect.TypeOf(nil).Kind()` is a panic. -/
def tryConvert (env : Env) (value : Text) : Reply :=
  match dataConverter env value with
  | .error _ => .value (.str false value)
  | .ok .nil => .panic
  | .ok (.str _ _) => .value (.str false value)
  | .ok v => .value v

/-- With an error, the engine gets the error and no value, unless the conversion of the empty text panics (extra_runtime.go:579). -/
def withError (e : Text) : Reply → Reply
  | .panic => .panic
  | _ => .error e

/-- `ellipsis`, extra_runtime.go:543-582. -/
def ellipsis (env : Env) (function : Text) (args : List GoVal) : Reply :=
  match expand args with
  | none => .error (T "the last argument must be a slice")
  | some l =>
    match env.render (callCode env function (convertArgs l).1) (some (convertArgs l).2) with
    | .ok result => tryConvert env result
    | .error e => withError (errorText e) (tryConvert env [])

/-- What `run` gives: an error, nothing (no command) or the output. -/
inductive Output where
  | error (e : Text)
  | nothing
  | text (s : Text)

/-- `exec`, extra_runtime.go:415-430. -/
def exec (env : Env) : Output → Reply
  | .error e => .error e
  | .nothing => .value .nil
  | .text s =>
    match Convert.convert true env.converters s .nil with
    | (none, v) => .value v
    | (some _, _) => .value (.str false s)

/-- `data` on a text, extra_data.go:454-481. -/
def data (env : Env) (source : Text) : Reply :=
  match dataConverter env source with
  | .ok v => .value v
  | .error e => .error e

end Verif.Ellipsis
