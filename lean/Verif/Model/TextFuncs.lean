import Verif.Model.Numbers
import Verif.Model.Strings
import Verif.Model.GoVal
/-!
# Functions of templates on texts, and assertions

Model of `indent`, `nIndent`, `sIndent`, `center`, `wrap` (/repo/template/extra_utils.go:142-174), `char` (/repo/template/extra_data.go:280-285), `raise`, `assert` and
`assertWarning` (/repo/template/extra_runtime.go:632-654).
-/

namespace Verif.TextFuncs
open Verif Verif.Value Verif.Text Verif.Numbers

/-- The text that is indented: the arguments, or the elements of a single list, on lines of their own (/repo/template/extra_utils.go:163-164, 172-173). -/
def lined (args : List Value) : Text := join ['\n'] ((convertArgs args).map sprint)

/-- `sIndent(spacer, args...)` (/repo/template/extra_utils.go:171-174). -/
def sIndent (spacer : Text) (args : List Value) : Text := Strings.indent (lined args) spacer

/-- `indent(space, args...)` (/repo/template/extra_utils.go:162-165); `none` is the panic of `strings.Repeat`, which the engine makes an error. -/
def indent (space : Int) (args : List Value) : Option Text :=
  if space < 0 then none else some (Strings.indent (lined args) (List.replicate space.toNat ' '))

/-- `nIndent(space, args...)` (/repo/template/extra_utils.go:167-169). -/
def nIndent (space : Int) (args : List Value) : Option Text := (indent space args).map ('\n' :: ·)

/-- `center(width, args...)` (/repo/template/extra_utils.go:142-148); `format` is `multicolor.FormatMessage`, `none` is the error. -/
def center (format : List Value → Text) (width : Value) (args : List Value) : Option Text :=
  (parseInt 10 (sprint width)).map fun w => Strings.center (format args) w

/-- `wrap(width, args...)` (/repo/template/extra_utils.go:150-156). -/
def wrap (format : List Value → Text) (width : Value) (args : List Value) : Option Text :=
  (parseInt 10 (sprint width)).map fun w => Strings.wrap (format args) w

/-- `char(value)` (/repo/template/extra_data.go:280-285): the number becomes a byte. -/
def toChar (value : Value) : Option Value :=
  process value fun a => (toInt a).map fun n => .str [Char.ofNat (n % 256).toNat]

/-- `empty` of the library of functions (sprig). -/
def sprigEmpty : GoVal → Bool
  | .nil => true
  | .bool b => !b
  | .int _ i => i = 0
  | .uint _ n => n = 0
  | .flt _ q => q = 0
  | .str _ s => s.length = 0
  | .slice _ es => es.length = 0
  | .map _ es => es.length = 0
  | .nilptr => true
  | .ptr _ => false
  | .struct _ => false
  | .opaque isNil _ => isNil

/-- `default` of the library of functions (sprig), with one value. -/
def sprigDefault (d v : GoVal) : GoVal := if sprigEmpty v then d else v

/-- `isZero(value)` (/repo/template/extra_data.go:662-664): the comparison is with an `int`. -/
def isZero (v : GoVal) : Bool :=
  match sprigDefault (.int .int 0) v with
  | .int .int 0 => true
  | _ => false

/-- What a function of templates gives: a text or an error. -/
inductive Reply
  | text (t : Text)
  | error (message : Text)
deriving DecidableEq

/-- `raise(args...)` (/repo/template/extra_runtime.go:632-634). -/
def raise (format : List GoVal → Text) (args : List GoVal) : Reply := .error (format args)

/-- The arguments of the message, with its default (/repo/template/extra_runtime.go:638-640, 648-650). -/
def message (args : List GoVal) : List GoVal :=
  match args with
  | [] => [.str false (T "Assertion failed")]
  | args => args

/-- `assertError(test, args...)` (/repo/template/extra_runtime.go:636-644). -/
def assertError (format : List GoVal → Text) (test : GoVal) (args : List GoVal) : Reply :=
  if isZero test then raise format (message args) else .text []

/-- `assertWarning(test, args...)` (/repo/template/extra_runtime.go:646-654): the text, and the warnings that are logged. -/
def assertWarning (format : List GoVal → Text) (test : GoVal) (args : List GoVal) : Text × List Text :=
  if isZero test then ([], [format (message args)]) else ([], [])

end Verif.TextFuncs
