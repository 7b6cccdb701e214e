import Verif.Model.Protect
import Verif.Model.Strings
import Verif.Model.Quote
import Verif.Model.ListFuncs

/-!
Model of `autoWrap` in razor templates (/repo/template/razor_repl_autowrap.go), and of `fmt.Sprintf` for the formats that it makes.
-/

namespace Verif.AutoWrap
open Verif Verif.Value Verif.Text

/-- The groups of the expression (/repo/template/razor.go:85) in a line: what is before the `@`, the sign `<`, the reduce signs, and the rest of the line from the parenthesis. -/
structure Groups where
  before : Text
  nl : Text
  reduce : Text
  context : Text

/-- What the replacement does: the match as it is, another text, or a panic. -/
inductive Outcome
  | unchanged
  | text (t : Text)
  | panic
  deriving DecidableEq

/-- `Escape` (/repo/collections/string.go:265-268); `pr` is `unicode.IsPrint`. -/
def escape (pr : Char → Bool) (s : Text) : Text := ((Quote.quote pr s).drop 1).dropLast

/-- The formatted result (/repo/template/razor_repl_autowrap.go:20-27). -/
def render (pr : Char → Bool) (g : Groups) (args after : Text) : Text :=
  T "@" ++ g.nl ++ g.reduce ++ T "join(\"" ++ (if g.nl ≠ [] then T "\\n" else []) ++ T "\", formatList(\"" ++ escape pr g.before ++ T "%v" ++ escape pr after ++ T "\", " ++ args.drop 1 ++ T ")"

/-- `autoWrap` (/repo/template/razor_repl_autowrap.go:9-28); the warning is left out. Positions are in characters: the code cuts at the same places in bytes. -/
def autoWrap (pr : Char → Bool) (g : Groups) : Outcome :=
  let p := Protect.protect g.context
  match Strings.context p.1 1 ['('] [')'] with
  | none => .panic
  | some (args, _) =>
    if args = [] then
      match Protect.restore p.1 p.2 with
      | none => .panic
      | some _ => .unchanged
    else
      match Protect.restore (p.1.drop args.length) p.2, Protect.restore args p.2 with
      | some after, some args => .text (render pr g args after)
      | _, _ => .panic

/-- `fmt.Sprintf(format, v)` for the verbs `%v` and `%%`; the flag tells if the argument is used. `none` for other verbs, and for an argument that is not used. -/
def sprintf (arg : Text) : Bool → Text → Option Text
  | used, [] => if used then some [] else none
  | used, '%' :: c :: s =>
    if c = 'v' then (sprintf arg true s).map ((if used then T "%!v(MISSING)" else arg) ++ ·)
    else if c = '%' then (sprintf arg used s).map ('%' :: ·)
    else none
  | used, c :: s => if c = '%' then none else (sprintf arg used s).map (c :: ·)

end Verif.AutoWrap
