import Verif.Model.RazorEngine
import Verif.Base.Space
/-!
# The razor expressions that are ignored

Model of the beginning of `applyRazor`, template/razor.go:19-31, and of what makes the list of the ignored expressions (template.go:143-158, 361-386,
main.go:260-262).
-/

namespace Verif.Ignore
open Verif Text Razor Regex Engine

/-- `literalAt`, razor_repl_expr.go:16. -/
def literalAt : Text := c!"_=!AT!=_"

/-- The regular expression of an ignored expression, razor.go:24-27. The delimiter is not quoted. -/
def pattern (razor e : Text) : Text :=
  razor ++ (if hasSuffix ['*'] e || hasSuffix ['+'] e then e ++ ['?'] else e) ++ c!"\\b"

/-- `strings.Replace(s, old, new, 1)`, `old` not empty. -/
def replaceFirst (old new : Text) : Text → Text
  | [] => []
  | c :: s =>
    match dropPrefix? old (c :: s) with
    | some r => new ++ r
    | none => c :: replaceFirst old new s

/-- One turn of the loop, razor.go:19-31; `none` when `MustCompile` panics (or when the syntax of the expression is not modelled). -/
def ignoreOne (letter : Char → Bool) (razor : Text) (s expr : Text) : Option Text :=
  if trimSpace expr = [] then some s
  else (parse (pattern razor (trimSpace expr))).map fun r => replaceRe letter r (fun m _ => replaceFirst razor literalAt m) s

/-- The loop, razor.go:19-31. -/
def ignoreAll (letter : Char → Bool) (razor : Text) (list : List Text) (s : Text) : Option Text :=
  list.foldlM (ignoreOne letter razor) s

/-- `applyRazor`, razor.go:13-46, with the option on. -/
def applyRazor (letter : Char → Bool) (parser : Replacement → Text → Text) (d : Delims) (list : List Text) (s : Text) : Option Text :=
  if Content.isRazor d s then (ignoreAll letter d.razor list s).map (translateBy letter parser (generate d)) else some s

/-- `AppendIgnoreRazorExpression`, template.go:378-380: the new ones come first. -/
def append (old new : List Text) : List Text := new ++ old

/-- `NewTemplate`, template.go:143-158: the list in the variable GOTEMPLATE_IGNORE_RAZOR; `none` is the error. `letter` is `unicode.IsLetter`, here on
the first character (the program looks at its first byte); `convert` stands for `ConvertData` and `ToStrings`. -/
def fromEnv (letter : Char → Bool) (convert : Text → Option (List Text)) : Text → Option (List Text)
  | [] => some []
  | c :: t =>
    if letter c then some (splitC ',' (replaceAll [' '] [','] (replaceAll ['\n'] [','] (replaceAll ['\r', '\n'] [','] (c :: t)))))
    else convert (c :: t)

/-- The list of a template: `NewTemplate`, then the options `--ignore-razor` of the command line, main.go:260-262. -/
def listOf (letter : Char → Bool) (convert : Text → Option (List Text)) (env : Text) (flags : List Text) : Option (List Text) :=
  (fromEnv letter convert env).map fun l => append (append [] l) flags

end Verif.Ignore
