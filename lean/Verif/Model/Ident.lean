import Verif.Base.Text

/-!
Model of `id`, which makes an identifier from a text (/repo/template/extra_utils.go:176-196).
-/

namespace Verif.Ident
open Text

/-- What is used of the library: the letters of Unicode, `Regexp.Expand` for the replacement of one character, and what the second expression does for replacements that are not literal texts
(the characters `*`, `^`, `|` and `$` are not escaped by `regexSpecial`); `none` is the panic of `MustCompile`. -/
structure Lib where
  letter : Char → Bool
  expand : Text → Char → Text
  other : Text → Text → Option Text

/-- A character that `validChars` does not match (/repo/template/extra_utils.go:194). -/
def valid (lib : Lib) (c : Char) : Bool := lib.letter c || ('0' ≤ c && c ≤ '9') || c == '_'

/-- The replacements that are escaped completely (/repo/template/extra_utils.go:196): their expression matches their text only. -/
def literal (r : Text) : Bool := r.all fun c => c != '*' && c != '^' && c != '|' && c != '$'

/-- The text after as many copies of `r` as possible. -/
def dropRuns (r : Text) : Nat → Text → Text
  | 0, s => s
  | n + 1, s =>
    match dropPrefix? r s with
    | some rest => dropRuns r n rest
    | none => s

/-- `regexp.MustCompile("(?:r)+").ReplaceAllString(s, r)` for a literal text (/repo/template/extra_utils.go:184-191): each run of copies, from the left, is replaced by one. -/
def collapse (r : Text) : Nat → Text → Text
  | 0, s => s
  | _ + 1, [] => []
  | n + 1, c :: s =>
    match dropPrefix? r (c :: s) with
    | some rest => r ++ collapse r n (dropRuns r rest.length rest)
    | none => c :: collapse r n s

/-- `validChars.ReplaceAllString(id, replacement)` (/repo/template/extra_utils.go:191). -/
def replaceInvalid (lib : Lib) (r s : Text) : Text := s.flatMap fun c => if valid lib c then [c] else lib.expand r c

/-- `replacement := fmt.Sprint(replace...)` with its default (/repo/template/extra_utils.go:179-182). -/
def replacementOf (r : Text) : Text := if r = [] then ['_'] else r

/-- `id(id, replace...)` (/repo/template/extra_utils.go:176-192); `replace` is the text of the arguments. -/
def ident (lib : Lib) (s replace : Text) : Option Text :=
  let r := replacementOf replace
  let t := replaceInvalid lib r s
  if literal r then some (collapse r t.length t) else lib.other r t

end Verif.Ident
