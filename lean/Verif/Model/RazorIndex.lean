import Verif.Base.Text
/-!
# Partial slices in razor expressions

Model of `indexExpression` and of the index part of `expressionParserInternal`, template/razor_repl_expr.go. Texts are sequences of
characters where Go's are sequences of bytes; only ASCII characters are looked at.
-/

namespace Verif
namespace Razor

/-- The match of `-\d+` followed by `:]`, at the beginning of a text; the result is the group `index`. -/
def negMatch : Text → Option Text
  | '-' :: s =>
    let d := s.takeWhile Char.isDigit
    if d ≠ [] ∧ Text.hasPrefix (T ":]") (s.drop d.length) then some ('-' :: d) else none
  | _ => none

/-- `negativeSlice.ReplaceAllString(expr, "[${index}:0]")`, razor_repl_expr.go:164, with the regular expression
`\[(?P<index>-\d+):]` of line 171. The first argument counts the characters to skip. -/
def negativeAux : Nat → Text → Text
  | _, [] => []
  | k + 1, _ :: s => negativeAux k s
  | 0, c :: s =>
    if c = '[' then
      match negMatch s with
      | some i => '[' :: (i ++ T ":0]" ++ negativeAux (i.length + 2) s)
      | none => c :: negativeAux 0 s
    else c :: negativeAux 0 s

/-- `indexExpression`, razor_repl_expr.go:163-169. -/
def indexExpression (expr : Text) : Text :=
  let expr := negativeAux 0 expr
  let expr := Text.replaceAll (T "[]") (T "[0:-1]") expr
  let expr := Text.replaceAll (T "[:") (T "[0:") expr
  Text.replaceAll (T ":]") (T ":-1]") expr

/-- The group `index` of a rule, razor_repl_expr.go:93-115: the name of the function and the texts of its arguments, `none` for an
error. The parameter is the translation of one argument. The message about more than one `:` is not modelled, it does not stop the
translation. -/
def indexCall (parse : Text → Option Text) (index : Text) : Option (Text × List Text) :=
  let e := indexExpression index
  let e := (e.drop 1).dropLast
  let (sep, slicer) := if ':' ∈ e then (':', T "slice") else (',', T "extract")
  ((Text.splitC sep e).mapM parse).map (fun values => (slicer, values))

end Razor
end Verif
