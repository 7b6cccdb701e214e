import Verif.Base.Text
/-!
# Razor assignments

Model of template/razor_repl_assign.go.
-/

namespace Verif
namespace Razor

/-- `AssignationValidationType`, razor_repl_assign.go:90-98. -/
inductive Validation where
  | disabled
  | warning
  | strict
  deriving DecidableEq

/-- The operator and the expression once compound operators are expanded, razor_repl_assign.go:42-55. -/
def expandOperator (tp id expr assign : Text) : Text × Text :=
  if assign = T ":=" ∨ assign = T "=" then (assign, expr)
  else
    let operator := assign.dropLast
    let value :=
      if tp = T "@{" then '$' :: id
      else (if tp = T "@" then T "$." else if tp = T "@." then T "." else if tp = T "@$" then T "$" else []) ++ id
    (T "=", value ++ T " " ++ operator ++ T " (" ++ expr ++ T ")")

/-- The generated code, razor_repl_assign.go:62-87. -/
def assignCode (mode : Validation) (left right : Text) (global internal : Bool) (tp id assign expr : Text) : Text :=
  if !global && !internal then left ++ T "- $" ++ id ++ T " " ++ assign ++ T " " ++ expr ++ T " " ++ right
  else
    let parts := Text.splitC '.' id
    let object := Text.join ['.'] parts.dropLast
    let id := parts.getLastD []
    if !global then left ++ T "- set $" ++ object ++ T " \"" ++ id ++ T "\" " ++ expr ++ T " " ++ right
    else
      let object := if tp.getLast? = some '.' then '.' :: object else if object = [] then T "$" else T "$." ++ object
      let set := left ++ T "- set " ++ object ++ T " \"" ++ id ++ T "\" " ++ expr ++ T " " ++ right
      if assign = T ":=" ∨ mode = .disabled then set
      else
        let objectID := (if object.getLast? = some '.' then object else object ++ T ".") ++ id
        let validateCode := (if mode = .warning then T "assertWarning" else T "assert") ++ T " (not (isNil " ++ objectID ++ T ")) \"" ++
          objectID ++ T " does not exist, use := to declare new variable\""
        left ++ T "- " ++ validateCode ++ T " " ++ right ++ set

/-- `assignExpressionInternal`, razor_repl_assign.go:18-88. The arguments `tp`, `id`, `expr` and `assign` are the groups of the regular
expression; `left` and `right` are the delimiters of the rule; `parse internal e` is `expressionParserInternal(exprRepl, e, true,
internal)`, `none` being an error, in which case the text is returned as it is (razor_repl_expr.go:148). The result `none` leaves the match
unchanged. -/
def assignExpression (parse : Bool → Text → Option Text) (mode : Validation) (left right : Text) (acceptError : Bool)
    (tp id expr assign : Text) : Option Text :=
  if tp = [] ∨ id = [] ∨ expr = [] ∨ assign = [] then none
  else
    let global : Bool := tp = T "@$." || tp = T "@" || tp = T "@."
    let internal : Bool := if tp = T "@{" || tp = T "@$" then List.elem '.' id else true
    let tp := if tp = T "@$." then T "@" else tp
    let (assign, expr) := expandOperator tp id expr assign
    match parse internal expr with
    | some expr => some (assignCode mode left right global internal tp id assign expr)
    | none => if acceptError then some (assignCode mode left right global internal tp id assign expr) else none

end Razor
end Verif
