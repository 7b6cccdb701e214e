import Verif.Model.RazorEngine
import Verif.Model.RazorTranslate
import Verif.Model.RazorAssign
import Verif.Model.RazorIndex
/-!
# The rules of razor expressions

Model of `expressionParser`, `expressionParserSkipError` and `expressionParserInternal`, template/razor_repl_expr.go:43-155: the code of the expression is inserted
in the text of the rule, and before it the codes of the index and of the selection. Left out: the traces.
-/

namespace Verif.Insert
open Verif Text Razor Regex Engine Prepare

/-- The code of the expression before its insertion, razor_repl_expr.go:62-91 and 119-138; `none` is an error, or the panic of `RestoreProtected`. -/
def inserted (letter : Char → Bool) (o : Orders) (expression : Text) : Option Text := do
  let expr ← prepare o expression
  let tree ← Translate.parse letter expr
  let result ← Translate.nodeValue tree
  some (comeBack result)

/-- `reutils.MultiMatch` (library function), razor_repl_expr.go:54: the groups of the match. The text is a match of the expression, which is searched from its
beginning. -/
def groups (letter : Char → Bool) (re : Re) (m : Text) : Caps :=
  match matchAt letter re none m with
  | some (_, caps) => caps
  | none => []

/-- `repl.re.ReplaceAllString(match, repl.replace)`, razor_repl_expr.go:140 and 154. -/
def substitute (letter : Char → Bool) (re : Re) (replace m : Text) : Text := replaceRe letter re (fun _ caps => expand (groupOf caps) replace) m

/-- `expressionParserInternal`, razor_repl_expr.go:53-155, with `internal` false, on a match without index nor selection. -/
def expressionParser (letter : Char → Bool) (o : Orders) (skipError : Bool) (re : Re) (replace m : Text) : Text :=
  let expression := groupOf (groups letter re m) c!"expr"
  if expression = [] then substitute letter re replace m
  else match inserted letter o expression with
    | some code => fixSlice (substitute letter re (replaceAll c!"${expr}" code replace) m)
    | none =>
      if skipError then m
      else substitute letter re (replaceAll c!"${expr}" (replaceAll c!"$" c!"$$" expression) replace) m

/-- The functions of the rules `Command(expr)`, `Expression @(var)` and `Expression @(expr)`, razor.go:101, 131 and 133: `parser` is the function of a rule, 2 for the last class of the
expressions (`expressionParser`) and 1 for the others (`expressionParserSkipError`), razor.go:164-204. Go enumerates the maps in any order, another one each time. -/
def Parses (letter : Char → Bool) (parser : Replacement → Text → Text) : Prop :=
  ∀ rule re m, rule.name ∈ [c!"Expression @(var)", c!"Expression @(expr)", c!"Command(expr)"] → parse rule.expr = some re →
    ∃ o : Orders, o.words.Perm reserved ∧ o.signs.Perm signs ∧ o.operators.Perm wordOperators ∧
      parser rule m = expressionParser letter o (rule.parser == 1) re rule.replace m

/-- `expressionParserInternal` with the rule `exprRepl`, razor_repl_expr.go:53-163 (its expression is `(?P<expr>.*)` and its replacement `${expr}`), on a text in one
line, and with errors skipped: `none` is an error of the parser of Go or the panic of `RestoreProtected`. After an error of `nodeValue`, the text is returned as it is
with no error: the variable `err` that receives it is another one, razor_repl_expr.go:127. -/
def operandCode (letter : Char → Bool) (o : Orders) (internal : Bool) (expression : Text) : Option Text := do
  let expr ← prepare o expression
  let tree ← Translate.parse letter expr
  match Translate.nodeValue tree with
  | some result =>
    let result := if internal then Translate.wrap result else result
    some (fixSlice (expand (fun name => if name = c!"expr" then expression else []) (comeBack result)))
  | none => some expression

/-- An argument of an index, razor_repl_expr.go:106-110: a text that may be empty. -/
def itemCode (letter : Char → Bool) (o : Orders) (x : Text) : Option Text := if x = [] then some [] else operandCode letter o true x

/-- The replacement with the code of the index, razor_repl_expr.go:94-114; `none` after an error. -/
def insertIndex (letter : Char → Bool) (o : Orders) (index replace : Text) : Option Text :=
  if index = [] then some replace
  else (indexCall (itemCode letter o) index).map fun (slicer, values) =>
    replaceAll c!"${slicer}" slicer (replaceAll c!"${index}" (replaceAll c!"$" c!"$$" (join c!" " values)) replace)

/-- The replacement with the code of the selection, razor_repl_expr.go:116-121; `none` after an error. -/
def insertSelection (letter : Char → Bool) (o : Orders) (selection replace : Text) : Option Text :=
  if selection = [] then some replace else (operandCode letter o true selection).map fun code => replaceAll c!"${selection}" code replace

/-- `expressionParserInternal`, razor_repl_expr.go:53-155, with `internal` false: after an error in the index or in the selection, the match is left as it is. -/
def indexedParser (letter : Char → Bool) (o : Orders) (skipError : Bool) (re : Re) (replace m : Text) : Text :=
  let caps := groups letter re m
  match (insertIndex letter o (groupOf caps c!"index") replace).bind (insertSelection letter o (groupOf caps c!"selection")) with
  | some replace => expressionParser letter o skipError re replace m
  | none => m

/-- The rules whose expressions have a group `index` or `selection`, razor.go:112-135. -/
def indexedRules : List Text :=
  [c!"Function call followed by expression - @func(args...).args", c!"Function call with slice - @func(args...)[...]", c!"Global variables followed by expression",
    c!"Global variables with slice - @var[...]", c!"Context variables special with slice", c!"Global variables special with slice", c!"Local variables with slice",
    c!"Expression @(var)[...]", c!"Expression @(expr)[...]"]

/-- The functions of the rules with an index or a selection, all of them `expressionParserSkipError`. -/
def Slices (letter : Char → Bool) (parser : Replacement → Text → Text) : Prop :=
  ∀ rule re m, rule.name ∈ indexedRules → parse rule.expr = some re →
    ∃ o : Orders, o.words.Perm reserved ∧ o.signs.Perm signs ∧ o.operators.Perm wordOperators ∧
      parser rule m = indexedParser letter o (rule.parser == 1) re rule.replace m

/-- The function of the rules `Function call - @func(args...)`, razor.go:113, which is `expressionParserSkipError`. -/
def Calls (letter : Char → Bool) (parser : Replacement → Text → Text) : Prop :=
  ∀ rule re m, rule.name = c!"Function call - @func(args...)" → parse rule.expr = some re →
    ∃ o : Orders, o.words.Perm reserved ∧ o.signs.Perm signs ∧ o.operators.Perm wordOperators ∧
      parser rule m = expressionParser letter o (rule.parser == 1) re rule.replace m

/-- The function of the rules `Single line command - @command (expr) action;`, razor.go:99, which is `expressionParserSkipError` (`expressionParser` for the last one). -/
def Singles (letter : Char → Bool) (parser : Replacement → Text → Text) : Prop :=
  ∀ rule re m, rule.name = c!"Single line command - @command (expr) action;" → parse rule.expr = some re →
    ∃ o : Orders, o.words.Perm reserved ∧ o.signs.Perm signs ∧ o.operators.Perm wordOperators ∧
      parser rule m = expressionParser letter o (rule.parser == 1) re rule.replace m

/-- The same for the rules `Single line command - @command (expr) { action }`, razor.go:100. -/
def Braces (letter : Char → Bool) (parser : Replacement → Text → Text) : Prop :=
  ∀ rule re m, rule.name = c!"Single line command - @command (expr) { action }" → parse rule.expr = some re →
    ∃ o : Orders, o.words.Perm reserved ∧ o.signs.Perm signs ∧ o.operators.Perm wordOperators ∧
      parser rule m = expressionParser letter o (rule.parser == 1) re rule.replace m

/-- `assignExpression`, razor_repl_assign.go:10-88, with the delimiters of the rule. -/
def assignParser (letter : Char → Bool) (o : Orders) (mode : Validation) (re : Re) (m : Text) : Text :=
  let caps := groups letter re m
  (assignExpression (operandCode letter o) mode c!"{{" c!"}}" false (groupOf caps c!"type") (groupOf caps c!"id") (groupOf caps c!"expr") (groupOf caps c!"assign")).getD m

/-- The function of the rules `Assign - @var := value`, razor.go:106: `mode` is the variable `StrictAssignationMode`. -/
def Assigns (letter : Char → Bool) (mode : Validation) (parser : Replacement → Text → Text) : Prop :=
  ∀ rule re m, rule.name = c!"Assign - @var := value" → parse rule.expr = some re →
    ∃ o : Orders, o.words.Perm reserved ∧ o.signs.Perm signs ∧ o.operators.Perm wordOperators ∧ parser rule m = assignParser letter o mode re m

/-- The functions of the rules, with one order of the maps for all of them. -/
def parserOf (letter : Char → Bool) (o : Orders) (mode : Validation) (rule : Replacement) (m : Text) : Text :=
  match parse rule.expr with
  | some re =>
    if rule.name = c!"Assign - @var := value" then assignParser letter o mode re m
    else if rule.name ∈ indexedRules then indexedParser letter o (rule.parser == 1) re rule.replace m
    else expressionParser letter o (rule.parser == 1) re rule.replace m
  | none => m

end Verif.Insert
