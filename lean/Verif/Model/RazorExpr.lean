import Verif.Base.Text
import Verif.Model.Strings
/-!
# Translation of razor expressions

Model of template/razor_expr.go (`nodeValue` and its helpers) and of the end of `expressionParserInternal`
(template/razor_repl_expr.go:123-146).

Simplification: the markers that the code writes as texts (`__DoTPrefix__`, `__GlobalVar__`, `__FuncCall__`, `__REPL_0__`) are single
private characters here; a template that contains these texts literally is not covered. The other reserved keywords
(`__REPL_1__` and following) are not modelled.
-/

namespace Verif
namespace Razor

/-- `dotRep`, razor_repl_expr.go:21. -/
def dotRep : Char := Char.ofNat 0xE000
/-- `globalRep`, razor_repl_expr.go:22. -/
def globalRep : Char := Char.ofNat 0xE001
/-- `funcCall`, razor_repl_expr.go:20. -/
def funcCall : Char := Char.ofNat 0xE002
/-- `reserved["$"]`, razor_repl_expr.go:33-37. -/
def dollarRep : Char := Char.ofNat 0xE003

/-- An identifier of an expression: `x`, `$x` (also `$` alone) or `.x` (also `.` alone). -/
inductive Ident where
  | glob (n : Text)
  | loc (n : Text)
  | ctx (n : Text)
  deriving DecidableEq, Repr

/-- The name that Go's parser sees, once `$` and a leading `.` are replaced by markers (razor_repl_expr.go:70-73). -/
def Ident.name : Ident → Text
  | .glob n => n
  | .loc n => dollarRep :: n
  | .ctx n => dotRep :: n

/-- The Go syntax tree (library type `ast.Expr`). `other` is any node that `nodeValue` does not know, and a missing bound. -/
inductive Expr where
  | unary (op : Text) (x : Expr)
  | binary (op : Text) (x y : Expr)
  | ident (i : Ident)
  | lit (value : Text)
  | sel (x : Expr) (name : Text)
  | paren (x : Expr)
  | call (f : Expr) (args : List Expr) (ellipsis : Bool)
  | star (x : Expr)
  | index (x i : Expr)
  | slice (x low high : Expr)
  | other

/-- `operators`, razor_expr.go:135-156. -/
def operators : List (Text × Text) :=
  [(T "==", T "eq"), (T "!=", T "ne"), (T "<", T "lt"), (T "<=", T "le"), (T ">", T "gt"), (T ">=", T "ge"), (T "+", T "add"),
   (T "-", T "sub"), (T "/", T "div"), (T "*", T "mul"), (T "%", T "mod"), (T "||", T "or"), (T "&&", T "and"), (T "!", T "not"),
   (T "<<", T "lshift"), (T ">>", T "rshift"), (T "|", T "bor"), (T "&", T "band"), (T "^", T "bxor"), (T "&^", T "bclear")]

/-- `operatorName`, razor_expr.go:158-163. -/
def operatorName (op : Text) : Option Text := operators.lookup op

/-- `unicode.IsDigit(rune(x[0]))`, razor_expr.go:26. -/
def startsDigit : Text → Bool
  | c :: _ => c.isDigit
  | [] => false

/-- The end of `nodeValueInternal`, razor_expr.go:168-175: the parentheses added around a text that is not a single operand. -/
def wrap (result : Text) : Text :=
  if Text.hasPrefix ['"'] result || !(result.any (fun c => c == ' ' || c == '\t')) then result
  else
    let first := result.takeWhile (fun c => c != ' ')
    if Text.hasPrefix [dotRep] first && List.elem funcCall first then result else '(' :: (result ++ [')'])

/-- The name of an identifier, razor_expr.go:48-52. -/
def identValue (i : Ident) : Text :=
  if !(Text.hasPrefix [dotRep] i.name) && !(Text.hasPrefix [dollarRep] i.name) && !(List.elem funcCall i.name) then globalRep :: i.name
  else i.name

/-- The verb `%q` on a text (library function), for printable characters. -/
def quoted (s : Text) : Text := '"' :: (s.flatMap (fun c => if c = '"' ∨ c = '\\' then ['\\', c] else [c]) ++ ['"'])

mutual

/-- `nodeValue`, razor_expr.go:16-133; `none` is an error. -/
def nodeValue : Expr → Option Text
  | .unary op x => do
    let op ← operatorName op
    let x ← (nodeValue x).map wrap
    if op = T "sub" then some (if startsDigit x then '-' :: x else T "sub 0 " ++ x)
    else some (op ++ ' ' :: x)
  | .binary op x y => do
    let op ← operatorName op
    let x ← (nodeValue x).map wrap
    let y ← (nodeValue y).map wrap
    if op = T "mul" ∧ '*' ∈ y then some (T "power " ++ x ++ ' ' :: y.filter (fun c => c != '*'))
    else some (op ++ ' ' :: x ++ ' ' :: y)
  | .ident i => some (identValue i)
  | .lit value => some value
  | .sel x name => do
    let x ← (nodeValue x).map wrap
    some (x ++ '.' :: Text.trimPrefix [globalRep] (wrap (identValue (.glob name))))
  | .paren x => nodeValue x
  | .call f args ellipsis => do
    let f ← nodeValue f
    let f := if '.' ∈ f then f else Text.trimPrefix [globalRep] f
    let f := f ++ [funcCall]
    let args ← nodeValues args
    if args = [] then some f
    else if ellipsis then some (T "ellipsis " ++ quoted f ++ ' ' :: Text.join [' '] args)
    else some (f ++ ' ' :: Text.join [' '] args)
  | .star x => do
    let x ← (nodeValue x).map wrap
    some ('*' :: x)
  | .index x i => do
    let x ← (nodeValue x).map wrap
    let i ← (nodeValue i).map wrap
    some (T "slice " ++ x ++ ' ' :: i)
  | .slice x low high => do
    let x ← (nodeValue x).map wrap
    let low ← (nodeValue low).map wrap
    let high ← (nodeValue high).map wrap
    some (T "slice " ++ x ++ ' ' :: low ++ ' ' :: high)
  | .other => none

/-- The loop on the arguments of a call, razor_expr.go:82-89. -/
def nodeValues : List Expr → Option (List Text)
  | [] => some []
  | a :: as => do
    let a ← (nodeValue a).map wrap
    let as ← nodeValues as
    some (a :: as)

end

/-! ## Insertion of the expression in the template -/

/-- The replacements of the markers, razor_repl_expr.go:132-138: `$` is doubled for the regular expression library. -/
def restoreMarks (s : Text) : Text :=
  s.flatMap (fun c =>
    if c = dollarRep then ['$', '$'] else if c = dotRep then ['.'] else if c = globalRep then ['$', '$', '.'] else [c])

/-- A character of a group name, `extract` of package regexp (library function). -/
def nameChar (c : Char) : Bool := c.isAlphanum || c == '_'

/-- `extract` of package regexp (library function), on the text after a `$`: the name of the group and the number of characters
read. -/
def groupName : Text → Option (Text × Nat)
  | '{' :: s =>
    let name := s.takeWhile nameChar
    if name = [] then none
    else match s.drop name.length with
      | '}' :: _ => some (name, name.length + 2)
      | _ => none
  | s =>
    let name := s.takeWhile nameChar
    if name = [] then none else some (name, name.length)

/-- `Regexp.expand` (library function): `$name` and `${name}` are replaced by the text of the group, `$$` by `$`. The first argument
counts the characters to skip. -/
def expandAux (group : Text → Text) : Nat → Text → Text
  | _, [] => []
  | k + 1, _ :: s => expandAux group k s
  | 0, c :: s =>
    if c = '$' then
      if Text.hasPrefix ['$'] s then '$' :: expandAux group 1 s
      else match groupName s with
        | some (name, k) => group name ++ expandAux group k s
        | none => '$' :: expandAux group 0 s
    else c :: expandAux group 0 s

/-- `Regexp.expand`. -/
def expand (group : Text → Text) (s : Text) : Text := expandAux group 0 s

/-- The final text of an expression: the markers are replaced (razor_repl_expr.go:132-138), the text is inserted with
`ReplaceAllString` (140), and the call marks are removed (razor.go:43). The replacement of `$.slice ` (141) is `fixSlice`. -/
def render (group : Text → Text) (e : Expr) : Option Text :=
  (nodeValue e).map (fun r => (expand group (restoreMarks r)).filter (fun c => c != funcCall))

/-- razor_repl_expr.go:141. -/
def fixSlice (s : Text) : Text := Text.replaceAll (T "$.slice ") (T "slice $.") s

end Razor
end Verif
