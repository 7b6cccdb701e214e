import Verif.Base.Chars
import Verif.Model.RazorExpr
import Verif.Model.RazorIndex
import Verif.Model.Protect
/-!
# What Go's parser is given for a razor expression

Model of the beginning of `expressionParserInternal`, template/razor_repl_expr.go:51-91: the literals are protected, the words that Go reserves and the
leading dots are replaced by marks, the operators written as words or signs by those of Go, and the slices are completed; and of the return of the marks
(132-138). Left out: the traces. Go enumerates a map in any order: the orders are parameters.
-/

namespace Verif.Prepare
open Verif Text Razor

/-- `reservedKeywords`, razor_repl_expr.go:28-31. -/
def reservedKeywords : List Text := [c!"$", c!"...", c!"range", c!"default", c!"func", c!"type", c!"struct", c!"map"]

/-- `fmt.Sprintf("__REPL_%d__", i)`, razor_repl_expr.go:36. -/
def replMark (i : Nat) : Text := c!"__REPL_" ++ (Nat.toDigits 10 i ++ c!"__")

/-- `reserved`, razor_repl_expr.go:34-38. -/
def reserved : List (Text × Text) := reservedKeywords.zipIdx.map fun k => (k.1, replMark k.2)

/-- `dotRep`, razor_repl_expr.go:21. -/
def dotMark : Text := c!"__DoTPrefix__"

/-- `globalRep`, razor_repl_expr.go:22. -/
def globalMark : Text := c!"__GlobalVar__"

/-- `literalAt`, razor_repl_expr.go:16. -/
def atSign : Text := c!"_=!AT!=_"

/-- The map of razor_repl_expr.go:74-80. -/
def signs : List (Text × Text) :=
  [(c!"<>", c!"!="), (c!"≠", c!"!="), (c!"÷", c!"/"), (c!"≦", c!"<="), (c!"≧", c!">="), (c!"«", c!"<<"), (c!"»", c!">>"), (replMark 1, c!"...")]

/-- The operators that are words, razor_repl_expr.go:84-86: a word between two spaces is replaced by the operator. -/
def wordOperators : List (Text × Text) := operators.map fun o => (' ' :: (o.2 ++ [' ']), o.1)

/-- The orders in which the three maps are enumerated (razor_repl_expr.go:70, 74, 84). -/
structure Orders where
  words : List (Text × Text)
  signs : List (Text × Text)
  operators : List (Text × Text)

/-- One of the loops: `strings.ReplaceAll` for each entry. -/
def replaceEach (order : List (Text × Text)) (s : Text) : Text := order.foldl (fun s k => replaceAll k.1 k.2 s) s

/-- The class `\w`. -/
def wordChar (c : Char) : Bool := c.isAlphanum || c == '_'

/-- Where the search of `dotPrefix` is: a match can begin here (at the beginning, or after a character that is the prefix), it cannot, just after the dot of
a match, in the value of a match. -/
inductive Place
  | free | closed | dot | value
  deriving DecidableEq

/-- The place after a character that is not part of the value of a match. -/
def placeAfter (c : Char) : Place := if wordChar c || c == ')' || c == ']' then .closed else .free

/-- `dotPrefix.ReplaceAllString(s, "${prefix}__DoTPrefix__${value}")`, razor_repl_expr.go:41, 73, with the regular expression
`(?P<prefix>^|[^\w\)\]])\.(?P<value>\w[\w\.]*)?`. -/
def dots : Place → Text → Text
  | _, [] => []
  | p, c :: s =>
    match p with
    | .free => if c = '.' then dotMark ++ dots .dot s else c :: dots (placeAfter c) s
    | .closed => c :: dots (placeAfter c) s
    | .dot => if wordChar c then c :: dots .value s else c :: dots (placeAfter c) s
    | .value => if wordChar c || c == '.' then c :: dots .value s else c :: dots (placeAfter c) s

/-- The replacements, razor_repl_expr.go:70-88. -/
def rewrite (o : Orders) (s : Text) : Text :=
  indexExpression (replaceEach o.operators (replaceEach o.signs (dots .free (replaceEach o.words s))))

/-- The text given to Go's parser, razor_repl_expr.go:64-91; `none` is the panic of `RestoreProtected`. -/
def prepare (o : Orders) (expression : Text) : Option Text :=
  let p := Protect.protect expression
  Protect.restore (rewrite o p.1) (p.2.map (replaceAll ['@'] atSign))

/-- The text of an identifier, razor_expr.go:52-56. -/
def identText (name : Text) : Text :=
  if hasPrefix dotMark name || hasPrefix (replMark 0) name || contains c!"__FuncCall__" name then name else globalMark ++ name

/-- The return of the marks, razor_repl_expr.go:132-138. -/
def comeBack (result : Text) : Text :=
  let r := replaceAll (replMark 0) c!"$$" result
  let r := reserved.foldl (fun r k => replaceAll k.2 k.1 r) r
  replaceAll globalMark c!"$$." (replaceAll dotMark c!"." r)

end Verif.Prepare
