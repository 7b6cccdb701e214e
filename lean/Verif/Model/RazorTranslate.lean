import Verif.Model.RazorPrepare
/-!
# Razor expressions, from their text to their code

Model of Go's expression parser (library function `parser.ParseExpr`, called by template/razor_repl_expr.go:125) for the expressions that razor knows, of
`nodeValue` (template/razor_expr.go:16-176) with the marks as they are written in the code, and of the whole translation of an expression
(razor_repl_expr.go:62-91, 120-140; razor.go:43).

Simplifications: numbers are decimal digits, with or without a fraction; characters between simple quotes, comments, line ends, keywords, composite
literals, types, conversions and slices with three bounds are rejected (Go's parser accepts some of them, and most of these are then refused by
`nodeValue`). The letters outside ASCII are a parameter.
-/

namespace Verif.Translate
open Verif Text Razor Prepare

/-! ## Go's scanner -/

/-- The tokens of Go (library type `token.Token` with its text). -/
inductive Token where
  | name (t : Text)
  | lit (t : Text)
  | sym (t : Text)
  deriving DecidableEq

/-- The operators and delimiters of Go, the longest first (library package `go/token`). -/
def symbols : List Text :=
  [c!"&^=", c!"<<=", c!">>=", c!"...", c!"<<", c!">>", c!"&^", c!"&&", c!"||", c!"==", c!"!=", c!"<=", c!">=", c!"<-", c!"++", c!"--", c!":=", c!"+=", c!"-=",
    c!"*=", c!"/=", c!"%=", c!"&=", c!"|=", c!"^=", c!"+", c!"-", c!"*", c!"/", c!"%", c!"&", c!"|", c!"^", c!"<", c!">", c!"=", c!"!", c!"(", c!")", c!"[",
    c!"]", c!"{", c!"}", c!",", c!";", c!".", c!":", c!"~"]

/-- The keywords of Go (library package `go/token`). -/
def keywords : List Text :=
  [c!"break", c!"case", c!"chan", c!"const", c!"continue", c!"default", c!"defer", c!"else", c!"fallthrough", c!"for", c!"func", c!"go", c!"goto", c!"if",
    c!"import", c!"interface", c!"map", c!"package", c!"range", c!"return", c!"select", c!"struct", c!"switch", c!"type", c!"var"]

/-- A character of an identifier (`isLetter` and `isDigit` of go/scanner). -/
def nameChar (letter : Char → Bool) (c : Char) : Bool := letter c || c.isDigit || c == '_'

/-- The text of a number: digits, and possibly a dot and digits. -/
def number (s : Text) : Text :=
  let whole := s.takeWhile Char.isDigit
  match s.drop whole.length with
  | '.' :: r => whole ++ '.' :: r.takeWhile Char.isDigit
  | _ => whole

/-- The end of a literal opened by `q`: the number of characters up to the closing quote. In a text between double quotes, a backslash is followed by one of the
letters of the escape sequences or by a quote (the sequences with digits are not modelled), and there is no line end. -/
def quoteEnd (q : Char) : Nat → Text → Option Nat
  | _, [] => none
  | n, c :: s =>
    if c = q then some (n + 1)
    else if q = '`' then quoteEnd q (n + 1) s
    else if c = '\n' then none
    else if c = '\\' then
      match s with
      | [] => none
      | d :: s => if d ∈ c!"abfnrtv\\\"" then quoteEnd q (n + 2) s else none
    else quoteEnd q (n + 1) s

/-- One token (`Scanner.Scan` of go/scanner) at the beginning of a text that is not blank. -/
def token (letter : Char → Bool) (s : Text) : Option Token :=
  match s with
  | [] => none
  | c :: r =>
    if letter c || c == '_' then
      let w := s.takeWhile (nameChar letter)
      if w ∈ keywords then none else some (.name w)
    else if c.isDigit then some (.lit (number s))
    else if c = '"' ∨ c = '`' then (quoteEnd c 1 r).map fun n => .lit (s.take n)
    else if hasPrefix c!"//" s || hasPrefix c!"/*" s then none
    else (symbols.find? fun t => hasPrefix t s).map .sym

/-- The text of a token. -/
def Token.text : Token → Text
  | .name t => t
  | .lit t => t
  | .sym t => t

/-- The tokens of a text; the first argument bounds the number of steps. -/
def scanFrom (letter : Char → Bool) : Nat → Text → Option (List Token)
  | _, [] => some []
  | 0, _ => none
  | n + 1, c :: s =>
    if c = ' ' ∨ c = '\t' ∨ c = '\r' then scanFrom letter n s
    else match token letter (c :: s) with
      | none => none
      | some t => (scanFrom letter n ((c :: s).drop t.text.length)).map (t :: ·)

/-- The tokens of a text. -/
def tokens (letter : Char → Bool) (s : Text) : Option (List Token) := scanFrom letter s.length s

/-! ## Go's parser -/

/-- Go's syntax tree (library type `ast.Expr`), with the names as they are in the text. -/
inductive Node where
  | unary (op : Text) (x : Node)
  | binary (op : Text) (x y : Node)
  | ident (name : Text)
  | lit (value : Text)
  | sel (x : Node) (name : Text)
  | paren (x : Node)
  | call (f : Node) (args : List Node) (ellipsis : Bool)
  | star (x : Node)
  | index (x i : Node)
  | slice (x low high : Node)

/-- `Token.Precedence` of go/token; `0` for what is not a binary operator. -/
def precedence (op : Text) : Nat :=
  if op = c!"||" then 1
  else if op = c!"&&" then 2
  else if op ∈ [c!"==", c!"!=", c!"<", c!"<=", c!">", c!">="] then 3
  else if op ∈ [c!"+", c!"-", c!"|", c!"^"] then 4
  else if op ∈ [c!"*", c!"/", c!"%", c!"<<", c!">>", c!"&", c!"&^"] then 5
  else 0

/-- The precedence of the next token. -/
def nextPrecedence : List Token → Nat
  | .sym op :: _ => precedence op
  | _ => 0

mutual

/-- `parseBinaryExpr` of go/parser: an operand, then operators of precedence `p` or more. -/
def binary : Nat → Nat → List Token → Option (Node × List Token)
  | 0, _, _ => none
  | n + 1, p, ts =>
    match unary n ts with
    | none => none
    | some (x, ts) => more n p x ts

/-- The loop of `parseBinaryExpr`. -/
def more : Nat → Nat → Node → List Token → Option (Node × List Token)
  | 0, _, _, _ => none
  | n + 1, p, x, ts =>
    match ts with
    | .sym op :: r =>
      if precedence op = 0 ∨ precedence op < p then some (x, ts)
      else match binary n (precedence op + 1) r with
        | none => none
        | some (y, r) => more n p (.binary op x y) r
    | _ => some (x, ts)

/-- `parseUnaryExpr` of go/parser. -/
def unary : Nat → List Token → Option (Node × List Token)
  | 0, _ => none
  | n + 1, ts =>
    match ts with
    | .sym op :: r =>
      if op ∈ [c!"+", c!"-", c!"!", c!"^", c!"&", c!"~"] then (unary n r).map fun (x, r) => (.unary op x, r)
      else if op = c!"*" then (unary n r).map fun (x, r) => (.star x, r)
      else primary n ts
    | ts => primary n ts

/-- `parsePrimaryExpr` of go/parser: an operand, then selectors, indexes and calls. -/
def primary : Nat → List Token → Option (Node × List Token)
  | 0, _ => none
  | n + 1, ts =>
    match ts with
    | .name t :: r => suffixes n (.ident t) r
    | .lit v :: r => suffixes n (.lit v) r
    | .sym op :: r =>
      if op = c!"(" then
        match binary n 1 r with
        | some (x, .sym close :: r) => if close = c!")" then suffixes n (.paren x) r else none
        | _ => none
      else none
    | [] => none

/-- The loop of `parsePrimaryExpr`. -/
def suffixes : Nat → Node → List Token → Option (Node × List Token)
  | 0, _, _ => none
  | n + 1, x, ts =>
    match ts with
    | .sym op :: r =>
      if op = c!"." then
        match r with
        | .name t :: r => suffixes n (.sel x t) r
        | _ => none
      else if op = c!"(" then
        match arguments n r with
        | some (args, ellipsis, r) => suffixes n (.call x args ellipsis) r
        | none => none
      else if op = c!"[" then
        match binary n 1 r with
        | some (i, .sym close :: r) =>
          if close = c!"]" then suffixes n (.index x i) r
          else if close = c!":" then
            match binary n 1 r with
            | some (j, .sym close :: r) => if close = c!"]" then suffixes n (.slice x i j) r else none
            | _ => none
          else none
        | _ => none
      else some (x, ts)
    | _ => some (x, ts)

/-- The arguments of a call, `parseCallOrConversion` of go/parser, up to the closing parenthesis; whether the last one is followed by `...`. -/
def arguments : Nat → List Token → Option (List Node × Bool × List Token)
  | 0, _ => none
  | n + 1, ts =>
    match ts with
    | .sym close :: r =>
      if close = c!")" then some ([], false, r) else argument n ts
    | ts => argument n ts

/-- One argument and those that follow. -/
def argument : Nat → List Token → Option (List Node × Bool × List Token)
  | 0, _ => none
  | n + 1, ts =>
    match binary n 1 ts with
    | some (x, .sym op :: r) =>
      if op = c!"," then (arguments n r).map fun (xs, e, r) => (x :: xs, e, r)
      else if op = c!")" then some ([x], false, r)
      else if op = c!"..." then
        match r with
        | .sym close :: r => if close = c!")" then some ([x], true, r) else none
        | _ => none
      else none
    | _ => none

end

/-- The tree of a list of tokens. -/
def parseTokens (ts : List Token) : Option Node :=
  match binary (8 * ts.length + 8) 1 ts with
  | some (x, []) => some x
  | _ => none

/-- `parser.ParseExpr`. -/
def parse (letter : Char → Bool) (s : Text) : Option Node := (tokens letter s).bind parseTokens

/-! ## The code of an expression -/

/-- `funcCall`, razor_repl_expr.go:20. -/
def callMark : Text := c!"__FuncCall__"

/-- The end of `nodeValueInternal`, razor_expr.go:168-175. -/
def wrap (result : Text) : Text :=
  if hasPrefix ['"'] result || !(result.any (fun c => c == ' ' || c == '\t')) then result
  else
    let first := result.takeWhile (fun c => c != ' ')
    if hasPrefix dotMark first && contains callMark first then result else '(' :: (result ++ [')'])

mutual

/-- `nodeValue`, razor_expr.go:16-133; `none` is an error. -/
def nodeValue : Node → Option Text
  | .unary op x => do
    let op ← operatorName op
    let x ← (nodeValue x).map wrap
    if op = T "sub" then some (if startsDigit x then '-' :: x else T "sub 0 " ++ x)
    else some (op ++ ' ' :: x)
  | .binary op x y => do
    let op ← operatorName op
    let x ← (nodeValue x).map wrap
    let y ← (nodeValue y).map wrap
    if op = T "mul" ∧ '*' ∈ y then some (T "power " ++ x ++ ' ' :: y.filter (fun c => c != '*'))
    else some (op ++ ' ' :: x ++ ' ' :: y)
  | .ident name => some (identText name)
  | .lit value => some value
  | .sel x name => do
    let x ← (nodeValue x).map wrap
    some (x ++ '.' :: trimPrefix globalMark (wrap (identText name)))
  | .paren x => nodeValue x
  | .call f args ellipsis => do
    let f ← nodeValue f
    let f := if '.' ∈ f then f else trimPrefix globalMark f
    let f := f ++ callMark
    let args ← nodeValues args
    if args = [] then some f
    else if ellipsis then some (T "ellipsis " ++ quoted f ++ ' ' :: join [' '] args)
    else some (f ++ ' ' :: join [' '] args)
  | .star x => do
    let x ← (nodeValue x).map wrap
    some ('*' :: x)
  | .index x i => do
    let x ← (nodeValue x).map wrap
    let i ← (nodeValue i).map wrap
    some (T "slice " ++ x ++ ' ' :: i)
  | .slice x low high => do
    let x ← (nodeValue x).map wrap
    let low ← (nodeValue low).map wrap
    let high ← (nodeValue high).map wrap
    some (T "slice " ++ x ++ ' ' :: low ++ ' ' :: high)

/-- The loop on the arguments of a call, razor_expr.go:82-89. -/
def nodeValues : List Node → Option (List Text)
  | [] => some []
  | a :: as => do
    let a ← (nodeValue a).map wrap
    let as ← nodeValues as
    some (a :: as)

end

/-- The code of an expression, razor_repl_expr.go:62-91, 120-140, for a rule whose replacement is `${expr}` alone, without the mark of the calls
(razor.go:43); `none` is an expression that is not translated. The replacement of `$.slice ` (141) is `Razor.fixSlice`. -/
def translate (letter : Char → Bool) (o : Orders) (group : Text → Text) (expression : Text) : Option Text := do
  let expr ← prepare o expression
  let tree ← parse letter expr
  let result ← nodeValue tree
  some (replaceAll callMark [] (expand group (comeBack result)))

end Verif.Translate
