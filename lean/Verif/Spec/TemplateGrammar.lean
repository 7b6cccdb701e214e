import Verif.Model.RazorExpr
/-!
# Specification: Go template pipelines

A parser for the part of the Go template language that razor expressions produce, and the operation tree an expression stands for. The
parser knows nothing about how the text was produced.
-/

namespace Verif.Spec
open Razor

/-- An operation tree: an operand (variable, field, literal, function without argument), a field of a
parenthesised expression, or a function applied to arguments. -/
inductive Tree where
  | atom (t : Text)
  | field (x : Tree) (name : Text)
  | call (f : Tree) (args : List Tree)

/-- The characters that end a word. -/
def wordStop (c : Char) : Bool := c == ' ' || c == '(' || c == ')'

/-- The end of a literal opened by `q`: its remaining characters up to the closing quote, and what follows. A
backslash protects the next character except in raw strings. -/
def closeQuote (q : Char) : Text → Option (Text × Text)
  | [] => none
  | '\\' :: c :: s =>
    if q = '`' then (closeQuote q (c :: s)).map (fun (b, r) => ('\\' :: b, r))
    else (closeQuote q s).map (fun (b, r) => ('\\' :: c :: b, r))
  | c :: s => if c = q then some ([c], s) else (closeQuote q s).map (fun (b, r) => (c :: b, r))

mutual

/-- One operand at the beginning of a text, and what follows. -/
def operand : Nat → Text → Option (Tree × Text)
  | 0, _ => none
  | _ + 1, [] => none
  | n + 1, c :: s =>
    if c = '(' then
      match command n s with
      | some (t, ')' :: '.' :: r) => some (.field t (r.takeWhile (fun c => !wordStop c)), r.dropWhile (fun c => !wordStop c))
      | some (t, ')' :: r) => some (t, r)
      | _ => none
    else if c = '"' ∨ c = '`' ∨ c = '\'' then (closeQuote c s).map (fun (b, r) => (.atom (c :: b), r))
    else if wordStop c then none
    else some (.atom ((c :: s).takeWhile (fun c => !wordStop c)), (c :: s).dropWhile (fun c => !wordStop c))

/-- A command: an operand followed by its arguments. -/
def command : Nat → Text → Option (Tree × Text)
  | 0, _ => none
  | n + 1, s =>
    match operand n s with
    | some (f, r) =>
      match arguments n r with
      | some ([], r) => some (f, r)
      | some (args, r) => some (.call f args, r)
      | none => none
    | none => none

/-- The arguments of a command, each preceded by a space. -/
def arguments : Nat → Text → Option (List Tree × Text)
  | 0, _ => none
  | n + 1, ' ' :: s =>
    match operand n s with
    | some (a, r) => (arguments n r).map (fun (as, r) => (a :: as, r))
    | none => none
  | _ + 1, s => some ([], s)

end

/-- The tree of a whole text. -/
def parsePipeline (s : Text) : Option Tree :=
  match command (3 * s.length + 2) s with
  | some (t, []) => some t
  | _ => none

/-! ## What an expression stands for -/

/-- The template function of an operator. -/
def functionOf (op : Text) : Option Text :=
  [("==", "eq"), ("!=", "ne"), ("<", "lt"), ("<=", "le"), (">", "gt"), (">=", "ge"), ("+", "add"), ("-", "sub"), ("/", "div"),
   ("*", "mul"), ("%", "mod"), ("||", "or"), ("&&", "and"), ("!", "not"), ("<<", "lshift"), (">>", "rshift"), ("|", "bor"),
   ("&", "band"), ("^", "bxor"), ("&^", "bclear")].findSome? (fun (o, f) => if o.toList = op then some f.toList else none)

/-- A variable of a template. -/
def varText : Ident → Text
  | .glob n => T "$." ++ n
  | .loc n => '$' :: n
  | .ctx n => '.' :: n

/-- The expression without its outer parentheses. -/
def inner : Expr → Expr
  | .paren x => inner x
  | e => e

/-- A field of a tree. -/
def fieldOf (x : Tree) (name : Text) : Tree :=
  match x with
  | .atom t => .atom (t ++ '.' :: name)
  | x => .field x name

/-- The tree of a unary operation on `x`, whose tree is `mx`: the sign of a number is part of the number. -/
def unaryTree (op : Text) (x : Expr) (mx : Tree) : Tree :=
  if op = T "-" then
    match inner x with
    | .lit v => if startsDigit v then .atom ('-' :: v) else .call (.atom (T "sub")) [.atom (T "0"), mx]
    | _ => .call (.atom (T "sub")) [.atom (T "0"), mx]
  else .call (.atom ((functionOf op).getD [])) [mx]

/-- The tree of a binary operation: `x ** y` is read by Go as `x * (*y)`. -/
def binaryTree (op : Text) (y : Expr) (mx my : Tree) : Tree :=
  if op = T "*" then
    match inner y with
    | .star _ => .call (.atom (T "power")) [mx, my]
    | _ => .call (.atom (T "mul")) [mx, my]
  else .call (.atom ((functionOf op).getD [])) [mx, my]

/-- The function called: a bare name is the name of a template function. -/
def headTree (f : Expr) (mf : Tree) : Tree :=
  match f with
  | .ident (.glob n) => .atom n
  | _ => mf

/-- The tree of a call. With `...`, the function `ellipsis` is called with the name of the function first. -/
def callTree (ellipsis : Bool) (head : Tree) (args : List Tree) : Tree :=
  match args, ellipsis, head with
  | [], _, _ => head
  | args, true, .atom t => .call (.atom (T "ellipsis")) (.atom ('"' :: (t ++ ['"'])) :: args)
  | args, _, _ => .call head args

mutual

/-- The operation tree of an expression. -/
def meaning : Expr → Tree
  | .unary op x => unaryTree op x (meaning x)
  | .binary op x y => binaryTree op y (meaning x) (meaning y)
  | .ident i => .atom (varText i)
  | .lit v => .atom v
  | .sel x name => fieldOf (meaning x) name
  | .paren x => meaning x
  | .call f args ellipsis => callTree ellipsis (headTree f (meaning f)) (meanings args)
  | .star x => meaning x
  | .index x i => .call (.atom (T "slice")) [meaning x, meaning i]
  | .slice x low high => .call (.atom (T "slice")) [meaning x, meaning low, meaning high]
  | .other => .atom []

/-- The trees of the arguments. -/
def meanings : List Expr → List Tree
  | [] => []
  | a :: as => meaning a :: meanings as

end

/-! ## The expressions covered -/

/-- A character of a name: not a blank, a parenthesis, a quote, an operator or a marker. -/
def isNameChar (c : Char) : Prop :=
  c ∉ [' ', '\t', '(', ')', '"', '`', '\'', '\\', '*', '.', '$', '-', dotRep, globalRep, funcCall, dollarRep]

instance (c : Char) : Decidable (isNameChar c) := inferInstanceAs (Decidable (¬ _))

/-- A name: it does not begin with a digit. -/
def IsName (n : Text) : Prop := n ≠ [] ∧ (∀ c ∈ n, isNameChar c) ∧ startsDigit n = false

instance (n : Text) : Decidable (IsName n) := inferInstanceAs (Decidable (_ ∧ _ ∧ _))

/-- An identifier. -/
def IsIdent : Ident → Prop
  | .glob n => IsName n
  | .loc n => n = [] ∨ IsName n
  | .ctx n => n = [] ∨ IsName n

/-- A literal: a number, or a quoted text closed by its last character. Texts that contain `$` or `*` are left out, see
`C35_not_dollar` and `C35_not_star`. -/
def IsLiteral (v : Text) : Prop :=
  (∀ c ∈ v, c ∉ ['$', '*', dotRep, globalRep, funcCall, dollarRep]) ∧
  ((startsDigit v = true ∧ ∀ c ∈ v, c ∉ [' ', '\t', '(', ')', '"', '`', '\'', '\\']) ∨
   ∃ q s, (q = '"' ∨ q = '`' ∨ q = '\'') ∧ v = q :: s ∧ closeQuote q s = some (s, []))

/-- The text of the expression begins with a field of the context, such as `.x`. -/
def startsCtx : Expr → Bool
  | .ident (.ctx _) => true
  | .sel x _ => startsCtx x
  | .paren x => startsCtx x
  | .call f [] _ => startsCtx f
  | _ => false

/-- A call with arguments of a method of the context, such as `.x.m(1)`. -/
def contextCall : Expr → Bool
  | .call f (_ :: _) false => startsCtx f
  | .paren x => contextCall x
  | _ => false

/-- A function name or a method. -/
def isHead : Expr → Bool
  | .ident _ => true
  | .sel _ _ => true
  | _ => false

/-- A chain of names. -/
def isPath : Expr → Bool
  | .ident _ => true
  | .sel x _ => isPath x
  | _ => false

/-- The expressions covered by the translation theorem: known operators, names that are names, functions and methods called by name,
stars only in a power, and no call of a method of the context (with arguments) inside another operation. -/
inductive Covered : Expr → Prop
  | unary {op x} : (functionOf op).isSome → Covered x → contextCall x = false → Covered (.unary op x)
  | binary {op x y} : (functionOf op).isSome → Covered x → contextCall x = false → Covered y → contextCall y = false →
      Covered (.binary op x y)
  | power {x y z} : Covered x → contextCall x = false → inner y = .star z → Covered z → contextCall z = false →
      Covered (.binary (T "*") x y)
  | ident {i} : IsIdent i → Covered (.ident i)
  | lit {v} : IsLiteral v → Covered (.lit v)
  | sel {x name} : Covered x → contextCall x = false → (∀ v, inner x ≠ .lit v) → IsName name → Covered (.sel x name)
  | paren {x} : Covered x → Covered (.paren x)
  | call {f args} : Covered f → isHead f = true → (∀ a ∈ args, Covered a) → (∀ a ∈ args, contextCall a = false) →
      Covered (.call f args false)
  | ellipsis {f args} : Covered f → isPath f = true → (∀ a ∈ args, Covered a) → (∀ a ∈ args, contextCall a = false) →
      Covered (.call f args true)
  | index {x i} : Covered x → contextCall x = false → Covered i → contextCall i = false → Covered (.index x i)
  | slice {x l h} : Covered x → contextCall x = false → Covered l → contextCall l = false → Covered h → contextCall h = false →
      Covered (.slice x l h)

end Verif.Spec
