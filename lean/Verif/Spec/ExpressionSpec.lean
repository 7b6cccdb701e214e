import Verif.Spec.PrepareSpec
import Verif.Spec.TemplateGrammar
import Verif.Model.RazorTranslate
/-!
# The grammar of expressions

The expressions of Go as they are in its specification (operators with five levels of precedence, from left to right), and the texts of razor expressions.
-/

namespace Verif.Spec
open Verif Translate

/-- The binary operators of Go and their precedence. -/
def goLevels : List (Text × Nat) :=
  [(c!"||", 1), (c!"&&", 2), (c!"==", 3), (c!"!=", 3), (c!"<", 3), (c!"<=", 3), (c!">", 3), (c!">=", 3), (c!"+", 4), (c!"-", 4), (c!"|", 4), (c!"^", 4),
    (c!"*", 5), (c!"/", 5), (c!"%", 5), (c!"<<", 5), (c!">>", 5), (c!"&", 5), (c!"&^", 5)]

/-- Texts between commas. -/
def commas : List (List Token) → List Token
  | [] => []
  | [a] => a
  | a :: as => a ++ .sym c!"," :: commas as

/-- The expressions of Go, by level: 1 to 5 for the binary operators (on the left, an expression of the same level; on the right, one of the next level), 6 for
the unary ones, 7 for operands, selectors, indexes and calls. -/
inductive Level : Nat → List Token → Node → Prop
  | name (t : Text) : Level 7 [.name t] (.ident t)
  | lit (v : Text) : Level 7 [.lit v] (.lit v)
  | paren {ts x} : Level 1 ts x → Level 7 (.sym c!"(" :: (ts ++ [.sym c!")"])) (.paren x)
  | sel {ts x} (t : Text) : Level 7 ts x → Level 7 (ts ++ [.sym c!".", .name t]) (.sel x t)
  | index {ts x us i} : Level 7 ts x → Level 1 us i → Level 7 (ts ++ .sym c!"[" :: (us ++ [.sym c!"]"])) (.index x i)
  | slice {ts x us i vs j} : Level 7 ts x → Level 1 us i → Level 1 vs j →
      Level 7 (ts ++ .sym c!"[" :: (us ++ .sym c!":" :: (vs ++ [.sym c!"]"]))) (.slice x i j)
  | call {ts f} (args : List (List Token × Node)) : Level 7 ts f → (∀ a ∈ args, Level 1 a.1 a.2) →
      Level 7 (ts ++ .sym c!"(" :: (commas (args.map (·.1)) ++ [.sym c!")"])) (.call f (args.map (·.2)) false)
  | ellipsis {ts f} (args : List (List Token × Node)) : Level 7 ts f → args ≠ [] → (∀ a ∈ args, Level 1 a.1 a.2) →
      Level 7 (ts ++ .sym c!"(" :: (commas (args.map (·.1)) ++ [.sym c!"...", .sym c!")"])) (.call f (args.map (·.2)) true)
  | unary {op ts x} : op ∈ [c!"+", c!"-", c!"!", c!"^", c!"&"] → Level 6 ts x → Level 6 (.sym op :: ts) (.unary op x)
  | star {ts x} : Level 6 ts x → Level 6 (.sym c!"*" :: ts) (.star x)
  | binary {op p ts x us y} : (op, p) ∈ goLevels → Level p ts x → Level (p + 1) us y → Level p (ts ++ .sym op :: us) (.binary op x y)
  | up {p ts x} : p < 7 → Level (p + 1) ts x → Level p ts x

/-- What follows the operator `g` does not make it longer (`<` then `-` is another operator of Go, `/` then `*` is a comment). -/
def StaysShort (g rest : Text) : Prop := ∀ c, rest.head? = some c → ∀ t ∈ symbols ++ [c!"//", c!"/*"], ¬ g ++ [c] <+: t

/-! ## Razor expressions -/

/-- The texts of a variable: as it is in an expression, and its name. -/
def varSource : Razor.Ident → Text
  | .glob n => n
  | .loc n => '$' :: n
  | .ctx n => '.' :: n

/-- How an operator of Go is written: as a word between spaces, as a sign or as in Go. -/
inductive Spelled : Text → Text → Prop
  | word {w g} : (w, g) ∈ wordTable → Spelled (' ' :: (w ++ [' '])) g
  | sign {x g} : (x, g) ∈ signTable → Spelled x g
  | go {g p} : (g, p) ∈ goLevels → Spelled g g

/-- Spaces, perhaps none. -/
def Spaces (l : Text) : Prop := ∀ c ∈ l, c = ' '

/-- A character of a literal: not a mark of the translation (the characters U+E000 to U+E003 stand for them in the model of the trees), not a character that has
another meaning in the code (`$`, `*`, `@`), no escape and no line end. -/
def literalChar (c : Char) : Prop := c ∉ c!"\\$*@♠\n\r" ∧ c ∉ [Razor.dotRep, Razor.globalRep, Razor.funcCall, Razor.dollarRep]

/-- An argument of a call: an expression, and the spaces on both sides. -/
structure Arg where
  left : Text
  text : Text
  right : Text
  expr : Razor.Expr

/-- The last character of what a selector is taken of: an ASCII letter, a digit, `_`, `)`, `]` or the `$` of the global context. -/
def beforeDot (c : Char) : Prop := c.isAlphanum = true ∨ c = '_' ∨ c = ')' ∨ c = ']' ∨ c = '$'

/-- The texts of razor expressions and the expressions they stand for, by level as in `Level`: variables, numbers, literals, parentheses, calls of functions,
selectors, calls of methods, indexes, slices, unary operators, and binary operators in any of their spellings with the precedences of Go, with spaces between them. -/
inductive ExprText (letter : Char → Bool) : Nat → Text → Razor.Expr → Prop
  | variable (i : Razor.Ident) : Variable letter (varSource i) (varText i) → IsIdent i → (∀ p ∈ wordTable, varSource i ≠ p.1) → ExprText letter 7 (varSource i) (.ident i)
  | number {d} : d ≠ [] → (∀ c ∈ d, c.isDigit = true) → ExprText letter 7 d (.lit d)
  | quoted {q body} : q = '"' ∨ q = '`' → (∀ c ∈ body, c ≠ q ∧ literalChar c) → ExprText letter 7 (q :: (body ++ [q])) (.lit (q :: (body ++ [q])))
  | paren {l s r e} : Spaces l → Spaces r → ExprText letter 1 s e → ExprText letter 7 ('(' :: (l ++ (s ++ (r ++ [')'])))) (.paren e)
  | call {n} (args : List Arg) : Variable letter n (c!"$." ++ n) → IsName n → (∀ a ∈ args, Spaces a.left ∧ Spaces a.right) →
      (∀ a ∈ args, ExprText letter 1 a.text a.expr) →
      ExprText letter 7 (n ++ '(' :: (Text.join [','] (args.map fun a => a.left ++ (a.text ++ a.right)) ++ [')'])) (.call (.ident (.glob n)) (args.map (·.expr)) false)
  | sel {s e c n} : ExprText letter 7 s e → (∀ v, inner e ≠ .lit v) → s.getLast? = some c → beforeDot c → Variable letter n (c!"$." ++ n) → IsName n →
      ExprText letter 7 (s ++ '.' :: n) (.sel e n)
  | method {s e n} (args : List Arg) : ExprText letter 7 s (.sel e n) → (startsCtx e = false ∨ args = []) → (∀ a ∈ args, Spaces a.left ∧ Spaces a.right) →
      (∀ a ∈ args, ExprText letter 1 a.text a.expr) →
      ExprText letter 7 (s ++ '(' :: (Text.join [','] (args.map fun a => a.left ++ (a.text ++ a.right)) ++ [')'])) (.call (.sel e n) (args.map (·.expr)) false)
  | index {s e l t r i} : ExprText letter 7 s e → Spaces l → Spaces r → ExprText letter 1 t i → ExprText letter 7 (s ++ '[' :: (l ++ (t ++ (r ++ [']'])))) (.index e i)
  | slice {s e l t r i l' t' r' j} : ExprText letter 7 s e → Spaces l → Spaces r → Spaces l' → Spaces r' → ExprText letter 1 t i → ExprText letter 1 t' j →
      ExprText letter 7 (s ++ '[' :: (l ++ (t ++ (r ++ ':' :: (l' ++ (t' ++ (r' ++ [']']))))))) (.slice e i j)
  | unary {g l s e} : g ∈ [c!"+", c!"-", c!"!", c!"^", c!"&"] → Spaces l → StaysShort g (l ++ s) → ExprText letter 6 s e → ExprText letter 6 (g ++ (l ++ s)) (.unary g e)
  | binary {a l x r b g p e e'} : Spelled x g → (g, p) ∈ goLevels → Spaces l → Spaces r → StaysShort g (r ++ b) → ExprText letter p a e → ExprText letter (p + 1) b e' →
      ExprText letter p (a ++ (l ++ (x ++ (r ++ b)))) (.binary g e e')
  | up {p s e} : p < 7 → ExprText letter (p + 1) s e → ExprText letter p s e

/-- The text ends with the lower bound of a slice that is a negative number. -/
def NegativeLow (a : Text) : Prop := ∃ d : Text, d ≠ [] ∧ (∀ c ∈ d, c.isDigit = true) ∧ ((c!"[-" ++ d) <:+ a ∨ (c!"[ sub " ++ d) <:+ a)

/-- `Written s t`: `t` is `s` with a bound that is not written in `s`, outside of the literals. -/
inductive Written : Text → Text → Prop where
  /-- `[]` is `[0:-1]`. -/
  | both {a b : Text} : Closed a → Written (a ++ (c!"[]" ++ b)) (a ++ (c!"[0:-1]" ++ b))
  /-- `[:` is `[0:`. -/
  | low {a b : Text} : Closed a → Written (a ++ (c!"[:" ++ b)) (a ++ (c!"[0:" ++ b))
  /-- `:]` is `:-1]` … -/
  | high {a b : Text} : Closed a → ¬ NegativeLow a → Written (a ++ (c!":]" ++ b)) (a ++ (c!":-1]" ++ b))
  /-- … or `:0]` after a negative number. -/
  | zero {a d b : Text} : Closed a → d ≠ [] → (∀ c ∈ d, c.isDigit = true) → Written (a ++ (c!"[-" ++ d ++ c!":]" ++ b)) (a ++ (c!"[-" ++ d ++ c!":0]" ++ b))

/-- Several bounds. -/
inductive WrittenAll : Text → Text → Prop where
  | same (s : Text) : WrittenAll s s
  | step {s t u : Text} : Written s t → WrittenAll t u → WrittenAll s u

end Verif.Spec
