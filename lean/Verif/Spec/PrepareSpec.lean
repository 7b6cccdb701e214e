import Verif.Spec.LiteralSpec
import Verif.Spec.RazorNameSpec
import Verif.Model.RazorPrepare
/-!
# Names and operators of razor expressions
-/

namespace Verif.Spec
open Verif

/-- The entries of the three maps, each in some order. -/
structure SomeOrder (o : Prepare.Orders) : Prop where
  words : o.words.Perm Prepare.reserved
  signs : o.signs.Perm Prepare.signs
  operators : o.operators.Perm Prepare.wordOperators

/-- The keywords of Go. -/
def goKeywords : List Text :=
  [c!"break", c!"case", c!"chan", c!"const", c!"continue", c!"default", c!"defer", c!"else", c!"fallthrough", c!"for", c!"func", c!"go", c!"goto", c!"if",
    c!"import", c!"interface", c!"map", c!"package", c!"range", c!"return", c!"select", c!"struct", c!"switch", c!"type", c!"var"]

/-- The keywords of Go that can be the name of a variable. -/
def allowedKeywords : List Text := [c!"default", c!"func", c!"map", c!"range", c!"struct", c!"type"]

/-- None of the signs of the expressions is a letter. -/
def SignLetters (letter : Char → Bool) : Prop :=
  PlainLetters letter ∧ letter '≠' = false ∧ letter '≦' = false ∧ letter '≧' = false ∧ letter '♠' = false

/-- An identifier of Go: a letter or `_`, then letters, digits and `_`; not a keyword. -/
structure GoName (letter : Char → Bool) (name : Text) : Prop where
  first : ∃ c t, name = c :: t ∧ (letter c = true ∨ c = '_')
  chars : ∀ c ∈ name, varChar letter c = true
  notKeyword : name ∉ goKeywords

/-- A variable in an expression, and the code for it: a global one (a name that is not one of the other keywords of Go), a local one and one of the context. -/
inductive Variable (letter : Char → Bool) : Text → Text → Prop
  | global (c : Char) (n : Text) : (letter c = true ∨ c = '_') → (∀ d ∈ n, varChar letter d = true) → (c :: n ∈ goKeywords → c :: n ∈ allowedKeywords) →
      Variable letter (c :: n) (c!"$." ++ c :: n)
  | «local» (n : Text) : (∀ d ∈ n, varChar letter d = true) → Variable letter ('$' :: n) ('$' :: n)
  | context (n : Text) : (∀ d ∈ n, varChar letter d = true) → Variable letter ('.' :: n) ('.' :: n)

/-- The words of the marks that the translation uses. -/
def markWords : List Text := [c!"REPL", c!"DoTPrefix", c!"GlobalVar", c!"FuncCall"]

/-- The operators that are words, and those of Go. -/
def wordTable : List (Text × Text) :=
  [(c!"eq", c!"=="), (c!"ne", c!"!="), (c!"lt", c!"<"), (c!"le", c!"<="), (c!"gt", c!">"), (c!"ge", c!">="), (c!"add", c!"+"), (c!"sub", c!"-"),
    (c!"mul", c!"*"), (c!"div", c!"/"), (c!"mod", c!"%"), (c!"and", c!"&&"), (c!"or", c!"||"), (c!"not", c!"!"), (c!"lshift", c!"<<"), (c!"rshift", c!">>"),
    (c!"band", c!"&"), (c!"bor", c!"|"), (c!"bxor", c!"^"), (c!"bclear", c!"&^")]

/-- The operators that are signs, and those of Go. -/
def signTable : List (Text × Text) :=
  [(c!"<>", c!"!="), (c!"≠", c!"!="), (c!"÷", c!"/"), (c!"≦", c!"<="), (c!"≧", c!">="), (c!"«", c!"<<"), (c!"»", c!">>")]

/-- `x` between `a` and `b` is the operator `g` of Go: a word between spaces, without another operator beside it (and no bracket before a subtraction), or a
sign that is not part of a longer sequence of signs. -/
inductive Between (a : Text) : Text → Text → Text → Prop
  | word (w g b : Text) : (w, g) ∈ wordTable → (∀ p ∈ wordTable, ¬ ' ' :: p.1 <:+ a) → (∀ p ∈ wordTable, ¬ p.1 ++ [' '] <+: b) → (g = c!"-" → '[' ∉ a) →
      Between a (' ' :: (w ++ [' '])) b g
  | sign (x g b : Text) : (x, g) ∈ signTable → (∀ c ∈ c!"<«", ¬ [c] <:+ a) → (∀ c ∈ c!">»≧", ¬ [c] <+: b) → Between a x b g

/-- A text where each quote belongs to a complete literal. -/
def Closed (a : Text) : Prop := ∃ pieces tail, Cut a pieces tail ∧ Plain tail

/-- Two reserved words that share a character. -/
def sharedWords : List Text := [c!"defaultype", c!"structype", c!"...."]

/-- The expressions where nothing depends on the order of the replacements: texts without space and sign where no two reserved words share a character, and
these texts with operators, spaces and literals between them. -/
inductive Settled : Text → Prop
  | simple (s : Text) : (∀ c ∈ s, c ∉ c!" ≠÷≦≧«»\"`♠") → ¬ c!"<>" <:+: s → (∀ w ∈ sharedWords, ¬ w <:+: s) → Settled s
  | operator (a x b g : Text) : Settled a → Settled b → Between a x b g → Settled (a ++ (x ++ b))
  | space (a b : Text) : Settled a → Settled b → (∀ p ∈ wordTable, ¬ ' ' :: p.1 <:+ a) → (∀ p ∈ wordTable, ¬ p.1 ++ [' '] <+: b) → Settled (a ++ ' ' :: b)
  | literal (a l b : Text) : Settled a → Settled b → Literal l → '♠' ∉ l → Settled (a ++ (l ++ b))

end Verif.Spec
