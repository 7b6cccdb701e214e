import Verif.Spec.RazorParenSpec
import Verif.Spec.IndexSpec
/-!
# Indices in a razor template

`@name[…]` in a text: what is between the brackets, and the operation it stands for.
-/

namespace Verif.Spec
open Verif

/-- One of the texts between the brackets: an expression, without comma, colon, brackets and braces. A call with arguments of a method of the context, such as `.x.m(1)`,
is left out. -/
structure IndexItem (letter : Char → Bool) (s : Text) (e : Razor.Expr) : Prop where
  ins : Insertable letter s e
  call : contextCall e = false
  chars : ∀ c ∈ s, c ∉ ['[', ']', ':', ',', '{']

/-- The numbers that stand for bounds that are not written. -/
def zero : Razor.Expr := .lit c!"0"
def minusOne : Razor.Expr := .unary c!"-" (.lit c!"1")

/-- What is between the brackets, the template function it calls, and its arguments after the variable: elements between commas are extracted, and a colon makes a slice,
from the beginning and to the end by default (after a negative number, to the beginning). -/
inductive IndexText (letter : Char → Bool) : Text → Text → List Razor.Expr → Prop
  | elements (l : List (Text × Razor.Expr)) : l ≠ [] → (∀ p ∈ l, IndexItem letter p.1 p.2) →
      IndexText letter (Text.join c!"," (l.map (·.1))) c!"extract" (l.map (·.2))
  | between {s t e e'} : IndexItem letter s e → IndexItem letter t e' → IndexText letter (s ++ ':' :: t) c!"slice" [e, e']
  | upTo {t e} : IndexItem letter t e → IndexText letter (':' :: t) c!"slice" [zero, e]
  | since {s e} : IndexItem letter s e → IndexText letter (s ++ c!":") c!"slice" [e, if isNegative s then zero else minusOne]
  | all : IndexText letter c!":" c!"slice" [zero, minusOne]

/-- No closing bracket on the rest of the line. -/
def NoBracket (b : Text) : Prop := ∀ u v, b = u ++ ']' :: v → '\n' ∈ u

end Verif.Spec
