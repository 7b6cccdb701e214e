import Verif.Spec.RazorWordSpec
import Verif.Spec.ExpressionSpec
/-!
# Expressions between parentheses in a razor template

`@(expression)` in a text: which expressions, which signs, and what may be around.
-/

namespace Verif.Spec
open Verif

/-- Later on the line, a parenthesis is closed only after another delimiter, and there is no `:=` before it. -/
def Alone (b : Text) : Prop := ∀ u v, b = u ++ ')' :: v → '\n' ∈ u ∨ ('@' ∈ u ∧ ¬ c!":=" <:+: u)

/-- The expressions that are covered: no text of a mark, no `:=` (it would be an assignment), and nothing named `slice` (it is mistaken for the function). -/
structure Insertable (letter : Char → Bool) (s : Text) (e : Razor.Expr) : Prop where
  source : ExprText letter 1 s e
  marks : ∀ w ∈ markWords, ¬ w <:+: s
  noAssign : ¬ c!":=" <:+: s
  noSlice : ¬ c!"slice" <:+: s

/-- A text with any number of expressions between parentheses, without other parentheses after them on their lines, and the text where each of them is replaced by a
code, related to it by `code`. A semicolon that follows an expression is dropped. -/
inductive Expressions (letter : Char → Bool) (code : Razor.Expr → Text → Prop) : Text → Text → Prop
  | plain (a : Text) : '@' ∉ a → Expressions letter code a a
  | expr (a w s c rest rest' out : Text) (e : Razor.Expr) (r : Text × Text × Text) : '@' ∉ a → NotCommented a → NotQuoted a → r ∈ reduceSigns → '_' ∉ r.1 →
      (∀ d ∈ w, isBlank d = true) → Insertable letter s e → code e c → Alone rest → Remains rest rest' → Expressions letter code rest' out →
      Expressions letter code (a ++ '@' :: (r.1 ++ '(' :: (w ++ (s ++ ')' :: rest)))) (a ++ (wordCode c r.2.1 r.2.2 ++ out))

/-- A text with expressions between parentheses. -/
def HasExpressions (letter : Char → Bool) (t : Text) : Prop := ∃ out, Expressions letter (fun _ _ => True) t out

end Verif.Spec
