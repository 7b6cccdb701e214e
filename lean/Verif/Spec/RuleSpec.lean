import Verif.Model.RazorRules
/-!
# Specification: a rule written for any delimiters
-/

namespace Verif.Spec
open Razor

/-- A piece of a rule: one of the three delimiters, or a character that is not one. -/
inductive Tok where
  | razor
  | left
  | right
  | char (c : Char)
  deriving DecidableEq

/-- The text of a piece with given delimiters. -/
def Tok.text (d : Delims) : Tok → Text
  | .razor => d.razor
  | .left => d.left
  | .right => d.right
  | .char c => [c]

/-- The text of a rule with given delimiters. -/
def write (d : Delims) (toks : List Tok) : Text := toks.flatMap (Tok.text d)

/-- The delimiters as they appear in a regular expression. -/
def quotedDelims (d : Delims) : Delims := ⟨quoteMeta d.left, quoteMeta d.right, quoteMeta d.razor⟩

/-- The default razor delimiter only appears as a delimiter, never as a character of its own. -/
def Abstract (toks : List Tok) : Prop := Tok.char '@' ∉ toks

/-- The characters used in the abbreviations of the table of rules. -/
def abbreviationChar (c : Char) : Bool := c.isAlpha || c == ';' || c == '[' || c == ']' || c == '_'

/-- Delimiters that cannot be confused with the texts of the table: none is empty or has a letter, `;`, `[`, `]` or `_`; braces only
appear in the left delimiter (opening) and the right one; `@` is only used by the razor delimiter. -/
def PlainText (d : Delims) : Prop :=
  (d.left ≠ [] ∧ d.right ≠ [] ∧ d.razor ≠ []) ∧
  (∀ c ∈ d.left ++ d.right ++ d.razor, abbreviationChar c = false) ∧
  ('{' ∉ d.razor ∧ '}' ∉ d.razor ∧ '}' ∉ d.left) ∧ ('@' ∉ d.left ∧ '@' ∉ d.right)

instance (d : Delims) : Decidable (PlainText d) := by unfold PlainText; exact inferInstance

end Verif.Spec
