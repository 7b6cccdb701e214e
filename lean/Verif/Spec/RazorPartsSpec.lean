import Verif.Spec.RazorAtSpec
import Verif.Spec.RazorLinesSpec
/-!
# Parts of a text that razor translates one by one
-/

namespace Verif.Spec
open Verif

/-- The text does not begin with something like an e-mail address: the word before its first delimiter is not at the beginning. -/
def NoMailFirst (l : Text) : Prop := ∀ w v, l = w ++ '@' :: v → w ≠ [] → ∃ c ∈ w, mailChar c = false

/-- The same, or the text begins with a letter, a digit or an underscore: an address may begin with these, but with no sign. -/
def PlainFirst (l : Text) : Prop := (∃ c t, l = c :: t ∧ (c.isAlphanum = true ∨ c = '_')) ∨ NoMailFirst l

/-- A part of a text, one or several lines: no comment begins in it, it has no backtick, and it does not call `autoWrap`. -/
def Part (l : Text) : Prop := '`' ∉ l ∧ ¬ c!"/*" <:+: l ∧ ¬ c!"rap(" <:+: l

end Verif.Spec
