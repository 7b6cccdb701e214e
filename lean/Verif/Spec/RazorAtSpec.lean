import Verif.Base.Chars
/-!
# Literal razor delimiters

A text is protected from razor by doubling its delimiters.
-/

namespace Verif.Spec
open Verif

/-- Every `@` is doubled. -/
def doubled : Text → Text
  | [] => []
  | c :: t => if c = '@' then '@' :: '@' :: doubled t else c :: doubled t

/-- What razor looks for besides its delimiter. -/
def otherSigns : List Text := [c!"`", c!"${", c!"*/ }}", c!"{{ /*", c!"\"<<", c!"\"{{", c!"_=!", c!"__FuncCall__"]

/-- A text without them (it may have razor delimiters). -/
def NoOtherSign (t : Text) : Prop := ∀ f ∈ otherSigns, ¬ f <:+: t

/-- Neither of the texts that turn razor off. -/
def RazorAllowed (s : Text) : Prop := ¬ c!"no-gotemplate!" <:+: s ∧ ¬ c!"no-razor!" <:+: s

/-! ## E-mail addresses -/

/-- A character of the local part of an address. -/
def mailChar (c : Char) : Bool := c.isAlphanum || c ∈ c!".!#$%&'*+/=?^_{|}~-"

/-- A character of a domain name. -/
def domainChar (c : Char) : Bool := c.isAlphanum || c == '_' || c == '-'

/-- A part of a domain name. -/
def Label (d : Text) : Prop := d ≠ [] ∧ d.length ≤ 61 ∧ ∀ c ∈ d, domainChar c = true

/-- A word with an address: a local part, a domain name with at least one dot, and maybe other characters of the same kind (a final dot for
instance). -/
def AddressWord (w : Text) : Prop := ∃ l d₁ d₂ b, w = l ++ '@' :: (d₁ ++ '.' :: (d₂ ++ b)) ∧ l ≠ [] ∧ (∀ c ∈ l, mailChar c = true) ∧ Label d₁ ∧ Label d₂ ∧
  ∀ c ∈ b, mailChar c = true

/-- A text cut in words by characters that addresses do not have (spaces, newlines, commas, brackets, letters outside ASCII...), whose delimiters are
all in addresses. -/
inductive OnlyAddresses : Text → Prop
  | word {w} (h : ∀ c ∈ w, mailChar c = true) : OnlyAddresses w
  | address {w} (h : AddressWord w) : OnlyAddresses w
  | next {w c t} (hw : (∀ c ∈ w, mailChar c = true) ∨ AddressWord w) (hc : mailChar c = false ∧ c ≠ '@') (ht : OnlyAddresses t) :
      OnlyAddresses (w ++ c :: t)

end Verif.Spec
