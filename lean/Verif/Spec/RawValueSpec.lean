import Verif.Base.Text

/-!
Specification for C79: a text in which values are written between marks, and the text that is expected from it.
-/

namespace Verif.Spec
open Verif

/-- A value that was written with `raw` and is in quotes, with the text before it. -/
structure RawPiece where
  before : Text
  value : Text

/-- The values as they are written, followed by the rest of the text. -/
def rawWritten : List RawPiece → Text → Text
  | [], tail => tail
  | p :: ps, tail => p.before ++ (T "\"!Q!" ++ p.value ++ T "!Q!\"") ++ rawWritten ps tail

/-- A character of space, as regular expressions have it. -/
def IsSpace (c : Char) : Prop := c = ' ' ∨ c = '\t' ∨ c = '\n' ∨ c = '\r' ∨ c = Char.ofNat 12

instance : DecidablePred IsSpace := fun c => by unfold IsSpace; infer_instance

/-- A value without space is shown as it is, another one in quotes. -/
def rawShown (v : Text) : Text := if ∃ c ∈ v, IsSpace c then '"' :: (v ++ ['"']) else v

/-- The text with the values as they have to be shown. -/
def rawExpected : List RawPiece → Text → Text
  | [], tail => tail
  | p :: ps, tail => p.before ++ rawShown p.value ++ rawExpected ps tail

/-- A value for which it works: it is not empty and, if it has spaces, it has no end of line and no quote. -/
def GoodRaw (v : Text) : Prop := v ≠ [] ∧ ((∃ c ∈ v, IsSpace c) → '\n' ∉ v ∧ '"' ∉ v)

end Verif.Spec
