import Verif.Spec.RazorAtSpec
import Verif.Base.Space
/-!
# The razor expressions that are ignored

An ignored name protects the delimiter before it, as if it was doubled.
-/

namespace Verif.Spec
open Verif

/-- A letter without accent, a digit or an underscore. -/
def wordLetter (c : Char) : Bool := c.isAlphanum || c == '_'

/-- The name at the beginning of a text. -/
def nameAt (s : Text) : Text := s.takeWhile wordLetter

/-- What stands for a literal delimiter until the end of the translation. -/
def hiddenAt : Text := c!"_=!AT!=_"

/-- The delimiters before one of the names are hidden, the others are left. -/
def hidden (names : List Text) : Text → Text
  | [] => []
  | c :: s => if c = '@' ∧ nameAt s ∈ names then hiddenAt ++ hidden names s else c :: hidden names s

/-- Some of the delimiters are hidden, and nothing else is changed. -/
inductive Hides : Text → Text → Prop
  | nil : Hides [] []
  | keep {c s s'} (h : Hides s s') : Hides (c :: s) (c :: s')
  | hide {s s'} (h : Hides s s') : Hides ('@' :: s) (hiddenAt ++ s')

/-- No ignored expression comes just after another delimiter or after the name that follows it, as in `@@name` or `@other@name`. -/
def IgnoredApart (names : List Text) (s : Text) : Prop :=
  ∀ u, (∀ c ∈ u, wordLetter c = true) → ∀ v ∈ names, ¬ '@' :: u ++ '@' :: v <:+: s

/-- Every delimiter is before an ignored name. -/
def AllIgnored (names : List Text) (s : Text) : Prop := ∀ a b, s = a ++ '@' :: b → nameAt b ∈ names

/-- No delimiter is before an ignored name. -/
def NoneIgnored (names : List Text) (s : Text) : Prop := ∀ a b, s = a ++ '@' :: b → nameAt b ∉ names

/-- The names of a list of expressions: the blanks around them do not count, and neither do those that are empty. -/
def ignoredNames (list : List Text) : List Text := (list.map Text.trimSpace).filter (fun e => e ≠ [])

/-- The expressions in a text, between commas, spaces and newlines. -/
def listedIn (s : Text) : List Text := Text.splitP (fun c => c == ',' || c == ' ' || c == '\n') s

end Verif.Spec
