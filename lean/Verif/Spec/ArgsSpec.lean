import Verif.Base.Space
/-!
# What lists of patterns and substitutions say
-/

namespace Verif
namespace Spec
open Text

/-- A text without the blanks around it. -/
def Trimmed (s t : Text) : Prop :=
  ∃ a b, s = a ++ t ++ b ∧ (∀ c ∈ a, isSpace c = true) ∧ (∀ c ∈ b, isSpace c = true) ∧ (∀ c, t.head? = some c → isSpace c = false) ∧
    (∀ c, t.getLast? = some c → isSpace c = false)

/-- A text that lists items: they are between commas, blanks around them are ignored, as well as items that are empty. -/
inductive Lists : Text → List Text → Prop
  | one (s t : Text) : ',' ∉ s → Trimmed s t → t ≠ [] → Lists s [t]
  | none (s : Text) : ',' ∉ s → Trimmed s [] → Lists s []
  | more (s r : Text) (xs ys : List Text) : ',' ∉ s → Lists s xs → Lists r ys → Lists (s ++ ',' :: r) (xs ++ ys)

/-- The texts of several arguments list items. -/
inductive ListsAll : List Text → List Text → Prop
  | nil : ListsAll [] []
  | cons (s : Text) (ss xs ys : List Text) : Lists s xs → ListsAll ss ys → ListsAll (s :: ss) (xs ++ ys)

/-- A substitution: a separator, an expression that is not empty, the separator again, and a replacement; the separator is in none of them. -/
def IsSubstitution (sep : Char) (s expr repl : Text) : Prop := s = sep :: expr ++ sep :: repl ∧ expr ≠ [] ∧ sep ∉ expr ∧ sep ∉ repl

end Spec
end Verif
