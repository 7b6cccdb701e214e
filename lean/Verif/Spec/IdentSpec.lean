import Verif.Model.Ident

/-!
What an identifier made from a text should be (C78).
-/

namespace Verif.Spec
open Verif Verif.Ident

/-- The characters of identifiers: letters, digits and the underscore. -/
def IdentChar (letter : Char → Bool) (c : Char) : Prop := letter c = true ∨ ('0' ≤ c ∧ c ≤ '9') ∨ c = '_'

/-- The library replaces by the text itself when the replacement has no `$`. -/
def PlainExpand (lib : Lib) : Prop := ∀ r c, '$' ∉ r → lib.expand r c = r

/-- A replacement of one character that means itself; none given means `_`. -/
def OneChar (r : Text) (x : Char) : Prop := (r = [] ∧ x = '_') ∨ (r = [x] ∧ x ∉ ['*', '^', '|', '$'])

/-- The pieces of a text between the characters for which `sep` holds, without the empty ones. -/
def pieces (sep : Char → Prop) [DecidablePred sep] : Text → List Text
  | [] => []
  | [c] => if sep c then [] else [[c]]
  | c :: d :: s =>
    if sep c then pieces sep (d :: s)
    else if sep d then [c] :: pieces sep (d :: s)
    else match pieces sep (d :: s) with
      | [] => [[c]]
      | w :: ws => (c :: w) :: ws

instance (letter : Char → Bool) (c : Char) : Decidable (IdentChar letter c) := by unfold IdentChar; exact inferInstance

/-- The characters of the text that do not stay: those that are not allowed, and the replacement. -/
def Separates (letter : Char → Bool) (x c : Char) : Prop := ¬ IdentChar letter c ∨ c = x

instance (letter : Char → Bool) (x : Char) : DecidablePred (Separates letter x) := fun c => by unfold Separates; exact inferInstance

end Verif.Spec
