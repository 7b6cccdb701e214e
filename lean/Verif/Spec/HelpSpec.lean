import Verif.Model.FuncHelp

/-!
What the listing of the functions must show (C75).
-/

namespace Verif.Spec
open Verif Verif.FuncHelp

/-- `l` is in increasing order, without repetition. -/
def Increasing (l : List Text) : Prop := l.Pairwise fun a b => Text.le a b = true ∧ a ≠ b

/-- What a user looks for with a filter: a piece of a name, of another name of the function or, when they are shown, of its category or of its description. -/
def Finds (lower : Char → Char) (category detailed : Bool) (f n : Text) (d : Doc) : Prop :=
  ∃ w, (w = n ∨ w ∈ d.aliases ∨ (category = true ∧ w = d.group) ∨ (detailed = true ∧ w = d.description)) ∧
    f.map lower <:+: w.map lower

/-- The name under which the detailed list describes a name of the table. -/
def Described (t : Table) (n m : Text) : Prop :=
  (∃ d, t.get? n = some (.alias d) ∧ m = d.name) ∨ ((∀ d, t.get? n ≠ some (.alias d)) ∧ m = n)

end Verif.Spec
