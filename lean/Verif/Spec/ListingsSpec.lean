import Verif.Model.Listings
/-!
# Specification of numbered lines and of the list of templates
-/

namespace Verif.Spec
open Verif

/-- The line `l` with its number, right aligned in a column of `w` characters. -/
def NumberedLine (w n : Nat) (l out : Text) : Prop :=
  ∃ k, out = List.replicate k ' ' ++ Nat.toDigits 10 n ++ ' ' :: l ∧ k + (Nat.toDigits 10 n).length = w

/-- A template that is defined in a file under a name of its own. -/
def OwnName (t : Listings.Tpl) : Prop := t.name ≠ t.parseName

/-- The row of a template: its name, or nothing for the template of a whole file, then its file from the second column, which begins after `w` characters. -/
def TemplateRow (faint : Text → Text) (folder : Text) (w : Nat) (t : Listings.Tpl) (out : Text) : Prop :=
  ∃ k name, (OwnName t → name = t.name) ∧ (¬ OwnName t → name = []) ∧
    out = name ++ List.replicate k ' ' ++ ' ' :: faint (Path.relative folder t.parseName) ∧ name.length + k = w

end Verif.Spec
