import Verif.Lemmas.RazorNameAuto
/-!
# The rules of razor that leave the variables alone
-/

namespace Verif.Lemmas
open Verif Regex Spec Engine Razor Table

/-- The rules before the one of variables. -/
theorem table_bad : ∀ e ∈ (table.drop 2).take 129, (needs c!"${" e.2.2.2 || needs c!"{{ /*" e.2.2.2 || needs c!"*/ }}" e.2.2.2 || leadsToBad e.2.2.2) = true := by
  decide +kernel

end Verif.Lemmas
