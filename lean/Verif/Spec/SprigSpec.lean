import Verif.Base.Map
import Verif.Base.Chars
/-!
# Specification of the functions of a library under documented names
-/

namespace Verif
namespace Spec

/-- The documented name `n` and its aliases `as` stand for one function `v` of the library: no other documented name shares a name with it, what
the library has under these names is `v`, and it has it under one of them at least (that does not begin with `must`, when it is an alias). -/
structure OneFunction {α : Type} (doc : Text → Option (List Text)) (lib : Text → Option α) (n : Text) (as : List Text) (v : α) : Prop where
  listed : doc n = some as
  alone : ∀ m bs, doc m = some bs → m ≠ n → m ∉ as ∧ n ∉ bs ∧ ∀ a ∈ as, a ∉ bs
  same : ∀ x ∈ n :: as, ∀ w, lib x = some w → w = v
  there : ∃ x ∈ n :: as, lib x = some v ∧ (c!"must" <+: x → x = n)

end Spec
end Verif
