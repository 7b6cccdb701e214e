import Verif.Base.Map
/-!
# Specification of function tables
-/

namespace Verif
namespace Spec

/-- The aliases of each name to register make no conflict: an alias is not also the name of a function, nor an alias of another function. -/
def Unambiguous (aliases : Text → Option (List Text)) : Prop :=
  (∀ n m as bs, aliases n = some as → aliases m = some bs → n ∉ bs) ∧
  (∀ n m as bs a, aliases n = some as → aliases m = some bs → a ∈ as → a ∈ bs → n = m)

/-- A name or an alias of what is registered. -/
def NamedBy (aliases : Text → Option (List Text)) (k : Text) : Prop := (∃ as, aliases k = some as) ∨ ∃ n as, aliases n = some as ∧ k ∈ as

/-- A map of functions, each with its aliases, gives one meaning to a name: whatever has this name or this alias is the same function `v`, and there is
one. That one is found by its name, or by an alias of a function that no other function hides under its own aliases. -/
structure Brings {α : Type} (entries : Text → Option (α × List Text)) (k : Text) (v : α) : Prop where
  named : ∀ w as, entries k = some (w, as) → w = v
  aliased : ∀ n w as, entries n = some (w, as) → k ∈ as → w = v
  found : (∃ w as, entries k = some (w, as)) ∨
    ∃ n w as, entries n = some (w, as) ∧ k ∈ as ∧ ∀ m u bs, entries m = some (u, bs) → n ∈ bs → m = n

end Spec
end Verif
