import Verif.Base.Map
/-!
# Specification of the functions of the addons
-/

namespace Verif
namespace Spec

/-- `k` is the name or an alias of the function `name`: the aliases are those listed under that name. -/
def CalledBy (aliases : List (Text × List Text)) (name k : Text) : Prop := k = name ∨ ∃ as, (name, as) ∈ aliases ∧ k ∈ as

end Spec
end Verif
