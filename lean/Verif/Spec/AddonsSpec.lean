import Verif.Base.Map
/-!
# Specification of addons
-/

namespace Verif
namespace Spec

/-- What a template uses for a name when several addons bring functions: `groups` are the addons in order of registration, each with the function that
it has for the name, if it has one; the last of those that are on counts. -/
def lastOn {γ β : Type} (on : γ → Bool) (brings : γ → Option β) : List γ → Option β
  | [] => none
  | g :: gs => (lastOn on brings gs).or (if on g then brings g else none)

end Spec
end Verif
