import Verif.Base.Map
/-!
# Sources of a context
-/

namespace Verif
namespace Spec

/-- What the command line gives: a file to import if it exists, a file to import, a variable. -/
inductive Source where
  | ifExist (file : Text)
  | imported (file : Text)
  | var (text : Text)

/-- The value of a key in the last dictionary that has it, or nothing when none has it. -/
def LastOf {V : Type} (ds : List (GoMap V)) (k : Text) : Option V → Prop
  | none => ∀ d ∈ ds, d.get? k = none
  | some v => ∃ before d after, ds = before ++ d :: after ∧ d.get? k = some v ∧ ∀ d' ∈ after, d'.get? k = none

end Spec
end Verif
