import Verif.Base.Text
import Verif.Base.Map
/-!
# Specification of batches, delimiters and constants
-/

namespace Verif
namespace Spec

open Text

/-- The items of a list are handled one after the other: each one gives an outcome and changes the world for the next ones. -/
inductive History {ω τ ο : Type} (step : ω → τ → ο × ω) : ω → List τ → List ο → ω → Prop where
  | done (w : ω) : History step w [] [] w
  | step {w w' : ω} {t : τ} {ts : List τ} {os : List ο} : History step (step w t).2 ts os w' → History step w (t :: ts) ((step w t).1 :: os) w'

/-- The delimiter for a part of a specification: the part itself unless it is absent or empty. -/
def delimiterOr (default : Text) : Option Text → Text
  | some p => if p = [] then default else p
  | none => default

/-- A dictionary is extended: what was defined keeps its value. -/
def Extends {α : Type} (m m' : GoMap α) : Prop := ∀ k v, m.get? k = some v → m'.get? k = some v

end Spec
end Verif
