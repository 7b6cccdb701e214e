import Verif.Model.Include
/-!
# Specification: what a sub-template sees and what its caller gets
-/

namespace Verif.Spec
open Include

/-- What the caller gets from an execution of a template: its result, unless it has undefined values that are not accepted, or its error. The
file is only given with a result that is the source of the template as it is. -/
inductive Reported (acceptNoValue : Bool) (t : Found) : Ending → Reply → Prop where
  | text (out : Text) : (acceptNoValue = true ∨ (¬ T "<no value>" <:+: out ∧ ¬ T "<nil>" <:+: out)) →
      Reported acceptNoValue t (.done out) (.text out (if out = t.source then t.file else []))
  | undefined (out e : Text) : acceptNoValue = false → (T "<no value>" <:+: out ∨ T "<nil>" <:+: out) → Reported acceptNoValue t (.done out) (.error e)
  | failed (out e : Text) : Reported acceptNoValue t (.failed out e) (.error e)
  | panic : Reported acceptNoValue t .panic .panic

/-- The arguments are a list under `ARGS` in a dictionary, and the dictionary `context` is there as `_`. -/
def HasArgs (args : List HVal) (context : Nat) (h : Heap) (dot : Nat) : Prop :=
  (∃ a, child h (.dict dot) (.key (T "ARGS")) = some (.list a) ∧ h[a]? = some (.arr args)) ∧
  child h (.dict dot) (.key (T "_")) = some (.dict context)

/-- The dictionary `dot` of the heap `h` has the arguments, the caller and the constants of the caller (whose context is a dictionary of the heap
`caller`), and nothing else. -/
structure FirstVariables (constants : List Text) (args : List HVal) (caller : Heap) (context : Nat) (h : Heap) (dot : Nat) : Prop where
  given : HasArgs args context h dot
  own : ∀ k ∈ constants, k ≠ T "ARGS" → k ≠ T "_" →
    child h (.dict dot) (.key k) = some ((child caller (.dict context) (.key k)).getD (.atom .nil))
  only : ∀ k v, child h (.dict dot) (.key k) = some v → k = T "ARGS" ∨ k = T "_" ∨ k ∈ constants

/-- The dictionary `dot` has the arguments, the caller, and the contents of all the variables of the caller. -/
structure AllVariables (args : List HVal) (caller : Heap) (context : Nat) (h : Heap) (dot : Nat) : Prop where
  given : HasArgs args context h dot
  variables : ∀ k, k ≠ T "ARGS" → k ≠ T "_" → ∀ p, seen h (.dict dot) (.key k :: p) = seen caller (.dict context) (.key k :: p)

end Verif.Spec
