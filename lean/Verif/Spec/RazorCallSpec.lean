import Verif.Spec.RazorParenSpec
/-!
# Calls of functions in a razor template
-/

namespace Verif.Spec
open Verif

/-- The words that begin a command when a parenthesis follows. -/
def callWords : List Text := [c!"if", c!"with", c!"range", c!"block", c!"define", c!"foreach"]

/-- The texts that other rules look for: what indents and wraps automatically, and a selection or an index after a parenthesis. -/
def noCallSigns : List Text := [c!"ndent(", c!"rap(", c!").", c!")["]

/-- No closing parenthesis on the rest of the line. -/
def NoClosing (b : Text) : Prop := ∀ u v, b = u ++ ')' :: v → '\n' ∈ u

end Verif.Spec
