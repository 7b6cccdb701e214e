import Verif.Spec.RazorBlockSpec
/-!
# Commands of a single line in a razor template
-/

namespace Verif.Spec
open Verif

/-- The commands that can be followed by their action on the same line. -/
def lineWords : List Text := [c!"if", c!"with", c!"range"]

/-- The texts that the rules that indent and wrap automatically look for. -/
def autoSigns : List Text := [c!"ndent(", c!"rap("]

/-- The action of such a command: a part of a line, without a semicolon, and without blanks around it. -/
structure Action (t : Text) : Prop where
  ne : t ≠ []
  line : '\n' ∉ t
  semi : ';' ∉ t
  first : ∀ d, t.head? = some d → isBlank d = false
  last : ∀ d, t.getLast? = some d → isBlank d = false

/-- An action between braces: a part of a line, without a closing brace, and without blanks before it. -/
structure BracedAction (t : Text) : Prop where
  ne : t ≠ []
  line : '\n' ∉ t
  brace : '}' ∉ t
  first : ∀ d, t.head? = some d → isBlank d = false

end Verif.Spec
