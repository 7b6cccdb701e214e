import Verif.Base.Chars
/-!
# Lines without razor code

What makes a line interesting to razor with the default delimiters: the razor delimiter itself, backticks and the beginning of a substitution of
the shell, ends of comments, strings that begin with code, and the marks that the translation leaves in the text while it works.
-/

namespace Verif.Spec
open Verif

/-- A line that has none of these is an ordinary line. -/
def razorSigns : List Text :=
  [c!"@", c!"`", c!"${", c!"*/", c!"{{ /*", c!"\"<<", c!"\"{{", c!"_=!AT!=_", c!"_=!TRIPLE_BT!=_", c!"_=!REPL!=_", c!"__FuncCall__"]

def OrdinaryLine (l : Text) : Prop := ∀ f ∈ razorSigns, ¬ f <:+: l

/-- The same, as a test. -/
def ordinaryLine (l : Text) : Bool := razorSigns.all (fun f => !Text.contains f l)

/-- The ordinary lines of a content, in order. -/
def ordinaryLines (s : Text) : List Text := (Text.splitC '\n' s).filter ordinaryLine

end Verif.Spec
