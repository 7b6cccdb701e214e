import Verif.Model.AutoWrap
import Verif.Spec.LiteralSpec
import Verif.Spec.QuoteSpec

/-!
Specification for C85: the arguments of a call.
-/

namespace Verif.Spec
open Verif Verif.Text

/-- The arguments of a call, without the parentheses around them: parentheses are closed, and those in texts between quotes do not count. -/
inductive Arguments : Text → Prop
  | nil : Arguments []
  | plain {c t} : ¬ Quote c → c ≠ '(' → c ≠ ')' → Arguments t → Arguments (c :: t)
  | literal {l t} : Literal l → Arguments t → Arguments (l ++ t)
  | nested {a t} : Arguments a → Arguments t → Arguments ('(' :: (a ++ ')' :: t))

/-- What an `autoWrap` in a line becomes: a call of `join` on a call of `formatList`, for the format that puts each element between what is before and what is after on the line. -/
def wrapped (nl reduce format args : Text) : Text :=
  T "@" ++ nl ++ reduce ++ T "join(\"" ++ (if nl = [] then [] else T "\\n") ++ T "\", formatList(" ++ format ++ T ", " ++ args ++ T "))"

end Verif.Spec
