import Verif.Base.Text
/-!
# Specification of partial slices
-/

namespace Verif.Spec

/-- A negative number such as `-12`. -/
def isNegative : Text → Bool
  | '-' :: d => decide (d ≠ []) && d.all Char.isDigit
  | _ => false

/-- What is missing between a character and the next one. `opened` is the text since the last opening bracket, if any: nothing at all
between brackets stands for `0:-1`, a missing first bound for `0`, a missing last bound for `-1`, or for `0` when the first bound is a
negative number. -/
def missing (opened : Option Text) (c : Char) (next : Option Char) : Text :=
  if c = '[' ∧ next = some ']' then T "0:-1"
  else if c = '[' ∧ next = some ':' then T "0"
  else if c = ':' ∧ next = some ']' then (if opened.any isNegative then T "0" else T "-1")
  else []

/-- The text with the missing bounds added. -/
def completeFrom (opened : Option Text) : Text → Text
  | [] => []
  | c :: s => c :: (missing opened c s.head? ++ completeFrom (if c = '[' then some [] else opened.map (fun w => w ++ [c])) s)

/-- The text with the missing bounds added, from the beginning. -/
def complete (s : Text) : Text := completeFrom none s

/-- The first bound of a slice: `0` when it is omitted. -/
def firstBound (a : Text) : Text := if a = [] then T "0" else a

/-- The last bound of a slice: when it is omitted `-1`, which stands for the end, or `0`, which stands for the beginning, when the first
bound is a negative number, for which the elements are taken backwards. -/
def lastBound (a b : Text) : Text := if b ≠ [] then b else if isNegative a then T "0" else T "-1"

/-- The expressions with brackets, that may be nested, and their complete form. -/
inductive Completed : Text → Text → Prop
  | nil : Completed [] []
  | char {c s t} : c ∉ ['[', ']', ':'] → Completed s t → Completed (c :: s) (c :: t)
  | all {s t} : Completed s t → Completed ('[' :: ']' :: s) (T "[0:-1]" ++ t)
  | index {i j s t} : i ≠ [] → Completed i j → Completed s t → Completed ('[' :: (i ++ ']' :: s)) ('[' :: (j ++ ']' :: t))
  | slice {a a' b b' s t} : Completed a a' → Completed b b' → Completed s t →
      Completed ('[' :: (a ++ ':' :: (b ++ ']' :: s))) ('[' :: (firstBound a' ++ ':' :: (lastBound a b' ++ ']' :: t)))

end Verif.Spec
