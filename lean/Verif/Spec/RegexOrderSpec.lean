import Verif.Spec.RegexSpec
/-!
# Which match is preferred

All the matches at a position in the order of preference of Perl and of Go: the first alternatives before the others, long repetitions before short ones
when they are greedy and after them when they are not. A replacement goes through the text from left to right and takes the preferred match at the
first position that has one.
-/

namespace Verif.Spec
open Verif Regex

/-- Where a match ends: the character before this position, the text after it, the groups. -/
abbrev Stop := Option Char × Text × Caps

/-- The repetitions that take something at each turn, at most `n` turns. -/
def repeated (one : Stop → List Stop) (greedy : Bool) : Nat → Stop → List Stop
  | 0, st => [st]
  | n + 1, st =>
    let longer := ((one st).filter (fun st' => st'.2.1.length < st.2.1.length)).flatMap (repeated one greedy n)
    if greedy then longer ++ [st] else st :: longer

/-- The ends of the matches that begin at a position, by order of preference. -/
def ends (letter : Char → Bool) : Re → Stop → List Stop
  | .eps, st => [st]
  | .cls k, (_, s, c) =>
    match s with
    | [] => []
    | ch :: t => if k.has letter ch then [(some ch, t, c)] else []
  | .bol multi, (p, s, c) => if p = none ∨ multi = true ∧ p = some '\n' then [(p, s, c)] else []
  | .eol multi, (p, s, c) => if s = [] ∨ multi = true ∧ s.head? = some '\n' then [(p, s, c)] else []
  | .edge, (p, s, c) => if p.any isWordChar ≠ s.head?.any isWordChar then [(p, s, c)] else []
  | .seq a b, st => (ends letter a st).flatMap (ends letter b)
  | .alt a b, st => ends letter a st ++ ends letter b st
  | .opt g a, st => if g then ends letter a st ++ [st] else st :: ends letter a st
  | .star g a, st => repeated (ends letter a) g st.2.1.length st
  | .group n a, st => (ends letter a st).map (fun st' => (st'.1, st'.2.1, (n, st.2.1.take (st.2.1.length - st'.2.1.length)) :: st'.2.2))

/-- The preferred match at a position takes `x`. -/
def Preferred (letter : Char → Bool) (r : Re) (p : Option Char) (x q : Text) (caps : Caps) : Prop :=
  (ends letter r (p, x ++ q, [])).head? = some (lastOr p x, q, caps)

/-- `Replaced letter r out p s s'`: in the text `s`, after the character `p`, the replacement gives `s'`. -/
inductive Replaced (letter : Char → Bool) (r : Re) (out : Text → Caps → Text) : Option Char → Text → Text → Prop
  | nil {p} : Replaced letter r out p [] []
  | keep {p c t t'} (h : ∀ x q caps, x ≠ [] → c :: t = x ++ q → ¬ Preferred letter r p x q caps) (ht : Replaced letter r out (some c) t t') :
      Replaced letter r out p (c :: t) (c :: t')
  | change {p x q caps t'} (hx : x ≠ []) (h : Preferred letter r p x q caps) (ht : Replaced letter r out (lastOr p x) q t') :
      Replaced letter r out p (x ++ q) (out x caps ++ t')

end Verif.Spec
