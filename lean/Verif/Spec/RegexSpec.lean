import Verif.Model.Regex
/-!
# What a regular expression matches

The textbook meaning of an expression, without any order between the choices: `Fit letter r p x q c c'` says that the text `x` is matched by `r`
when `p` is the character before it and `q` the text after it; the groups go from `c` to `c'`.
-/

namespace Verif.Spec
open Verif Regex

/-- The last character of a text that follows the character `p`. -/
def lastOr (p : Option Char) (x : Text) : Option Char := x.getLast?.or p

inductive Fit (letter : Char → Bool) : Re → Option Char → Text → Text → Caps → Caps → Prop
  | eps {p q c} : Fit letter .eps p [] q c c
  | cls {k p ch q c} (h : k.has letter ch = true) : Fit letter (.cls k) p [ch] q c c
  | bol {p q c} {multi : Bool} (h : p = none ∨ multi = true ∧ p = some '\n') : Fit letter (.bol multi) p [] q c c
  | eol {p q c} {multi : Bool} (h : q = [] ∨ multi = true ∧ q.head? = some '\n') : Fit letter (.eol multi) p [] q c c
  | edge {p q c} (h : p.any isWordChar ≠ q.head?.any isWordChar) : Fit letter .edge p [] q c c
  | seq {a b p x y q c c₁ c₂} (h₁ : Fit letter a p x (y ++ q) c c₁) (h₂ : Fit letter b (lastOr p x) y q c₁ c₂) :
      Fit letter (.seq a b) p (x ++ y) q c c₂
  | left {a b p x q c c'} (h : Fit letter a p x q c c') : Fit letter (.alt a b) p x q c c'
  | right {a b p x q c c'} (h : Fit letter b p x q c c') : Fit letter (.alt a b) p x q c c'
  | none {g a p q c} : Fit letter (.opt g a) p [] q c c
  | one {g a p x q c c'} (h : Fit letter a p x q c c') : Fit letter (.opt g a) p x q c c'
  | done {g a p q c} : Fit letter (.star g a) p [] q c c
  | more {g a p x y q c c₁ c₂} (hx : x ≠ []) (h₁ : Fit letter a p x (y ++ q) c c₁) (h₂ : Fit letter (.star g a) (lastOr p x) y q c₁ c₂) :
      Fit letter (.star g a) p (x ++ y) q c c₂
  | group {n a p x q c c'} (h : Fit letter a p x q c c') : Fit letter (.group n a) p x q c ((n, x) :: c')

/-- `n` matches of an expression, one after the other. -/
inductive Copies (letter : Char → Bool) (a : Re) : Nat → Option Char → Text → Text → Caps → Caps → Prop
  | zero {p q c} : Copies letter a 0 p [] q c c
  | succ {n p x y q c c₁ c₂} (h₁ : Fit letter a p x (y ++ q) c c₁) (h₂ : Copies letter a n (lastOr p x) y q c₁ c₂) :
      Copies letter a (n + 1) p (x ++ y) q c c₂

end Verif.Spec
