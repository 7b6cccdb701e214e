import Verif.Base.Text
/-!
# String literals, independently of the scanner

A literal is a backtick string or a double-quoted string in which every inner double quote is escaped.
-/

namespace Verif.Spec
open Verif

/-- The two quote characters. -/
def Quote (c : Char) : Prop := c = '`' ∨ c = '"'

/-- A text ends with an odd number of backslashes: the next character is escaped. -/
def EndsEscaped (t : Text) : Prop := ∃ pre n, t = pre ++ List.replicate (2 * n + 1) '\\' ∧ ∀ p, pre ≠ p ++ ['\\']

/-- A complete string literal. -/
inductive Literal : Text → Prop where
  | backtick (body : Text) (h : '`' ∉ body) : Literal ('`' :: (body ++ ['`']))
  | double (body : Text) (hin : ∀ pre post, body = pre ++ '"' :: post → EndsEscaped pre) (hend : ¬ EndsEscaped body) :
      Literal ('"' :: (body ++ ['"']))

/-- No quote at all. -/
def Plain (t : Text) : Prop := ∀ c ∈ t, ¬ Quote c

/-- The text that remains after the last literal: its first quote, if any, does not open a complete literal. -/
def NoLiteral (tail : Text) : Prop :=
  ∀ pre q rest lit after, tail = pre ++ q :: rest → Plain pre → Quote q → Literal lit → q :: rest ≠ lit ++ after

/-- A text cut from left to right in plain texts followed by literals, and a tail. -/
inductive Cut : Text → List (Text × Text) → Text → Prop where
  | tail {t : Text} (h : NoLiteral t) : Cut t [] t
  | literal {pre lit rest : Text} {pieces : List (Text × Text)} {t : Text} (hp : Plain pre) (hl : Literal lit)
      (h : Cut rest pieces t) : Cut (pre ++ lit ++ rest) ((pre, lit) :: pieces) t

/-- The text obtained by replacing the literals by the marks `mark n`, `mark (n+1)`, ... -/
def marked (mark : Nat → Text) : Nat → List (Text × Text) → Text → Text
  | _, [], tail => tail
  | n, (pre, _) :: pieces, tail => pre ++ mark n ++ marked mark (n + 1) pieces tail

end Verif.Spec
