import Verif.Spec.FileSpec

/-!
Specification for C81: what the first line of a script names.
-/

namespace Verif.Spec
open Verif

/-- A blank of a line or an end of line. -/
def IsGap (c : Char) : Prop := c = ' ' ∨ c = '\t' ∨ c = '\r' ∨ c = '\x0c' ∨ c = '\n'

/-- The text of a script: `#!`, the program and at most one argument alone on their line, and the source on the next lines, of which the blanks at the beginning do not count. -/
def ScriptLine (s program argument source : Text) : Prop :=
  ∃ before gap after rest blanks, s = T "#!" ++ before ++ program ++ gap ++ argument ++ after ++ rest ∧
    (∀ c ∈ before, IsGap c) ∧ program ≠ [] ∧ Unbroken program ∧
    (∀ c ∈ gap, c = ' ' ∨ c = '\t') ∧ Unbroken argument ∧ (gap = [] ↔ argument = []) ∧ LineBlank after ∧
    (rest = [] ∨ ∃ more, rest = '\n' :: more) ∧
    rest = blanks ++ source ∧ (∀ c ∈ blanks, IsGap c) ∧ (∀ c, source.head? = some c → ¬ IsGap c)

/-- A character that the search of files expands. -/
def IsWild (c : Char) : Prop := c = '*' ∨ c = '?' ∨ c = '[' ∨ c = ']'

end Verif.Spec
