import Verif.Spec.RazorNameSpec
/-!
# Else and end in a razor template

`@else`, `@end`, `@endif`, `@end range`... in a text, among variables.
-/

namespace Verif.Spec
open Verif

/-- A character of the name of a host. -/
def hostChar (letter : Char → Bool) (c : Char) : Bool := varChar letter c || c == '-'

/-- What follows does not make it the end of an e-mail address. -/
def NotHost (letter : Char → Bool) (b : Text) : Prop :=
  ∀ f c e, (∀ d ∈ f, hostChar letter d = true) → hostChar letter c = true → b ≠ f ++ '.' :: c :: e

/-- What follows an `else` does not make it an `else if (`. -/
def NotIf (b : Text) : Prop := ∀ w v e, (∀ c ∈ w, isBlank c = true) → (∀ c ∈ v, isBlank c = true) → b ≠ w ++ (c!"if" ++ (v ++ '(' :: e))

/-- What precedes does not put the code in a string that begins with it. -/
def NotQuoted (a : Text) : Prop := ∀ u, a ≠ u ++ c!"\"" ∧ a ≠ u ++ c!"\"{"

/-- The words that `end` can be followed by. -/
def closingWords : List Text := [c!"if", c!"range", c!"define", c!"block", c!"with"]

/-- What remains after one of these words, `for` or `for each`; or everything if there is none. -/
inductive ClosingWord : Text → Text → Prop
  | word (m s : Text) : m ∈ closingWords → ClosingWord (m ++ s) s
  | forEach (w s : Text) : (∀ c ∈ w, isBlank c = true) → ClosingWord (c!"for" ++ (w ++ (c!"each" ++ s))) s
  | for (s : Text) : (∀ w e, (∀ c ∈ w, isBlank c = true) → s ≠ w ++ (c!"each" ++ e)) → ClosingWord (c!"for" ++ s) s
  | none (s : Text) : (∀ m ∈ c!"for" :: closingWords, ¬ m <+: s) → ClosingWord s s

/-- What remains after an `end`: the blanks, the word and the semicolon that follow it are dropped. -/
def Closes (b b' : Text) : Prop :=
  ∃ w s s', b = w ++ s ∧ (∀ c ∈ w, isBlank c = true) ∧ (∀ c, s.head? = some c → isBlank c = false) ∧ ClosingWord s s' ∧ Remains s' b'

/-- A text with any number of variables, `else` and `end`, and the text where each of them is replaced by its code. -/
inductive Statements (letter : Char → Bool) : Text → Text → Prop
  | plain (a : Text) : '@' ∉ a → Statements letter a a
  | var (a v code rest rest' out : Text) : '@' ∉ a → NotCommented a → Printed letter v code → Ends letter rest → rest.head? ≠ some '@' →
      Remains rest rest' → Statements letter rest' out → Statements letter (a ++ '@' :: (v ++ rest)) (a ++ (code ++ out))
  | els (a rest out : Text) (r : Text × Text × Text) : '@' ∉ a → NotCommented a → NotQuoted a → r ∈ reduceSigns → NotHost letter rest → NotIf rest →
      Statements letter rest out → Statements letter (a ++ '@' :: (r.1 ++ (c!"else" ++ rest))) (a ++ (wordCode c!"else" r.2.1 r.2.2 ++ out))
  | fin (a rest rest' out : Text) (r : Text × Text × Text) : '@' ∉ a → NotCommented a → NotQuoted a → r ∈ reduceSigns → NotHost letter rest →
      Closes rest rest' → Statements letter rest' out →
      Statements letter (a ++ '@' :: (r.1 ++ (c!"end" ++ rest))) (a ++ (wordCode c!"end" r.2.1 r.2.2 ++ out))

end Verif.Spec
