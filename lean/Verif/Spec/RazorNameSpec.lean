import Verif.Spec.RazorAtSpec
/-!
# Variables in a razor template

`@name` and `@$name` in a text: which names, which signs, and what may be around.
-/

namespace Verif.Spec
open Verif

/-- The characters that are letters: those of ASCII, and none of the operators outside ASCII (the others are a parameter). -/
def PlainLetters (letter : Char → Bool) : Prop :=
  (∀ c : Char, c.toNat < 128 → letter c = c.isAlpha) ∧ letter '÷' = false ∧ letter '«' = false ∧ letter '»' = false

/-- A character of a name. -/
def varChar (letter : Char → Bool) (c : Char) : Bool := letter c || c.isDigit || c == '_'

/-- A letter, then letters, digits and underscores; the name is not `for` and does not begin with `else` or `end`. -/
structure VarName (letter : Char → Bool) (name : Text) : Prop where
  first : ∃ c t, name = c :: t ∧ letter c = true
  chars : ∀ c ∈ name, varChar letter c = true
  notElse : ¬ c!"else" <+: name
  notEnd : ¬ c!"end" <+: name
  notFor : name ≠ c!"for"

/-- A local variable, and its fields: `$`, then letters, digits, underscores and dots. -/
def LocalName (letter : Char → Bool) (name : Text) : Prop := ∃ t, name = '$' :: t ∧ ∀ c ∈ t, varChar letter c = true ∨ c = '.'

/-- The signs between the delimiter and a name or a keyword, and what they become at both ends of the code: a `-` removes the spaces before it, a second
one the spaces after it, `_` stands for the first one. -/
def reduceSigns : List (Text × Text × Text) := [([], [], []), (c!"-", c!"-", []), (c!"--", c!"-", c!"-"), (c!"_", [], []), (c!"_-", [], c!"-")]

/-- The code of an expression or a keyword. -/
def wordCode (word before after : Text) : Text := c!"{{" ++ (before ++ (c!" " ++ (word ++ (c!" " ++ (after ++ c!"}}")))))

/-- What follows a delimiter to print a variable, and the code that prints it. Before a local variable, `_` is not a sign. -/
inductive Printed (letter : Char → Bool) : Text → Text → Prop
  | global (r : Text × Text × Text) (name : Text) : r ∈ reduceSigns → VarName letter name →
      Printed letter (r.1 ++ name) (wordCode (c!"$." ++ name) r.2.1 r.2.2)
  | «local» (r : Text × Text × Text) (name : Text) : r ∈ reduceSigns → '_' ∉ r.1 → LocalName letter name →
      Printed letter (r.1 ++ name) (wordCode name r.2.1 r.2.2)

/-- The characters that razor accepts in the name of a variable that is assigned. -/
def wideChar (letter : Char → Bool) (c : Char) : Bool := varChar letter c || c ∈ c!"+*%#!~.-"

def isBlank (c : Char) : Bool := c == ' ' || c == '\t'

/-- The operators of assignments. -/
def assignSigns : List Text :=
  [c!":=", c!"~=", c!"=", c!"+=", c!"-=", c!"*=", c!"/=", c!"÷=", c!"%=", c!"&=", c!"|=", c!"^=", c!"<<=", c!"«=", c!">>=", c!"»=", c!"&^="]

/-- What follows a name does not make it a longer expression: another name, a selector, a call, an index or an assignment. -/
structure Ends (letter : Char → Bool) (b : Text) : Prop where
  next : ∀ c, b.head? = some c → varChar letter c = false ∧ c ∉ c!".-("
  noCall : ∀ w e, (∀ c ∈ w, isBlank c = true) → b ≠ w ++ '(' :: e
  noIndex : ∀ f e, (∀ c ∈ f, wideChar letter c = true) → b ≠ f ++ '[' :: e
  noAssign : ∀ f w o e, (∀ c ∈ f, wideChar letter c = true) → (∀ c ∈ w, isBlank c = true) → o ∈ assignSigns → b ≠ f ++ (w ++ (o ++ e))

/-- What begins a comment before a razor expression. -/
def commentSigns : List Text := [c!"#!", c!"//!", c!"##", c!"///"]

/-- What precedes the name does not hide it. -/
def NotCommented (a : Text) : Prop := ∀ u m w, m ∈ commentSigns → (∀ c ∈ w, isBlank c = true) → a ≠ u ++ (m ++ w)

/-- What remains after a name: a semicolon that follows it, and the blanks before, are dropped. -/
def Remains (b b' : Text) : Prop :=
  (∃ w, (∀ c ∈ w, isBlank c = true) ∧ b = w ++ ';' :: b') ∨ b' = b ∧ ∀ w e, (∀ c ∈ w, isBlank c = true) → b ≠ w ++ ';' :: e

/-- A text with any number of variables, and the text where each of them is replaced by the code that prints it. -/
inductive Variables (letter : Char → Bool) : Text → Text → Prop
  | plain (a : Text) : '@' ∉ a → Variables letter a a
  | var (a v code rest rest' out : Text) : '@' ∉ a → NotCommented a → Printed letter v code → Ends letter rest → rest.head? ≠ some '@' → Remains rest rest' →
      Variables letter rest' out → Variables letter (a ++ '@' :: (v ++ rest)) (a ++ (code ++ out))

end Verif.Spec
