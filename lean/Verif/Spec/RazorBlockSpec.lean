import Verif.Spec.RazorParenSpec
import Verif.Model.RazorAssign
/-!
# Commands with an expression in a razor template

`@if (expression)`, `@else if (expression)`, `@with ($x := expression)`, `@range ($i, $x := expression)`... at the ends of lines, with the `@else`, `@end` and
`@(expression)` of their bodies, and the assignments `@x := expression`, `@.x = expression`, `@$x += expression`...
-/

namespace Verif.Spec
open Verif

/-- The commands. -/
inductive CommandWord : Text → Prop
  | word (m : Text) : m ∈ [c!"if", c!"with", c!"range", c!"block", c!"define"] → CommandWord m
  | elseIf (w : Text) : w ≠ [] → (∀ c ∈ w, isBlank c = true) → CommandWord (c!"else" ++ (w ++ c!"if"))

/-- The name of a local variable, without its dollar. -/
def AssignedName (letter : Char → Bool) (n : Text) : Prop := n ≠ [] ∧ ∀ c ∈ n, varChar letter c = true

/-- What separates two names. -/
def Separators (w : Text) : Prop := ∀ c ∈ w, c ∈ c!" \t,"

/-- What precedes the expression: nothing, or one or two variables and `:=`. -/
inductive Assignment (letter : Char → Bool) : Text → Prop
  | none : Assignment letter []
  | one (n w v : Text) : AssignedName letter n → Separators w → (∀ c ∈ v, isBlank c = true) → Assignment letter ('$' :: (n ++ (w ++ (c!":=" ++ v))))
  | two (n w n' w' v : Text) : AssignedName letter n → Separators w → AssignedName letter n' → Separators w' → (∀ c ∈ v, isBlank c = true) →
      Assignment letter ('$' :: (n ++ (w ++ '$' :: (n' ++ (w' ++ (c!":=" ++ v))))))

/-! ## Assignments of variables -/

/-- The variables: what precedes the name in an assignment (nothing or `$.` for a global one, a dot for one of the context, a dollar for a local one), what precedes
it in an expression, and what holds it (nothing for a local one). -/
def places : List (Text × Text × Option Text) := [([], c!"$.", some c!"$"), (c!"$.", c!"$.", some c!"$"), (c!".", c!".", some c!"."), (c!"$", c!"$", none)]

/-- The name of a variable: a letter, then letters, digits and underscores. After the delimiter alone, it does not begin with `else` nor `end`. -/
structure PlaceName (letter : Char → Bool) (g n : Text) : Prop where
  first : ∃ c t, n = c :: t ∧ letter c = true
  chars : ∀ c ∈ n, varChar letter c = true
  plain : g = [] → ¬ c!"else" <+: n ∧ ¬ c!"end" <+: n

/-- The operators of the assignments with an operation. -/
def assignOperators : List Text := [c!"+", c!"-", c!"*", c!"/", c!"÷", c!"%", c!"&", c!"|", c!"^", c!"<<", c!"«", c!">>", c!"»", c!"&^"]

/-- What is assigned to the variable `v` by the sign `o` and the text `s`: the text after `:=` or `=`, the operation between the variable and the text after an
operator and `=`. The third text is the sign of the assignment. -/
inductive ValueText (v s : Text) : Text → Text → Text → Prop
  | same (o : Text) : o ∈ [c!":=", c!"="] → ValueText v s o o s
  | operation (x : Text) : x ∈ assignOperators → ValueText v s (x ++ c!"=") c!"=" (v ++ ' ' :: (x ++ (c!" (" ++ (s ++ c!")"))))

/-- The check of a variable: `f` is the function that warns or fails. -/
def existsCheck (f v : Text) : Text :=
  f ++ (c!" (not (isNil " ++ (v ++ (c!")) \"" ++ (v ++ c!" does not exist, use := to declare new variable\""))))

/-- The function that checks a variable: none, one that warns or one that fails. -/
def checkOf : Razor.Validation → Option Text
  | .disabled => none
  | .warning => some c!"assertWarning"
  | .strict => some c!"assert"

/-- The code of an assignment: of a local variable, of a key of the holder of the variable, and of a key that must exist (with `=`, if `check` is a function). -/
inductive AssignCode (check : Option Text) (code : Tree → Text → Prop) (q : Text × Text × Option Text) (n o : Text) (e : Razor.Expr) : Text → Prop
  | inTemplate (c : Text) : q.2.2 = none → code (meaning e) c → AssignCode check code q n o e (wordCode ('$' :: (n ++ ' ' :: (o ++ ' ' :: c))) c!"-" [])
  | set (h c : Text) : q.2.2 = some h → (o = c!":=" ∨ check = none) → code (.call (.atom c!"set") [.atom h, .atom ('"' :: (n ++ ['"'])), meaning e]) c →
      AssignCode check code q n o e (wordCode c c!"-" [])
  | checked (h f c : Text) : q.2.2 = some h → o = c!"=" → check = some f → code (.call (.atom c!"set") [.atom h, .atom ('"' :: (n ++ ['"'])), meaning e]) c →
      AssignCode check code q n o e (wordCode (existsCheck f (q.2.1 ++ n)) c!"-" [] ++ wordCode c c!"-" [])

/-- A text with any number of commands with an expression, `else`, `end`, expressions between parentheses and assignments, and the text where each of them is replaced
by a code, related to the operations of the expression by `code`. A command, an `else`, an `end` or an assignment is the first of its line (`first` tells that the text
begins with a line), there is nothing but blanks after a command, and an assignment ends with its line. An operator that may be in a name is after a blank. -/
inductive Blocks (letter : Char → Bool) (check : Option Text) (code : Tree → Text → Prop) : Bool → Text → Text → Prop
  | plain (first : Bool) (a : Text) : '@' ∉ a → Blocks letter check code first a a
  | expr (first : Bool) (a w s c rest rest' out : Text) (e : Razor.Expr) (r : Text × Text × Text) : '@' ∉ a → NotCommented a → NotQuoted a → r ∈ reduceSigns →
      '_' ∉ r.1 → (∀ d ∈ w, isBlank d = true) → Insertable letter s e → code (meaning e) c → Alone rest → Remains rest rest' → Blocks letter check code false rest' out →
      Blocks letter check code first (a ++ '@' :: (r.1 ++ '(' :: (w ++ (s ++ ')' :: rest)))) (a ++ (wordCode c r.2.1 r.2.2 ++ out))
  | command (first : Bool) (a m g w x s c v rest out : Text) (e : Razor.Expr) (r : Text × Text × Text) : '@' ∉ a → NotCommented a → NotQuoted a →
      (first = true ∨ '\n' ∈ a) → r ∈ reduceSigns → CommandWord m → (∀ d ∈ g, isBlank d = true) → (∀ d ∈ w, isBlank d = true) → Assignment letter x →
      Insertable letter s e → (∀ d ∈ c!";{[", d ∉ s) → code (meaning e) c → (∀ d ∈ v, isBlank d = true) → (rest = [] ∨ rest.head? = some '\n') →
      Blocks letter check code false rest out →
      Blocks letter check code first (a ++ '@' :: (r.1 ++ (m ++ (g ++ '(' :: (w ++ (x ++ (s ++ ')' :: (v ++ rest)))))))) (a ++ (wordCode (m ++ ' ' :: (x ++ c)) r.2.1 r.2.2 ++ out))
  | els (first : Bool) (a rest out : Text) (r : Text × Text × Text) : '@' ∉ a → NotCommented a → NotQuoted a → (first = true ∨ '\n' ∈ a) → r ∈ reduceSigns →
      NotHost letter rest → NotIf rest → Blocks letter check code false rest out →
      Blocks letter check code first (a ++ '@' :: (r.1 ++ (c!"else" ++ rest))) (a ++ (wordCode c!"else" r.2.1 r.2.2 ++ out))
  | fin (first : Bool) (a rest rest' out : Text) (r : Text × Text × Text) : '@' ∉ a → NotCommented a → NotQuoted a → (first = true ∨ '\n' ∈ a) → r ∈ reduceSigns →
      NotHost letter rest → Closes rest rest' → Blocks letter check code false rest' out →
      Blocks letter check code first (a ++ '@' :: (r.1 ++ (c!"end" ++ rest))) (a ++ (wordCode c!"end" r.2.1 r.2.2 ++ out))
  | assign (first : Bool) (a n w o w' s o' t c rest out : Text) (e : Razor.Expr) (q : Text × Text × Option Text) : '@' ∉ a → NotCommented a → NotQuoted a →
      (first = true ∨ '\n' ∈ a) → q ∈ places → PlaceName letter q.1 n → (∀ d ∈ w, isBlank d = true) → ValueText (q.2.1 ++ n) s o o' t →
      (w = [] → ∀ d ∈ c!"+-*%", o.head? ≠ some d) → (∀ d ∈ w', isBlank d = true) → s ≠ [] → (∀ d, s.head? = some d → isBlank d = false) → Insertable letter t e → '[' ∉ t →
      (q.2.2 ≠ none → contextCall e = false) → AssignCode check code q n o' e c → (rest = [] ∨ rest.head? = some '\n') → Blocks letter check code false rest out →
      Blocks letter check code first (a ++ '@' :: (q.1 ++ (n ++ (w ++ (o ++ (w' ++ (s ++ rest))))))) (a ++ (c ++ out))

/-- The other words of the loops. -/
inductive LoopWord : Text → Prop
  | short : LoopWord c!"for"
  | each (w : Text) : (∀ c ∈ w, isBlank c = true) → LoopWord (c!"for" ++ (w ++ c!"each"))

/-- The text after a delimiter is not the one of a loop. -/
def NotLoop (t : Text) : Prop :=
  ∀ (r : Text × Text × Text) (m g y : Text), r ∈ reduceSigns → LoopWord m → (∀ c ∈ g, isBlank c = true) → t ≠ r.1 ++ (m ++ (g ++ '(' :: y))

/-- A text, and the text where `@for (`, `@foreach (` and `@for each (` are `@range(`. -/
inductive Loops : Text → Text → Prop
  | plain (a : Text) : '@' ∉ a → Loops a a
  | other (a t t' : Text) : '@' ∉ a → NotLoop t → Loops t t' → Loops (a ++ '@' :: t) (a ++ '@' :: t')
  | loop (a m g t t' : Text) (r : Text × Text × Text) : '@' ∉ a → r ∈ reduceSigns → LoopWord m → (∀ c ∈ g, isBlank c = true) → Loops t t' →
      Loops (a ++ '@' :: (r.1 ++ (m ++ (g ++ '(' :: t)))) (a ++ '@' :: (r.1 ++ (c!"range(" ++ t')))

/-- A text with commands, expressions and assignments. -/
def HasBlocks (letter : Char → Bool) (t : Text) : Prop := ∃ out, Blocks letter none (fun _ _ => True) true t out

end Verif.Spec
