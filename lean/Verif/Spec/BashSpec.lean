import Verif.Spec.GoValSpec
/-!
# How bash reads words
-/

namespace Verif
namespace Spec

/-- A character that separates words. -/
def BashBlank (c : Char) : Prop := c = ' ' ∨ c = '\t' ∨ c = '\n'

instance (c : Char) : Decidable (BashBlank c) := inferInstanceAs (Decidable (_ ∨ _ ∨ _))

/-- A printable ASCII character without a special meaning outside of quotes. -/
def BashPlain (c : Char) : Prop := 33 ≤ c.toNat ∧ c.toNat < 127 ∧ c ∉ T "\"'\\$`;&|<>()[]{}*?~#!"

instance (c : Char) : Decidable (BashPlain c) := inferInstanceAs (Decidable (_ ∧ _ ∧ _))

/-- Adds a character to a word. -/
def addChar (c : Char) : Option (Text × Text) → Option (Text × Text)
  | some (w, rest) => some (c :: w, rest)
  | none => none

/-- A word of bash and what follows it, in double quotes or not. In quotes a backslash is special only before `"`, `\`, `$` and a backquote; outside it gives
the next character. `none`: anything else than plain characters and double quotes, such as expansions. -/
def bashWord : Bool → Text → Option (Text × Text)
  | true, [] => none
  | true, '\\' :: d :: t => if d ∈ T "\"\\$`" then addChar d (bashWord true t) else addChar '\\' (addChar d (bashWord true t))
  | true, c :: t => if c = '"' then bashWord false t else if c = '$' ∨ c = '`' ∨ c = '\\' then none else addChar c (bashWord true t)
  | false, [] => some ([], [])
  | false, '\\' :: d :: t => addChar d (bashWord false t)
  | false, c :: t =>
    if BashBlank c then some ([], c :: t) else if c = '"' then bashWord true t else if BashPlain c then addChar c (bashWord false t) else none

/-- The words of a text, in order. -/
inductive BashWords : Text → List Text → Prop
  | nil : BashWords [] []
  | blank (c : Char) (t : Text) (ws : List Text) : BashBlank c → BashWords t ws → BashWords (c :: t) ws
  | word (t w rest : Text) (ws : List Text) : (∃ c t', t = c :: t' ∧ ¬ BashBlank c) → bashWord false t = some (w, rest) → BashWords rest ws → BashWords t (w :: ws)

/-- The entries `[key]=word` of an associative array, in order. -/
inductive BashPairs : Text → List (Text × Text) → Prop
  | nil : BashPairs [] []
  | blank (c : Char) (t : Text) (ps : List (Text × Text)) : BashBlank c → BashPairs t ps → BashPairs (c :: t) ps
  | pair (k t w rest : Text) (ps : List (Text × Text)) : k ≠ [] → (∀ c ∈ k, BashPlain c) → bashWord false t = some (w, rest) → BashPairs rest ps →
      BashPairs ('[' :: (k ++ ']' :: '=' :: t)) ((k, w) :: ps)

/-- A text that the rendering of lists keeps: not empty, of printable ASCII characters without `$` and backquotes, and either of ordinary characters or with a
character that makes it quoted. -/
def SafeElement (s : Text) : Prop :=
  s ≠ [] ∧ (∀ c ∈ s, 32 ≤ c.toNat ∧ c.toNat < 127 ∧ c ≠ '$' ∧ c ≠ '`') ∧ ((∃ c ∈ s, c ∈ T " ,[]()") ∨ ∀ c ∈ s, BashPlain c)

/-- A text that the rendering of the values of dictionaries keeps: as `SafeElement`, but a comma alone does not make it quoted and `$` is allowed. -/
def SafeValue (s : Text) : Prop :=
  (∀ c ∈ s, 32 ≤ c.toNat ∧ c.toNat < 127 ∧ c ≠ '`') ∧ ((∃ c ∈ s, c ∈ T " []()") ∨ ∀ c ∈ s, BashPlain c ∨ c = '$')

/-- A text that a variable keeps: as `SafeValue`, without `$`. -/
def SafeText (s : Text) : Prop := SafeValue s ∧ '$' ∉ s

/-- The text that sets a variable: lists are declared as arrays, dictionaries as associative arrays. -/
inductive SetsVariable (k : Text) : GoVal → Text → Text → Prop
  | array (ty es val) : SetsVariable k (.slice ty es) val (T "declare -a " ++ k ++ T "\n" ++ k ++ T "=" ++ val)
  | assoc (ty es val) : SetsVariable k (.map ty es) val (T "declare -A " ++ k ++ T "\n" ++ k ++ T "=" ++ val)
  | nothing (val) : SetsVariable k .nil val (T "declare -a " ++ k ++ T "\n" ++ k ++ T "=" ++ val)
  | scalar (v val) : Leaf v → v ≠ .nil → SetsVariable k v val (k ++ T "=" ++ val)

end Spec
end Verif
