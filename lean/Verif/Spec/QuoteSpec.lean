import Verif.Base.Text
/-!
# Reading a quoted text
-/

namespace Verif
namespace Spec

/-- The value of a hexadecimal digit. -/
def hexValue (c : Char) : Option Nat :=
  if '0' ≤ c ∧ c ≤ '9' then some (c.toNat - '0'.toNat)
  else if 'a' ≤ c ∧ c ≤ 'f' then some (c.toNat - 'a'.toNat + 10)
  else none

/-- The value of hexadecimal digits after a number. -/
def hexNumber : Nat → Text → Option Nat
  | n, [] => some n
  | n, c :: t => (hexValue c).bind (fun d => hexNumber (n * 16 + d) t)

/-- The character with a number written in hexadecimal, before a text. -/
def charThen (digits : Text) (t : Option Text) : Option Text := (hexNumber 0 digits).bind (fun n => t.map (fun t => Char.ofNat n :: t))

/-- What stands between the quotes of a text literal, up to the closing quote and the end: a backslash gives the next character a special meaning. -/
def readQuoted : Text → Option Text
  | ['"'] => some []
  | '\\' :: 'x' :: a :: b :: t => charThen [a, b] (readQuoted t)
  | '\\' :: 'u' :: a :: b :: c :: d :: t => charThen [a, b, c, d] (readQuoted t)
  | '\\' :: 'U' :: a :: b :: c :: d :: e :: f :: g :: h :: t => charThen [a, b, c, d, e, f, g, h] (readQuoted t)
  | '\\' :: c :: t =>
    (if c = '"' ∨ c = '\\' then some c else if c = 'a' then some (Char.ofNat 7) else if c = 'b' then some (Char.ofNat 8)
     else if c = 'f' then some (Char.ofNat 12) else if c = 'n' then some '\n' else if c = 'r' then some '\r' else if c = 't' then some '\t'
     else if c = 'v' then some (Char.ofNat 11) else none).bind (fun c => (readQuoted t).map (fun t => c :: t))
  | c :: t => if c = '"' ∨ c = '\\' ∨ c = '\n' then none else (readQuoted t).map (fun t => c :: t)
  | [] => none

/-- A text literal: a quote, the text, a quote. -/
def readLiteral : Text → Option Text
  | '"' :: t => readQuoted t
  | _ => none

end Spec
end Verif
