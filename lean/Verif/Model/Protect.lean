import Verif.Base.Text
/-!
# Protection of string literals

Model of `String.Protect` and `String.RestoreProtected`, collections/string.go:406-455.
-/

namespace Verif.Protect
open Verif

/-- The characters looked for by `s.IndexAny("`\"")`, string.go:419. -/
def isQuote (c : Char) : Bool := c == '`' || c == '"'

/-- The local function `escaped`, string.go:411-417: an odd number of backslashes just before. The argument is the
text between the opening quote and the current position, last character first (the Go loop stops at the opening
quote at the latest). -/
def escaped (before : Text) : Bool := (before.takeWhile (· == '\\')).length % 2 == 1

/-- The inner loop, string.go:424-438, from the text after the opening quote `q`: the body of the literal and the text after
the closing quote; `none` when the literal is not closed (`end < 0` or `newEnd < 0`). The successive calls of
`IndexRune` are one scan here. -/
def scanClose (q : Char) : Text → Text → Option (Text × Text)
  | _, [] => none
  | before, c :: cs =>
    if c == q && !(c == '"' && escaped before) then some (before.reverse, cs)
    else scanClose q (c :: before) cs

/-- `pos := s.IndexAny(...)`, string.go:419: the text before the first quote, the quote, the text after it. -/
def firstQuote : Text → Option (Text × Char × Text)
  | [] => none
  | c :: cs =>
    if isQuote c then some ([], c, cs)
    else (firstQuote cs).map (fun r => (c :: r.1, r.2.1, r.2.2))

/-- `fmt.Sprintf(replacementFormat, n)`, string.go:433, 453. -/
def token (n : Nat) : Text := '"' :: '♠' :: (Nat.toDigits 10 n ++ ['"'])

/-- The outer loop, string.go:418-439, and the deferred `result += s` (409). The fuel bounds the number of literals;
`n` is `len(array)`. -/
def protectLoop : Nat → Nat → Text → Text × List Text
  | 0, _, s => (s, [])
  | fuel + 1, n, s =>
    match firstQuote s with
    | none => (s, [])
    | some (pre, q, rest) =>
      match scanClose q [] rest with
      | none => (s, [])
      | some (body, after) =>
        let r := protectLoop fuel (n + 1) after
        (pre ++ token n ++ r.1, (q :: (body ++ [q])) :: r.2)

/-- `String.Protect`, string.go:408-443: the text with tokens and the extracted literals. Each literal has at least two
characters, so that the length of the text is enough fuel. -/
def protect (s : Text) : Text × List Text := protectLoop s.length 0 s

/-- A match of `replacementRegex` (`"♠(\d+)"`, string.go:455) at the beginning of a text: the number and the length of
the match. -/
def matchToken : Text → Option (Nat × Nat)
  | '"' :: '♠' :: rest =>
    let digits := rest.takeWhile Char.isDigit
    if digits = [] then none
    else match rest.drop digits.length with
      | '"' :: _ => some (Nat.ofDigitChars 10 digits 0, digits.length + 3)
      | _ => none
  | _ => none

/-- `replacementRegex.ReplaceAllStringFunc`, string.go:447-450: leftmost, non-overlapping matches. The first argument counts
the characters of the current match still to be skipped. `none` is the panic of `array[index]` (or of `Atoi`) when
the number is not an index of the array. -/
def restoreAux (array : List Text) : Nat → Text → Option Text
  | _, [] => some []
  | n + 1, _ :: cs => restoreAux array n cs
  | 0, c :: cs =>
    match matchToken (c :: cs) with
    | some (index, len) =>
      match array[index]? with
      | none => none
      | some literal => (restoreAux array (len - 1) cs).map (literal ++ ·)
    | none => (restoreAux array 0 cs).map (c :: ·)

/-- `String.RestoreProtected`, string.go:446-451. -/
def restore (s : Text) (array : List Text) : Option Text := restoreAux array 0 s

end Verif.Protect
