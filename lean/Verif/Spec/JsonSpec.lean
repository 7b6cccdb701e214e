import Verif.Model.Value
import Verif.Spec.QuoteSpec
import Verif.Model.GoVal
/-!
# Reading JSON

A reader for JSON texts. Escapes of surrogates and hexadecimal digits in capitals are refused: they are not written by the tool.
-/

namespace Verif
namespace Spec

/-- Data: numbers are kept as they are written. -/
inductive JData
  | null
  | bool (b : Bool)
  | num (t : Text)
  | str (s : Text)
  | list (l : List JData)
  | obj (es : List (Text × JData))

/-- The blanks of JSON. -/
def jsonBlank (c : Char) : Bool := c == ' ' || c == '\t' || c == '\n' || c == '\r'

/-- A text without the blanks before it. -/
def skipBlanks (t : Text) : Text := t.dropWhile jsonBlank

/-- The character that an escape of one letter stands for. -/
def jsonEscape (c : Char) : Option Char :=
  if c = '"' ∨ c = '\\' ∨ c = '/' then some c
  else if c = 'b' then some (Char.ofNat 8)
  else if c = 'f' then some (Char.ofNat 12)
  else if c = 'n' then some '\n'
  else if c = 'r' then some '\r'
  else if c = 't' then some '\t'
  else none

/-- The characters of a text after its opening quote, and what comes after its closing quote. -/
def readChars : Text → Option (Text × Text)
  | '"' :: t => some ([], t)
  | '\\' :: 'u' :: a :: b :: c :: d :: t =>
    (hexNumber 0 [a, b, c, d]).bind fun n =>
      if 0xd800 ≤ n ∧ n < 0xe000 then none else (readChars t).map (fun r => (Char.ofNat n :: r.1, r.2))
  | '\\' :: c :: t => (jsonEscape c).bind fun c => (readChars t).map (fun r => (c :: r.1, r.2))
  | c :: t => if c = '\\' ∨ c.toNat < 32 then none else (readChars t).map (fun r => (c :: r.1, r.2))
  | [] => none

/-- A decimal digit. -/
def jsonDigit (c : Char) : Bool := '0' ≤ c && c ≤ '9'

/-- Digits only, at least one. -/
def someDigits (t : Text) : Bool := t != [] && t.all jsonDigit

/-- The end of a number: nothing, or `e`, a sign or none, and digits. -/
def numberExponent : Text → Bool
  | [] => true
  | e :: '+' :: t => (e == 'e' || e == 'E') && someDigits t
  | e :: '-' :: t => (e == 'e' || e == 'E') && someDigits t
  | e :: t => (e == 'e' || e == 'E') && someDigits t

/-- After the integer part: a dot and digits, or nothing, and the exponent. -/
def numberFraction : Text → Bool
  | '.' :: c :: t => jsonDigit c && numberExponent (t.dropWhile jsonDigit)
  | t => numberExponent t

/-- A number without sign: 0, or digits that do not begin with 0. -/
def numberUnsigned : Text → Bool
  | '0' :: t => numberFraction t
  | c :: t => jsonDigit c && numberFraction (t.dropWhile jsonDigit)
  | [] => false

/-- A number of JSON. -/
def isJsonNumber : Text → Bool
  | '-' :: t => numberUnsigned t
  | t => numberUnsigned t

/-- The characters of words and numbers. -/
def jsonWordChar (c : Char) : Bool := ('a' ≤ c && c ≤ 'z') || jsonDigit c || c == 'E' || c == '+' || c == '-' || c == '.'

/-- The value of a word or of a number. -/
def jsonWord (w : Text) : Option JData :=
  if w = T "null" then some .null
  else if w = T "true" then some (.bool true)
  else if w = T "false" then some (.bool false)
  else if isJsonNumber w then some (.num w)
  else none

mutual
/-- A value, and the text after it. The first argument bounds the recursion. -/
def readJValue : Nat → Text → Option (JData × Text)
  | 0, _ => none
  | n + 1, t =>
    match skipBlanks t with
    | '"' :: t => (readChars t).map (fun r => (.str r.1, r.2))
    | '[' :: t =>
      match skipBlanks t with
      | ']' :: t => some (.list [], t)
      | _ => (readJElems n t).map (fun r => (.list r.1, r.2))
    | '{' :: t =>
      match skipBlanks t with
      | '}' :: t => some (.obj [], t)
      | _ => (readJItems n t).map (fun r => (.obj r.1, r.2))
    | t => (jsonWord (t.takeWhile jsonWordChar)).map (fun d => (d, t.dropWhile jsonWordChar))
/-- The elements of a list, separated by commas, up to `]`. -/
def readJElems : Nat → Text → Option (List JData × Text)
  | 0, _ => none
  | n + 1, t => (readJValue n t).bind fun r =>
    match skipBlanks r.2 with
    | ',' :: t => (readJElems n t).map (fun q => (r.1 :: q.1, q.2))
    | ']' :: t => some ([r.1], t)
    | _ => none
/-- The entries of an object, separated by commas, up to `}`. -/
def readJItems : Nat → Text → Option (List (Text × JData) × Text)
  | 0, _ => none
  | n + 1, t =>
    match skipBlanks t with
    | '"' :: t => (readChars t).bind fun k =>
      match skipBlanks k.2 with
      | ':' :: t => (readJValue n t).bind fun r =>
        match skipBlanks r.2 with
        | ',' :: t => (readJItems n t).map (fun q => ((k.1, r.1) :: q.1, q.2))
        | '}' :: t => some ([(k.1, r.1)], t)
        | _ => none
      | _ => none
    | _ => none
end

/-- The data of a JSON text: a value between blanks. Twice the length of the text is enough for the recursion. -/
def readJson (t : Text) : Option JData :=
  match readJValue (2 * t.length) t with
  | some (d, rest) => if skipBlanks rest = [] then some d else none
  | none => none

mutual
/-- The data of a value; `fl` gives the number for a float, the entries are in the order of their keys. -/
def jsonData (fl : Text → Text) : Value → JData
  | .nil => .null
  | .bool b => .bool b
  | .int i => .num (toString i).toList
  | .flt r => .num (fl r)
  | .str s => .str s
  | .list l => .list (jsonDataElems fl l)
  | .dict d => .obj (Text.sortBy Prod.fst (jsonDataEntries fl d))
/-- The data of the elements of a list. -/
def jsonDataElems (fl : Text → Text) : List Value → List JData
  | [] => []
  | v :: l => jsonData fl v :: jsonDataElems fl l
/-- The data of the entries of a dictionary. -/
def jsonDataEntries (fl : Text → Text) : List (Text × Value) → List (Text × JData)
  | [] => []
  | (k, v) :: l => (k, jsonData fl v) :: jsonDataEntries fl l
end

/-- Characters that the notation of Go texts and the one of JSON texts write in the same way, in a text without control characters; `pr` tells which characters are printable. -/
def QuotedAlike (pr : Char → Bool) (c : Char) : Prop := c.toNat ≠ 127 ∧ (c.toNat < 65536 ∨ pr c = true)

/-- Data that a reading with floating point numbers can restore: no nil, no floats without a fraction, integers of at most 53 bits, one entry for each key. `num` is the number that a printed float stands for. -/
inductive Reloadable (num : Text → Rat) : Value → Prop
  | bool (b) : Reloadable num (.bool b)
  | int (i : Int) : -2 ^ 53 ≤ i → i ≤ 2 ^ 53 → Reloadable num (.int i)
  | flt (r) : (∀ n : Int, num r ≠ n) → Reloadable num (.flt r)
  | str (s) : Reloadable num (.str s)
  | list (l : List Value) : (∀ v ∈ l, Reloadable num v) → Reloadable num (.list l)
  | dict (d : List (Text × Value)) : (d.map Prod.fst).Nodup → (∀ e ∈ d, Reloadable num e.2) → Reloadable num (.dict d)

/-- A value and a loaded value with the same data. -/
inductive SameData (num : Text → Rat) : Value → GoVal → Prop
  | bool (b) : SameData num (.bool b) (.bool b)
  | int (i : Int) : SameData num (.int i) (.int .int i)
  | flt (r) : SameData num (.flt r) (.flt false (num r))
  | str (s) : SameData num (.str s) (.str false s)
  | list (l : List Value) (l' : List GoVal) : l.length = l'.length →
      (∀ (i : Nat) v w, l[i]? = some v → l'[i]? = some w → SameData num v w) → SameData num (.list l) (.slice .coll l')
  | dict (d : List (Text × Value)) (d' : List (Text × GoVal)) : (d.map Prod.fst).Perm (d'.map Prod.fst) →
      (∀ k v w, (k, v) ∈ d → (k, w) ∈ d' → SameData num v w) → SameData num (.dict d) (.map .coll d')

end Spec
end Verif
