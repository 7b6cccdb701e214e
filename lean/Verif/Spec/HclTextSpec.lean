import Verif.Model.Value
import Verif.Spec.QuoteSpec
import Verif.Base.Space
/-!
# Reading HCL

A reader for the part of HCL with keys, blocks, lists and literals: tokens, then a grammar. Texts in several lines
(`<<NAME`), comments and interpolations are not read.
-/

namespace Verif
namespace Spec

/-- A token: one of `{ } [ ] = ,`, a bare word or a quoted text. -/
inductive HTok
  | punct (c : Char)
  | word (w : Text)
  | str (s : Text)
  deriving DecidableEq

/-- Where the reader is: between tokens, in a word, in quotes, after a backslash in quotes. -/
inductive HPlace
  | out
  | word (w : Text)
  | quoted (s : Text)
  | escaped (s : Text)

/-- Characters of words: letters, digits and `_ - + .` -/
def wordChar (c : Char) : Bool :=
  ('a' ≤ c && c ≤ 'z') || ('A' ≤ c && c ≤ 'Z') || ('0' ≤ c && c ≤ '9') || c == '_' || c == '-' || c == '+' || c == '.'

/-- What a character starts, between tokens. -/
def startTok (c : Char) : Option (List HTok × HPlace) :=
  if c = ' ' ∨ c = '\t' ∨ c = '\n' then some ([], .out)
  else if c = '{' ∨ c = '}' ∨ c = '[' ∨ c = ']' ∨ c = '=' ∨ c = ',' then some ([.punct c], .out)
  else if c = '"' then some ([], .quoted [])
  else if wordChar c then some ([], .word [c])
  else none

/-- The tokens that a character ends, and the place after it. -/
def readChar : HPlace → Char → Option (List HTok × HPlace)
  | .out, c => startTok c
  | .word w, c => if wordChar c then some ([], .word (w ++ [c])) else (startTok c).map (fun r => (.word w :: r.1, r.2))
  | .quoted s, c =>
    if c = '"' then (readLiteral ('"' :: (s ++ ['"']))).map (fun t => ([.str t], .out))
    else if c = '\\' then some ([], .escaped (s ++ [c]))
    else if c = '\n' then none
    else some ([], .quoted (s ++ [c]))
  | .escaped s, c => if c = '\n' then none else some ([], .quoted (s ++ [c]))

/-- The tokens of a text from a place. -/
def tokensFrom : HPlace → Text → Option (List HTok)
  | .out, [] => some []
  | .word w, [] => some [.word w]
  | _, [] => none
  | p, c :: t => (readChar p c).bind (fun r => (tokensFrom r.2 t).map (r.1 ++ ·))

/-- The tokens of a text. -/
def tokens (t : Text) : Option (List HTok) := tokensFrom .out t

/-- Data: numbers are kept as they are written. -/
inductive HData
  | null
  | bool (b : Bool)
  | num (t : Text)
  | str (s : Text)
  | list (l : List HData)
  | obj (es : List (Text × HData))

/-- Does a word start like a number? -/
def numeral : Text → Bool
  | [] => false
  | c :: _ => ('0' ≤ c && c ≤ '9') || c == '-' || c == '+'

/-- The value of a word. -/
def wordData (w : Text) : Option HData :=
  if w = T "null" then some .null
  else if w = T "true" then some (.bool true)
  else if w = T "false" then some (.bool false)
  else if numeral w then some (.num w)
  else none

/-- A key: a word that starts with a letter or `_`, or a quoted text. -/
def keyOf : HTok → Option Text
  | .word (c :: w) => if ('a' ≤ c && c ≤ 'z') || ('A' ≤ c && c ≤ 'Z') || c == '_' then some (c :: w) else none
  | .str s => some s
  | _ => none

mutual
/-- A value: a word, a text, a list or an object; and the tokens after it. The first argument bounds the recursion. -/
def readValue : Nat → List HTok → Option (HData × List HTok)
  | _ + 1, .word w :: ts => (wordData w).map (fun d => (d, ts))
  | _ + 1, .str s :: ts => some (.str s, ts)
  | n + 1, .punct '[' :: ts => (readElems n ts).map (fun r => (.list r.1, r.2))
  | n + 1, .punct '{' :: ts => (readItems n ts).map (fun r => (.obj r.1, r.2))
  | _, _ => none
/-- The elements of a list up to `]`, separated by commas; the last one may have a comma too. -/
def readElems : Nat → List HTok → Option (List HData × List HTok)
  | _ + 1, .punct ']' :: ts => some ([], ts)
  | n + 1, ts => (readValue n ts).bind fun r =>
    match r.2 with
    | .punct ',' :: ts => (readElems n ts).map (fun q => (r.1 :: q.1, q.2))
    | .punct ']' :: ts => some ([r.1], ts)
    | _ => none
  | _, _ => none
/-- The entries of an object up to `}`. -/
def readItems : Nat → List HTok → Option (List (Text × HData) × List HTok)
  | _ + 1, .punct '}' :: ts => some ([], ts)
  | n + 1, t :: ts => (keyOf t).bind fun k => (readTail n ts).bind fun r => (readItems n r.2).map (fun q => ((k, r.1) :: q.1, q.2))
  | _, _ => none
/-- What follows a key: `= value` or a block. -/
def readTail : Nat → List HTok → Option (HData × List HTok)
  | n + 1, .punct '=' :: ts => readValue n ts
  | n + 1, ts => readBlock n ts
  | 0, _ => none
/-- A block: `{ … }`, or a label and a block. -/
def readBlock : Nat → List HTok → Option (HData × List HTok)
  | n + 1, .punct '{' :: ts => (readItems n ts).map (fun r => (.obj r.1, r.2))
  | n + 1, t :: ts => (keyOf t).bind fun k => (readBlock n ts).map (fun r => (.obj [(k, r.1)], r.2))
  | _, _ => none
end

/-- A file or the inside of a block: entries up to the end. -/
def readBody : Nat → List HTok → Option (List (Text × HData))
  | _, [] => some []
  | n + 1, t :: ts => (keyOf t).bind fun k => (readTail n ts).bind fun r => (readBody n r.2).map ((k, r.1) :: ·)
  | 0, _ :: _ => none

/-- The data of a file: entries. Twice the number of tokens is enough for the recursion. -/
def readFile (t : Text) : Option HData :=
  (tokens t).bind fun ts => (readBody (2 * ts.length + 2) ts).map .obj

/-- The data of an expression. -/
def readExpr (t : Text) : Option HData :=
  (tokens t).bind fun ts =>
    match readValue (2 * ts.length + 2) ts with
    | some (d, []) => some d
    | _ => none

/-- A list of exactly one object is the same as this object in HCL. -/
def unwrapOne : List HData → HData
  | [.obj es] => .obj es
  | l => .list l

mutual
/-- The same data with the keys of its objects in increasing order, and without lists of exactly one object. -/
def HData.canon : HData → HData
  | .obj es => .obj (Text.sortBy Prod.fst (HData.canonEntries es))
  | .list l => unwrapOne (HData.canonElems l)
  | .null => .null
  | .bool b => .bool b
  | .num t => .num t
  | .str s => .str s
def HData.canonElems : List HData → List HData
  | [] => []
  | d :: l => d.canon :: HData.canonElems l
def HData.canonEntries : List (Text × HData) → List (Text × HData)
  | [] => []
  | (k, d) :: l => (k, d.canon) :: HData.canonEntries l
end

mutual
/-- The data that a value stands for. -/
def dataOf : Value → HData
  | .nil => .null
  | .bool b => .bool b
  | .int i => .num (Value.intText i)
  | .flt r => .num r
  | .str s => .str s
  | .list l => .list (dataElems l)
  | .dict d => .obj (dataEntries d)
def dataElems : List Value → List HData
  | [] => []
  | v :: l => dataOf v :: dataElems l
def dataEntries : List (Text × Value) → List (Text × HData)
  | [] => []
  | (k, v) :: l => (k, dataOf v) :: dataEntries l
end

/-- `Denotes d v`: what was read is the data of the value, up to the order of keys and to lists of one object. -/
def Denotes (d : Option HData) (v : Value) : Prop := d.map HData.canon = some (dataOf v).canon

/-! ## Conditions on values -/

/-- A text that ends with a character that is not blank, and not with a backslash and one of `n`, `r`, `t`. -/
def EndsPlain (s : Text) : Prop := ∃ t c, s = t ++ [c] ∧ Text.isSpace c = false ∧ (c ∈ T "nrt" → ¬ T "\\" <:+ t)

/-- Texts that are written in quotes, not in several lines (a text is written in several lines only if there is an indentation and it has ends of lines),
and that have no part equal to an internal marker of the program. -/
def QuotedText (lined : Bool) (s : Text) : Prop :=
  ¬ T "#HCL_ARRAY_MAP#!" <:+: s ∧ (lined = true → ('\n' ∉ s ∧ ¬ T "\\n" <:+: s) ∨ EndsPlain s)

/-- Keys without an internal marker of the program, and that do not start with a character taken for a letter. -/
def QuotedKey (k : Text) : Prop := ¬ T "#HCL_ARRAY_MAP#!" <:+: k ∧ ∀ c t, k = c :: t → c ∉ T "[\\]^`"

/-- The text of a number. -/
def NumberText (t : Text) : Prop := numeral t = true ∧ ∀ c ∈ t, wordChar c = true

/-- A map with one key that is not empty, and a map under it; or a list of one such map: what is written as a block with a label. -/
inductive Labelled : Value → Prop
  | dict (k : Text) (d : List (Text × Value)) : k ≠ [] → Labelled (.dict [(k, .dict d)])
  | list (k : Text) (d : List (Text × Value)) : k ≠ [] → Labelled (.list [.dict [(k, .dict d)]])

/-- An empty map, or an empty map under labels. -/
inductive EmptyBlock : Value → Prop
  | empty : EmptyBlock (.dict [])
  | label (k : Text) (v : Value) : k ≠ [] → EmptyBlock v → EmptyBlock (.dict [(k, v)])

/-- Values that can be written under a key as blocks. -/
def BlockEntry (lined : Bool) (v : Value) : Prop :=
  (v = .nil → lined = true) ∧ (Labelled v → (∃ d, v = .dict d) ∧ (lined = true → ¬ EmptyBlock v))

/-- The values that are written faithfully: `blocks` if maps are written as blocks, `lined` if there is an indentation. -/
inductive Writable (blocks lined : Bool) : Value → Prop
  | nil : Writable blocks lined .nil
  | bool (b : Bool) : Writable blocks lined (.bool b)
  | int (i : Int) : Writable blocks lined (.int i)
  | flt (r : Text) : NumberText r → Writable blocks lined (.flt r)
  | str (s : Text) : QuotedText lined s → Writable blocks lined (.str s)
  | list (l : List Value) : (∀ v ∈ l, Writable blocks lined v) →
      (blocks = true → (∃ d, l = [.dict d]) ∨ ∀ v ∈ l, ¬ Labelled v) → Writable blocks lined (.list l)
  | dict (d : List (Text × Value)) : (d.map Prod.fst).Nodup → (∀ e ∈ d, QuotedKey e.1) → (∀ e ∈ d, Writable blocks lined e.2) →
      (blocks = true → Labelled (.dict d) ∨ ∀ e ∈ d, BlockEntry lined e.2) → Writable blocks lined (.dict d)

/-- The same value with the entries of its maps, at any depth, in another order: Go enumerates a map in any order. -/
inductive Reordered : Value → Value → Prop
  | refl (v : Value) : Reordered v v
  | list (l l' : List Value) : l.length = l'.length → (∀ (i : Nat) v v', l[i]? = some v → l'[i]? = some v' → Reordered v v') → Reordered (.list l) (.list l')
  | dict (d d' : List (Text × Value)) : d.map Prod.fst = d'.map Prod.fst →
      (∀ (i : Nat) e e', d[i]? = some e → d'[i]? = some e' → Reordered e.2 e'.2) → Reordered (.dict d) (.dict d')
  | perm (d d' : List (Text × Value)) : (d.map Prod.fst).Nodup → d.Perm d' → Reordered (.dict d) (.dict d')
  | trans (a b c : Value) : Reordered a b → Reordered b c → Reordered a c

end Spec
end Verif
