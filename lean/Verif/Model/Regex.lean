import Verif.Base.Chars
/-!
# Regular expressions

Model of the part of Go's package `regexp` that the rules of razor and the ignored expressions use (template/razor.go:19-42, 75-146): the syntax of the expressions and the
search of the leftmost match, where an alternative is preferred to those that follow it and greedy repetitions take as much as they can. Left out:
flags inside an expression, other classes of characters, the replacement of empty matches (no rule matches the empty text).
-/

namespace Verif.Regex
open Verif Text

/-- An element of a class of characters. -/
inductive Item where
  | chr (c : Char)
  | range (a b : Char)
  /-- `\d` -/
  | digit
  /-- `\w` -/
  | word
  /-- `\W` -/
  | nonWord
  /-- `\p{L}` -/
  | letter
  /-- `[:blank:]` -/
  | blank
  /-- `\s` -/
  | space
  deriving DecidableEq

/-- `[0-9A-Za-z_]`. -/
def isWordChar (c : Char) : Bool := c.isAlphanum || c == '_'

/-- The letters of Unicode are a parameter. -/
def Item.has (letter : Char → Bool) : Item → Char → Bool
  | .chr d, c => c == d
  | .range a b, c => a.toNat ≤ c.toNat && c.toNat ≤ b.toNat
  | .digit, c => c.isDigit
  | .word, c => isWordChar c
  | .nonWord, c => !isWordChar c
  | .letter, c => letter c
  | .blank, c => c == ' ' || c == '\t'
  | .space, c => c ∈ ['\t', '\n', Char.ofNat 12, '\r', ' ']

/-- A class of characters. -/
structure Cls where
  neg : Bool
  items : List Item
  deriving DecidableEq

def Cls.has (letter : Char → Bool) (k : Cls) (c : Char) : Bool := k.items.any (·.has letter c) != k.neg

/-- An expression. `bol` and `eol` are `^` and `$`, at the ends of lines too with the flag `m`; `edge` is `\b`, an end of a word. -/
inductive Re where
  | eps
  | cls (k : Cls)
  | bol (multi : Bool)
  | eol (multi : Bool)
  | edge
  | seq (a b : Re)
  | alt (a b : Re)
  | opt (greedy : Bool) (a : Re)
  | star (greedy : Bool) (a : Re)
  | group (name : Text) (a : Re)
  deriving DecidableEq

/-- A single character. -/
def lit (c : Char) : Re := .cls ⟨false, [.chr c]⟩

/-! ## The search -/

/-- The texts of the groups, the last one first. -/
abbrev Caps := List (Text × Text)

/-- What follows a part of a match: it gets the character before the position, the text after it and the groups. -/
abbrev Cont (β : Type) := Option Char → Text → Caps → Option β

/-- A repetition. Each turn must take something; the number bounds the turns by the length of the text. -/
def starLoop {β : Type} (step : Option Char → Text → Caps → Cont β → Option β) (greedy : Bool) : Nat → Option Char → Text → Caps → Cont β → Option β
  | 0, p, s, c, k => k p s c
  | n + 1, p, s, c, k =>
    if greedy then (step p s c (fun p' s' c' => if s'.length < s.length then starLoop step greedy n p' s' c' k else none)).or (k p s c)
    else (k p s c).or (step p s c (fun p' s' c' => if s'.length < s.length then starLoop step greedy n p' s' c' k else none))

/-- One character of a class. -/
def oneChar {β : Type} (letter : Char → Bool) (cl : Cls) (c : Caps) (k : Cont β) : Text → Option β
  | [] => none
  | ch :: t => if cl.has letter ch then k (some ch) t c else none

/-- `^`. -/
def atStart (multi : Bool) (p : Option Char) : Bool :=
  match p with
  | none => true
  | some ch => multi && ch == '\n'

/-- `$`. -/
def atStop (multi : Bool) : Text → Bool
  | [] => true
  | ch :: _ => multi && ch == '\n'

/-- `\b`: a character of a word on one side only. -/
def atEdge (p : Option Char) (s : Text) : Bool := p.any isWordChar != s.head?.any isWordChar

/-- The match of an expression at a position, followed by `k`; the first choice that succeeds is taken. -/
def run {β : Type} (letter : Char → Bool) : Re → Option Char → Text → Caps → Cont β → Option β
  | .eps, p, s, c, k => k p s c
  | .cls cl, _, s, c, k => oneChar letter cl c k s
  | .bol m, p, s, c, k => if atStart m p then k p s c else none
  | .eol m, p, s, c, k => if atStop m s then k p s c else none
  | .edge, p, s, c, k => if atEdge p s then k p s c else none
  | .seq a b, p, s, c, k => run letter a p s c (fun p s c => run letter b p s c k)
  | .alt a b, p, s, c, k => (run letter a p s c k).or (run letter b p s c k)
  | .opt true a, p, s, c, k => (run letter a p s c k).or (k p s c)
  | .opt false a, p, s, c, k => (k p s c).or (run letter a p s c k)
  | .star g a, p, s, c, k => starLoop (fun p s c k => run letter a p s c k) g s.length p s c k
  | .group n a, p, s, c, k => run letter a p s c (fun p' s' c' => k p' s' ((n, s.take (s.length - s'.length)) :: c'))

/-- The match at a position: its length and the groups. -/
def matchAt (letter : Char → Bool) (r : Re) (p : Option Char) (s : Text) : Option (Nat × Caps) :=
  run letter r p s [] (fun _ s' c => some (s.length - s'.length, c))

/-- `ReplaceAllFunc` and `ReplaceAll`: the matches, from left to right, without overlap, are replaced by `out`. The number counts the characters
of the last match that remain to be skipped. -/
def replaceAux (letter : Char → Bool) (r : Re) (out : Text → Caps → Text) : Nat → Option Char → Text → Text
  | _, _, [] => []
  | n + 1, _, c :: t => replaceAux letter r out n (some c) t
  | 0, p, c :: t =>
    match matchAt letter r p (c :: t) with
    | some (n + 1, caps) => out ((c :: t).take (n + 1)) caps ++ replaceAux letter r out n (some c) t
    | _ => c :: replaceAux letter r out 0 (some c) t

def replaceRe (letter : Char → Bool) (r : Re) (out : Text → Caps → Text) (s : Text) : Text := replaceAux letter r out 0 none s

/-! ## The syntax -/

/-- The flags at the beginning: `s` (the dot matches newlines) and `m`. -/
structure Flags where
  dotAll : Bool := false
  multi : Bool := false

/-- A character after a backslash (the classes `\p{L}` and `\x60` are read elsewhere). -/
def escape : Char → Item
  | 'd' => .digit
  | 'w' => .word
  | 'W' => .nonWord
  | 's' => .space
  | 'n' => .chr '\n'
  | 't' => .chr '\t'
  | c => .chr c

/-- An escape sequence, after the backslash. -/
def escaped : Text → Option (Item × Text)
  | 'p' :: '{' :: 'L' :: '}' :: s => some (.letter, s)
  | 'x' :: '6' :: '0' :: s => some (.chr '`', s)
  | c :: s => some (escape c, s)
  | [] => none

/-- The elements of a class up to the closing bracket. -/
def classItems : Nat → Text → Option (List Item × Text)
  | 0, _ => none
  | _ + 1, [] => none
  | n + 1, c :: s =>
    if c = ']' then some ([], s)
    else if c = '\\' then (escaped s).bind fun r => (classItems n r.2).map fun q => (r.1 :: q.1, q.2)
    else
      match dropPrefix? (c!"[:blank:]") (c :: s) with
      | some s => (classItems n s).map fun q => (.blank :: q.1, q.2)
      | none =>
        match s with
        | '-' :: d :: s' => if d = ']' then (classItems n s).map (fun q => (.chr c :: q.1, q.2)) else (classItems n s').map fun q => (.range c d :: q.1, q.2)
        | _ => (classItems n s).map fun q => (.chr c :: q.1, q.2)

/-- The text up to a character, and what follows it. -/
def upTo (stop : Char) : Text → Option (Text × Text)
  | [] => none
  | c :: s => if c = stop then some ([], s) else (upTo stop s).map fun q => (c :: q.1, q.2)

/-- A number. -/
def number (s : Text) : Option Nat :=
  if s ≠ [] ∧ s.all Char.isDigit then some (s.foldl (fun n c => 10 * n + (c.toNat - 48)) 0) else none

/-- `{n,m}`: the bounds and what follows. Anything else is no repetition (the brace is a character). -/
def bounds (s : Text) : Option (Nat × Nat × Text) :=
  (upTo '}' s).bind fun q => (upTo ',' q.1).bind fun p => (number p.1).bind fun a => (number p.2).map fun b => (a, b, q.2)

/-- Whether a question mark follows (the repetition is lazy then). -/
def greedy : Text → Bool × Text
  | '?' :: s => (false, s)
  | s => (true, s)

/-- `seq` without useless parts. -/
def mkSeq : Re → Re → Re
  | .eps, b => b
  | a, b => .seq a b

/-- `n` times. -/
def times (a : Re) : Nat → Re
  | 0 => .eps
  | n + 1 => mkSeq (times a n) a

/-- At most `n` times. -/
def atMost (g : Bool) (a : Re) : Nat → Re
  | 0 => .eps
  | n + 1 => .opt g (.seq a (atMost g a n))

/-- The repetition that follows an atom. -/
def quantified (a : Re) : Text → Re × Text
  | '*' :: s => (.star (greedy s).1 a, (greedy s).2)
  | '+' :: s => (.seq a (.star (greedy s).1 a), (greedy s).2)
  | '?' :: s => (.opt (greedy s).1 a, (greedy s).2)
  | '{' :: s =>
    match bounds s with
    | some (n, m, s') => (.seq (times a n) (atMost (greedy s').1 a (m - n)), (greedy s').2)
    | none => (a, '{' :: s)
  | s => (a, s)

/-- A class, after the opening bracket. -/
def classOf : Text → Option (Re × Text)
  | '^' :: s => (classItems (s.length + 1) s).map fun q => (.cls ⟨true, q.1⟩, q.2)
  | s => (classItems (s.length + 1) s).map fun q => (.cls ⟨false, q.1⟩, q.2)

/-- What follows an opening parenthesis: the name of the group (`none` if it is not kept). -/
def groupName : Text → Option (Option Text × Text)
  | '?' :: ':' :: s => some (none, s)
  | '?' :: 'P' :: '<' :: s => (upTo '>' s).map fun q => (some q.1, q.2)
  | '?' :: _ => none
  | s => some (some [], s)

/-- A closing parenthesis. -/
def closing (name : Option Text) : Re × Text → Option (Re × Text)
  | (r, ')' :: s) => some (match name with
    | some n => .group n r
    | none => r, s)
  | _ => none

/-- An atom that is not a group. -/
def simpleAtom (f : Flags) : Text → Option (Re × Text)
  | '[' :: s => classOf s
  | '\\' :: 'b' :: s => some (.edge, s)
  | '\\' :: s => (escaped s).map fun q => (.cls ⟨false, [q.1]⟩, q.2)
  | '.' :: s => some (.cls ⟨true, if f.dotAll then [] else [.chr '\n']⟩, s)
  | '^' :: s => some (.bol f.multi, s)
  | '$' :: s => some (.eol f.multi, s)
  | c :: s => if c ∈ c!"*+?" then none else some (lit c, s)
  | [] => none

/-- The alternatives up to a closing parenthesis or the end. `acc` is the beginning of the current one. -/
def parseAlts (f : Flags) : Nat → Re → Text → Option (Re × Text)
  | 0, _, _ => none
  | _ + 1, acc, [] => some (acc, [])
  | n + 1, acc, c :: s =>
    if c = ')' then some (acc, c :: s)
    else if c = '|' then (parseAlts f n .eps s).map fun q => (.alt acc q.1, q.2)
    else if c = '(' then
      (groupName s).bind fun g => (parseAlts f n .eps g.2).bind fun q => (closing g.1 q).bind fun a =>
        parseAlts f n (mkSeq acc (quantified a.1 a.2).1) (quantified a.1 a.2).2
    else (simpleAtom f (c :: s)).bind fun a => parseAlts f n (mkSeq acc (quantified a.1 a.2).1) (quantified a.1 a.2).2

/-- The flags of the expression. -/
def flagsOf (s : Text) : Flags × Text :=
  match dropPrefix? (c!"(?s)") s with
  | some s => ({ dotAll := true }, s)
  | none =>
    match dropPrefix? (c!"(?m)") s with
    | some s => ({ multi := true }, s)
    | none => ({}, s)

/-- `regexp.MustCompile`; `none` is a syntax error (or something that is not modelled). -/
def parse (s : Text) : Option Re :=
  match parseAlts (flagsOf s).1 (s.length + 1) .eps (flagsOf s).2 with
  | some (r, []) => some r
  | _ => none

end Verif.Regex
