import Verif.Base.Space
/-!
# String functions

Model of collections/string_util.go:16-159 and collections/string.go:303-398.
-/

namespace Verif.Strings
open Verif Text

/-! ## Centering and wrapping -/

/-- An empty string printed with `%*s` and a non-negative width (library `fmt`): spaces, or an error text when the width is over
one million. -/
def starPad (n : Nat) : Text := if n > 1000000 then T "%!(BADWIDTH)" else List.replicate n ' '

/-- `CenterString`, string_util.go:17-25. The division is on a non-negative number. -/
def center (s : Text) (width : Int) : Text :=
  if (s.length : Int) > width then s
  else
    let left := (width.toNat - s.length) / 2
    let right := width.toNat - left - s.length
    starPad left ++ s ++ starPad right

/-- The loop on the words of a line, string_util.go:44-53: the chunks ended by a line break and the words after the last
break. `cur` is `words[start:j]`. -/
def wrapLoop (width : Int) : List Text → Nat → List Text → List (List Text) × List Text
  | cur, _, [] => ([], cur)
  | cur, length, w :: ws =>
    let flush : Bool := length > 0 && ((length + byteLen w : Nat) : Int) > width
    let cur' := if flush then [] else cur
    let length' := if flush then 0 else length
    let next := length' + byteLen w + (if cur' = [] then 0 else 1)
    let rest := wrapLoop width (cur' ++ [w]) next ws
    if flush then (cur :: rest.1, rest.2) else rest

/-- One line of `WrapString`, string_util.go:32-55: the produced lines. -/
def wrapLine (width : Int) (line : Text) : List Text :=
  let indent := line.takeWhile isSpace
  if line.dropWhile isSpace = [] then [[]]
  else
    let r := wrapLoop width [] (byteLen indent) (fields (trimRightSpace line))
    r.1.map (join [' ']) ++ [indent ++ join [' '] r.2]

/-- `WrapString`, string_util.go:28-58. -/
def wrap (s : Text) (width : Int) : Text := join ['\n'] ((splitC '\n' s).map (wrapLine width)).flatten

/-! ## Lines -/

/-- `SplitLines` on a text, string_util.go:92-100. -/
def splitLines (s : Text) : List Text := splitC '\n' (trimSuffix ['\n'] s)

/-- `JoinLines` on texts, string_util.go:103-109. -/
def joinLines (ls : List Text) : Text := join ['\n'] ls

/-- `Split2`, string_util.go:112-119. `none` is the panic of `split[0]`: `strings.SplitN` gives no element for two empty
texts; with an empty separator it cuts after the first character. -/
def split2 (source sep : Text) : Option (Text × Text) :=
  if sep = [] then
    match source with
    | [] => none
    | c :: cs => some ([c], cs)
  else match index? sep source with
    | none => some (source, [])
    | some i => some (source.take i, source.drop (i + sep.length))

/-- `Indent`, string_util.go:150-156. -/
def indent (s i : Text) : Text := join ['\n'] ((splitC '\n' s).map (i ++ ·))

/-- The loop of `UnIndent`, string_util.go:129-144; `none` is the early return of the original text. -/
def unIndentLoop : Option Text → List Text → Option (List Text)
  | _, [] => some []
  | none, line :: rest =>
    if trimSpace line = [] then (unIndentLoop none rest).map (line :: ·)
    else
      let spaces := line.take (line.length - (trimLeftSpace line).length)
      if !hasPrefix spaces line && trimSpace line ≠ [] then none
      else (unIndentLoop (some spaces) rest).map (trimPrefix spaces line :: ·)
  | some spaces, line :: rest =>
    if !hasPrefix spaces line && trimSpace line ≠ [] then none
    else (unIndentLoop (some spaces) rest).map (trimPrefix spaces line :: ·)

/-- `UnIndent`, string_util.go:123-147. -/
def unIndent (s : Text) : Text :=
  let lines := splitC '\n' s
  if lines.length ≤ 1 then s
  else match unIndentLoop none lines with
    | none => s
    | some lines => join ['\n'] lines

/-! ## Searching

A Go string is a sequence of bytes here: each byte is represented by the character with the same code. The functions of
this section only compare them. -/

/-- The loop of `IndexAll`, string.go:348-351, on the text that starts at `start`. The fuel bounds the number of occurrences. -/
def indexAllLoop (sub : Text) : Nat → Nat → Text → List Nat
  | 0, _, _ => []
  | fuel + 1, start, s =>
    match index? sub s with
    | none => []
    | some pos => (start + pos) :: indexAllLoop sub fuel (start + pos + sub.length) (s.drop (pos + sub.length))

/-- `String.IndexAll`, string.go:343-353. An occurrence has at least one byte, so that the length of the text is enough
fuel. -/
def indexAll (s sub : Text) : List Nat :=
  if sub = [] ∨ s = [] then [] else indexAllLoop sub (s.length + 1) 0 s

/-- Go's `s[i:j]`; `none` is the panic for bounds out of range. -/
def goSlice (s : Text) (i j : Int) : Option Text :=
  if 0 ≤ i ∧ i ≤ j ∧ j ≤ s.length then some ((s.drop i.toNat).take (j - i).toNat) else none

/-- `strings.LastIndex` for a non-empty text: the greatest position where it occurs. -/
def lastIndex? (sub s : Text) : Option Nat :=
  (index? sub.reverse s.reverse).map (fun i => s.length - sub.length - i)

/-- The result of a Go search as an integer. -/
def orMinus1 : Option Nat → Int
  | none => -1
  | some n => n

/-- The local function `findLeft`, string.go:362-367. -/
def findLeft (left s : Text) (pos : Int) : Option Int :=
  if left = [] then some pos
  else (goSlice s 0 pos).map (fun p => orMinus1 (lastIndex? left p))

/-- The loop on the inner occurrences, string.go:379-389: the position of the right delimiter that closes; `none` for the
two outcomes without context. -/
def closing : List Nat → List Nat → Option Nat
  | [], [] => none
  | [], r :: _ => some r
  | _ :: _, [] => none
  | l :: ls, r :: rs => if l > r then some r else closing ls rs

/-- `String.GetContextAtPosition`, string.go:356-398. `none` is a panic. -/
def context (s : Text) (pos : Int) (left right : Text) : Option (Text × Int) :=
  if pos < 0 ∨ pos ≥ s.length then some ([], -1)
  else do
    let begin_ ← findLeft left s pos
    let lenLeft : Int := left.length
    let lenRight : Int := right.length
    if begin_ ≥ 0 ∧ lenRight > 0 then
      let tail ← goSlice s pos s.length
      match index? right tail with
      | none => some ([], -1)
      | some e =>
        let end_ : Int := (e : Int) + pos + lenRight
        let head ← goSlice s 0 end_
        let back ← findLeft left head (end_ - lenRight)
        if left ≠ [] ∧ back ≠ begin_ then
          let pos := begin_ + lenLeft
          let tail ← goSlice s pos s.length
          match closing (indexAll tail left) (indexAll tail right) with
          | none => some ([], -1)
          | some r => (goSlice s begin_ ((r : Int) + pos + lenRight)).map (·, begin_)
        else (goSlice s begin_ end_).map (·, begin_)
    else if begin_ < 0 then some ([], -1)
    else (goSlice s begin_ (pos + 1)).map (·, begin_)

/-! ## Words -/

/-- `unicode.IsPunct` for the codes under 256 (general category P). -/
def isPunct (c : Char) : Bool :=
  c ∈ ['!', '"', '#', '%', '&', '\'', '(', ')', '*', ',', '-', '.', '/', ':', ';', '?', '@', '[', '\\', ']', '_', '{', '}',
    '¡', '§', '«', '¶', '·', '»', '¿']

/-- The local function `isBreak`, string.go:319-322. -/
def isBreak (accept : Text) (c : Char) : Bool := isSpace c || isPunct c && !(accept.elem c)

/-- The loop that moves `begin` back, string.go:324-326. -/
def wordBegin (brk : Char → Bool) (s : Text) : Nat → Int
  | 0 => if brk (s.getD 0 ' ') then 0 else -1
  | n + 1 => if brk (s.getD (n + 1) ' ') then (n + 1 : Nat) else wordBegin brk s n

/-- The loop that moves `end` forward, string.go:327-329. -/
def wordEnd (brk : Char → Bool) (s : Text) (pos : Nat) : Nat := pos + ((s.drop pos).takeWhile (fun c => !brk c)).length

/-- `String.GetWordAtPosition`, string.go:314-334. The characters of `s` stand for the bytes of the Go string (`rune(s[i])` is the
character with the code of the byte); `accept` is the concatenation of the accept list. `none` is a panic. -/
def wordAt (s : Text) (pos : Int) (accept : Text) : Option (Text × Int) :=
  if pos < 0 ∨ pos ≥ s.length then some ([], -1)
  else
    let b := wordBegin (isBreak accept) s pos.toNat
    let e : Int := wordEnd (isBreak accept) s pos.toNat
    let b := if b ≠ e then b + 1 else b
    (goSlice s b e).map (·, b)

end Verif.Strings
