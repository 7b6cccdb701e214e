import Verif.Base.Text
/-!
# Raw strings during the razor translation

Model of `protectMultiLineStrings` (template/razor_repl_literal.go) and of the rules of template/razor.go that surround it. The other rules
of the translation are a parameter.
-/

namespace Verif
namespace Razor

/-- `protectString`, razor_repl_expr.go:15. -/
def protectString : Text := T "_=LONG_STRING="
/-- `literalTripleBackticks`, razor_repl_expr.go:17. -/
def tripleMark : Text := T "_=!TRIPLE_BT!=_"
/-- `literalReplacement`, razor_repl_expr.go:18. -/
def replMark : Text := T "_=!REPL!=_"

/-- The text that stands for a saved string, razor_repl_literal.go:23. -/
def longMark (n : Nat) : Text := '`' :: (protectString ++ Nat.toDigits 10 n ++ ['`'])

/-- `protectMultiLineStrings` on a match of ``(?s)`.*?` `` (razor.go:78), razor_repl_literal.go:9-24: the new buffer and the replacement.
The argument is the text between the backticks. A string that begins with `protectString` is taken for a saved one and makes the code panic
(this regular expression has no group): `none`. -/
def protectString1 (buf : List Text) (s : Text) : Option (List Text × Text) :=
  let m := '`' :: (s ++ ['`'])
  if Text.hasPrefix protectString (s ++ ['`']) then none
  else if '\n' ∈ m then some (buf ++ [m], longMark buf.length)
  else some (buf, m)

/-- The application of the rule to a content, razor.go:34-42 and 78. `acc` is the text read since an opening backtick, in reverse order. -/
def protectAux : Option Text → List Text → Text → Option (List Text × Text)
  | none, buf, [] => some (buf, [])
  | some acc, buf, [] => some (buf, '`' :: acc.reverse)
  | none, buf, c :: s =>
    if c = '`' then protectAux (some []) buf s
    else (protectAux none buf s).map (fun r => (r.1, c :: r.2))
  | some acc, buf, c :: s =>
    if c = '`' then
      match protectString1 buf acc.reverse with
      | some (buf, t) => (protectAux none buf s).map (fun r => (r.1, t ++ r.2))
      | none => none
    else protectAux (some (c :: acc)) buf s

/-- A match of `` `_=LONG_STRING=(?P<num>\d+)` `` (razor.go:145) at the beginning of a text: the number and the length of the match. -/
def matchMark (s : Text) : Option (Nat × Nat) :=
  match Text.dropPrefix? ('`' :: protectString) s with
  | none => none
  | some rest =>
    let digits := rest.takeWhile Char.isDigit
    if digits = [] then none
    else match rest.drop digits.length with
      | '`' :: _ => some (Nat.ofDigitChars 10 digits 0, protectString.length + digits.length + 2)
      | _ => none

/-- `protectMultiLineStrings` on these matches, razor_repl_literal.go:10-16: the saved string takes its place and the entry is blanked; a
number that is not an index panics, `none`. The first argument counts the characters of the match still to be skipped. -/
def restoreLongAux : Nat → List Text → Text → Option (List Text × Text)
  | _, buf, [] => some (buf, [])
  | k + 1, buf, _ :: s => restoreLongAux k buf s
  | 0, buf, c :: s =>
    match matchMark (c :: s) with
    | some (n, len) =>
      match buf[n]? with
      | some saved => (restoreLongAux (len - 1) (buf.set n []) s).map (fun r => (r.1, saved ++ r.2))
      | none => none
    | none => (restoreLongAux 0 buf s).map (fun r => (r.1, c :: r.2))

/-- The rules of `applyRazor`, razor.go:34-42, in order: triple backticks (77), saving of the strings (78), all the other rules (`mid`: 79 to
142), triple backticks again (143), `${` (144), the saved strings (145). `buf` is the package variable `longStrings`. -/
def translate (mid : Text → Text) (buf : List Text) (content : Text) : Option (List Text × Text) :=
  (protectAux none buf (Text.replaceAll (T "```") tripleMark content)).bind (fun r =>
    restoreLongAux 0 r.1 (Text.replaceAll replMark (T "${") (Text.replaceAll tripleMark (T "```") (mid r.2))))

/-! ## Several goroutines -/

/-- A goroutine that translates a content with the given long strings: first it saves them one by one, then it takes them back. `loaded` is
the value of `longStrings` read by `append` and not yet written back, `stored` says that it was written. -/
structure Goroutine where
  todo : List Text
  loaded : Option (List Text) := none
  stored : Bool := false
  marks : List Nat := []
  got : List Text := []
  panicked : Bool := false

/-- The next memory access of a goroutine, razor_repl_literal.go:12-14 and 22-23: read the variable, write it, read its length; or take a
string back. Simplification: `append` always copies, and taking a string back (read and blank) is one step. -/
def Goroutine.step (buf : List Text) (g : Goroutine) : List Text × Goroutine :=
  if g.panicked then (buf, g)
  else match g.todo, g.loaded, g.stored with
  | s :: _, some b, false => (b ++ [s], { g with stored := true })
  | _ :: rest, some _, true => (buf, { g with todo := rest, loaded := none, stored := false, marks := g.marks ++ [buf.length - 1] })
  | _ :: _, none, _ => (buf, { g with loaded := some buf })
  | [], _, _ =>
    match g.marks with
    | [] => (buf, g)
    | n :: ns =>
      match buf[n]? with
      | some s => (buf.set n [], { g with marks := ns, got := g.got ++ [s] })
      | none => (buf, { g with panicked := true })

/-- The state of the process: the shared buffer and the goroutines. -/
structure Process where
  buf : List Text
  goroutines : Nat → Goroutine

/-- One step of the goroutine number `i`. -/
def Process.step (p : Process) (i : Nat) : Process :=
  let r := (p.goroutines i).step p.buf
  ⟨r.1, fun j => if j = i then r.2 else p.goroutines j⟩

/-- The execution of a schedule: the numbers of the goroutines that make a step. -/
def Process.run (p : Process) (schedule : List Nat) : Process := schedule.foldl Process.step p

/-- The beginning: goroutine `i` has the long strings `strings i`. -/
def Process.start (buf : List Text) (strings : Nat → List Text) : Process := ⟨buf, fun i => { todo := strings i }⟩

end Razor
end Verif
