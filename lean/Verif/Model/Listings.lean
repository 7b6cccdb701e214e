import Verif.Model.Strings
import Verif.Model.Path
import Verif.Base.Space
/-!
# Numbered lines, and the list of templates

Model of `AddLineNumber` (/repo/collections/string.go:458-468), of `getTemplateNames` (/repo/template/add_funcs.go:58-66) and of `PrintTemplates`
(/repo/template/template_help.go:15-41).
-/

namespace Verif.Listings
open Verif Verif.Text

/-- `%*d` of a natural number: spaces on the left. -/
def padNumber (space n : Nat) : Text :=
  let d := Nat.toDigits 10 n
  List.replicate (space - d.length) ' ' ++ d

/-- The loop of `AddLineNumber` (/repo/collections/string.go:464-466). -/
def numberLines (space : Nat) : Nat → List Text → List Text
  | _, [] => []
  | i, l :: ls => (padNumber space (i + 1) ++ ' ' :: l) :: numberLines space (i + 1) ls

/-- `AddLineNumber(space)` (/repo/collections/string.go:458-468); `log` is `int(math.Log10(float64(n)))`. -/
def addLineNumber (log : Nat → Nat) (s : Text) (space : Int) : Text :=
  let lines := Strings.splitLines s
  let space := if space ≤ 0 then log lines.length + 1 else space.toNat
  join ['\n'] (numberLines space 0 lines)

/-- A template of the engine: its name and the name given when its text was parsed, which is the name of its file. -/
structure Tpl where
  name : Text
  parseName : Text
deriving DecidableEq

/-- `getTemplateNames` (/repo/template/add_funcs.go:58-66). -/
def templateNames (ts : List Tpl) : List Text := sortBy id (ts.map (·.name))

/-- `Lookup` of the engine (library function). -/
def lookup (ts : List Tpl) (name : Text) : Option Tpl := ts.find? (·.name = name)

/-- The width of the column of names (/repo/template/template_help.go:17-23), in bytes. -/
def width (ts : List Tpl) : List Text → Nat → Nat
  | [], maxLen => maxLen
  | n :: ns, maxLen =>
    match lookup ts n with
    | some t => width ts ns (if byteLen n > maxLen && n ≠ t.parseName then byteLen n else maxLen)
    | none => width ts ns maxLen

/-- The row of a template, if it has one (/repo/template/template_help.go:28-38); `%-*s` counts characters. `faint` gives the colour. -/
def row (faint : Text → Text) (folder : Text) (maxLen : Nat) (all : Bool) (t : Tpl) : Option Text :=
  if all || t.name ≠ t.parseName then
    let name := if t.name = t.parseName then [] else t.name
    let file := Path.relative folder t.parseName
    if file ++ name ≠ ['.'] then some (name ++ List.replicate (maxLen - name.length) ' ' ++ ' ' :: faint file) else none
  else none

/-- `PrintTemplates(all, long)` (/repo/template/template_help.go:15-41): the rows; `long` is not used. A line that is empty follows them. -/
def printTemplates (faint : Text → Text) (folder : Text) (ts : List Tpl) (all : Bool) : List Text :=
  let names := templateNames ts
  let maxLen := width ts names 0
  names.filterMap fun n => (lookup ts n).bind (row faint folder maxLen all)

end Verif.Listings
