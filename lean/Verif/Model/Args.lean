import Verif.Base.Space
/-!
# Lists of patterns, exclusions and substitutions

Models of `exclude` and `extend` (utilities.go:43-87), `InitReplacers` and `Substitute` (utils/substitute.go:17-56).
-/

namespace Verif
namespace Args
open Text

/-- `extend`, utilities.go:76-87. -/
def extend (values : List Text) : List Text :=
  values.flatMap (fun v => ((splitC ',' v).map trimSpace).filter (fun sv => sv ≠ []))

/-- The library functions used by `exclude`: `filepath.Abs` and `doublestar.PathMatch` (`none` is an error). -/
structure PathLib where
  abs : Text → Option Text
  pathMatch : Text → Text → Option Bool

/-- The loop on patterns, utilities.go:56-68; `none` is an error. -/
def excluded (lib : PathLib) (file : Text) : List Text → Option Bool
  | [] => some false
  | p :: ps =>
    match lib.abs p with
    | none => none
    | some p =>
      match lib.pathMatch p file with
      | none => none
      | some true => some true
      | some false => excluded lib file ps

/-- The loop on files, utilities.go:50-72: the files kept so far, and whether there was no error. -/
def excludeLoop (lib : PathLib) (patterns : List Text) : List Text → List Text → List Text × Bool
  | [], result => (result, true)
  | f :: fs, result =>
    match lib.abs f with
    | none => (result, false)
    | some file =>
      match excluded lib file patterns with
      | none => (result, false)
      | some b => excludeLoop lib patterns fs (if b then result else result ++ [f])

/-- `exclude`, utilities.go:43-73: the result and whether there is no error. -/
def exclude (lib : PathLib) (files patterns : List Text) : List Text × Bool :=
  if (extend patterns).length = 0 then (files, true) else excludeLoop lib (extend patterns) files []

/-! ## Substitutions -/

/-- `string(s[0])`: the first byte of the UTF-8 form of a character, taken as a character (substitute.go:24). -/
def byteChar (c : Char) : Char :=
  let n := c.toNat
  if n < 0x80 then c
  else if n < 0x800 then Char.ofNat (0xC0 + n / 64)
  else if n < 0x10000 then Char.ofNat (0xE0 + n / 4096)
  else Char.ofNat (0xF0 + n / 262144)

/-- The expression and the replacement when the replacement is a single `d`, substitute.go:29-41. -/
def deletion (expr repl : Text) : Text × Text :=
  if repl = T "d" then
    if (T "$").isSuffixOf expr then
      let expr := expr ++ T "\\n"
      if (T "(?m)").isPrefixOf expr then (expr, []) else (T "(?m)" ++ expr, [])
    else (expr, [])
  else (expr, repl)

/-- One replacer, substitute.go:20-41: the expression and the replacement; `none` is the raised error. -/
def parseReplacer (s : Text) : Option (Text × Text) :=
  match trimSpace s with
  | [] => none
  | c :: cs =>
    match splitC (byteChar c) (c :: cs) with
    | [_, expr, repl] => if expr = [] then none else some (deletion expr repl)
    | _ => none

/-- The library of regular expressions: `regexp.MustCompile` (`none` is the panic) and `ReplaceAllString`. -/
structure RegexLib where
  Regex : Type
  compile : Text → Option Regex
  replaceAll : Regex → Text → Text → Text

/-- `RegexReplacer`, substitute.go:11-14. -/
structure Replacer (lib : RegexLib) where
  regex : lib.Regex
  replace : Text

/-- `InitReplacers`, substitute.go:17-48. `none` is a raised error. That the texts of the caller are replaced by the trimmed ones is not modelled. -/
def initReplacers (lib : RegexLib) : List Text → Option (List (Replacer lib))
  | [] => some []
  | s :: ss =>
    match parseReplacer s with
    | none => none
    | some (expr, repl) =>
      match lib.compile expr with
      | none => none
      | some r => (initReplacers lib ss).map (⟨r, repl⟩ :: ·)

/-- `Substitute`, substitute.go:51-56. -/
def substitute (lib : RegexLib) (content : Text) : List (Replacer lib) → Text
  | [] => content
  | r :: rs => substitute lib (lib.replaceAll r.regex content r.replace) rs

end Args
end Verif
