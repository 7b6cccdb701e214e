import Verif.Model.Files

/-!
Model of the choice of the command that `run` and `exec` start (/repo/utils/exec.go, /repo/utils/io.go:101-121). The regular expression is followed piece by piece, with its preferences: a star takes as much as it can and gives back when the
rest does not match.
-/

namespace Verif.Script
open Verif Verif.Text Verif.Files

/-- A greedy star of a set of characters, followed by `k`, which is given what was taken and what remains. -/
def starG {β : Type} (p : Char → Bool) : Text → (Text → Text → Option β) → Option β
  | [], k => k [] []
  | c :: s, k => if p c then (starG p s fun w r => k (c :: w) r).or (k [] (c :: s)) else k [] (c :: s)

/-- `$` with the flag `m`. -/
def atEnd (s : Text) : Bool := s = [] || s.head? = some '\n'

/-- `[ \t]`. -/
def isBlank (c : Char) : Bool := c == ' ' || c == '\t'

/-- `\s*#!\s*(?P<program>[^\s]*)[ \t]*(?P<app>[^\s]*)?\s*$` (/repo/utils/exec.go:13), followed by `k`. The group `app` can always match, so that the question mark after it has no effect. -/
def header {β : Type} (s : Text) (k : Text → Text → Text → Option β) : Option β :=
  starG reSpace s fun _ s =>
    (dropPrefix? ['#', '!'] s).bind fun s =>
      starG reSpace s fun _ s =>
        starG (fun c => !reSpace c) s fun program s =>
          starG isBlank s fun _ s =>
            starG (fun c => !reSpace c) s fun app s =>
              starG reSpace s fun _ s => if atEnd s then k program app s else none

/-- `\s*(?P<source>.*)` at the end of the expression (with the flag `s` the dot takes all). -/
def sourcePart (program app s : Text) : Option (Text × Text × Text) := starG reSpace s fun _ s => some (program, app, s)

/-- `shebang.FindStringSubmatch` (/repo/utils/exec.go:13): it matches at the beginning of any text, so that there is no search. -/
def submatch (s : Text) : Option (Text × Text × Text) := (header s sourcePart).or (sourcePart [] [] s)

/-- `ScriptParts(content)` (/repo/utils/exec.go:22-32): program, argument and source. -/
def scriptParts (content : Text) : Text × Text × Text := (submatch (trimSpace content)).getD ([], [], content)

/-- The environment of the commands. -/
structure Env where
  /-- `exec.LookPath` finds the command. -/
  found : Text → Bool
  /-- `filepath.Glob`; the empty list stands for nil. -/
  glob : Text → List Text
  /-- `getDefaultShell()` (/repo/utils/exec.go:112-127). -/
  shell : Text

/-- `strings.ContainsAny(arg, "*?[]")`. -/
def hasWild (arg : Text) : Bool := arg.any fun c => c == '*' || c == '?' || c == '[' || c == ']'

/-- `globFunc(trimUnmatch, args...)` (/repo/utils/io.go:101-115), for arguments that are texts already. -/
def globFunc (env : Env) (trim : Bool) : List Text → List Text
  | [] => []
  | a :: args =>
    if hasWild a then
      if env.glob a ≠ [] then env.glob a ++ globFunc env trim args
      else if trim then globFunc env trim args
      else a :: globFunc env trim args
    else a :: globFunc env trim args

/-- `exec.Cmd`: the name of the command and its arguments. -/
structure Cmd where
  name : Text
  args : List Text
deriving DecidableEq

/-- `GetCommandFromFile(filename, args...)` for a file with this content (/repo/utils/exec.go:35-66); `none` is the command nil, which comes without error. -/
def fromFile (env : Env) (filename content : Text) (args : List Text) : Option Cmd :=
  let parts := scriptParts (trimSpace content)
  let strArgs := globFunc env false args
  if parts.1 ≠ [] then
    some ⟨parts.1, if parts.2.1 ≠ [] then parts.2.1 :: filename :: strArgs else filename :: strArgs⟩
  else if env.found parts.2.2 then some ⟨parts.2.2, strArgs⟩
  else if ' ' ∈ parts.2.2 then
    match splitC ' ' parts.2.2 with
    | [] => none
    | name :: more => some ⟨name, more ++ strArgs⟩
  else none

/-- What `GetCommandFromString` gives: an error, or a command with the content of the temporary file if there is one. -/
inductive Made
  | error
  | direct (cmd : Cmd)
  | viaFile (content : Text) (cmd : Option Cmd)

/-- `IsCommand(command)` (/repo/utils/exec.go:90-92). -/
def isCommand (command : Text) : Bool := !command.any fun c => decide (c ∈ T " \t|&$,;(){}<>[]")

/-- The content of the temporary file (/repo/utils/exec.go:100-102): `Sprintln` puts a space between the arguments and ends the line. -/
def withArgs (content : Text) (args : List Text) : Text :=
  if args ≠ [] then content ++ T " " ++ join [' '] args ++ ['\n'] else content

/-- `saveTempFile(content, args...)` (/repo/utils/exec.go:94-110), without its errors; `temp` is the name of the file. -/
def viaTemp (env : Env) (temp content : Text) (args : List Text) : Made :=
  .viaFile (withArgs content args) (fromFile env temp (withArgs content args) [])

/-- `GetCommandFromString(script, args...)` (/repo/utils/exec.go:69-88). -/
def fromString (env : Env) (temp script : Text) (args : List Text) : Made :=
  let parts := scriptParts (trimSpace script)
  if parts.1 ≠ [] then viaTemp env temp (T "#! " ++ parts.1 ++ T " " ++ parts.2.1 ++ ['\n'] ++ parts.2.2) args
  else if env.found parts.2.2 then .direct ⟨parts.2.2, globFunc env false args⟩
  else if isCommand parts.2.2 then .error
  else viaTemp env temp (T "#! " ++ env.shell ++ ['\n'] ++ parts.2.2) args

end Verif.Script
