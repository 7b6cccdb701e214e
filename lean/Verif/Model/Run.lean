import Verif.Model.Script
import Verif.Model.DictOps
import Verif.Model.Include
/-!
# Running a command

Model of `run` and `exec` (template/extra_runtime.go:358-429) once the text of the command is rendered (`runTemplate`, see `Verif.Model.Include`), and
of the temporary file that `GetCommandFromString` makes (utils/exec.go:69-110), with what can fail: making the file, writing it, reading a file, and
the command itself.
-/

namespace Verif.Run
open Verif Verif.Text Verif.Value

/-- The files, by name. -/
abbrev Disk := Text → Option Text

/-- The disk with a file. -/
def put (d : Disk) (file content : Text) : Disk := fun p => if p = file then some content else d p

/-- `os.Remove` (without its error). -/
def remove (d : Disk) (file : Text) : Disk := fun p => if p = file then none else d p

/-- How a command ends (`cmd.Run`). -/
inductive Outcome where
  | ok (stdout stderr : Text)
  | failed (message stderr : Text)

/-- What surrounds the call. -/
structure World where
  env : Script.Env
  /-- The name that `os.CreateTemp` gives. -/
  temp : Text
  /-- The error of `os.CreateTemp`. -/
  createFails : Option Text
  /-- The error of `WriteString`, and the number of characters that are written before. -/
  writeFails : Option (Text × Nat)
  /-- The error of reading a file that exists. -/
  readFails : Text → Option Text
  /-- The command is started in the folder of the template; it can do anything to the files. -/
  launch : Script.Cmd → Disk → Outcome × Disk

/-- `os.ReadFile`. -/
def readFile (w : World) (d : Disk) (file : Text) : Except Text Text :=
  match d file, w.readFails file with
  | none, _ => .error (T "no such file or directory")
  | some _, some e => .error e
  | some c, none => .ok c

/-- `GetCommandFromFile`, utils/exec.go:35-66; `.ok none` is the command nil without error. -/
def commandFromFile (w : World) (d : Disk) (file : Text) (args : List Text) : Except Text (Option Script.Cmd) :=
  (readFile w d file).map fun content => Script.fromFile w.env file content args

/-- What `GetCommandFromString` and `saveTempFile` leave: the files, the name of the temporary file (`none` for the empty name) and the command. -/
structure Made where
  disk : Disk
  temp : Option Text
  cmd : Except Text (Option Script.Cmd)

/-- `saveTempFile`, utils/exec.go:94-110. -/
def saveTempFile (w : World) (d : Disk) (content : Text) (args : List Text) : Made :=
  match w.createFails with
  | some e => ⟨d, none, .error e⟩
  | none =>
    match w.writeFails with
    | some (e, n) => ⟨put d w.temp ((Script.withArgs content args).take n), none, .error e⟩
    | none =>
      let d := put d w.temp (Script.withArgs content args)
      ⟨d, some w.temp, commandFromFile w d w.temp []⟩

/-- `GetCommandFromString`, utils/exec.go:69-88. -/
def commandFromString (w : World) (d : Disk) (script : Text) (args : List Text) : Made :=
  let parts := Script.scriptParts (trimSpace script)
  if parts.1 ≠ [] then saveTempFile w d (T "#! " ++ parts.1 ++ T " " ++ parts.2.1 ++ ['\n'] ++ parts.2.2) args
  else if w.env.found parts.2.2 then ⟨d, none, .ok (some ⟨parts.2.2, Script.globFunc w.env false args⟩)⟩
  else if Script.isCommand parts.2.2 then ⟨d, none, .error (T "executable file not found in $PATH")⟩
  else saveTempFile w d (T "#! " ++ w.env.shell ++ ['\n'] ++ parts.2.2) args

/-- extra_runtime.go:366-372: a single argument that is a dictionary is not given to the command; nil is one for `TryAsDictionary`. The others are given
as texts (`ToStrings` and `Sprintln` in utils). -/
def commandArgs : List Value → List Text
  | [.dict _] => []
  | [.nil] => []
  | args => args.map sprint

/-- The result of `run`: `nothing` is nil without error. -/
inductive Res where
  | nothing
  | text (t : Text)
  | error (e : Text)
  | panic

/-- A call: its result, the commands it starts with the files they find, and the files at the end. -/
structure Call where
  result : Res
  started : List (Script.Cmd × Disk)
  disk : Disk

/-- extra_runtime.go:374-403: the command is run, then the deferred removal of the temporary file. -/
def start (w : World) (m : Made) : Call :=
  let clean := fun d => match m.temp with | some t => remove d t | none => d
  match m.cmd with
  | .error e => ⟨.error e, [], clean m.disk⟩
  | .ok none => ⟨.nothing, [], clean m.disk⟩
  | .ok (some cmd) =>
    let r := w.launch cmd m.disk
    ⟨match r.1 with | .ok out _ => .text out | .failed e err => .error (T "error " ++ e ++ T ": " ++ err), [(cmd, m.disk)], clean r.2⟩

/-- `run`, extra_runtime.go:358-403, for what `runTemplate` gives. -/
def run (w : World) (d : Disk) (reply : Include.Reply) (args : List Value) : Call :=
  match reply with
  | .error e => ⟨.error e, [], d⟩
  | .panic => ⟨.panic, [], d⟩
  | .text command file =>
    if file ≠ [] then start w ⟨d, none, commandFromFile w d file (commandArgs args)⟩
    else start w (commandFromString w d command (commandArgs args))

/-- The result of `exec`: data or what `run` gives. -/
inductive ExecRes where
  | data (v : Value)
  | same (r : Res)

/-- `exec`, extra_runtime.go:416-429; `convert` is `ConvertData`, `none` its error. -/
def exec (convert : Text → Option Value) (w : World) (d : Disk) (reply : Include.Reply) (args : List Value) : ExecRes :=
  match (run w d reply args).result with
  | .text t =>
    match convert t with
    | some v => .data v
    | none => .same (.text t)
  | r => .same r

end Verif.Run
