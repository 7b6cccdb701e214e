import Verif.Model.Args
/-!
# The command

Model of `runGotemplate` (main.go:39-314) from the arguments to the exit status. The parser of command lines (kingpin), the file system and the processing
of files (C47) are parameters.
-/

namespace Verif
namespace Main
open Text

/-- What the parser of command lines gives, main.go:58-101. The flags for logging, colours, names of variables and addons are left out: they do not
change the flow. -/
structure Flags where
  list : Bool := false
  version : Bool := false
  source : Text := []
  target : Text := []
  overwrite : Bool := false
  print : Bool := false
  recursive : Bool := false
  depth : Int := 0
  follow : Bool := false
  ignoreImport : Bool := false
  ignoreSource : Bool := false
  ignorePaths : Bool := false
  stdin : Bool := false
  removeEmpty : Bool := false
  substitutes : List Text := []
  patterns : List Text := []
  excluded : List Text := []
  templates : List Text := []

/-- How a part of the work ends. -/
inductive Ended (α : Type) where
  | ok (value : α)
  | error
  | panic

/-- What is asked from `ProcessTemplates`. -/
structure Job where
  source : Text
  target : Text
  overwrite : Bool
  print : Bool
  substitutes : List Text
  templates : List Text
  deriving DecidableEq

/-- What the command works with. -/
structure Env where
  /-- The parser; `none` is an error. -/
  parse : List Text → Option Flags
  /-- `errors.Must(filepath.Abs)`; `none` is a panic. -/
  abs : Text → Option Text
  /-- `os.IsNotExist` of a path. -/
  missing : Text → Bool
  /-- The standard input is not a terminal, and the variable `GOTEMPLATE_NO_STDIN` is empty, main.go:237-240. -/
  piped : Bool
  /-- `createContext`: the result is the content of the standard input if it has been read. -/
  context : Flags → Ended Text
  /-- `NewTemplate` for the substitutions; it turns panics into errors. -/
  template : List Text → Bool
  chdir : Text → Bool
  /-- `MustFindFilesMaxDepth`; `none` is a panic. -/
  find : Text → Int → Bool → List Text → Option (List Text)
  /-- The name of a file relative to the folder of sources, if it exists, main.go:286-292. -/
  rel : Text → Text → Text
  lib : Args.PathLib
  /-- The standard input; `none` is a panic. -/
  input : Option Text
  /-- `ProcessTemplates`: the files written, and whether there is no error; `none` is a panic. -/
  process : Job → Option (List Text × Bool)
  /-- `TerraformFormat`. -/
  format : List Text → Ended Unit

/-- What a run does: the exit status, the work done, and whether the temporary folder is removed. -/
structure Run where
  code : Int
  job : Option Job := none
  listed : Bool := false
  cleaned : Bool := true

/-- A panic is recovered and gives the status -1, main.go:40-47. -/
def panicked : Run := { code := -1 }

/-- main.go:103-112: arguments that begin with `@` are marked. -/
def markArg (arg : Text) : Text := if hasPrefix (T "@") arg then T "#!!" ++ arg else arg

/-- main.go:135-138: the mark is removed from templates. -/
def unmark (f : Flags) : Flags := { f with templates := f.templates.map (trimPrefix (T "#!!")) }

/-- main.go:124-133: a second attempt with the default command. -/
def parseArgs (env : Env) (args : List Text) : Option Flags :=
  match env.parse (args.map markArg) with
  | some f => some (unmark f)
  | none => (env.parse (T "run" :: args.map markArg)).map unmark

/-- main.go:184-191: the depth of the search. -/
def depthFor (f : Flags) : Int := if f.recursive ∧ f.depth = 0 then 2 ^ 16 else f.depth

/-- The names to process, main.go:280-301. `none` is a panic; the second result tells that the exclusions are valid. `used` is what has been read from
the standard input. -/
def names (env : Env) (f : Flags) (source : Text) (stdin : Bool) (used : Text) : Option (List Text × Bool) :=
  let patterns := if !stdin && f.templates.isEmpty then f.patterns ++ [T "*.gt,*.template"] else f.patterns
  match env.find source (depthFor f) f.follow (Args.extend patterns) with
  | none => none
  | some found =>
    let kept := Args.exclude env.lib ((found ++ f.templates).map (env.rel source)) f.excluded
    if stdin && used.isEmpty then env.input.map (fun s => (kept.1 ++ [s], kept.2)) else some kept

/-- The end of the work, main.go:303-313. The result of the formatting is ignored. -/
def finish (env : Env) (f : Flags) (job : Job) (valid : Bool) : Run :=
  match env.process job with
  | none => { code := -1, job := some job }
  | some (files, good) =>
    if f.print then { code := if good && valid then 0 else 1, job := some job }
    else match env.format files with
      | .panic => { code := -1, job := some job }
      | _ => { code := if good && valid then 0 else 1, job := some job }

/-- main.go:237-313. The option of overwriting is read by line 167, before line 235 changes it: it is the one of the flags. -/
def work (env : Env) (f : Flags) (source target : Text) : Run :=
  let stdin := f.stdin || env.piped
  let substitutes := if f.removeEmpty then f.substitutes ++ [T "/^\\s*$/d"] else f.substitutes
  match env.context { f with ignoreImport := f.ignoreImport || f.ignorePaths } with
  | .panic => panicked
  | .error => { code := 1 }
  | .ok used =>
    if !env.template substitutes then { code := 3 }
    else if f.list then { code := 0, listed := true }
    else if !env.chdir source then panicked
    else match names env f source stdin used with
      | none => panicked
      | some (ns, valid) => finish env f ⟨source, target, f.overwrite, f.print, substitutes, ns⟩ valid

/-- `runGotemplate`, main.go:39-314. When the arguments cannot be read, `os.Exit(0)` is called, which does not run the deferred cleaning. -/
def run (env : Env) (args : List Text) : Run :=
  match parseArgs env args with
  | none => { code := 0, cleaned := false }
  | some f =>
    if f.version then { code := 0 }
    else match env.abs f.source with
      | none => panicked
      | some source =>
        if env.missing source then { code := if f.ignoreSource || f.ignorePaths then 0 else 1 }
        else match env.abs (if f.target = [] then f.source else f.target) with
          | none => panicked
          | some target => work env f source target

end Main
end Verif
