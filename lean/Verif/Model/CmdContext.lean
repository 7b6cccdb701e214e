import Verif.Base.Map
import Verif.Model.Content
import Verif.Model.Strings
/-!
# The context made from the command line

Model of `createContext` (context.go:14-158). Contexts are maps from names to values of any type; the type of collections (JSON, YAML, HCL) that is
chosen at lines 103-121 and 138-145 is not modelled.
-/

namespace Verif
namespace CmdContext
open Text

/-- What is used of values, files and converters: the text that is a Go string, `nil`, a text as a value, `TryAsDictionary`, `ConvertData` to a map
and to any value, the content of a file (`none` is a `PathError`), and the standard input. -/
structure Env (V : Type) where
  str : V → Option Text
  isNil : V → Bool
  ofText : Text → V
  asDict : V → Option (GoMap V)
  convertMap : Text → Option (GoMap V)
  convertAny : Text → Option V
  read : Text → Option Text
  stdin : Text

/-- `fileDef`, context.go:17-22. -/
structure FileDef (V : Type) where
  name : Text
  value : V
  unnamed : Bool := false
  required : Bool := false

variable {V : Type}

/-- One variable of the command line, context.go:38-58. The entries of the map are in any order. -/
def varDefs (env : Env V) (v : Text) : List (FileDef V) :=
  let p := (Strings.split2 v ['=']).getD (v, [])
  match env.convertMap v with
  | none => if p.2 = [] then [{ name := [], value := env.ofText p.1, unnamed := true }] else [{ name := p.1, value := env.ofText p.2 }]
  | some data =>
    if data.length = 0 ∧ '=' ∈ v then [{ name := p.1, value := env.ofText p.2 }]
    else data.map (fun e => { name := e.1, value := e.2 })

/-- `nameValuePairs`, context.go:30-59. -/
def allDefs (env : Env V) (varsFiles varsFilesIfExist namedVars : List Text) : List (FileDef V) :=
  varsFilesIfExist.map (fun f => { name := [], value := env.ofText f }) ++
    varsFiles.map (fun f => { name := [], value := env.ofText f, required := true }) ++ namedVars.flatMap (varDefs env)

/-- What a loader gives: a dictionary, nothing, the error of a missing file, or another error. -/
inductive Loaded (V : Type) where
  | dict (d : GoMap V)
  | nothing
  | missing
  | failed

/-- `filepath.Base`, library. -/
def base (file : Text) : Text :=
  if file = [] then ['.']
  else
    let s := (file.reverse.dropWhile (· == '/')).reverse
    if s = [] then ['/'] else (splitC '/' s).getLastD []

/-- The name of a file without its folder and its extension, context.go:76. -/
def title (file : Text) : Text := trimSuffix (Content.ext file) (base file)

/-- The loader of a file or of a text, context.go:66-101. The list of unnamed values is never extended (line 94 is reached only when the name is
empty and the error is a file error, which line 89 already handles), so it is not modelled. -/
def load (env : Env V) (nv : FileDef V) (filename : Text) : Loaded V :=
  match env.read filename with
  | some data =>
    match env.convertAny data with
    | none => .failed
    | some content =>
      if nv.name = [] then
        if nv.unnamed then .dict [(title filename, content)]
        else match env.asDict content with
          | some d => .dict d
          | none => .dict [(title filename, content)]
      else .dict [(nv.name, content)]
  | none =>
    if nv.name = [] then (if nv.required then .missing else .nothing)
    else .dict [(nv.name, (env.convertAny filename).getD nv.value)]

/-- The loader of the standard input, context.go:104-119. -/
def loadStdin (env : Env V) (nv : FileDef V) : Loaded V :=
  match env.convertAny env.stdin with
  | none => .failed
  | some content =>
    if nv.name = [] then
      match env.asDict content with
      | some d => .dict d
      | none => .dict [(T "STDIN", content)]
    else .dict [(nv.name, content)]

/-- The result: a context (`none` is a nil one), an error, or a panic. -/
inductive Outcome (V : Type) where
  | ok (ctx : Option (GoMap V))
  | error
  | panic

/-- `context.Set` for the entries of a dictionary, context.go:146-148, and line 127. -/
def setAll (ctx : Option (GoMap V)) (d : GoMap V) : Option (GoMap V) := some (d.foldl (fun m e => m.set e.1 e.2) (ctx.getD []))

/-- One step of the loop, context.go:63-150. The panic is `reflect.ValueOf(nil).Interface()` of line 65. -/
def step (env : Env V) (ignoreMissing : Bool) (ctx : Option (GoMap V)) (nv : FileDef V) : Outcome V :=
  if env.isNil nv.value then .panic
  else
    let filename := (env.str nv.value).getD []
    if filename = [] then .ok (setAll ctx [(nv.name, nv.value)])
    else
      match (if filename = ['-'] then loadStdin env nv else load env nv filename) with
      | .dict d => .ok (setAll ctx d)
      | .nothing => .ok ctx
      | .missing => if ignoreMissing then .ok ctx else .error
      | .failed => .error

/-- The loop, context.go:62-150. -/
def run (env : Env V) (ignoreMissing : Bool) : Option (GoMap V) → List (FileDef V) → Outcome V
  | ctx, [] => .ok ctx
  | ctx, nv :: nvs =>
    match step env ignoreMissing ctx nv with
    | .ok ctx => run env ignoreMissing ctx nvs
    | .error => .error
    | .panic => .panic

/-- `createContext`, context.go:14-158. `mode` tells whether the type of collections is given. -/
def createContext (env : Env V) (varsFiles varsFilesIfExist namedVars : List Text) (mode ignoreMissing : Bool) : Outcome V :=
  run env ignoreMissing (if mode then some [] else none) (allDefs env varsFiles varsFilesIfExist namedVars)

end CmdContext
end Verif
