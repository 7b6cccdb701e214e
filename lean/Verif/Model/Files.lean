import Verif.Model.Path
import Verif.Model.Content
/-!
# What is written for a rendered file

Model of the second half of `processTemplate` (template/template_handler.go:66-134): the name of the result and the operations done on the
files once the content of a template has been rendered. The operations are a list, so that an interruption (or a failing operation) is a
prefix of this list.
-/

namespace Verif
namespace Files

open Text Path

/-- A file: its content and its permissions. -/
structure File where
  content : Text
  mode : Nat
  deriving DecidableEq, Repr

/-- The files of the machine, by place (a clean absolute path). Folders and links are not modelled. -/
abbrev FS := Text → Option File

/-- The operations. `create` and `fill` are the two halves of `os.WriteFile`, which truncates the file and then writes its content. -/
inductive Op where
  | print (text : Text)
  /-- Creates the folder of a file, with those that contain it: `os.MkdirAll(filepath.Dir(file))`. -/
  | mkdirAll (file : Text)
  | rename (old new : Text)
  | create (path : Text) (mode : Nat)
  | fill (path content : Text)
  | remove (path : Text)
  deriving DecidableEq, Repr

/-- What an operation does to the files for a process that works in `cwd` (operating system). The permissions given to `create` are used
only if the file does not exist; the mask of the process is left out. -/
def Op.apply (cwd : Text) (fs : FS) : Op → FS
  | .print _ => fs
  | .mkdirAll _ => fs
  | .rename a b => fun x => if x = place cwd b then fs (place cwd a) else if x = place cwd a then none else fs x
  | .create p m => fun x => if x = place cwd p then some ⟨[], ((fs x).map File.mode).getD m⟩ else fs x
  | .fill p c => fun x => if x = place cwd p then (fs x).map (fun f => { f with content := c }) else fs x
  | .remove p => fun x => if x = place cwd p then none else fs x

/-- The files after some operations. -/
def run (cwd : Text) (fs : FS) (ops : List Op) : FS := ops.foldl (Op.apply cwd) fs

/-- `templateExt`, template/template_process.go:13. -/
def templateExt : List Text := [T ".gt", T ".template"]

/-- `Template.isTemplate`, template/template.go:249-256. -/
def isTemplate (file : Text) : Bool := templateExt.any (fun e => hasSuffix e file)

/-- template_handler.go:79-82. -/
def stripExt (file : Text) : Text := templateExt.foldl (fun f e => trimSuffix e f) file

/-- `utils.IsTerraformFile`, utils/terraform.go:13-20. -/
def isTerraform (file : Text) : Bool := [T ".tf", T ".tf.json", T ".tfvars"].any (fun e => hasSuffix e file)

/-- The blanks of a regular expression (`\s`). -/
def reSpace (c : Char) : Bool := c == ' ' || c == '\t' || c == '\n' || c == '\r' || c == '\x0c'

/-- `utils.IsShebangScript`, utils/exec.go:13-19: the regular expression as a scanner. -/
def isScript (content : Text) : Bool :=
  match dropPrefix? ['#', '!'] (trimSpace content) with
  | none => false
  | some r =>
    let r := r.dropWhile reSpace
    let after := (((r.dropWhile (fun c => !reSpace c)).dropWhile (fun c => c == ' ' || c == '\t')).dropWhile (fun c => !reSpace c)).dropWhile
      (fun c => reSpace c && c != '\n')
    decide (r ≠ []) && (decide (after = []) || decide (after.head? = some '\n'))

/-- A rendered file: the arguments of `processTemplate`, the options and what the rendering gives (template_handler.go:43-63). -/
structure Request where
  template : Text
  sourceFolder : Text
  targetFolder : Text
  overwrite : Bool
  stdout : Bool
  result : Text
  changed : Bool
  mode : Nat

/-- The permissions of the result, template_handler.go:111, 122-124. -/
def finalMode (q : Request) : Nat := if isScript q.result then 0o755 else q.mode

/-- The name of the result, template_handler.go:78-96. `none`: nothing is saved for an empty result that has no extension. -/
def resultName (q : Request) : Option Text :=
  let r := getTargetFile (stripExt q.template) q.sourceFolder q.targetFolder
  if isTemplate q.template then
    let e := Content.ext r
    if trimSpace q.result ++ e = [] then none
    else if q.overwrite then some r
    else some (trimSuffix e r ++ T ".generated" ++ e)
  else some r

/-- The operations that write the result, template_handler.go:111-132. -/
def writing (q : Request) (r : Text) : List Op :=
  (if q.sourceFolder ≠ q.targetFolder then [.mkdirAll r]
   else if !isTemplate q.template && !q.overwrite then [.rename q.template (q.template ++ T ".original")]
   else [])
  ++ [.create r (finalMode q), .fill r q.result]
  ++ (if isTemplate q.template && q.overwrite && decide (q.sourceFolder = q.targetFolder) then [.remove q.template] else [])

/-- template_handler.go:78-134: the name returned (empty when nothing is written) and the operations. `none` is a panic: `printResult`
(template_process.go:53-65) converts the file made by `os.CreateTemp` to a string. -/
def plan (q : Request) : Option (Text × List Op) :=
  match resultName q with
  | none => some ([], [])
  | some r =>
    if q.stdout then (if isTerraform r then none else some ([], [.print q.result]))
    else if q.sourceFolder = q.targetFolder ∧ q.changed = false then some ([], [])
    else some (r, writing q r)

/-- template_handler.go:66-77: what is printed when code is given instead of a file. -/
def printCode (result : Text) : Text :=
  if (result.reverse.dropWhile (fun c => c == ' ' || c == '\t')) = [] then []
  else if hasSuffix ['\n'] result then result else result ++ ['\n']

end Files
end Verif
