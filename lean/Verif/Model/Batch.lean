import Verif.Model.Files
import Verif.Base.Map
/-!
# Several files, delimiters and constants

Model of `ProcessTemplatesWithHandler` (template/template_handler.go:21-41) and of the parts of `NewTemplate` and `init`
(template/template.go) that read the delimiters and define the constants of the context.
-/

namespace Verif
namespace Batch

open Text Files

/-! ## Several files -/

/-- What reading and rendering a file give (template_handler.go:44-63). `script`: the content begins with `#!` and `gotemplate`, which turns on
the printing of the results (template_handler.go:172-179). -/
inductive Rendering where
  | failed (error : Text)
  | code (result : Text) (script : Bool)
  | file (result : Text) (changed : Bool) (mode : Nat) (script : Bool)
  deriving DecidableEq

/-- How the processing of a file ends. -/
inductive Outcome where
  | ok (resultFile : Text)
  | failed (error : Text)
  | panic
  deriving DecidableEq

/-- The options of a batch and its environment. `faulty` gives the first operation that the system refuses for a file, if any. -/
structure Setup (σ : Type) where
  cwd : Text
  sourceFolder : Text
  targetFolder : Text
  overwrite : Bool
  render : σ → FS → Text → Rendering × σ
  faulty : Text → Option Nat

/-- What the failure of an operation does: the errors of `MkdirAll` and of `Rename` panic (`must`), the one of `WriteFile` is returned, the one
of `Remove` is ignored (template_handler.go:113-132). -/
def fault (r : Text) : Option Op → Outcome
  | some (.mkdirAll _) => .panic
  | some (.rename _ _) => .panic
  | some (.create _ _) => .failed (T "write error")
  | some (.fill _ _) => .failed (T "write error")
  | _ => .ok r

/-- `processTemplate`, template_handler.go:43-134: the value of the printing option comes in and goes out. -/
def one {σ : Type} (s : Setup σ) (print : Bool) (w : FS × σ) (template : Text) : Outcome × Bool × (FS × σ) :=
  match s.render w.2 w.1 template with
  | (.failed e, c) => (.failed e, print, (w.1, c))
  | (.code _ script, c) => (.ok [], print || script, (w.1, c))
  | (.file result changed mode script, c) =>
    match plan ⟨template, s.sourceFolder, s.targetFolder, s.overwrite, print || script, result, changed, mode⟩ with
    | none => (.panic, print || script, (w.1, c))
    | some (r, ops) =>
      match s.faulty template with
      | none => (.ok r, print || script, (run s.cwd w.1 ops, c))
      | some k => (fault r ops[k]?, print || script, (run s.cwd w.1 (ops.take k), c))

/-- The loop of `ProcessTemplatesWithHandler`, template_handler.go:26-40: `initial` is the value of the option at the beginning, `option` its
current value, `files` and `errors` what has been collected. `none` is a panic. -/
def loop {σ : Type} (s : Setup σ) (initial : Bool) : Bool → FS × σ → List Text → List Text → List Text → Option (List Text × List Text) × Bool × (FS × σ)
  | option, w, files, errors, [] => (some (files, errors), option, w)
  | _, w, files, errors, t :: ts =>
    match one s initial w t with
    | (.ok r, option, w') => loop s initial option w' (if r ≠ [] then files ++ [r] else files) errors ts
    | (.failed e, option, w') => loop s initial option w' files (errors ++ [e]) ts
    | (.panic, option, w') => (none, option, w')

/-- `ProcessTemplatesWithHandler`, template_handler.go:21-41. -/
def processAll {σ : Type} (s : Setup σ) (option : Bool) (w : FS × σ) (templates : List Text) :
    Option (List Text × List Text) × Bool × (FS × σ) := loop s option option w [] [] templates

/-! ## Delimiters -/

/-- The loop of template.go:167-174 on the parts that are left: `i` is the index of the first one. -/
def setDelims (delims : List Text) (i : Nat) : List Text → Option (List Text)
  | [] => some delims
  | p :: ps =>
    if i = delims.length then none
    else setDelims (if p ≠ [] then delims.set i p else delims) (i + 1) ps

/-- template.go:130 and 166-175: the three delimiters of a template. `none` is an error. -/
def delimiters (spec : Text) : Option (List Text) :=
  if spec ≠ [] then setDelims [T "{{", T "}}", T "@"] 0 (splitC ',' spec) else some [T "{{", T "}}", T "@"]

/-! ## Constants -/

/-- `setConstant`, template.go:311-329, on a context that is a dictionary. The second result is the list of the keys that are added to
`constantKeys`. -/
def setConstant {α : Type} [DecidableEq α] (stopOnFirst : Bool) (value : α) : GoMap α → List Text → GoMap α × List Text
  | context, [] => (context, [])
  | context, name :: names =>
    match context.get? name with
    | none =>
      if stopOnFirst then (context.set name value, [name])
      else ((setConstant stopOnFirst value (context.set name value) names).1, name :: (setConstant stopOnFirst value (context.set name value) names).2)
    | some v => if value = v then (context, []) else setConstant stopOnFirst value context names

end Batch
end Verif
