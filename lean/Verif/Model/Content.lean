import Verif.Base.Space
import Verif.Model.Strings
import Verif.Model.RazorRules
/-!
# The processing of a content

Model of `processContentInternal` (template/template_handler.go) and of `errorHandler.Handler` (template/template_error_handler.go). The
substitutions, the rules of razor and the template engine (parsing and execution by `text/template`) are parameters. Colours are not
modelled: they are supposed to be off.
-/

namespace Verif
namespace Content

open Text

/-! ## The texts with a special meaning -/

/-- template_process.go:18. -/
def noValue : Text := T "<no value>"
/-- template_process.go:19. -/
def noValueRepl : Text := T "!NO_VALUE!"
/-- template_process.go:20. -/
def nilValue : Text := T "<nil>"
/-- template_process.go:21. -/
def nilValueRepl : Text := T "!NIL_VALUE!"
/-- template_process.go:22. -/
def undefError : Text := T "\"<no value>\""
/-- template_process.go:23. -/
def noValueError : Text := T "contains undefined value(s)"
/-- template_process.go:24. -/
def runError : Text := T "\"<RUN_ERROR>\""

/-- template.go:55. -/
def noGoTemplate : Text := T "no-gotemplate!"
/-- template.go:56. -/
def noRazor : Text := T "no-razor!"
/-- template.go:57. -/
def explicitGoTemplate : Text := T "force-gotemplate!"
/-- template.go:59. -/
def pauseGoTemplate : Text := T "gotemplate-pause!"
/-- template.go:60. -/
def resumeGoTemplate : Text := T "gotemplate-resume!"
/-- template.go:62. -/
def pauseRazor : Text := T "razor-pause!"
/-- template.go:63. -/
def resumeRazor : Text := T "razor-resume!"

/-- `leftDelimReplacement`, template_handler.go:151. -/
def pausedLeft : Text := T "$&paused-left&$"
/-- `rightDelimReplacement`, template_handler.go:151. -/
def pausedRight : Text := T "$&paused-right&$"
/-- `razorDelimReplacement`, template_handler.go:151. -/
def pausedRazor : Text := T "$&paused-razor&$"

/-! ## Errors of the engine -/

/-- The groups found in the text of an error by the expressions of template_error_handler.go:193-204. An empty text is a group that is not
in the match. The group `key` is left out: it comes from an error of `text/template` that only happens with the option `missingkey=error`,
and template_handler.go:235 sets `missingkey=default`. -/
structure Match where
  file : Text
  location : Text
  line : Nat
  actualLine : Option Nat := none
  col : Option Nat := none
  message : Text := []
  err : Text := []
  code : Text := []
  value : Text := []
  deriving DecidableEq

/-- An error of the engine: its text and the groups, if the text has the form of an error of `text/template`. -/
structure EngineError where
  text : Text
  found : Option Match
  deriving DecidableEq

/-- The state of a `Template` used by the processing. The context has any type: the engine may change the one it is given. -/
structure Config (σ : Type) where
  /-- the delimiters -/
  delims : Razor.Delims
  /-- the option `Razor` -/
  razorOn : Bool
  /-- the option `RenderingDisabled` -/
  renderingDisabled : Bool
  /-- the option `AcceptNoValue` -/
  acceptNoValue : Bool
  /-- the option `StrictErrorCheck` -/
  strict : Bool
  /-- `t.substitute` -/
  sub : Text → Text
  /-- the rules of `applyRazor` -/
  razor : Text → Text
  /-- `Parse` and `Execute` with a context: the result and the context after it -/
  engine : σ → Text → Except EngineError Text × σ
  /-- a line of another file, `none` when there is no such line (panic) -/
  readLine : Text → Nat → Option Text

/-- What the processing ends with: a result, the flag `changed`, the error and the context of the template; or a panic; or no end within the
number of retries that was given. -/
inductive Outcome (σ : Type) where
  | done (result : Text) (changed : Bool) (err : Option Text) (context : σ)
  | panic
  | unfinished
  deriving DecidableEq

/-! ## Pausing -/

/-- `pausingIsEnabled`, template_handler.go:148. -/
def pausing (content : Text) : Bool := contains pauseGoTemplate content || contains pauseRazor content

/-- `revertReplacements`, template_handler.go:152-159. -/
def revert (d : Razor.Delims) (enabled : Bool) (s : Text) : Text :=
  if enabled then replaceAll pausedRazor d.razor (replaceAll pausedRight d.right (replaceAll pausedLeft d.left s)) else s

/-- One line, template_handler.go:185-192. The flags are those of this line. -/
def pauseLine (d : Razor.Delims) (goPaused razorPaused : Bool) (line : Text) : Text :=
  let line := if razorPaused || goPaused then replaceAll d.razor pausedRazor line else line
  if goPaused then replaceAll d.right pausedRight (replaceAll d.left pausedLeft line) else line

/-- A flag after a line, template_handler.go:185-186. -/
def pauseFlag (pause resume : Text) (flag : Bool) (line : Text) : Bool := (flag || contains pause line) && !contains resume line

/-- The loop, template_handler.go:184-194. -/
def pauseLines (d : Razor.Delims) : Bool → Bool → List Text → List Text
  | _, _, [] => []
  | g, r, line :: rest =>
    let g := pauseFlag pauseGoTemplate resumeGoTemplate g line
    let r := pauseFlag pauseRazor resumeRazor r line
    pauseLine d g r line :: pauseLines d g r rest

/-- template_handler.go:181-196. -/
def pauseCode (d : Razor.Delims) (enabled : Bool) (code : Text) : Text :=
  if enabled then join ['\n'] (pauseLines d false false (splitC '\n' code)) else code

/-! ## Before the engine -/

/-- `IsRazor`, template.go:227-229. -/
def isRazor (d : Razor.Delims) (code : Text) : Bool := contains d.razor code && !contains noGoTemplate code && !contains noRazor code

/-- `IsCode`, template.go:222-224. -/
def isCode (d : Razor.Delims) (code : Text) : Bool :=
  !contains noGoTemplate code && (isRazor d code || contains d.left code || contains d.right code)

/-- The first line of a script, template_handler.go:172-179: the code and whether the option `OutputStdout` is set. -/
def shebang (code : Text) : Text × Bool :=
  if hasPrefix (T "#!") code then
    match splitC '\n' code with
    | first :: rest => if contains (T "gotemplate") first then (join ['\n'] rest, true) else (code, false)
    | [] => (code, false)
  else (code, false)

/-- `applyRazor`, razor.go:13-45. -/
def applyRazor {σ : Type} (c : Config σ) (code : Text) : Text :=
  if !c.razorOn || !isRazor c.delims code then code else c.razor code

/-- template_handler.go:209-213. -/
def hideNoValue (code : Text) : Text := replaceAll nilValue nilValueRepl (replaceAll noValue noValueRepl code)

/-- template_handler.go:272. -/
def showNoValue (code : Text) : Text := replaceAll nilValueRepl nilValue (replaceAll noValueRepl noValue code)

/-- `filepath.Ext` (library function, Unix). -/
def ext (file : Text) : Text :=
  let base := (splitC '/' file).getLastD []
  match splitC '.' base with
  | _ :: p :: ps => '.' :: (p :: ps).getLastD []
  | _ => []

/-- `strictMode`, template_handler.go:220-223. -/
def strictMode {σ : Type} (c : Config σ) (filename source : Text) : Bool :=
  c.strict || contains explicitGoTemplate source ||
    (ext filename != [] && contains (ext filename) (T ".gt,.gte,.template"))

/-! ## The error handler -/

/-- The new text of the faulty line, and the text of the error, template_error_handler.go:126-151. `none` is a panic. -/
def newLine (d : Razor.Delims) (m : Match) (col : Int) (line : Text) : Option (Text × Text) :=
  if m.message ≠ [] then some (T "ERROR " ++ m.err, m.message)
  else if m.code ≠ [] then
    (Strings.context line col d.left d.right).map (fun c =>
      (if c.1 = [] then T "ERROR " ++ m.err else replaceAll c.1 runError line, m.err ++ T " (" ++ m.code ++ T ")"))
  else if m.value ≠ [] then some (replaceAll m.value (T "\"<UNDEF " ++ m.value ++ T ">\"") line, m.err)
  else some (T "ERROR " ++ m.err, m.err)

/-- The faulty line, template_error_handler.go:42-46 (an integer: the index is one less than the number). -/
def faultyLine (m : Match) : Int := (m.actualLine.getD m.line : Int) - 1

/-- The faulty column, template_error_handler.go:47-52 and 68-71. `none` is a panic. -/
def faultyColumn (m : Match) (line : Text) : Option Int :=
  let col : Int := match m.col with | some n => n - 1 | none => 0
  if col = 0 then some 0
  else (Strings.goSlice line col (col + 1)).map (fun s => if s = [' '] || s = ['('] then col + 1 else col)

/-- An element of a Go slice; `none` is the panic. -/
def goIndex (l : List Text) (i : Int) : Option Text := if i < 0 then none else l[i.toNat]?

/-- The error made of the error of a try and the error of the following ones, template_error_handler.go:167-178. -/
def joinErrors (err err2 : Option Text) : Option Text :=
  match err, err2 with
  | none, e => e
  | some e, none => some e
  | some e, some e2 =>
    if e = e2 then some (e ++ T "\nUnable to continue processing to check for further errors") else some (e ++ '\n' :: e2)

/-- The error of a try is joined to the outcome of the following ones. -/
def addError {σ : Type} (err : Option Text) : Outcome σ → Outcome σ
  | .done result changed err2 ctx => .done result changed (joinErrors err err2) ctx
  | .panic => .panic
  | .unfinished => .unfinished

/-- `errorHandler.Handler`, template_error_handler.go:24-183, for code being processed, the lines of the original source and an error.
`retry` is the recursive call of `processContentInternal`. -/
def handler {σ : Type} (c : Config σ) (filename : Text) (sourceLines : List Text) (code : Text) (ctx : σ) (e : EngineError)
    (retry : Text → Outcome σ) : Outcome σ :=
  match e.found with
  | none => .done [] true (some e.text) ctx
  | some m =>
    if m.file ≠ filename then
      match c.readLine m.file m.line with
      | none => .panic
      | some line => .done [] true (some (filename ++ ' ' :: e.text ++ T " in: " ++ line)) ctx
    else
      let lines := splitC '\n' code
      match goIndex lines (faultyLine m), goIndex sourceLines (faultyLine m) with
      | some line, some sourceLine =>
        match (faultyColumn m line).bind (fun col => newLine c.delims m col line) with
        | none => .panic
        | some (new, text) =>
          let ignored := contains runError line || contains undefError m.code
          let err := if ignored then none else some (m.location ++ text ++ T " in: " ++ sourceLine)
          if new ≠ line then addError err (retry (join ['\n'] (lines.set (faultyLine m).toNat new)))
          else match err with
            | none => .panic
            | some t =>
              if contains noValueError t then addError err (retry (join ['\n'] (lines.set (faultyLine m).toNat new)))
              else .done [] true err ctx
      | _, _ => .panic

/-- The calls of `processContentInternal` made by the handler, template_handler.go:232-282 with `topCall` false. The first argument bounds
the number of retries. The context is not cloned. -/
def retries {σ : Type} (c : Config σ) (filename : Text) (sourceLines : List Text) : Nat → σ → Text → Outcome σ
  | 0, _, _ => .unfinished
  | n + 1, ctx, code =>
    match c.engine ctx code with
    | (.ok out, ctx) =>
      let result := revert c.delims (pausing code) (c.sub out)
      .done result (decide (result ≠ code)) none ctx
    | (.error e, ctx) => handler c filename sourceLines code ctx e (retries c filename sourceLines n ctx)

/-! ## The whole processing -/

/-- The code given to the engine, template_handler.go:170-200. -/
def prepare {σ : Type} (c : Config σ) (content : Text) : Text :=
  applyRazor c (pauseCode c.delims (pausing content) (shebang (c.sub content)).1)

/-- The search of values that are not defined in a result, template_handler.go:260-279. The numbered and coloured text of the result
(`AddLineNumber`) is left out of the message. -/
def detect (filename result : Text) : Text × Option Text :=
  (showNoValue result,
    if contains noValue (replaceAll nilValue noValue result) then some (T "template: " ++ filename ++ T ":: " ++ noValueError) else none)

/-- The first try, on a clone of the context (template_handler.go:232-282 with `topCall` true and `cloneContext` true): the context of the
template is the one before. -/
def firstTry {σ : Type} (c : Config σ) (filename : Text) (n : Nat) (ctx : σ) (content code : Text) : Outcome σ :=
  match (c.engine ctx code).1 with
  | .ok out =>
    let result := revert c.delims (pausing content) (c.sub out)
    let r := if c.acceptNoValue then (result, none) else detect filename result
    .done r.1 (decide (r.1 ≠ content)) r.2 ctx
  | .error e => handler c filename (splitC '\n' content) code ctx e (retries c filename (splitC '\n' content) n ctx)

/-- The deferred function, template_handler.go:215-230. -/
def settle {σ : Type} (c : Config σ) (filename content : Text) : Outcome σ → Outcome σ
  | .done result changed err ctx =>
    match err with
    | none => .done result changed none ctx
    | some e => if strictMode c filename content then .done result changed (some e) ctx else .done content false none ctx
  | .panic => .panic
  | .unfinished => .unfinished

/-- `processContentInternal`, template_handler.go:136-282, for a top call without custom handler. -/
def process {σ : Type} (c : Config σ) (filename : Text) (n : Nat) (ctx : σ) (content : Text) : Outcome σ :=
  let code := prepare c content
  if c.renderingDisabled || !isCode c.delims code then .done (revert c.delims (pausing content) code) false none ctx
  else settle c filename content (firstTry c filename n ctx content (if c.acceptNoValue then code else hideNoValue code))

end Content
end Verif
