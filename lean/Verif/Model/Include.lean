import Verif.Model.HeapOps
import Verif.Model.Content
/-!
# Running a sub-template

Model of `optimizedRunTemplate` (template/extra_runtime.go:432-535), used by `include`, `run`, `exec` and the aliases. The contexts are
dictionaries of the heap, so that the sharing between the caller and the sub-template is visible. Looking for the template (a defined
template, a file or inline code) and its execution are parameters: an execution can do anything to the heap and to the context of the
template, and can fail or panic.
-/

namespace Verif.Include
open Verif Spec HeapOps Text

/-- The heap and the address of the current context of the template (`t.context`). -/
structure State where
  heap : Heap
  context : Nat

/-- How an execution ends. -/
inductive Ending where
  | done (out : Text)
  | failed (out error : Text)
  | panic

/-- What the caller gets. -/
inductive Reply where
  | text (result file : Text)
  | error (error : Text)
  | panic

/-- A template that is found: its source and file as they are known from then on, and its execution. The first argument of the execution
tells if a missing key is an error, the second one is the dictionary given as dot. -/
structure Found where
  source : Text
  file : Text
  exec : Bool → Nat → State → Ending × State

/-- The parameters: lookup of templates and files and parsing of the code (extra_runtime.go:467-495), names of the constants
(`t.constantKeys`) and the option that accepts undefined values. -/
structure Env where
  find : Text → Except Text Found
  constants : List Text
  acceptNoValue : Bool

/-- `for _, k := range t.constantKeys { context.Set(k, t.Context().Get(k)) }`, extra_runtime.go:449-451. -/
def copyConstants (src dst : Nat) : List Text → Heap → Heap
  | [], h => h
  | k :: ks, h => copyConstants src dst ks (setKey h dst k ((entry h src k).getD (.atom .nil)))

/-- The context of the first attempt, extra_runtime.go:448-453: the constants and `_`, the context of the caller. -/
def smallContext (constants : List Text) (s : State) : Heap × Nat :=
  (setKey (copyConstants s.context s.heap.length constants (s.heap ++ [.dict []])) s.heap.length (T "_") (.dict s.context), s.heap.length)

/-- The context of the second attempt, extra_runtime.go:446-447, 453: a clone of the one of the caller and `_`. `none`: does not terminate. -/
def fullContext (n : Nat) (s : State) : Option (Heap × Nat) :=
  (cloneDict n s.heap s.context).map (fun r => (setKey r.1 r.2 (T "_") (.dict s.context), r.2))

/-- extra_runtime.go:456-465: the dictionary given as dot. A single dictionary is merged with the context (and modified by that), other
arguments are a list under `ARGS`. Simplification: an argument that is not yet a dictionary of this implementation is not considered to be
one (its conversion would be a new dictionary, `TryAsDictionary`). -/
def bindArgs (n : Nat) (h : Heap) (context : Nat) (args : List HVal) : Option (Heap × Nat) :=
  match args with
  | [.dict a] => (merge n h a [context]).map (fun h' => (h', a))
  | _ => some (setKey (h ++ [.arr args]) context (T "ARGS") (.list h.length), context)

/-- extra_runtime.go:518-534: undefined values in the result are errors; the name of the file is kept if it is rendered as it is. -/
def conclude (acceptNoValue : Bool) (source file out : Text) : Reply :=
  let result := if acceptNoValue then out else replaceAll Content.nilValue Content.noValue out
  if !acceptNoValue && contains Content.noValue result then .error Content.noValueError
  else .text result (if result ≠ source then [] else file)

/-- extra_runtime.go:446-454: the context of an attempt. -/
def startContext (n : Nat) (env : Env) (withClone : Bool) (s : State) : Option (Heap × Nat) :=
  if withClone then fullContext n s else some (smallContext env.constants s)

/-- extra_runtime.go:467-534: the template is searched and executed with a dictionary as dot; `caller` is the context that is restored. The
second result is the source for another attempt, if there is one. Simplification: when an execution with the clone fails, the error is the one
of the execution (if its partial result has an undefined value, the code returns the error about that). -/
def execute (env : Env) (withClone : Bool) (source : Text) (dot caller : Nat) (s : State) : Reply × Option Text × State :=
  match env.find source with
  | .error e => (.error e, none, ⟨s.heap, caller⟩)
  | .ok t =>
    match t.exec (!withClone) dot s with
    | (.panic, s') => (.panic, none, ⟨s'.heap, caller⟩)
    | (.done out, s') => (conclude env.acceptNoValue t.source t.file out, none, ⟨s'.heap, caller⟩)
    | (.failed _ e, s') => (.error e, if withClone then none else some t.source, ⟨s'.heap, caller⟩)

/-- One attempt, extra_runtime.go:436-535, with the deferred restoration of the context (line 444). `none`: does not terminate. -/
def attempt (n : Nat) (env : Env) (withClone : Bool) (source : Text) (args : List HVal) (s : State) : Option (Reply × Option Text × State) :=
  (startContext n env withClone s).bind fun p =>
    (bindArgs n p.1 p.2 args).map fun q => execute env withClone source q.2 s.context ⟨q.1, p.2⟩

/-- `runTemplate`, extra_runtime.go:432-535: a second attempt, with a clone of the context, follows an execution that fails. -/
def runTemplate (n : Nat) (env : Env) (source : Text) (args : List HVal) (s : State) : Option (Reply × State) :=
  if source = [] then some (.text [] [], s)
  else
    match attempt n env false source args s with
    | none => none
    | some (_, some source', s') =>
      if source' = [] then some (.text [] [], s') else (attempt n env true source' args s').map (fun r => (r.1, r.2.2))
    | some (r, none, s') => some (r, s')

end Verif.Include
