import Verif.Base.Space
import Verif.Model.DictOps
import Verif.Model.HeapOps
import Verif.Spec.UserFuncSpec
/-!
# Functions and aliases defined by templates

Model of `addAlias` (template/extra_runtime.go:204-355), used by `alias`, `localAlias` and `func`: the configuration of a function, and the
dictionary given as dot to the code of the function for each call.
-/

namespace Verif.UserFunc
open Verif Spec Text Value

/-- The setting that a key (in lower case) is about, extra_runtime.go:260-291 (`FuncSetting` lists what a configuration can set); `none` is the error on unknown keys. -/
def settingOf (key : Text) : Option FuncSetting :=
  if key = T "d" ∨ key = T "desc" ∨ key = T "description" then some .description
  else if key = T "g" ∨ key = T "group" then some .group
  else if key = T "a" ∨ key = T "args" ∨ key = T "arguments" then some .args
  else if key = T "aliases" then some .aliases
  else if key = T "def" ∨ key = T "default" ∨ key = T "defaults" then some .defaults
  else none

/-- The key under which a setting is stored, extra_runtime.go:262-284. -/
def settingKey : FuncSetting → Text
  | .description => T "description"
  | .group => T "group"
  | .args => T "args"
  | .aliases => T "aliases"
  | .defaults => T "def"

/-- The type checks, extra_runtime.go:266-288: lists for the arguments and the aliases, a dictionary for the default values. -/
def accepts : FuncSetting → Value → Bool
  | .args, .list _ => true
  | .args, _ => false
  | .aliases, .list _ => true
  | .aliases, _ => false
  | .defaults, .dict _ => true
  | .defaults, _ => false
  | _, _ => true

/-- One iteration of the loop over the configuration, extra_runtime.go:259-292. The value is read when the key is visited (the loop modifies
the dictionary it iterates over). A key that is not there is not visited. -/
def visit (lower : Text → Text) (config : Dict) (key : Text) : Option Dict :=
  match GoMap.get? config key with
  | none => some config
  | some val =>
    match settingOf (lower key) with
    | none => none
    | some s => if accepts s val then some (GoMap.set config (settingKey s) val) else none

/-- The loop, extra_runtime.go:259-292. Go visits the keys in any order; a key added by the loop may be visited or not. The order is given:
a list with each key at most once and all the keys the dictionary has at the beginning. `none` is an error. `strings.ToLower` is a
parameter. -/
def configure (lower : Text → Text) : Dict → List Text → Option Dict
  | config, [] => some config
  | config, key :: order => (visit lower config key).bind (fun config => configure lower config order)

/-- `IsEmptyValue`, collections/utils.go:6-24, for the values of dictionaries. -/
def isEmpty : Value → Bool
  | .nil => true
  | .bool b => !b
  | .int i => i == 0
  | .flt r => r == T "0" || r == T "-0"
  | .str s => s == []
  | .list l => l.length == 0
  | .dict d => d.length == 0

/-- `defval(value, text).(string)`, extra_runtime.go:297-298; `none` is a panic. -/
def textOr (value : Value) (other : Text) : Option Text :=
  if isEmpty value then some other
  else match value with
    | .str s => some s
    | _ => none

/-- `defval(value, emptyList).(iList).Strings()`, extra_runtime.go:299-300; `none` is a panic. -/
def textsOr (value : Value) : Option (List Text) :=
  if isEmpty value then some []
  else match value with
    | .list l => some (l.map sprint)
    | _ => none

/-- `defval(value, CreateDictionary()).(iDictionary)`, extra_runtime.go:303; `none` is a panic. -/
def dictOr (value : Value) : Option Dict :=
  if isEmpty value then some []
  else match value with
    | .dict d => some d
    | _ => none

/-- `strings.Fields(arg)[0]`, extra_runtime.go:306-309; `none` is the panic on a blank name. -/
def argNames : List Text → Option (List Text)
  | [] => some []
  | a :: rest =>
    match fields a with
    | [] => none
    | name :: _ => (argNames rest).map (fun names => name :: names)

/-- `FuncInfo` of a function defined by a template, extra_runtime.go:295-309. -/
structure Func where
  name : Text
  group : Text
  description : Text
  signature : Text
  arguments : List Text
  aliases : List Text
  defaults : Dict

/-- extra_runtime.go:294-309; `none` is a panic (turned into an error by the engine of templates). -/
def makeFunc (name : Text) (config : Dict) : Option Func := do
  let group ← textOr (DictOps.getOne config (.str (T "group"))) (T "User defined functions")
  let description ← textOr (DictOps.getOne config (.str (T "description"))) []
  let arguments ← textsOr (DictOps.getOne config (.str (T "args")))
  let aliases ← textsOr (DictOps.getOne config (.str (T "aliases")))
  let defaults ← dictOr (DictOps.getOne config (.str (T "def")))
  let names ← argNames arguments
  pure ⟨name, group, description, Text.join (T ", ") arguments, names, aliases, defaults⟩

/-- `t.Context()`, template/template.go:354-359: an empty dictionary if the context is none. -/
def contextDict : Value → Dict
  | .dict d => d
  | _ => []

/-- `collections.TryAsDictionary`, collections/implementation/base_helper.go:108-119: nil is an empty dictionary. -/
def tryAsDict : Value → Option Dict
  | .dict d => some d
  | .nil => some []
  | _ => none

/-- extra_runtime.go:312-316: the dictionary before the arguments. -/
def freshContext (context : Value) : Dict :=
  if (contextDict context).length = 0 then [(T "DEFAULT", context)] else []

/-- extra_runtime.go:342-348: the arguments by position, the remaining ones as `ARGS`. -/
def bindPositions : List Text → List Value → Dict → Dict
  | _, [], d => d
  | [], a :: args, d => GoMap.set d (T "ARGS") (.list (a :: args))
  | name :: names, a :: args, d => bindPositions names args (GoMap.set d name a)

/-- extra_runtime.go:336-348; `none` is the error when the context is not a dictionary. -/
def bindDefault (arguments : List Text) (defaults : Dict) (context : Value) (args : List Value) : Option Dict :=
  (tryAsDict context).map (fun templateContext =>
    bindPositions arguments args (DictOps.merge (freshContext context) [some defaults, some templateContext]))

/-- extra_runtime.go:321-327: a single text is converted if it is valid data. `convert` is `ConvertData`. -/
def convertArg (convert : Text → Option Value) : Value → Value
  | .str s => (convert s).getD (.str s)
  | v => v

/-- extra_runtime.go:320-334: the single argument of a function that does not have exactly one. -/
def bindSingle (arguments : List Text) (defaults : Dict) (context : Value) (arg : Value) : Option Dict :=
  match tryAsDict arg with
  | some d => some (DictOps.merge (freshContext context) [some d, some defaults, some (contextDict context)])
  | none => bindDefault arguments defaults context [arg]

/-- extra_runtime.go:311-349: the dictionary given to the code of the function. `none` is an error. Simplification: dictionaries are values
here; what is shared is treated by `bindHeap`. -/
def bindCall (convert : Text → Option Value) (arguments : List Text) (defaults : Dict) (context : Value) (args : List Value) : Option Dict :=
  match args with
  | [arg] =>
    if arguments.length ≠ 1 then bindSingle arguments defaults context (convertArg convert arg)
    else bindDefault arguments defaults context [arg]
  | args => bindDefault arguments defaults context args

/-- The arguments of the command or template behind an alias, extra_runtime.go:225-227: those of the definition, then those of the call. -/
def aliasArgs (defaultArgs args : List Value) : List Value := defaultArgs ++ args

/-- The functions that can be used, extra_runtime.go:211-221. -/
def supported (function : Text) : Bool :=
  function == T "run" || function == T "exec" || function == T "template" || function == T "include"

/-! ## With sharing -/

open HeapOps

/-- extra_runtime.go:312-316 on the heap: `context` is the context of the template, the new dictionary is the last cell. -/
def freshHeap (h : Heap) (context : Nat) : Heap :=
  h ++ [.dict (if mapKeys h context = some [] then [(T "DEFAULT", .dict context)] else [])]

/-- extra_runtime.go:342-348 on the heap. -/
def setPositions (target : Nat) : List Text → List HVal → Heap → Heap
  | _, [], h => h
  | [], a :: args, h => setKey (h ++ [.arr (a :: args)]) target (T "ARGS") (.list h.length)
  | name :: names, a :: args, h => setPositions target names args (setKey h target name a)

/-- extra_runtime.go:311-349 on the heap, for a context that is a dictionary and without the conversion of texts: the new heap; the
dictionary given to the code is the cell at the end of the old heap. `n` bounds the depth of the merge (`none`: not terminated). -/
def bindHeap (n : Nat) (arguments : List Text) (defaults context : Nat) (args : List HVal) (h : Heap) : Option Heap :=
  match args with
  | [.dict a] =>
    if arguments.length ≠ 1 then merge n (freshHeap h context) h.length [a, defaults, context]
    else (merge n (freshHeap h context) h.length [defaults, context]).map (setPositions h.length arguments [.dict a])
  | args => (merge n (freshHeap h context) h.length [defaults, context]).map (setPositions h.length arguments args)

end Verif.UserFunc
