import Verif.Model.FuncTable
import Verif.Base.Chars
/-!
# The options of a template and the addons

Model of template/options.go, of the part of main.go that builds the options from the flags, of the part of `NewTemplate` (template/template.go:111-178)
that reads them and of `addFuncs` (template/add_funcs.go:17-50). The parser of command lines (kingpin) is a parameter: the flags are what it
gives.
-/

namespace Verif
namespace Addons

/-- `Options`, options.go:7-28. -/
inductive Opt
  | razor | extension | math | sprig | data | logging | runtime | utils | net | os | git | onByDefaultCount | overwrite | outputStdout
  | renderingDisabled | acceptNoValue | strictErrorCheck
  deriving DecidableEq, Repr

namespace Opt

/-- The options in the order of their numbers, options.go:10-28. -/
def all : List Opt :=
  [razor, extension, math, sprig, data, logging, runtime, utils, net, os, git, onByDefaultCount, overwrite, outputStdout, renderingDisabled,
    acceptNoValue, strictErrorCheck]

/-- The number of an option (`iota`), options.go:10-28. -/
def number (o : Opt) : Nat := all.idxOf o

/-- `_Options_name`, generated_options.go:30. -/
def names : Text :=
  c!"RazorExtensionMathSprigDataLoggingRuntimeUtilsNetOSGitOptionOnByDefaultCountOverwriteOutputStdoutRenderingDisabledAcceptNoValueStrictErrorCheck"

/-- `_Options_index`, generated_options.go:32. -/
def indexes : List Nat := [0, 5, 14, 18, 23, 27, 34, 41, 46, 49, 51, 54, 76, 85, 97, 114, 127, 143]

/-- `Options.String`, generated_options.go:34-39, for the options that have a name. -/
def string (o : Opt) : Text :=
  let from' := indexes.getD o.number 0
  let to := indexes.getD (o.number + 1) 0
  (names.take to).drop from'

/-- The flag of an addon, main.go:118-119 (`strings.ToLower`, the names being of ASCII). -/
def flag (o : Opt) : Text := o.string.map Char.toLower

/-- The options that have a flag of their own, main.go:116-120: those before `OptionOnByDefaultCount`. -/
def isAddon (o : Opt) : Bool := o.number < onByDefaultCount.number

end Opt

/-- `OptionsSet`, options.go:4: a map to booleans. Simplification: an absent option is false, which is all that reading the map tells. -/
abbrev Set' := Opt → Bool

/-- The empty map. -/
def none' : Set' := fun _ => false

/-- `os[o] = v`. -/
def put (s : Set') (o : Opt) (v : Bool) : Set' := fun x => if x = o then v else s x

/-- `set`, options.go:36-41. -/
def setAll (s : Set') (v : Bool) (os : List Opt) : Set' := os.foldl (fun s o => put s o v) s

/-- `Set`, options.go:31. -/
def set (s : Set') (os : List Opt) : Set' := setAll s true os

/-- `Unset`, options.go:34. -/
def unset (s : Set') (os : List Opt) : Set' := setAll s false os

/-- `DefaultOptions`, options.go:44-50: the options whose number is below the limit are set, one after the other. -/
def defaults : Set' := setAll none' true (Opt.all.take Opt.onByDefaultCount.number)

/-- What the command line says, main.go:58-120: the arguments as they are written, the flag `--base`, and the flags of the addons that are given (on the
command line or by a variable of the environment). -/
structure Flags where
  args : List Text
  base : Bool
  given : Opt → Option Bool
  disable : Bool
  overwrite : Bool
  print : Bool
  acceptNoValue : Bool
  strict : Bool

/-- `loadAllAddins`, main.go:103-112. -/
def loadAll (args : List Text) : Bool := !args.any (fun a => decide (a = c!"--base"))

/-- The values of the flags of the addons, main.go:116-120: the default is `loadAllAddins`. -/
def addon (f : Flags) (o : Opt) : Bool := (f.given o).getD (loadAll f.args)

/-- The options of the template, main.go:140-174. -/
def ofFlags (f : Flags) : Set' :=
  let s := if f.base then none' else defaults
  let s := put s .renderingDisabled f.disable
  let s := put s .overwrite f.overwrite
  let s := put s .outputStdout f.print
  let s := put s .acceptNoValue f.acceptNoValue
  let s := put s .strictErrorCheck f.strict
  (Opt.all.take Opt.onByDefaultCount.number).foldl (fun s o => put s o (addon f o)) s

/-- The options that `NewTemplate` uses, template.go:119-125; `acceptNoValue` and `strictError` are variables of the environment. The map of the caller is
used as it is, so that this is also what the caller finds in its map afterwards. -/
def ofTemplate (given : Option Set') (acceptNoValue strictError : Bool) : Set' :=
  let s := given.getD defaults
  let s := if acceptNoValue then put s .acceptNoValue true else s
  if strictError then put s .strictErrorCheck true else s

/-- The addons that bring functions, in the order of `addFuncs`, add_funcs.go:41-49. -/
def groups : List Opt := [.sprig, .math, .data, .logging, .runtime, .utils, .net, .os, .git]

variable {α : Type}

/-- The maps of functions that `addFuncs` registers, add_funcs.go:35-49. The base functions (line 33) have no implementation of their own and are left
out. -/
def tables (s : Set') (t : Opt → FuncTable.Table α) : List (FuncTable.Table α) := (groups.filter (fun o => s o)).map t

/-- The functions of a new template, template.go:164-168 and 297-304: the table starts empty. -/
def Functions (s : Set') (t : Opt → FuncTable.Table α) (r : FuncTable.Table α) : Prop := FuncTable.AddsAll [] (tables s t) r

end Addons
end Verif
