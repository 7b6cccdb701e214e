import Verif.Model.Value
import Verif.Spec.HeapSpec
/-!
# Specification vocabulary for functions defined by templates
-/

namespace Verif.Spec
open Verif

/-- The settings of a function. -/
inductive FuncSetting where
  | description
  | group
  | args
  | aliases
  | defaults
  deriving DecidableEq

/-- The names by which each setting can be given (whatever the case of the letters). The second list is the name under which it is found
afterwards. -/
def settingNames : FuncSetting → List Text × Text
  | .description => ([T "d", T "desc", T "description"], T "description")
  | .group => ([T "g", T "group"], T "group")
  | .args => ([T "a", T "args", T "arguments"], T "args")
  | .aliases => ([T "aliases"], T "aliases")
  | .defaults => ([T "def", T "default", T "defaults"], T "def")

/-- The kind of value a setting needs. -/
def GoodSetting : FuncSetting → Value → Prop
  | .args, v => ∃ l, v = .list l
  | .aliases, v => ∃ l, v = .list l
  | .defaults, v => ∃ d, v = .dict d
  | _, _ => True

/-- A key is one of the names of a setting. -/
def NamesSetting (lower : Text → Text) (key : Text) (s : FuncSetting) : Prop := lower key ∈ (settingNames s).1

/-- An order in which a loop can visit the keys of a map that the loop itself may extend: every key that is there at the beginning, each key
at most once, and maybe some of the keys added meanwhile. -/
def VisitOrder (config : List (Text × Value)) (order : List Text) : Prop := order.Nodup ∧ ∀ e ∈ config, e.1 ∈ order

/-- Each setting is given once. -/
def GivenOnce (lower : Text → Text) (config : GoMap Value) : Prop :=
  ∀ k k' s, k ∈ GoMap.keys config → k' ∈ GoMap.keys config → NamesSetting lower k s → NamesSetting lower k' s → k = k'

/-- The lower case of the names under which the settings are found are these names. -/
def KeepsNames (lower : Text → Text) : Prop := ∀ s, lower (settingNames s).2 = (settingNames s).2

/-- The empty values: nil, false, the numbers zero, and the texts, lists and dictionaries without elements. -/
inductive Nothing : Value → Prop
  | nil : Nothing .nil
  | false : Nothing (.bool false)
  | zero : Nothing (.int 0)
  | zeroFlt (r : Text) : r = T "0" ∨ r = T "-0" → Nothing (.flt r)
  | text : Nothing (.str [])
  | list : Nothing (.list [])
  | dict : Nothing (.dict [])

/-- No key leads to dictionaries in two of the dictionaries. -/
def Apart (h : Heap) (ds : List Nat) : Prop :=
  ds.Pairwise (fun x y => ∀ k b b', child h (.dict x) (.key k) = some (.dict b) → child h (.dict y) (.key k) ≠ some (.dict b'))

/-- The arguments as the code sees them: the only argument of a function that has not exactly one is converted if it is a text. -/
def seenArgs (convert : Text → Option Value) (arguments : List Text) : List Value → List Value
  | [.str s] => if arguments.length = 1 then [.str s] else [(convert s).getD (.str s)]
  | args => args

end Verif.Spec
