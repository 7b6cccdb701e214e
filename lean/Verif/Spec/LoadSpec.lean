import Verif.Spec.HclTextSpec
import Verif.Model.Load
/-!
# What a document says
-/

namespace Verif
namespace Spec
open Load

/-- The entries of an HCL file. -/
def readEntries (t : Text) : Option (List (Text × HData)) := (tokens t).bind fun ts => readBody (2 * ts.length + 2) ts

/-- The data of what was loaded. -/
def loadedData : HclResult HData → HData
  | .entries es => .obj es
  | .value d => d

/-- Is this data the number with this text? -/
def isNumber : Option HData → Text → Bool
  | some (.num n), t => n == t
  | _, _ => false

/-- What an HCL text gives, for a library that gives the entries of a file: its entries if it is a file; otherwise the value it is in a file where it is given
the name `_`, the last one if this name is there again. -/
inductive HclMeans {α : Type} (lib : Text → Option (List (Text × α))) (file : Text) : HclResult α → Prop
  | file (es : List (Text × α)) : lib file = some es → HclMeans lib file (.entries es)
  | value (before after : List (Text × α)) (v : α) : lib file = none → lib (T "_=" ++ file) = some (before ++ (T "_", v) :: after) →
      (∀ e ∈ after, e.1 ≠ T "_") → HclMeans lib file (.value v)

/-- The key of a mapping once it is loaded. -/
inductive KeyText : YKey → Text → Prop
  | null : KeyText .null (T "<nil>")
  | yes : KeyText (.bool true) (T "true")
  | no : KeyText (.bool false) (T "false")
  | int (i : Int) : KeyText (.int i) i.repr.toList
  | str (s : Text) : KeyText (.str s) s

/-- Reads the rest of a YAML text in single quotes in one line: a doubled quote stands for a quote. -/
def singleRest : Text → Option Text
  | [] => none
  | '\'' :: '\'' :: t => (singleRest t).map ('\'' :: ·)
  | ['\''] => some []
  | c :: t => if c = '\'' then none else (singleRest t).map (c :: ·)

/-- Reads a YAML text in single quotes. -/
def readSingle : Text → Option Text
  | '\'' :: t => singleRest t
  | _ => none

end Spec
end Verif
