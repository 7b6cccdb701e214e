import Verif.Model.Ellipsis
/-!
# Arguments spread, calls written as code
-/

namespace Verif.Spec
open Ellipsis

/-- The arguments of the call: the last one is a list that gives several arguments, or nothing. -/
inductive Spread : List GoVal → List GoVal → Prop
  | list (init : List GoVal) (ty : NodeTy) (es : List GoVal) : Spread (init ++ [.slice ty es]) (init ++ es)
  | nothing (init : List GoVal) : Spread (init ++ [.nil]) init

/-- A code that is a call: a function between the delimiters, followed by variables of the dictionary given with it. -/
structure Call (left right code : Text) (variables : GoMap GoVal) (function : Text) (args : List GoVal) : Prop where
  words : ∃ names : List Text, Text.fields code = left :: function :: (names.map ('.' :: ·) ++ [right]) ∧
    names.map variables.get? = args.map some
  /-- there are no other variables -/
  only : variables.length = args.length

/-- The result of the conversion of a text by the registered formats. -/
def ReadAs (env : Env) (text : Text) (v : GoVal) : Prop := Convert.convert true env.converters text .nil = (none, v)

/-- No format accepts the text. -/
def NotData (env : Env) (text : Text) : Prop := ∀ v, ¬ ReadAs env text v

/-- A value that is a text. -/
def IsText (v : GoVal) : Prop := ∃ named s, v = .str named s

end Verif.Spec
