import Verif.Base.Text
/-!
# Literal lists of characters

`c!"abc"` is `['a', 'b', 'c']`: the same text as `T "abc"`, written so that the kernel has no string to decode.
-/

open Lean in
/-- The characters of a string literal. -/
macro:max "c!" s:str : term => do
  let cs := s.getString.toList.map (fun c => Syntax.mkCharLit c)
  `([$(cs.toArray),*])

example : c!"a\\b" = Verif.T "a\\b" := rfl
