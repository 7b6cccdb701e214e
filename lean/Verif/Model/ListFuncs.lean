import Verif.Model.DataFuncs

/-!
Model of `repeat`, `formatList`, `mergeList`, `raw` and `rawList` (/repo/template/extra_utils.go:198-219, /repo/utils/list.go:10-43), and of the two substitutions that take the results of `raw` out of their quotes
(/repo/template/template.go:135-136).
-/

namespace Verif.ListFuncs
open Verif Verif.Value Verif.Text

/-- `repeat(n, a)` (/repo/template/extra_utils.go:198-208); `none` is the error. -/
def repeatFn (n : Int) (a : Value) : Option (List Value) :=
  if n < 0 then none else some (ListOps.fill 0 (List.replicate n.toNat a) (ListOps.create n.toNat))

/-- `MergeLists(lists...)` (/repo/utils/list.go:10-23); without a list the result is nil, which has no element. -/
def mergeLists : List (List Value) → List Value
  | [] => []
  | [l] => l
  | l => l.foldl ListOps.append (ListOps.create 0)

/-- `result.Set(i, value)` whose result is not used (/repo/utils/list.go:40): a position beyond the end enlarges another list, which is lost. -/
def setInPlace (l : List Value) (i : Nat) (v : Value) : List Value := if i < l.length then l.set i v else l

/-- The loop over the elements (/repo/utils/list.go:39-41). -/
def formatLoop (format : Value → Text) : Nat → List Value → List Value → List Value
  | _, [], result => result
  | i, v :: vs, result => formatLoop format (i + 1) vs (setInPlace result i (.str (format v)))

/-- `FormatList(format, args...)` (/repo/utils/list.go:26-43); `format` is `fmt.Sprintf` of the format. -/
def formatList (format : Value → Text) (args : List Value) : List Value :=
  let list := match args with
    | [a] => DataFuncs.asList a
    | args => args
  formatLoop format 0 list (ListOps.clone list)

/-- The mark of `raw` (/repo/template/extra_utils.go:214). -/
def mark : Text := T "!Q!"

/-- `fmt.Sprintf("!Q!%v!Q!", v)`. -/
def rawItem (v : Value) : Text := mark ++ sprint v ++ mark

/-- The result of `raw`: a text or a list. -/
inductive RawResult
  | text (t : Text)
  | list (l : List Value)

/-- `raw(args...)` (/repo/template/extra_utils.go:210-215): a single argument is printed as it is, without the mark. -/
def rawPrint (args : List Value) : RawResult :=
  match args with
  | [] => .text []
  | [v] => .text (sprint v)
  | args => .list (formatList rawItem args)

/-- `rawList(args...)` (/repo/template/extra_utils.go:217-219). -/
def rawList (args : List Value) : List Value := formatList rawItem args

/-- `"!Q!`, with which the expressions begin (/repo/template/template.go:135-136). -/
def openQ : Text := '"' :: mark
/-- `!Q!"`, with which they end. -/
def closeQ : Text := mark ++ ['"']

/-- The shortest text of characters that are allowed, up to the closing mark. -/
def closeAt (allowed : Char → Bool) : Text → Option (Text × Text)
  | [] => none
  | c :: s =>
    match dropPrefix? closeQ (c :: s) with
    | some rest => some ([], rest)
    | none => if allowed c then (closeAt allowed s).map fun r => (c :: r.1, r.2) else none

/-- The same with at least one character (`+?`). -/
def closeAfter (allowed : Char → Bool) : Text → Option (Text × Text)
  | [] => none
  | c :: s => if allowed c then (closeAt allowed s).map fun r => (c :: r.1, r.2) else none

/-- `ReplaceAllString` for an expression that is the opening mark, a content and the closing mark; at each step a character is copied or a match is replaced, so that the length of the text is enough fuel. -/
def replaceMarked (content : Text → Option (Text × Text)) (out : Text → Text) : Nat → Text → Text
  | 0, s => s
  | _ + 1, [] => []
  | n + 1, c :: s =>
    match (dropPrefix? openQ (c :: s)).bind content with
    | some (w, rest) => out w ++ replaceMarked content out n rest
    | none => c :: replaceMarked content out n s

/-- `\S` (/repo/template/template.go:135). -/
def isSolid (c : Char) : Bool := !(c == ' ' || c == '\t' || c == '\n' || c == '\r' || c == Char.ofNat 12)

/-- The second substitution, without the quotes (/repo/template/template.go:135). -/
def unquoteSolid (s : Text) : Text := replaceMarked (closeAfter isSolid) id s.length s

/-- The third substitution, which keeps the quotes (/repo/template/template.go:136). -/
def unquoteRest (s : Text) : Text := replaceMarked (closeAt (· != '\n')) (fun w => '"' :: (w ++ ['"'])) s.length s

/-- Both, in the order of the substitutions. -/
def unquote (s : Text) : Text := unquoteRest (unquoteSolid s)

end Verif.ListFuncs
