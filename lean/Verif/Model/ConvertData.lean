import Verif.Lemmas.DictOps
import Verif.Model.GoVal
/-!
# Conversion of data

Model of `ConvertData` (collections/convert_data.go:15-63).
-/

namespace Verif
namespace Convert
open Text

/-- A registered converter, convert_data.go:16: it gets the data and the value of the variable that receives the result; it gives an error or none, and the value
of the variable afterwards (a converter that fails may have modified it). The type of the variable and panics of converters are left out. -/
abbrev Converter := Text → GoVal → Option Text × GoVal

/-- A blank of the expressions of convert_data.go:26-27. -/
def isBlank (c : Char) : Bool := c = ' ' || c = '\t'

/-- The first replacement, convert_data.go:26: `[ \t]*=[ \t]*` by a colon. The first argument holds the blanks just read, which are dropped if an equal sign
follows; the second tells whether an equal sign comes before, only blanks being between. -/
def equals : Text → Bool → Text → Text
  | pending, _, [] => pending
  | pending, after, c :: t =>
    if isBlank c then (if after then equals [] true t else equals (pending ++ [c]) false t)
    else if c = '=' then ':' :: equals [] true t
    else pending ++ c :: equals [] false t

/-- The second replacement, convert_data.go:27: `[ \t]+` by a newline. The argument tells whether the previous character is a blank. -/
def blanks : Bool → Text → Text
  | _, [] => []
  | b, c :: t => if isBlank c then (if b then blanks true t else '\n' :: blanks true t) else c :: blanks false t

/-- The data `trySimplified` converts, convert_data.go:26-28. -/
def simplify (data : Text) : Text := replaceAll (T ":") (T ": ") (blanks false (equals [] false data)) ++ T "\n"

/-- The errors, with the names of the converters. -/
abbrev Errors := List (Text × Text)

/-- The loop of convert_data.go:54-62: whether a converter accepts the data, the errors of the previous ones, the variable. -/
def tryAll (data : Text) : List (Text × Converter) → Errors → GoVal → Bool × Errors × GoVal
  | [], errs, out => (false, errs, out)
  | (k, c) :: l, errs, out =>
    match c data out with
    | (none, out') => (true, errs, out')
    | (some e, out') => tryAll data l (errs ++ [(k, e)]) out'

/-- The result: the error or none, the value of the variable. -/
abbrev Result := Option Errors × GoVal

/-- The value is the text itself, convert_data.go:36-37. -/
def isText (v : GoVal) (data : Text) : Bool :=
  match v with
  | .str false s => s = data
  | _ => false

/-- `TryAsList` accepts what the variable holds, convert_data.go:48: nothing or a list. -/
def isListOrNothing : GoVal → Bool
  | .nil => true
  | .slice _ _ => true
  | _ => false

/-- The deferred function when the data was accepted, convert_data.go:34-46. `untyped`: the variable is an `interface{}`. `again`: the simplified form, if there is
one; its result is compared with the data only if it is a text (simplification). An array of errors is an error even when it is empty. -/
def accepted (untyped : Bool) (again : Option (GoVal → Result)) (data : Text) (errs : Errors) (out : GoVal) : Result :=
  if untyped && isText out data && data.any (fun c => c ∈ T "=:{}") then
    match again with
    | none => (some errs, .nil)
    | some f =>
      match f out with
      | (none, out') => if isText out' data then (some errs, .nil) else (none, out')
      | (some _, _) => (some errs, .nil)
  else (none, out)

/-- The deferred function when the data was not accepted, convert_data.go:47-51. -/
def refused (again : Option (GoVal → Result)) (errs : Errors) (out : GoVal) : Result :=
  if isListOrNothing out then
    match again with
    | none => (some errs, out)
    | some f =>
      match f out with
      | (none, out') => (none, out')
      | (some _, out') => (some errs, out')
  else (some errs, out)

/-- What follows the loop, convert_data.go:33-52, 62: without error (`AsError` of an empty array) the data counts as accepted. -/
def conclude (untyped : Bool) (again : Option (GoVal → Result)) (data : Text) : Bool × Errors × GoVal → Result
  | (true, errs, out) => accepted untyped again data errs out
  | (false, [], out) => accepted untyped again data [] out
  | (false, e :: errs, out) => refused again (e :: errs) out

theorem equals_free (pending : Text) (after : Bool) (s : Text) (h : '=' ∉ pending) : '=' ∉ equals pending after s := by
  induction s generalizing pending after with
  | nil => simpa [equals] using h
  | cons c t ih =>
    rw [equals]
    split
    · rename_i hc
      split
      · exact ih _ _ (by simp)
      · refine ih _ _ ?_
        simp only [List.mem_append, List.mem_singleton, not_or]
        refine ⟨h, ?_⟩
        rintro rfl
        exact absurd hc (by decide)
    · split
      · simp only [List.mem_cons, not_or]
        exact ⟨by decide, ih _ _ (by simp)⟩
      · rename_i hc
        simp only [List.mem_append, List.mem_cons, not_or]
        exact ⟨h, fun h => hc h.symm, ih _ _ (by simp)⟩

theorem blanks_free (b : Bool) (s : Text) (h : '=' ∉ s) : '=' ∉ blanks b s := by
  induction s generalizing b with
  | nil => exact h
  | cons c t ih =>
    simp only [List.mem_cons, not_or] at h
    rw [blanks]
    split
    · split
      · exact ih _ h.2
      · simp only [List.mem_cons, not_or]
        exact ⟨by decide, ih _ h.2⟩
    · simp only [List.mem_cons, not_or]
      exact ⟨h.1, ih _ h.2⟩

theorem colons_eq (s : Text) : replaceAll (T ":") (T ": ") s = s.flatMap (fun c => if c = ':' then T ": " else [c]) := by
  change replaceAll [':'] (T ": ") s = _
  induction s with
  | nil => simp [replaceAll_nil]
  | cons c s ih =>
    by_cases h : c = ':'
    · subst h
      have := replaceAll_match (T ": ") s (old := [':']) (by simp)
      rw [List.singleton_append] at this
      rw [this, ih, List.flatMap_cons, if_pos rfl]
    · have hp : hasPrefix [':'] (c :: s) = false := by
        rw [Bool.eq_false_iff, ne_eq, hasPrefix_iff]
        rintro ⟨t, ht⟩
        simp only [List.singleton_append, List.cons.injEq] at ht
        exact h ht.1.symm
      rw [replaceAll_skip hp, ih, List.flatMap_cons, if_neg h]
      rfl

/-- The simplified data has no equal sign: it is not simplified again. -/
theorem simplify_free (data : Text) : '=' ∉ simplify data := by
  have h := blanks_free false _ (equals_free [] false data (by simp))
  unfold simplify
  rw [colons_eq]
  simp only [List.mem_append, List.mem_flatMap, not_or, not_exists, not_and]
  refine ⟨?_, by decide⟩
  intro c hc
  split
  · decide
  · simp only [List.mem_singleton]
    rintro rfl
    exact h hc

/-- `ConvertData`, convert_data.go:19-63. The converters are tried in the order of their names. -/
def convert (untyped : Bool) (cs : GoMap Converter) (data : Text) (out : GoVal) : Result :=
  conclude untyped (if '=' ∈ data then some (fun o => convert untyped cs (simplify data) o) else none) data
    (tryAll data (sortBy Prod.fst cs) [] out)
termination_by data.count '='
decreasing_by
  rename_i h
  rw [List.count_eq_zero_of_not_mem (simplify_free data)]
  exact List.count_pos_iff.2 h

end Convert
end Verif
