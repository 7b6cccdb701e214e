import Verif.Model.RazorRules
import Verif.Spec.StringSpec
/-!
# Specification: contents, pauses and errors
-/

namespace Verif.Spec
open Razor

/-- A text without any delimiter. -/
def NoCode (d : Delims) (s : Text) : Prop := ¬ d.left <:+: s ∧ ¬ d.right <:+: s ∧ ¬ d.razor <:+: s

/-- The line number `i` is in a pause: a line up to it has the text that pauses and no line from there on, itself included, has the text that
resumes. -/
def Paused (pause resume : Text) (lines : List Text) (i : Nat) : Prop :=
  ∃ j, j ≤ i ∧ (∃ l, lines[j]? = some l ∧ pause <:+: l) ∧ ∀ k, j ≤ k → k ≤ i → ∀ l, lines[k]? = some l → ¬ resume <:+: l

/-- The go template code of a line is paused. -/
def GoPaused (lines : List Text) (i : Nat) : Prop := Paused (T "gotemplate-pause!") (T "gotemplate-resume!") lines i

/-- The razor code of a line is paused, with or without the go template code. -/
def RazorPaused (lines : List Text) (i : Nat) : Prop := Paused (T "razor-pause!") (T "razor-resume!") lines i ∨ GoPaused lines i

/-- A content with a text that begins a pause. -/
def Pauses (content : Text) : Prop := T "gotemplate-pause!" <:+: content ∨ T "razor-pause!" <:+: content

instance (content : Text) : Decidable (Pauses content) := by unfold Pauses; exact inferInstance

/-- Delimiters that cannot be confused with the texts `$&paused-left&$`, `$&paused-right&$` and `$&paused-razor&$` that stand for them:
they are not empty, have neither `$` nor `&`, do not begin with a letter of "paused", are not a part of these texts, and are on one line. -/
def Compatible (d : Delims) : Prop :=
  ∀ x ∈ [d.left, d.right, d.razor], x ≠ [] ∧ '$' ∉ x ∧ '&' ∉ x ∧ '\n' ∉ x ∧ (∀ c ∈ x.head?, c ∉ T "paused") ∧
    ¬ x <:+: T "paused-left" ∧ ¬ x <:+: T "paused-right" ∧ ¬ x <:+: T "paused-razor"

instance (d : Delims) : Decidable (Compatible d) := by unfold Compatible; exact inferInstance

/-- A line where the texts used by the processing do not appear. -/
def Ordinary (line : Text) : Prop :=
  ¬ T "&paused" <:+: line ∧ ¬ T "<no value>" <:+: line ∧ ¬ T "<nil>" <:+: line ∧ ¬ T "!NO_VALUE!" <:+: line ∧ ¬ T "!NIL_VALUE!" <:+: line

instance (line : Text) : Decidable (Ordinary line) := by unfold Ordinary; exact inferInstance

/-- The texts of values that are not defined, replaced by marks. -/
def hideValues (t : Text) : Text := Text.replaceAll (T "<nil>") (T "!NIL_VALUE!") (Text.replaceAll (T "<no value>") (T "!NO_VALUE!") t)

/-- The marks, replaced by the texts. -/
def restoreValues (t : Text) : Text := Text.replaceAll (T "!NIL_VALUE!") (T "<nil>") (Text.replaceAll (T "!NO_VALUE!") (T "<no value>") t)

/-- The files whose errors are always reported. -/
def TemplateExtension (extension : Text) : Prop := extension = T ".gt" ∨ extension = T ".gte" ∨ extension = T ".template"

/-- The text between two delimiters that has none of them: the left delimiter is only at the beginning, the right one only at the end. -/
def PlainAction (d : Delims) (inner : Text) : Prop :=
  (∀ i, 0 < i → ¬ OccursAt d.left (d.left ++ inner) i) ∧ ∀ i, i < inner.length → ¬ OccursAt d.right (inner ++ d.right) i

/-- The number of places where a text begins in another one. -/
def occurrences (k : Text) : Text → Nat
  | [] => 0
  | c :: s => (if Text.hasPrefix k (c :: s) then 1 else 0) + occurrences k s

end Verif.Spec
