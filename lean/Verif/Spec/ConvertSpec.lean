import Verif.Model.ConvertData
/-!
# Formats tried in order, and the simplified form
-/

namespace Verif
namespace Spec
open Convert

/-- The formats refuse the data one after the other: with the errors and what they leave in the variable. -/
inductive Refused (data : Text) : List (Text × Converter) → GoVal → Errors → GoVal → Prop
  | nil (out) : Refused data [] out [] out
  | cons (k : Text) (c : Converter) (l out e out' errs out'') : c data out = (some e, out') → Refused data l out' errs out'' →
      Refused data ((k, c) :: l) out ((k, e) :: errs) out''

/-- The first format that accepts the data, after the others refused it. -/
def FirstAccepts (data : Text) (l : List (Text × Converter)) (out : GoVal) (errs : Errors) (k : Text) (v : GoVal) : Prop :=
  ∃ pre c post out', l = pre ++ (k, c) :: post ∧ Refused data pre out errs out' ∧ c data out' = (none, v)

/-- The registrations in increasing order of the names. -/
def InOrder (cs l : List (Text × Converter)) : Prop := l.Perm cs ∧ l.Pairwise (fun a b => Text.lt a.1 b.1 = true)

/-- The data understood as nothing but a text, although it looks like more. -/
def OnlyText (data : Text) (v : GoVal) : Prop := v = .str false data ∧ ∃ c ∈ data, c ∈ T "=:{}"

/-- Blanks and tabs. -/
def Blanks (b : Text) : Prop := ∀ c ∈ b, c = ' ' ∨ c = '\t'

/-- A word of the simplified form. -/
def SimpleWord (w : Text) : Prop := w ≠ [] ∧ ∀ c ∈ w, c ≠ ' ' ∧ c ≠ '\t' ∧ c ≠ '=' ∧ c ≠ ':'

/-- The simplified form: `name = value name = value`, with any blanks around the equal signs and between the values. -/
inductive Assigns : Text → List (Text × Text) → Prop
  | one (k v a b : Text) : SimpleWord k → SimpleWord v → Blanks a → Blanks b → Assigns (k ++ a ++ '=' :: (b ++ v)) [(k, v)]
  | more (k v a b c rest : Text) (ps) : SimpleWord k → SimpleWord v → Blanks a → Blanks b → Blanks c → c ≠ [] → Assigns rest ps →
      Assigns (k ++ a ++ '=' :: (b ++ v ++ c ++ rest)) ((k, v) :: ps)

end Spec
end Verif
