import Verif.Base.Text
/-!
# Specification of the files written for a template

Names of files, the name of the result of a template and the files that stay the same, in plain terms.
-/

namespace Verif
namespace Spec

open Text

/-- A name that a file can have in its folder. -/
def FileName (n : Text) : Prop := n ≠ [] ∧ n ≠ T "." ∧ n ≠ T ".." ∧ '/' ∉ n

/-- What precedes the name of a file in its path: nothing, or a path that ends with a slash. -/
def FolderPart (d : Text) : Prop := d = [] ∨ ∃ d', d = d' ++ T "/"

/-- A name cut before its extension: the extension is empty or begins with the last dot. -/
inductive NameExt : Text → Text → Prop where
  | none (a : Text) : '.' ∉ a → NameExt a []
  | some (a b : Text) : '.' ∉ b → NameExt a ('.' :: b)

/-- The extensions of templates. -/
def IsTemplateExt (x : Text) : Prop := x = T ".gt" ∨ x = T ".template"

/-- The name of the result of a file, with or without the option that overwrites files.

A file that is not a template keeps its name. A template loses its extension; `.generated` comes before the extension that is left unless
files are overwritten. Names such as `a.template.gt`, that have two extensions of templates, are not described. -/
inductive ResultName : Bool → Text → Text → Prop where
  | plain (overwrite : Bool) (n : Text) : FileName n → (∀ x, IsTemplateExt x → ¬ x <:+ n) → ResultName overwrite n n
  | replaced (n x : Text) : FileName n → IsTemplateExt x → ¬ T ".template" <:+ n → ResultName true (n ++ x) n
  | generated (a e x : Text) : FileName (a ++ e) → NameExt a e → IsTemplateExt x → ¬ T ".template" <:+ a ++ e →
      ResultName false (a ++ e ++ x) (a ++ T ".generated" ++ e)

/-- A text of blanks of a line. -/
def LineBlank (s : Text) : Prop := ∀ c ∈ s, c = ' ' ∨ c = '\t' ∨ c = '\r' ∨ c = '\x0c'

/-- A word: no blank in it. -/
def Unbroken (s : Text) : Prop := ∀ c ∈ s, c ≠ ' ' ∧ c ≠ '\t' ∧ c ≠ '\r' ∧ c ≠ '\x0c' ∧ c ≠ '\n'

/-- The text of a script: `#!`, a program and at most one argument, alone on their line. -/
def ScriptText (s : Text) : Prop :=
  ∃ before program gap argument after rest, s = T "#!" ++ before ++ program ++ gap ++ argument ++ after ++ rest ∧
    (∀ c ∈ before, c = ' ' ∨ c = '\t' ∨ c = '\r' ∨ c = '\x0c' ∨ c = '\n') ∧
    program ≠ [] ∧ Unbroken program ∧ (∀ c ∈ gap, c = ' ' ∨ c = '\t') ∧ Unbroken argument ∧ (gap = [] → argument = []) ∧ LineBlank after ∧
    (rest = [] ∨ ∃ more, rest = '\n' :: more)

end Spec
end Verif
