import Verif.Spec.RazorBlockSpec
import Verif.Spec.RazorIndexedSpec
import Verif.Spec.RazorCallSpec
import Verif.Spec.RazorPartsSpec
import Verif.Spec.RazorSingleSpec
import Verif.Spec.RazorNameSpec
/-!
# Razor templates

A template is made of parts, one under the other: lines without delimiter, texts with variables, blocks of commands, expressions and assignments, and lines with an
index, with the call of a function or with a command and its action.
-/

namespace Verif.Spec
open Verif

/-- A part of a template and what it becomes, where each expression becomes a code related to its operations by `code`, and `check` is the function that checks the
variables that are assigned. -/
inductive RazorPart (letter : Char → Bool) (check : Option Text) (code : Tree → Text → Prop) : Text → Text → Prop
  | ordinary (l : Text) : '@' ∉ l → RazorPart letter check code l l
  | names (l out : Text) : Variables letter l out → NoOtherSign l → RazorPart letter check code l out
  | blocks (l l' out : Text) : Loops l l' → Blocks letter check code true l' out → NoOtherSign l → ¬ c!")[" <:+: l → '♠' ∉ l → RazorPart letter check code l out
  | index (a name i f b b' c : Text) (r : Text × Text × Text) (es : List Razor.Expr) : '@' ∉ a → NotCommented a → NotQuoted a → r ∈ reduceSigns → VarName letter name →
      IndexText letter i f es → '@' ∉ b → NoBracket b → Remains b b' → NoOtherSign (a ++ '@' :: (r.1 ++ (name ++ '[' :: (i ++ ']' :: b)))) →
      code (.call (.atom f) (.atom (c!"$." ++ name) :: es.map meaning)) c →
      RazorPart letter check code (a ++ '@' :: (r.1 ++ (name ++ '[' :: (i ++ ']' :: b)))) (a ++ (wordCode c r.2.1 r.2.2 ++ b'))
  | call (a name z b b' c : Text) (r : Text × Text × Text) (e : Razor.Expr) : '@' ∉ a → NotCommented a → NotQuoted a → r ∈ reduceSigns → VarName letter name →
      name ∉ callWords → Insertable letter (name ++ '(' :: (z ++ [')'])) e → '@' ∉ b → NoClosing b → Remains b b' →
      NoOtherSign (a ++ '@' :: (r.1 ++ (name ++ '(' :: (z ++ ')' :: b)))) → (∀ f ∈ noCallSigns, ¬ f <:+: a ++ '@' :: (r.1 ++ (name ++ '(' :: (z ++ ')' :: b)))) →
      code (meaning e) c → RazorPart letter check code (a ++ '@' :: (r.1 ++ (name ++ '(' :: (z ++ ')' :: b)))) (a ++ (wordCode c r.2.1 r.2.2 ++ b'))
  | single (a m g w x s k action u b c : Text) (r : Text × Text × Text) (e : Razor.Expr) : '@' ∉ a → NotCommented a → NotQuoted a → r ∈ reduceSigns → m ∈ lineWords →
      (∀ d ∈ g, isBlank d = true) → (∀ d ∈ w, isBlank d = true) → Assignment letter x → Insertable letter s e → (∀ d ∈ c!";{[", d ∉ s) → (∀ d ∈ k, isBlank d = true) →
      Action action → '@' ∉ action → NotQuoted action → ¬ c!".slice" <:+: action → (∀ d ∈ u, isBlank d = true) → '@' ∉ b → NoClosing (k ++ (action ++ (u ++ ';' :: b))) →
      NoOtherSign (a ++ '@' :: (r.1 ++ (m ++ (g ++ '(' :: (w ++ (x ++ (s ++ ')' :: (k ++ (action ++ (u ++ ';' :: b)))))))))) →
      (∀ f ∈ autoSigns, ¬ f <:+: a ++ '@' :: (r.1 ++ (m ++ (g ++ '(' :: (w ++ (x ++ (s ++ ')' :: (k ++ (action ++ (u ++ ';' :: b)))))))))) →
      code (meaning e) c →
      RazorPart letter check code (a ++ '@' :: (r.1 ++ (m ++ (g ++ '(' :: (w ++ (x ++ (s ++ ')' :: (k ++ (action ++ (u ++ ';' :: b))))))))))
        (a ++ (wordCode (m ++ ' ' :: (x ++ c)) r.2.1 r.2.2 ++ (action ++ (wordCode c!"end" r.2.1 r.2.2 ++ b))))

/-- A text that is such a part. -/
def IsRazorPart (letter : Char → Bool) (l : Text) : Prop := ∃ out, RazorPart letter none (fun _ _ => True) l out

end Verif.Spec
