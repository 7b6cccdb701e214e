import Verif.Base.Space
/-!
# Specifications for the string functions
-/

namespace Verif.Spec
open Verif

/-- `sub` occurs in `s` at position `i`. -/
def OccursAt (sub s : Text) (i : Nat) : Prop := ∃ a b, s = a ++ sub ++ b ∧ a.length = i

/-- The positions found by looking, from position `from_` on, for the first occurrence, then for the first one that starts
after the end of the previous one, and so on until there is none. -/
inductive Greedy (sub s : Text) : Nat → List Nat → Prop where
  | done {from_ : Nat} (h : ∀ i, from_ ≤ i → ¬ OccursAt sub s i) : Greedy sub s from_ []
  | next {from_ p : Nat} {ps : List Nat} (ho : OccursAt sub s p) (hf : from_ ≤ p)
      (hn : ∀ i, from_ ≤ i → i < p → ¬ OccursAt sub s i) (h : Greedy sub s (p + sub.length) ps) : Greedy sub s from_ (p :: ps)

/-- The texts between occurrences of length `len` at the given positions. -/
def between (s : Text) (len : Nat) : Nat → List Nat → List Text
  | from_, [] => [s.drop from_]
  | from_, p :: ps => (s.drop from_).take (p - from_) :: between s len (p + len) ps

/-- Only white space. -/
def Blank (l : Text) : Prop := ∀ c ∈ l, Text.isSpace c = true

/-- `w` is the maximal run of characters that are not separators around position `pos`, and starts at `b`. -/
def WordAround (sep : Char → Bool) (s : Text) (pos : Nat) (w : Text) (b : Nat) : Prop :=
  ∃ pre post, s = pre ++ w ++ post ∧ pre.length = b ∧ b ≤ pos ∧ pos < b + w.length ∧ (∀ c ∈ w, sep c = false) ∧
    (∀ p c, pre = p ++ [c] → sep c = true) ∧ (∀ c p, post = c :: p → sep c = true)

/-- The bytes of the UTF-8 form of a text, each one as the character with the same code. -/
def utf8Bytes (t : Text) : Text := (t.map (fun c => (String.utf8EncodeChar c).map (fun b => Char.ofNat b.toNat))).flatten

/-- The position of the closing delimiter `b` that matches an opening one placed before the text: `depth` is the number
of opening delimiters seen and not closed. -/
def matchClose (a b : Char) : Nat → Nat → Text → Option Nat
  | _, _, [] => none
  | depth, i, c :: cs =>
    if c = b then
      match depth with
      | 0 => some i
      | d + 1 => matchClose a b d (i + 1) cs
    else if c = a then matchClose a b (depth + 1) (i + 1) cs
    else matchClose a b depth (i + 1) cs

/-- The characters of ASCII that separate words: blanks, and the printed characters that are neither letters nor digits nor one of the signs
`$+<=>^|~` and the grave accent. -/
def asciiSeparator (c : Char) : Bool :=
  c = ' ' || (9 ≤ c.toNat && c.toNat ≤ 13) ||
    (33 ≤ c.toNat && c.toNat ≤ 126 && !c.isAlphanum && !['$', '+', '<', '=', '>', '^', '`', '|', '~'].elem c)

end Verif.Spec
