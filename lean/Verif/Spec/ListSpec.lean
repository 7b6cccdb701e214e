import Verif.Model.Value
/-!
# Specification vocabulary for lists

Independent of the model of the list operations: only positions, printed forms and sublists.
-/

namespace Verif.Spec
open Verif

/-- Two values are the same text. -/
def SameText (a b : Value) : Prop := a.sprint = b.sprint

instance (a b : Value) : Decidable (SameText a b) := inferInstanceAs (Decidable (_ = _))

/-- The element at position `i` of `l` is the first one with its text. -/
def isFirstOccurrence (l : List Value) (x : Value) (i : Nat) : Bool :=
  !((l.take i).any (fun y => decide (SameText y x)))

/-- The elements whose position satisfies `p`, in order. -/
def selectPositions {α : Type} (p : Nat → Bool) (l : List α) : List α :=
  ((l.zipIdx).filter (fun e => p e.2)).map Prod.fst

/-- The elements of `l` that are the first with their text, in order. -/
def firstOccurrences (l : List Value) : List Value :=
  ((l.zipIdx).filter (fun e => isFirstOccurrence l e.1 e.2)).map Prod.fst

/-- Index `j` designates position `i` of a list of length `n`: directly, or from the end when negative. -/
def Designates (n : Nat) (j : Int) (i : Nat) : Prop :=
  (0 ≤ j ∧ j = i) ∨ (j < 0 ∧ j + n = i)

instance (n : Nat) (j : Int) (i : Nat) : Decidable (Designates n j i) :=
  inferInstanceAs (Decidable (_ ∨ _))

/-- The element designated by `j`, nil when there is none. -/
def at? (l : List Value) (j : Int) : Value :=
  if 0 ≤ j then l.getD j.toNat .nil
  else if -(l.length : Int) ≤ j then l.getD (l.length - j.natAbs) .nil else .nil

/-- No two elements have the same text. -/
def NoTextDup (l : List Value) : Prop := l.Pairwise (fun a b => ¬ SameText a b)

/-- Some element of `l` has the text of `v`. -/
def TextMem (v : Value) (l : List Value) : Prop := ∃ x ∈ l, SameText x v

end Verif.Spec
