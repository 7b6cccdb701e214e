import Verif.Model.Value
/-!
# Specification vocabulary for slices
-/

namespace Verif.Spec

/-- The position designated by a bound of a slice: a negative bound is counted from one past the end. -/
def sliceBound (len : Nat) (a : Int) : Int := if a < 0 then len + a + 1 else a

/-- The elements whose position is at least `lo` and less than `hi`. -/
def section_ {α : Type} (l : List α) (lo hi : Int) : List α :=
  (l.zipIdx.filter (fun p => decide (lo ≤ p.2) && decide ((p.2 : Int) < hi))).map Prod.fst

/-- The elements between two bounds, in reverse order when the second one is before the first one. -/
def sliced {α : Type} (l : List α) (a b : Int) : List α :=
  if sliceBound l.length b < sliceBound l.length a
  then (section_ l (sliceBound l.length b) (sliceBound l.length a)).reverse
  else section_ l (sliceBound l.length a) (sliceBound l.length b)

/-- The element at a position; the negative positions are counted from the end, -1 being the last element. -/
def elementAt {α : Type} (l : List α) (i : Int) : Option α :=
  if 0 ≤ i then l[i.toNat]? else l.reverse[(-i - 1).toNat]?

end Verif.Spec
