import Verif.Model.ListOps
/-!
# Lists with their backing arrays

`Verif.Model.ListOps` treats lists as values.  Here a list is what it is in Go: a slice header (array, length) over a
backing array shared between lists, and `append` writes in place when there is room.  List code never reslices
from a non-zero offset, so the offset is omitted and the capacity is the length of the array.
-/

namespace Verif.SliceHeap
open Verif

/-- The backing arrays; an address is a position in this list. -/
abbrev Heap := List (List Value)

/-- A slice header. -/
structure Slice where
  arr : Nat
  len : Nat
  deriving DecidableEq

/-- The array of a slice. -/
def array (h : Heap) (s : Slice) : List Value := h.getD s.arr []

/-- `cap(s)`. -/
def cap (h : Heap) (s : Slice) : Nat := (array h s).length

/-- The elements seen through a slice (`AsArray`). -/
def read (h : Heap) (s : Slice) : List Value := (array h s).take s.len

/-- `copy(a[i:], vs)`: write `vs` in the array from position `i`. -/
def write (a : List Value) (i : Nat) (vs : List Value) : List Value :=
  a.take i ++ vs ++ a.drop (i + vs.length)

/-- Go's built-in `append(s, vs...)`: in place when the capacity suffices, otherwise in a new array. `spare` is the room the
runtime adds at the end of the new array, as a function of the old capacity and the needed length (Go doubles small
slices; any choice is allowed here). -/
def goAppend (spare : Nat → Nat → Nat) (h : Heap) (s : Slice) (vs : List Value) : Heap × Slice :=
  let need := s.len + vs.length
  if need ≤ cap h s then
    (h.set s.arr (write (array h s) s.len vs), ⟨s.arr, need⟩)
  else
    (h ++ [read h s ++ vs ++ List.replicate (spare (cap h s) need) Value.nil], ⟨h.length, need⟩)

/-- `CreateList(size, capacity)`, collections/implementation/base_helper.go:68-83. -/
def create (h : Heap) (size capacity : Nat) : Heap × Slice :=
  (h ++ [List.replicate (max size capacity) Value.nil], ⟨h.length, size⟩)

/-- `ListHelper.Add(list, false, objects...)`, collections/implementation/list_helper.go:19-28 (`baseList.Append`): the
conversion of the result to a list keeps the backing array (base_helper.go:181-182, and no deep conversion is needed
for `Value`s). -/
def listAppend (spare : Nat → Nat → Nat) (h : Heap) (s : Slice) (objects : List Value) : Heap × Slice :=
  goAppend spare h s objects

/-- `ListHelper.Add(list, true, objects...)` (`baseList.Prepend`) called with individual arguments: they are in a fresh
array of exact capacity, to which the list is appended (list_helper.go:24-27). -/
def listPrepend (spare : Nat → Nat → Nat) (h : Heap) (s : Slice) (objects : List Value) : Heap × Slice :=
  goAppend spare (h ++ [objects]) ⟨h.length, objects.length⟩ (read h s)

/-- The loop of `NewList`, collections/implementation/base_helper.go:34-38: append the items one by one. -/
def appendEach (spare : Nat → Nat → Nat) (h : Heap) (s : Slice) : List Value → Heap × Slice
  | [] => (h, s)
  | x :: xs => let r := listAppend spare h s [x]; appendEach spare r.1 r.2 xs

/-- `NewList(items...)`, collections/implementation/base_helper.go:22-39, for items that are not a single list. -/
def newList (spare : Nat → Nat → Nat) (h : Heap) (items : List Value) : Heap × Slice :=
  let r := create h 0 items.length
  appendEach spare r.1 r.2 items

/-- A program that only derives lists from lists; every derived list is kept. -/
structure State where
  heap : Heap
  lists : List Slice

/-- The operations: list arguments are given by position. -/
inductive Op where
  | create (size capacity : Nat)
  | append (i : Nat) (vs : List Value)
  | prepend (i : Nat) (vs : List Value)

/-- One operation; an operation on a list that does not exist does nothing. -/
def step (spare : Nat → Nat → Nat) (st : State) (op : Op) : State :=
  match op with
  | .create n c => let r := create st.heap n c; ⟨r.1, st.lists ++ [r.2]⟩
  | .append i vs =>
    match st.lists[i]? with
    | none => st
    | some s => let r := listAppend spare st.heap s vs; ⟨r.1, st.lists ++ [r.2]⟩
  | .prepend i vs =>
    match st.lists[i]? with
    | none => st
    | some s => let r := listPrepend spare st.heap s vs; ⟨r.1, st.lists ++ [r.2]⟩

/-- A sequence of operations. -/
def run (spare : Nat → Nat → Nat) (st : State) (ops : List Op) : State := ops.foldl (step spare) st

end Verif.SliceHeap
