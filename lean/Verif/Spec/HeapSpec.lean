import Verif.Base.Map
import Verif.Model.Value
/-!
# Observing shared dictionaries and lists

A heap of dictionary and list cells, as Go sees them, and what can be observed from a value by following paths.
Nothing here refers to the operations.
-/

namespace Verif.Spec
open Verif

/-- A value stored in a cell: a scalar (by value), or a reference to a dictionary or to a list. -/
inductive HVal where
  | atom (v : Value)
  | dict (addr : Nat)
  | list (addr : Nat)

/-- A cell: the contents of a Go map, or of the array of a list. -/
inductive Cell where
  | dict (m : GoMap HVal)
  | arr (l : List HVal)

/-- The heap; an address is a position. -/
abbrev Heap := List Cell

/-- One step from a value to a component. -/
inductive Step where
  | key (k : Text)
  | idx (i : Nat)

/-- The component of a value. -/
def child (h : Heap) : HVal → Step → Option HVal
  | .dict a, .key k =>
    match h[a]? with
    | some (.dict m) => m.get? k
    | _ => none
  | .list a, .idx i =>
    match h[a]? with
    | some (.arr l) => l[i]?
    | _ => none
  | _, _ => none

/-- The value at the end of a path. -/
def valueAt (h : Heap) (v : HVal) : List Step → Option HVal
  | [] => some v
  | s :: p => (child h v s).bind (fun w => valueAt h w p)

/-- What is observed of one value: a scalar, a dictionary, or a list of some length. -/
inductive Shape where
  | atom (v : Value)
  | dict
  | list (length : Nat)

/-- The shape of a value. -/
def shapeOf (h : Heap) : HVal → Option Shape
  | .atom v => some (.atom v)
  | .dict a =>
    match h[a]? with
    | some (.dict _) => some .dict
    | _ => none
  | .list a =>
    match h[a]? with
    | some (.arr l) => some (.list l.length)
    | _ => none

/-- What is observed at the end of a path; `none` when there is nothing there. The contents of a value are what is
observed along all paths (in particular the keys of a dictionary are the steps that lead somewhere). -/
def seen (h : Heap) (v : HVal) (p : List Step) : Option Shape := (valueAt h v p).bind (shapeOf h)

/-- Two values, maybe in different heaps, have the same contents. -/
def SameContents (h : Heap) (v : HVal) (h' : Heap) (v' : HVal) : Prop := ∀ p, seen h' v' p = seen h v p

/-- The address of a value, if it is a reference, satisfies `P`. -/
def Ref (P : Nat → Prop) : HVal → Prop
  | .atom _ => True
  | .dict a => P a
  | .list a => P a

/-- Every reference met from `v` satisfies `P`. -/
def Within (h : Heap) (P : Nat → Prop) (v : HVal) : Prop := ∀ p w, valueAt h v p = some w → Ref P w

/-- All references of the heap lead to cells of the heap. -/
def WFHeap (h : Heap) : Prop := ∀ v s w, child h v s = some w → Ref (· < h.length) w

/-- No list met from `v` contains a dictionary or a list. -/
def FlatLists (h : Heap) (v : HVal) : Prop :=
  ∀ p b, valueAt h v p = some (.list b) → ∀ i w, child h (.list b) (.idx i) = some w → ∃ x, w = .atom x

/-- The dictionary reached from a dictionary by a path of keys. -/
def dictAt (h : Heap) : Nat → List Text → Option Nat
  | a, [] => some a
  | a, k :: p =>
    match child h (.dict a) (.key k) with
    | some (.dict b) => dictAt h b p
    | _ => none

/-- No nested dictionary is reached by two paths: the dictionaries under `t` form a tree. -/
def Treelike (h : Heap) (t : Nat) : Prop := ∀ p q a, dictAt h t p = some a → dictAt h t q = some a → p = q

/-- Wherever two sources have a dictionary at the same place, it is the same one, or the target has a dictionary there. -/
def OverlapsCovered (h : Heap) (t : Nat) (ss : List Nat) : Prop :=
  ∀ s ∈ ss, ∀ s' ∈ ss, ∀ p b b', dictAt h s p = some b → dictAt h s' p = some b' → b = b' ∨ ∃ a, dictAt h t p = some a

/-- Every dictionary of the heap has distinct keys, as Go maps do. -/
def WFMaps (h : Heap) : Prop := ∀ (a : Nat) (m : GoMap HVal), h[a]? = some (.dict m) → m.WF

/-- The right-hand side of an assignment made by a client that only knows one root: a scalar, something it can
reach, or something new. -/
inductive Rhs where
  | atom (v : Value)
  | reach (p : List Step)
  | newDict
  | newList (items : List Value)

/-- A modification by a client that only knows one root: it can reach what it modifies. -/
inductive Write where
  | setKey (p : List Step) (k : Text) (r : Rhs)
  | delKey (p : List Step) (k : Text)
  | setIdx (p : List Step) (i : Nat) (r : Rhs)

/-- Evaluate a right-hand side. -/
def Rhs.eval (h : Heap) (root : HVal) : Rhs → Heap × Option HVal
  | .atom v => (h, some (.atom v))
  | .reach p => (h, valueAt h root p)
  | .newDict => (h ++ [.dict []], some (.dict h.length))
  | .newList items => (h ++ [.arr (items.map .atom)], some (.list h.length))

/-- Perform a modification (nothing happens if the path leads nowhere). -/
def Write.apply (h : Heap) (root : HVal) : Write → Heap
  | .setKey p k r =>
    match valueAt h root p, r.eval h root with
    | some (.dict a), (h', some v) =>
      match h'[a]? with
      | some (.dict m) => h'.set a (.dict (m.set k v))
      | _ => h'
    | _, (h', _) => h'
  | .delKey p k =>
    match valueAt h root p with
    | some (.dict a) =>
      match h[a]? with
      | some (.dict m) => h.set a (.dict (m.erase k))
      | _ => h
    | _ => h
  | .setIdx p i r =>
    match valueAt h root p, r.eval h root with
    | some (.list a), (h', some v) =>
      match h'[a]? with
      | some (.arr l) => h'.set a (.arr (l.set i v))
      | _ => h'
    | _, (h', _) => h'

/-- Two clients, each with its own root, interleave modifications. -/
def interleave (r₁ r₂ : HVal) : Heap → List (Bool × Write) → Heap
  | h, [] => h
  | h, (b, w) :: rest => interleave r₁ r₂ (w.apply h (if b then r₁ else r₂)) rest

end Verif.Spec
