import Verif.Model.SliceHeap
/-! # Lemmas about lists with backing arrays -/

namespace Verif.SliceHeap
open Verif

/-- The slice exists in the heap. -/
def Valid (h : Heap) (s : Slice) : Prop := s.arr < h.length ∧ s.len ≤ cap h s

/-- All lists of the program exist. -/
def Inv (st : State) : Prop := ∀ s ∈ st.lists, Valid st.heap s

theorem length_write (a : List Value) (i : Nat) (vs : List Value) (h : i + vs.length ≤ a.length) :
    (write a i vs).length = a.length := by
  simp [write]; omega

theorem take_write (a : List Value) (i : Nat) (vs : List Value) (h : i + vs.length ≤ a.length) (n : Nat) (hn : n ≤ i) :
    (write a i vs).take n = a.take n := by
  unfold write
  rw [List.append_assoc, List.take_append_of_le_length (by simp; omega), List.take_take]
  congr 1; omega

theorem take_write_end (a : List Value) (i : Nat) (vs : List Value) (h : i + vs.length ≤ a.length) :
    (write a i vs).take (i + vs.length) = a.take i ++ vs := by
  unfold write
  have : (a.take i ++ vs).length = i + vs.length := by simp; omega
  rw [List.take_append_of_le_length (by omega), ← this, List.take_length]

theorem array_set_self (h : Heap) (s : Slice) (a : List Value) (hv : s.arr < h.length) (s' : Slice) (he : s'.arr = s.arr) :
    array (h.set s.arr a) s' = a := by
  unfold array
  rw [he]; simp [List.getD_eq_getElem?_getD, hv]

theorem array_set_ne (h : Heap) (s s' : Slice) (a : List Value) (he : s'.arr ≠ s.arr) :
    array (h.set s.arr a) s' = array h s' := by
  unfold array
  simp [List.getD_eq_getElem?_getD, List.getElem?_set_ne (Ne.symm he)]

theorem array_append (h : Heap) (x : List Value) (s : Slice) (hs : s.arr < h.length) :
    array (h ++ [x]) s = array h s := by
  unfold array
  simp [List.getD_eq_getElem?_getD, List.getElem?_append_left hs]

theorem array_append_new (h : Heap) (x : List Value) (n : Nat) : array (h ++ [x]) ⟨h.length, n⟩ = x := by
  unfold array
  simp [List.getD_eq_getElem?_getD]

theorem read_append_heap (h : Heap) (x : List Value) (s : Slice) (hs : Valid h s) : read (h ++ [x]) s = read h s := by
  unfold read; rw [array_append h x s hs.1]

theorem Valid.append_heap {h : Heap} {s : Slice} (hs : Valid h s) (x : List Value) : Valid (h ++ [x]) s := by
  unfold Valid cap at *
  rw [array_append h x s hs.1]
  exact ⟨by simp; omega, hs.2⟩

theorem length_read {h : Heap} {s : Slice} (hs : Valid h s) : (read h s).length = s.len := by
  unfold read; rw [List.length_take]; exact Nat.min_eq_left hs.2

/-- The result of `append` holds the old elements followed by the new ones. -/
theorem read_goAppend (spare) (h : Heap) (s : Slice) (vs : List Value) (hs : Valid h s) :
    read (goAppend spare h s vs).1 (goAppend spare h s vs).2 = read h s ++ vs := by
  unfold goAppend
  simp only
  split
  · rename_i hc
    unfold read
    simp only
    rw [array_set_self h s _ hs.1 ⟨s.arr, s.len + vs.length⟩ rfl]
    exact take_write_end _ _ _ hc
  · have hl : (read h s ++ vs).length = s.len + vs.length := by
      rw [List.length_append, length_read hs]
    generalize read h s ++ vs = w at hl ⊢
    unfold read
    simp only
    rw [array_append_new, ← hl, List.take_append_of_le_length (Nat.le_refl _), List.take_length]

theorem valid_goAppend (spare) (h : Heap) (s : Slice) (vs : List Value) (hs : Valid h s) :
    Valid (goAppend spare h s vs).1 (goAppend spare h s vs).2 := by
  unfold goAppend
  simp only
  split
  · rename_i hc
    refine ⟨by simpa using hs.1, ?_⟩
    unfold cap
    simp only
    rw [array_set_self h s _ hs.1 ⟨s.arr, s.len + vs.length⟩ rfl, length_write _ _ _ hc]; exact hc
  · refine ⟨by simp, ?_⟩
    unfold cap
    rw [array_append_new]
    have := length_read hs
    simp; omega

theorem valid_goAppend_other (spare) (h : Heap) (s s' : Slice) (vs : List Value) (hs : Valid h s) (hs' : Valid h s') :
    Valid (goAppend spare h s vs).1 s' := by
  unfold goAppend
  simp only
  split
  · rename_i hc
    refine ⟨by simpa using hs'.1, ?_⟩
    unfold cap
    by_cases he : s'.arr = s.arr
    · rw [array_set_self h s _ hs.1 _ he, length_write _ _ _ hc]
      have : array h s' = array h s := by unfold array; rw [he]
      have h2 := hs'.2; unfold cap at h2; rw [this] at h2; exact h2
    · rw [array_set_ne _ _ _ _ he]; exact hs'.2
  · exact hs'.append_heap _

/-- Exactly when another list is left alone. -/
theorem read_goAppend_other (spare) (h : Heap) (s s' : Slice) (vs : List Value) (hs : Valid h s) (hs' : Valid h s')
    (hok : s'.arr ≠ s.arr ∨ s'.len ≤ s.len ∨ cap h s < s.len + vs.length) :
    read (goAppend spare h s vs).1 s' = read h s' := by
  unfold goAppend
  simp only
  split
  · rename_i hc
    unfold read
    by_cases he : s'.arr = s.arr
    · rw [array_set_self h s _ hs.1 _ he]
      have : array h s' = array h s := by unfold array; rw [he]
      rw [this]
      apply take_write _ _ _ hc
      rcases hok with h1 | h1 | h1
      · exact absurd he h1
      · exact h1
      · omega
    · rw [array_set_ne _ _ _ _ he]
  · exact read_append_heap _ _ _ hs'

theorem valid_create (h : Heap) (n c : Nat) : Valid (create h n c).1 (create h n c).2 := by
  unfold create Valid cap
  simp only [array_append_new]
  simp
  omega

theorem inv_step (spare) (st : State) (op : Op) (hi : Inv st) : Inv (step spare st op) := by
  unfold step
  cases op with
  | create n c =>
    intro s hs
    simp only [List.mem_append, List.mem_singleton] at hs
    rcases hs with hs | rfl
    · exact (hi s hs).append_heap _
    · exact valid_create _ _ _
  | append i vs =>
    simp only
    split
    · exact hi
    · rename_i s0 h0
      have hv0 := hi s0 (List.mem_of_getElem? h0)
      intro s hs
      simp only [List.mem_append, List.mem_singleton] at hs
      rcases hs with hs | rfl
      · exact valid_goAppend_other spare _ _ _ _ hv0 (hi s hs)
      · exact valid_goAppend spare _ _ _ hv0
  | prepend i vs =>
    simp only
    split
    · exact hi
    · rename_i s0 h0
      have hv0 : Valid (st.heap ++ [vs]) ⟨st.heap.length, vs.length⟩ := by
        unfold Valid cap; rw [array_append_new]; simp
      intro s hs
      simp only [List.mem_append, List.mem_singleton] at hs
      rcases hs with hs | rfl
      · exact valid_goAppend_other spare _ _ _ _ hv0 ((hi s hs).append_heap _)
      · exact valid_goAppend spare _ _ _ hv0

end Verif.SliceHeap
