import Verif.Lemmas.SliceHeap
/-!
# C07 A derived list never changes an older one
-/

namespace Verif
open SliceHeap

/-- C07. The new list holds the elements of the old one followed by the appended values. -/
theorem C07_append_result (spare) (h : Heap) (s : Slice) (vs : List Value) (hs : Valid h s) :
    read (listAppend spare h s vs).1 (listAppend spare h s vs).2 = read h s ++ vs :=
  read_goAppend spare h s vs hs

/-- C07. `Prepend` puts the values in front. -/
theorem C07_prepend_result (spare) (h : Heap) (s : Slice) (vs : List Value) :
    read (listPrepend spare h s vs).1 (listPrepend spare h s vs).2 = vs ++ read h s := by
  unfold listPrepend
  have hv0 : Valid (h ++ [vs]) ⟨h.length, vs.length⟩ := by unfold Valid cap; rw [array_append_new]; simp
  rw [read_goAppend spare _ _ _ hv0]
  congr 1
  unfold SliceHeap.read; rw [array_append_new]; simp

/-- C07. `Prepend` never changes an existing list. -/
theorem C07_prepend_frame (spare) (h : Heap) (s s' : Slice) (vs : List Value) (hs' : Valid h s') :
    read (listPrepend spare h s vs).1 s' = read h s' := by
  unfold listPrepend
  have hv0 : Valid (h ++ [vs]) ⟨h.length, vs.length⟩ := by unfold Valid cap; rw [array_append_new]; simp
  rw [read_goAppend_other spare _ _ _ _ hv0 (hs'.append_heap _) (Or.inl (Nat.ne_of_lt hs'.1)), read_append_heap _ _ _ hs']

/-- The property for one step of a program: every list obtained before still reads the same. -/
def StepPersistent (spare : Nat → Nat → Nat) (st : State) (op : Op) : Prop :=
  ∀ s ∈ st.lists, read (step spare st op).heap s = read st.heap s

/-- C07 (violated). With `l := CreateList(0, 10); a := l.Append(1); b := l.Append(2)`, the second append changes `a`,
whatever the growth policy: a reachable state where appending changes an older list. -/
theorem C07_append_violated (spare : Nat → Nat → Nat) :
    ∃ ops op, ¬ StepPersistent spare (run spare ⟨[], []⟩ ops) op := by
  refine ⟨[.create 0 10, .append 0 [.int 1]], .append 0 [.int 2], ?_⟩
  intro h
  have := h ⟨0, 1⟩ (by simp [run, step, create, listAppend, goAppend, cap, array])
  simp [run, step, create, listAppend, goAppend, cap, array, SliceHeap.read, write] at this

/-- C07 (violated). The same happens without any explicit capacity: a list built by `Append` from a full list has
spare room with Go's doubling policy, and the two lists derived from it share it: with `m := list(1 2 3).Append(4)`,
`a := m.Append(5)`, `b := m.Append(6)`, `a` ends with 6. -/
theorem C07_append_violated_doubling :
    let spare := fun old need => 2 * old - need
    let st := run spare ⟨[], []⟩ [.create 3 3, .append 0 [.int 4], .append 1 [.int 5]]
    ¬ StepPersistent spare st (.append 1 [.int 6]) := by
  intro spare st h
  have := h ⟨1, 5⟩ (by simp [st, spare, run, step, create, listAppend, goAppend, cap, array, SliceHeap.read])
  simp [st, spare, run, step, create, listAppend, goAppend, cap, array, SliceHeap.read, write] at this

/-- C07. Exactly when appending to `s` leaves another list `s'` alone for every appended value: they have different
arrays, or `s'` is not longer than `s`, or there is no room (or nothing is appended). -/
theorem C07_append_frame_iff (spare) (h : Heap) (s s' : Slice) (n : Nat) (hs : Valid h s) (hs' : Valid h s') :
    (∀ vs : List Value, vs.length = n → read (listAppend spare h s vs).1 s' = read h s') ↔
      n = 0 ∨ s'.arr ≠ s.arr ∨ s'.len ≤ s.len ∨ cap h s < s.len + n := by
  constructor
  · intro hall
    by_cases hn : n = 0
    · exact Or.inl hn
    right
    by_cases he : s'.arr ≠ s.arr
    · exact Or.inl he
    right
    by_cases hl : s'.len ≤ s.len
    · exact Or.inl hl
    right
    by_cases hc : cap h s < s.len + n
    · exact hc
    exfalso
    have he : s'.arr = s.arr := by simpa using he
    -- two different appended values cannot both leave position s.len of s' unchanged
    have key : ∀ v : Value, ((read h s')[s.len]?) = some v := by
      intro v
      have hv := hall (List.replicate n v) (by simp)
      rw [← hv]
      unfold listAppend goAppend
      have hc' : s.len + (List.replicate n v).length ≤ cap h s := by simp; omega
      simp only [hc', if_true]
      unfold SliceHeap.read
      rw [array_set_self h s _ hs.1 _ he, List.getElem?_take]
      rw [if_pos (by omega)]
      unfold write
      have hl : (List.take s.len (array h s)).length = s.len := by
        have := length_read hs; exact this
      rw [List.append_assoc, List.getElem?_append_right (by omega), hl, Nat.sub_self,
        List.getElem?_append_left (by simp; omega), List.getElem?_replicate, if_pos (by omega)]
    have h1 := key (.int 0)
    have h2 := key (.int 1)
    rw [h1] at h2; simp at h2
  · rintro (h0 | hok) vs rfl
    · have : vs = [] := List.length_eq_zero_iff.1 h0
      subst this
      unfold listAppend goAppend
      have hc : s.len + ([] : List Value).length ≤ cap h s := by simpa using hs.2
      simp only [hc, if_true]
      unfold SliceHeap.read
      by_cases he : s'.arr = s.arr
      · rw [array_set_self h s _ hs.1 _ he]
        have : array h s' = array h s := by unfold array; rw [he]
        simp [this, write]
      · rw [array_set_ne _ _ _ _ he]
    · exact read_goAppend_other spare h s s' vs hs hs' hok

/-- The discipline under which `Append` is persistent: it is applied to a list that is the longest one of its array,
i.e. to the latest list derived in place, never twice to the same older list. -/
def AppendsToLatest (st : State) : Op → Prop
  | .append i _ => ∀ s, st.lists[i]? = some s → ∀ s' ∈ st.lists, s'.arr = s.arr → s'.len ≤ s.len
  | _ => True

/-- The discipline along a sequence of operations. -/
def Disciplined (spare : Nat → Nat → Nat) : State → List Op → Prop
  | _, [] => True
  | st, op :: ops => AppendsToLatest st op ∧ Disciplined spare (step spare st op) ops

theorem lists_step (spare) (st : State) (op : Op) : ∀ s ∈ st.lists, s ∈ (step spare st op).lists := by
  intro s hs
  unfold step
  cases op with
  | create n c => simp [hs]
  | append i vs => simp only; split <;> simp [hs]
  | prepend i vs => simp only; split <;> simp [hs]

theorem stepPersistent_of_latest (spare) (st : State) (hi : Inv st) (op : Op) (hl : AppendsToLatest st op) :
    StepPersistent spare st op := by
  intro s hs
  unfold step
  cases op with
  | create n c => exact read_append_heap _ _ _ (hi s hs)
  | append i vs =>
    simp only
    split
    · rfl
    · rename_i s0 h0
      apply read_goAppend_other spare _ _ _ _ (hi s0 (List.mem_of_getElem? h0)) (hi s hs)
      by_cases he : s.arr = s0.arr
      · exact Or.inr (Or.inl (hl s0 h0 s hs he))
      · exact Or.inl he
  | prepend i vs =>
    simp only
    split
    · rfl
    · exact C07_prepend_frame spare _ _ _ _ (hi s hs)

/-- C07 (partial). In every program that only appends to latest lists, every list ever obtained keeps its contents
to the end. Missing: appending twice to the same list, where the code is wrong. -/
theorem C07_append_partial (spare) (st : State) (hi : Inv st) (ops : List Op) (hd : Disciplined spare st ops) :
    ∀ s ∈ st.lists, read (run spare st ops).heap s = read st.heap s := by
  induction ops generalizing st with
  | nil => intro s _; rfl
  | cons op ops ih =>
    intro s hs
    have := ih (step spare st op) (inv_step spare st op hi) hd.2 s (lists_step spare st op s hs)
    unfold run at *
    rw [List.foldl_cons, this]
    exact stepPersistent_of_latest spare st hi op hd.1 s hs

/-- Append several times, each time to the last list obtained. -/
def accumulate (spare : Nat → Nat → Nat) (h : Heap) (s : Slice) : List (List Value) → Heap × Slice
  | [] => (h, s)
  | vs :: rest => let r := listAppend spare h s vs; accumulate spare r.1 r.2 rest

/-- C07. The usual accumulation loop `l = l.Append(...)` is right: it computes the concatenation and never changes the
list it started from, nor any list that is not longer than it. -/
theorem C07_accumulate (spare) (h : Heap) (s : Slice) (hs : Valid h s) (batches : List (List Value)) :
    read (accumulate spare h s batches).1 (accumulate spare h s batches).2 = read h s ++ batches.flatten ∧
    ∀ s', Valid h s' → (s'.arr = s.arr → s'.len ≤ s.len) → read (accumulate spare h s batches).1 s' = read h s' := by
  induction batches generalizing h s with
  | nil => simp [accumulate]
  | cons vs rest ih =>
    have hv := valid_goAppend spare h s vs hs
    obtain ⟨h1, h2⟩ := ih _ _ hv
    simp only [accumulate, List.flatten_cons]
    refine ⟨?_, ?_⟩
    · unfold listAppend at *; rw [h1, read_goAppend spare h s vs hs, List.append_assoc]
    · intro s' hs' hle
      have h3 : Valid (listAppend spare h s vs).1 s' := valid_goAppend_other spare h s s' vs hs hs'
      have h4 : s'.arr = (listAppend spare h s vs).2.arr → s'.len ≤ (listAppend spare h s vs).2.len := by
        unfold listAppend goAppend
        simp only
        split
        · intro he; have := hle he; simp only; omega
        · intro he; simp only at he; exact absurd he (Nat.ne_of_lt hs'.1)
      refine (h2 s' h3 h4).trans ?_
      apply read_goAppend_other spare h s s' vs hs hs'
      by_cases he : s'.arr = s.arr
      · exact Or.inr (Or.inl (hle he))
      · exact Or.inl he

/-- C07. `NewList` holds its items and changes no existing list. -/
theorem C07_newList (spare) (h : Heap) (items : List Value) :
    read (SliceHeap.newList spare h items).1 (SliceHeap.newList spare h items).2 = items ∧
    ∀ s', Valid h s' → read (SliceHeap.newList spare h items).1 s' = read h s' := by
  have hacc : ∀ (items : List Value) h s, appendEach spare h s items = accumulate spare h s (items.map (fun x => [x])) := by
    intro items
    induction items with
    | nil => intros; rfl
    | cons x xs ih => intro h s; simp only [appendEach, List.map_cons, accumulate]; exact ih _ _
  have hv := valid_create h 0 items.length
  obtain ⟨h1, h2⟩ := C07_accumulate spare _ _ hv (items.map (fun x => [x]))
  unfold SliceHeap.newList
  simp only [hacc]
  refine ⟨?_, ?_⟩
  · rw [h1]
    have : ∀ l : List Value, (l.map (fun x => [x])).flatten = l := by
      intro l; induction l with
      | nil => rfl
      | cons x xs ih => rw [List.map_cons, List.flatten_cons, ih]; rfl
    rw [this]; simp [create, SliceHeap.read]
  · intro s' hs'
    rw [h2 s' (hs'.append_heap _)]
    · exact read_append_heap _ _ _ hs'
    · intro he; exact absurd he (Nat.ne_of_lt hs'.1)

/-- The hypotheses are met by a non-trivial program: two lists derived from one another in place. -/
example : Disciplined (fun _ _ => 0) ⟨[], []⟩ [.create 0 10, .append 0 [.int 1], .append 1 [.int 2], .prepend 0 [.int 3]] := by
  simp [Disciplined, AppendsToLatest, step, create, listAppend, listPrepend, goAppend, cap, array]
example : SliceHeap.Inv ⟨[], []⟩ := by simp [SliceHeap.Inv]

end Verif
