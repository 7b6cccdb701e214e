import Verif.Lemmas.ListOps
/-!
# Properties of generic lists: C01 - C06, C08
-/

namespace Verif
open Value Spec ListOps

/-! ## C01 Unique -/

/-- C01. `Unique` returns exactly the elements that are the first with their printed form, in the original order. -/
theorem C01_unique_is_first_occurrences (l : List Value) : unique l = firstOccurrences l :=
  unique_eq_firstOccurrences l

/-- C01. No two elements of the result print alike, every element of the list is represented, the result is a
subsequence of the list, and applying `Unique` again changes nothing. -/
theorem C01_unique_spec (l : List Value) :
    NoTextDup (unique l) ∧ (∀ v, TextMem v (unique l) ↔ TextMem v l) ∧ (unique l).Sublist l ∧
    unique (unique l) = unique l := by
  refine ⟨unique_noTextDup l, fun v => ?_, unique_sublist l, unique_of_noTextDup (unique_noTextDup l)⟩
  rw [← hasText_iff, ← hasText_iff, hasText_unique]

/-- C01. A list without textual duplicates is returned as is. -/
theorem C01_unique_id (l : List Value) (h : NoTextDup l) : unique l = l := unique_of_noTextDup h

example : unique [.int 1, .str ['1'], .int 2, .list [.int 3], .list [.str ['3']], .int 2] =
    [.int 1, .int 2, .list [.int 3]] := by rfl
example : NoTextDup [.int 1, .int 2, .list [.int 3]] := by
  simp [NoTextDup, SameText]; decide

/-! ## C02 Union, Intersect, Without -/

/-- C02. Textual membership in the union. -/
theorem C02_union_mem (l vs : List Value) (v : Value) :
    TextMem v (union l vs) ↔ TextMem v l ∨ TextMem v vs := by
  rw [← hasText_iff, union, hasText_unique, add, if_neg (by simp), hasText_append, Bool.or_eq_true,
    hasText_iff, hasText_iff]

/-- C02. Textual membership in the intersection. -/
theorem C02_intersect_mem (l vs : List Value) (v : Value) :
    TextMem v (intersect l vs) ↔ TextMem v l ∧ TextMem v vs := by
  rw [intersect_eq_filter]
  constructor
  · rintro ⟨x, hx, hxv⟩
    rw [List.mem_filter] at hx
    constructor
    · rw [← hasText_iff, ← hasText_unique, hasText_iff]; exact ⟨x, hx.1, hxv⟩
    · rw [← hasText_iff, hasText_congr hxv.symm]; exact hx.2
  · rintro ⟨h1, h2⟩
    rw [← hasText_iff, ← hasText_unique, hasText_iff] at h1
    obtain ⟨x, hx, hxv⟩ := h1
    refine ⟨x, List.mem_filter.2 ⟨hx, ?_⟩, hxv⟩
    rw [hasText_congr hxv, hasText_iff]; exact h2

/-- C02. Union and intersection have no textual duplicates and keep the order of first occurrences. -/
theorem C02_union_intersect_nodup (l vs : List Value) :
    NoTextDup (union l vs) ∧ NoTextDup (intersect l vs) ∧
    (union l vs).Sublist (l ++ vs) ∧ (intersect l vs).Sublist l := by
  refine ⟨unique_noTextDup _, ?_, ?_, ?_⟩
  · rw [intersect_eq_filter]; exact (unique_noTextDup l).sublist List.filter_sublist
  · have := unique_sublist (add l false vs); simpa [union, add] using this
  · rw [intersect_eq_filter]; exact List.filter_sublist.trans (unique_sublist l)

/-- C02. `Without` keeps, with order and multiplicity, the elements whose text is that of no excluded value. -/
theorem C02_without (l vs : List Value) :
    without l vs = l.filter (fun x => decide (∀ v ∈ vs, ¬ SameText v x)) := by
  rw [without_eq_filter]
  apply List.filter_congr
  intro x _
  cases h : hasText vs x with
  | true =>
    obtain ⟨y, hy, hxy⟩ := hasText_iff.1 h
    simp only [Bool.not_true]
    symm; rw [decide_eq_false_iff_not]
    exact fun hall => hall y hy hxy
  | false =>
    symm
    simp only [Bool.not_false, decide_eq_true_eq]
    intro v hv hs
    rw [hasText_iff.2 ⟨v, hv, hs⟩] at h; cases h

example : intersect [.int 1, .int 2, .int 2, .int 3] [.str ['2'], .int 3, .int 9] = [.int 2, .int 3] := by rfl
example : without [.int 1, .int 2, .int 1, .int 3] [.int 3] = [.int 1, .int 2, .int 1] := by rfl

/-! ## C03 Remove and Pop -/

/-- C03. `Remove` keeps exactly the positions that no index designates, in order. -/
theorem C03_remove (l : List Value) (is : List Int) :
    remove l is = selectPositions (fun i => decide (∀ j ∈ is, ¬ Designates l.length j i)) l := by
  unfold remove
  rw [removeLoop_eq, List.nil_append, ← range_filter_getD]
  have : (List.range l.length).filter (fun i : Nat => !(contains ((is.map fun i : Int => if i < 0 then i + l.length else i).map .int) [.int i]))
      = (List.range l.length).filter (fun i => decide (∀ j ∈ is, ¬ Designates l.length j i)) := by
    apply List.filter_congr
    intro i hi
    cases h : contains ((is.map fun i : Int => if i < 0 then i + l.length else i).map .int) [.int i] with
    | true =>
      rw [contains_ints, List.mem_map] at h
      obtain ⟨j, hj, hji⟩ := h
      simp only [Bool.not_true]; symm
      rw [decide_eq_false_iff_not]
      intro hall
      refine hall j hj ?_
      unfold Designates
      split at hji <;> omega
    | false =>
      simp only [Bool.not_false]; symm
      rw [decide_eq_true_eq]
      intro j hj hd
      rw [Bool.eq_false_iff] at h
      apply h
      rw [contains_ints, List.mem_map]
      refine ⟨j, hj, ?_⟩
      unfold Designates at hd
      split <;> omega
  rw [this]
  apply List.map_congr_left
  intro i _
  exact getIndex_nat l i

/-- C03. With one index, `Get` returns the designated element, or nil when there is none. -/
theorem C03_get_one (l : List Value) (i : Int) : getIndexes l [i] = at? l i := getIndex_eq_at l i

/-- C03. With several indexes, `Get` returns the list of the designated elements in the order of the indexes. -/
theorem C03_get_many (l : List Value) (i j : Int) (is : List Int) :
    getIndexes l (i :: j :: is) = .list ((i :: j :: is).map (at? l)) := by
  have h : (i :: j :: is).length = ((i :: j :: is).map (getIndex l)).length := by simp
  show Value.list _ = _
  rw [h, fill_create]
  congr 1
  apply List.map_congr_left
  intro k _; exact getIndex_eq_at l k

/-- C03. `Get` without index returns nil. -/
theorem C03_get_none (l : List Value) : getIndexes l [] = .nil := rfl

/-- C03. `Pop` returns what `Get` returns and the list `Remove` returns for the same indexes. -/
theorem C03_pop_indexes (l : List Value) (i : Int) (is : List Int) :
    pop l (i :: is) = (getIndexes l (i :: is), remove l (i :: is)) := rfl

theorem selectPositions_eq_dropLast (l : List Value) (x : Value) :
    selectPositions (fun i => decide (∀ j ∈ [(((l ++ [x]).length : Nat) : Int) - 1], ¬ Designates (l ++ [x]).length j i)) (l ++ [x]) = l := by
  unfold selectPositions
  rw [List.zipIdx_append, List.filter_append, List.map_append]
  have h1 : (List.zipIdx l).filter (fun e => decide (∀ j ∈ [(((l ++ [x]).length : Nat) : Int) - 1], ¬ Designates (l ++ [x]).length j e.2)) = List.zipIdx l := by
    rw [List.filter_eq_self]
    rintro ⟨y, i⟩ hy
    have := List.mem_zipIdx hy
    simp only [List.mem_singleton, forall_eq, decide_eq_true_eq, Designates, List.length_append, List.length_singleton]
    omega
  rw [h1]
  simp [Designates]

/-- C03. `Pop` without index splits off the last element. -/
theorem C03_pop_last (l : List Value) (x : Value) : pop (l ++ [x]) [] = (x, l) := by
  simp only [pop, List.length_nil, if_true]
  rw [C03_get_one, C03_remove, selectPositions_eq_dropLast]
  congr 1
  unfold at?
  rw [if_pos (by simp)]
  have : ((((l ++ [x]).length : Nat) : Int) - 1).toNat = l.length := by simp
  rw [this]; simp [List.getD_eq_getElem?_getD]

/-- C03. `Pop` on an empty list returns nil and an empty list. -/
theorem C03_pop_empty : pop [] [] = (.nil, []) := by rfl

/-- C03. Out of range indexes remove nothing. -/
theorem C03_remove_out_of_range (l : List Value) (is : List Int)
    (h : ∀ j ∈ is, (l.length : Int) ≤ j ∨ j < -(l.length : Int)) : remove l is = l := by
  rw [C03_remove]
  unfold selectPositions
  have : (List.zipIdx l).filter (fun e => decide (∀ j ∈ is, ¬ Designates l.length j e.2)) = List.zipIdx l := by
    rw [List.filter_eq_self]
    rintro ⟨y, i⟩ hy
    have hi := List.mem_zipIdx hy
    simp only [decide_eq_true_eq]
    intro j hj
    have := h j hj
    unfold Designates; omega
  rw [this]; simp

example : pop [.int 0, .int 1, .int 2, .int 3, .int 4, .int 5] [1, -3, 8] =
    (.list [.int 1, .int 3, .nil], [.int 0, .int 2, .int 4, .int 5]) := by rfl
example : ∀ j ∈ [(5 : Int), -7], ((([.int 1, .int 2] : List Value).length : Nat) : Int) ≤ j ∨ j < -(2 : Int) := by decide

/-! ## C04 Reverse -/

/-- C04. `Reverse` returns the elements in the opposite order. -/
theorem C04_reverse (l : List Value) (i : Nat) (h : i < l.length) :
    (reverse l).length = l.length ∧ (reverse l)[i]? = l[l.length - 1 - i]? := by
  rw [reverse_eq]
  refine ⟨by simp, ?_⟩
  rw [List.getElem?_reverse h]

/-- C04. Reversing twice gives the original list. -/
theorem C04_reverse_involutive (l : List Value) : reverse (reverse l) = l := by
  rw [reverse_eq, reverse_eq, List.reverse_reverse]

/-- C04. Reversing a concatenation swaps the parts. -/
theorem C04_reverse_append (a b : List Value) : reverse (append a b) = append (reverse b) (reverse a) := by
  simp [reverse_eq, append_eq]

example : reverse [.int 1, .int 2, .int 3] = [.int 3, .int 2, .int 1] := by rfl

/-! ## C05 Set -/

/-- C05. `Set` fails exactly on negative indexes. -/
theorem C05_set_error_iff (l : List Value) (i : Int) (v : Value) : setIndex l i v = none ↔ i < 0 := by
  cases i with
  | ofNat n => simp [setIndex]
  | negSucc n => simp [setIndex]

/-- C05. Length, written value, frame and nil filling. -/
theorem C05_set (l l' : List Value) (i : Nat) (v : Value) (h : setIndex l i v = some l') :
    l'.length = max l.length (i + 1) ∧ l'[i]? = some v ∧
    (∀ j, j ≠ i → j < l.length → l'[j]? = l[j]?) ∧
    (∀ j, j ≠ i → l.length ≤ j → j < i → l'[j]? = some Value.nil) := by
  rw [setIndex_nat] at h
  have h := (Option.some.inj h).symm
  subst h
  refine ⟨by simp; omega, ?_, ?_, ?_⟩
  · rw [List.getElem?_set_self]; simp; omega
  · intro j hj hl
    rw [List.getElem?_set_ne (Ne.symm hj), List.getElem?_append_left hl]
  · intro j hj hl hji
    rw [List.getElem?_set_ne (Ne.symm hj), List.getElem?_append_right hl, List.getElem?_replicate]
    rw [if_pos (by omega)]

/-- A sequence of `Set` calls, keeping the returned list; an error stops the sequence. -/
def setMany (l : List Value) : List (Nat × Value) → Option (List Value)
  | [] => some l
  | (i, v) :: ws => (setIndex l i v).bind (fun l' => setMany l' ws)

/-- C05. After any sequence of `Set` calls every position holds the last value written there, or else its
original value, or nil if it was created by an enlargement. -/
theorem C05_set_history (l : List Value) (ws : List (Nat × Value)) :
    ∃ l', setMany l ws = some l' ∧
      l'.length = ws.foldl (fun n w => max n (w.1 + 1)) l.length ∧
      ∀ j, j < l'.length → l'[j]? = some (((ws.reverse.find? (fun w => w.1 == j)).map Prod.snd).getD (l.getD j .nil)) := by
  induction ws using snoc_induction with
  | h0 =>
    refine ⟨l, rfl, rfl, ?_⟩
    intro j hj
    simp [List.getD_eq_getElem?_getD, hj]
  | h1 ws w ih =>
    obtain ⟨l1, h1, hlen, hget⟩ := ih
    obtain ⟨i, v⟩ := w
    have hsnoc : ∀ l0, setMany l0 (ws ++ [(i, v)]) = (setMany l0 ws).bind (fun l' => setIndex l' i v) := by
      clear h1 hlen hget
      induction ws with
      | nil => intro l0; simp only [List.nil_append, setMany, Option.bind_some]; cases setIndex l0 i v <;> rfl
      | cons w ws ih =>
        intro l0
        obtain ⟨k, u⟩ := w
        simp only [List.cons_append, setMany]
        cases setIndex l0 k u with
        | none => rfl
        | some l2 => simp only [Option.bind_some]; exact ih l2
    have hs : setIndex l1 i v = some ((l1 ++ List.replicate (i + 1 - l1.length) Value.nil).set i v) := setIndex_nat l1 i v
    have hspec := C05_set l1 _ i v hs
    refine ⟨_, by rw [hsnoc, h1]; exact hs, ?_, ?_⟩
    · rw [hspec.1, List.foldl_append, ← hlen]; rfl
    · intro j hj
      rw [hspec.1] at hj
      rw [List.reverse_append, List.reverse_singleton, List.singleton_append, List.find?_cons]
      by_cases hji : i = j
      · subst hji; simp [hspec.2.1]
      · have hb : (i == j) = false := by simpa using hji
        simp only [hb]
        by_cases hjl : j < l1.length
        · rw [hspec.2.2.1 j (Ne.symm hji) hjl, hget j hjl]
        · rw [hspec.2.2.2 j (Ne.symm hji) (by omega) (by omega)]
          -- position j was never written before and is beyond l
          have hnone : ws.reverse.find? (fun w => w.1 == j) = none := by
            rw [List.find?_eq_none]
            intro w hw hwj
            have : w.1 + 1 ≤ ws.foldl (fun n w => max n (w.1 + 1)) l.length := by
              rw [List.mem_reverse] at hw
              clear hget hlen h1 hs hspec hsnoc hj
              generalize l.length = n
              induction ws generalizing n with
              | nil => simp at hw
              | cons w0 ws ih =>
                have hmono : ∀ (ws : List (Nat × Value)) (n : Nat), n ≤ ws.foldl (fun n w => max n (w.1 + 1)) n := by
                  intro ws
                  induction ws with
                  | nil => intro n; exact Nat.le_refl _
                  | cons a ws ih => intro n; exact Nat.le_trans (Nat.le_max_left _ _) (ih _)
                rcases List.mem_cons.1 hw with h | h
                · subst h; exact Nat.le_trans (Nat.le_max_right n _) (hmono _ _)
                · exact ih h _
            rw [← hlen] at this
            have : w.1 = j := by simpa using hwj
            omega
          have hl : l.length ≤ j := by
            have hmono : ∀ (ws : List (Nat × Value)) (n : Nat), n ≤ ws.foldl (fun n w => max n (w.1 + 1)) n := by
              intro ws
              induction ws with
              | nil => intro n; exact Nat.le_refl _
              | cons a ws ih => intro n; exact Nat.le_trans (Nat.le_max_left _ _) (ih _)
            have := hmono ws l.length
            omega
          rw [hnone]
          simp [List.getD_eq_getElem?_getD, List.getElem?_eq_none hl]

example : setIndex [.int 1] 3 (.int 9) = some [.int 1, .nil, .nil, .int 9] := by rfl
example : setMany [.int 1] [(2, .int 5), (0, .int 7), (2, .int 6)] = some [.int 7, .nil, .int 6] := by rfl

/-! ## C06 Clone -/

/-- The property C06 for one list. -/
def ClonePreserves (l : List Value) : Prop := clone l = l

/-- C06 (violated). `Clone` of a list that contains a single list returns the inner list's elements:
`[[1 2]].Clone()` is `[1 2]` (base_helper.go:23-33). -/
theorem C06_clone_violated : ¬ ∀ l : List Value, ClonePreserves l := by
  intro h
  have := h [.list [.int 1, .int 2]]
  simp [ClonePreserves, clone, newList, append, add] at this

/-- C06 (partial). Exactly which lists are preserved by `Clone`: all of them except those made of a single list
(no list is equal to the list that contains only it). Missing: the singleton case, where the code is wrong. -/
theorem C06_clone_partial (l : List Value) : ClonePreserves l ↔ ∀ inner, l ≠ [.list inner] := by
  unfold ClonePreserves clone newList
  rw [foldl_append_eq, List.nil_append]
  constructor
  · rintro h inner rfl
    simp only at h
    have : sizeOf inner = sizeOf [Value.list inner] := congrArg sizeOf h
    simp at this; omega
  · intro h
    split
    · rename_i l'; exact absurd rfl (h l')
    · rfl

/-- C06. In the exceptional case the clone is the inner list. -/
theorem C06_clone_singleton (inner : List Value) : clone [.list inner] = inner := by
  unfold clone newList; rw [foldl_append_eq]; simp

example : ∀ inner, [Value.list [.int 1], .int 2] ≠ [.list inner] := by intro i h; simp at h

/-! ## C08 Contains and Find -/

/-- C08. On a non-empty list `Contains` is textual membership of every value. -/
theorem C08_contains (l vs : List Value) (h : l ≠ []) :
    contains l vs = true ↔ ∀ v ∈ vs, TextMem v l := by
  have : l.length > 0 := List.length_pos_iff.2 h
  simp only [contains, this, decide_true, Bool.and_true, List.all_eq_true, hasText_iff]

/-- C08. On an empty list `Contains` is false, even when nothing is searched. -/
theorem C08_contains_empty (vs : List Value) : contains [] vs = false := by simp [contains]

theorem findLoop_eq (t : Text) (l : List Value) (i : Nat) (acc : List Value) :
    findLoop t i l acc = acc ++ ((l.zipIdx i).filter (fun e => t == sprint e.1)).map (fun e => .int e.2) := by
  induction l generalizing i acc with
  | nil => simp [findLoop]
  | cons v l ih =>
    simp only [findLoop, ih, List.zipIdx_cons, List.filter_cons]
    cases t == sprint v <;> simp [append_eq]

/-- C08. `Find` returns exactly the positions of the elements that print like the searched value. -/
theorem C08_find (l : List Value) (v : Value) (i : Nat) :
    .int i ∈ find l v ↔ ∃ x, l[i]? = some x ∧ SameText x v := by
  unfold find
  rw [findLoop_eq, List.nil_append]
  simp only [List.mem_map, List.mem_filter, beq_iff_eq, Prod.exists, Value.int.injEq]
  constructor
  · rintro ⟨x, j, ⟨hm, ht⟩, hj⟩
    have hj : j = i := by omega
    subst hj
    have := List.mem_zipIdx_iff_getElem?.1 hm
    exact ⟨x, this, ht.symm⟩
  · rintro ⟨x, hx, ht⟩
    exact ⟨x, i, ⟨List.mem_zipIdx_iff_getElem?.2 hx, ht.symm⟩, rfl⟩

/-- C08. The positions are in strictly increasing order. -/
theorem C08_find_sorted (l : List Value) (v : Value) :
    ∃ ps : List Nat, find l v = ps.map (fun p : Nat => Value.int p) ∧ ps.Pairwise (· < ·) := by
  unfold find
  rw [findLoop_eq, List.nil_append]
  refine ⟨((l.zipIdx).filter (fun e => sprint v == sprint e.1)).map Prod.snd, by simp [List.map_map, Function.comp_def], ?_⟩
  apply List.Pairwise.sublist (List.Sublist.map _ List.filter_sublist)
  have : (l.zipIdx).map Prod.snd = List.range l.length := by
    rw [List.zipIdx_map_snd, ← List.range_eq_range']
  rw [this]
  exact List.pairwise_lt_range

/-- C08. An element is found iff the list contains it. -/
theorem C08_find_iff_contains (l : List Value) (v : Value) : find l v ≠ [] ↔ contains l [v] = true := by
  rw [contains_singleton, hasText_iff]
  unfold find
  rw [findLoop_eq, List.nil_append]
  constructor
  · intro h
    obtain ⟨e, he⟩ := List.exists_mem_of_ne_nil _ h
    simp only [List.mem_map, List.mem_filter, beq_iff_eq] at he
    obtain ⟨⟨x, i⟩, ⟨hm, ht⟩, _⟩ := he
    have := List.mem_zipIdx_iff_getElem?.1 hm
    exact ⟨x, List.mem_of_getElem? this, ht.symm⟩
  · rintro ⟨x, hx, ht⟩ h
    obtain ⟨i, hi⟩ := List.getElem?_of_mem hx
    have hm : (x, i) ∈ (l.zipIdx).filter (fun e => sprint v == sprint e.1) := by
      rw [List.mem_filter]
      exact ⟨List.mem_zipIdx_iff_getElem?.2 hi, by simpa using ht.symm⟩
    have := List.mem_map_of_mem (f := fun e : Value × Nat => Value.int e.2) hm
    rw [h] at this; simp at this

/-- Strict equality implies textual equality. -/
theorem goEq_sameText {a b : Value} (h : goEq a b = some true) : SameText a b := by
  cases a <;> cases b <;> simp_all [goEq, SameText]

/-- C08. For scalar searched values the strict search never panics and answers Go equality. -/
theorem C08_contains_strict (l vs : List Value) (h : l ≠ []) (hs : ∀ v ∈ vs, v.isScalar = true) :
    containsStrict l vs = some (decide (∀ v ∈ vs, ∃ x ∈ l, goEq v x = some true)) := by
  have hscal : ∀ v : Value, v.isScalar = true → ∀ x, goEq v x ≠ none := by
    intro v hv x; cases v <;> cases x <;> simp_all [goEq, isScalar]
  have hone : ∀ v : Value, v.isScalar = true → ∀ l : List Value,
      hasStrict v l = some (decide (∃ x ∈ l, goEq v x = some true)) := by
    intro v hv l
    induction l with
    | nil => simp [hasStrict]
    | cons x l ih =>
      simp only [hasStrict]
      cases hg : goEq v x with
      | none => exact absurd hg (hscal v hv x)
      | some b =>
        cases b with
        | true => simp [hg]
        | false => simp [ih, hg]
  induction vs with
  | nil =>
    have : l.length > 0 := List.length_pos_iff.2 h
    simp [containsStrict, this]
  | cons v vs ih =>
    simp only [containsStrict, hone v (hs v (by simp)) l]
    by_cases hv : ∃ x ∈ l, goEq v x = some true
    · simp only [hv, decide_true]
      rw [ih (fun w hw => hs w (by simp [hw]))]
      simp [hv]
    · simp only [hv, decide_false]
      simp [hv]

/-- C08. What the strict variant accepts, the textual one accepts. -/
theorem C08_strict_implies_loose (l vs : List Value) (h : containsStrict l vs = some true) :
    contains l vs = true := by
  have hone : ∀ v l, hasStrict v l = some true → hasText l v = true := by
    intro v l
    induction l with
    | nil => simp [hasStrict]
    | cons x l ih =>
      simp only [hasStrict, hasText, List.any_cons, Bool.or_eq_true, beq_iff_eq]
      split
      · simp
      · rename_i hg; intro _; left; exact goEq_sameText hg
      · intro h; right; have := ih h; simpa [hasText] using this
  induction vs with
  | nil => simpa [containsStrict, contains] using h
  | cons v vs ih =>
    simp only [containsStrict] at h
    split at h
    · cases h
    · cases h
    · rename_i hv
      have := ih h
      simp only [contains, List.all_cons, Bool.and_eq_true] at *
      exact ⟨⟨hone _ _ hv, this.1⟩, this.2⟩

theorem findStrictLoop_eq (v : Value) (hs : v.isScalar = true) (l : List Value) (i : Nat) (acc : List Value) :
    findStrictLoop v i l acc =
      some (acc ++ ((l.zipIdx i).filter (fun e => goEq v e.1 == some true)).map (fun e => .int e.2)) := by
  have hscal : ∀ x, goEq v x ≠ none := by
    intro x; cases v <;> cases x <;> simp_all [goEq, isScalar]
  induction l generalizing i acc with
  | nil => simp [findStrictLoop]
  | cons x l ih =>
    simp only [findStrictLoop]
    cases hg : goEq v x with
    | none => exact absurd hg (hscal x)
    | some b => cases b <;> simp [ih, hg, append_eq, List.zipIdx_cons]

/-- C08. `FindStrict` with a scalar returns exactly the positions of the elements equal to it in Go. -/
theorem C08_find_strict (l : List Value) (v : Value) (hs : v.isScalar = true) :
    ∃ ps, findStrict l v = some ps ∧
      ∀ i : Nat, .int i ∈ ps ↔ ∃ x, l[i]? = some x ∧ goEq v x = some true := by
  refine ⟨_, findStrictLoop_eq v hs l 0 [], ?_⟩
  intro i
  simp only [List.nil_append, List.mem_map, List.mem_filter, beq_iff_eq, Prod.exists, Value.int.injEq]
  constructor
  · rintro ⟨x, j, ⟨hm, ht⟩, hj⟩
    have hj : j = i := by omega
    subst hj
    exact ⟨x, List.mem_zipIdx_iff_getElem?.1 hm, ht⟩
  · rintro ⟨x, hx, ht⟩
    exact ⟨x, i, ⟨List.mem_zipIdx_iff_getElem?.2 hx, ht⟩, rfl⟩

/-- C08. Observation: the strict search of a list inside a list of lists panics in Go (comparing uncomparable
types), it does not answer. -/
theorem C08_strict_list_panics (a b : List Value) (l vs : List Value) :
    containsStrict (.list b :: l) (.list a :: vs) = none := by
  simp [containsStrict, hasStrict, goEq]

example : find [.int 0, .int 1, .int 2, .str ['2'], .flt ['2']] (.flt ['2']) = [.int 2, .int 3, .int 4] := by rfl
example : containsStrict [.int 1, .int 2, .str ['3']] [.str ['2'], .int 3] = some false := by rfl
example : contains [.int 1, .int 2, .str ['3']] [.str ['2'], .int 3] = true := by rfl

end Verif
