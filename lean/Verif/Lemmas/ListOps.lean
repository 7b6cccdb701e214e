import Verif.Model.ListOps
import Verif.Spec.ListSpec

namespace Verif
open Value Spec

/-- Induction on a list from its end. -/
theorem snoc_induction {α : Type} {P : List α → Prop} (h0 : P []) (h1 : ∀ l x, P l → P (l ++ [x]))
    (l : List α) : P l := by
  rw [← List.reverse_reverse l]
  induction l.reverse with
  | nil => exact h0
  | cons x xs ih => rw [List.reverse_cons]; exact h1 _ _ ih

theorem toDigits10_inj {a b : Nat} (h : Nat.toDigits 10 a = Nat.toDigits 10 b) : a = b := by
  have := congrArg (fun l => Nat.ofDigitChars 10 l 0) h
  simpa [Nat.ofDigitChars_ten_toDigits] using this

theorem toDigits10_isDigit {n : Nat} {c : Char} (h : c ∈ Nat.toDigits 10 n) : c.isDigit = true :=
  Nat.isDigit_of_mem_toDigits (by decide) (by decide) h

theorem toDigits10_ne_neg (n : Nat) (t : Text) : Nat.toDigits 10 n ≠ '-' :: t := by
  intro h
  have : Char.isDigit '-' = true := toDigits10_isDigit (n := n) (by rw [h]; simp)
  exact absurd this (by decide)

theorem intText_inj {a b : Int} (h : intText a = intText b) : a = b := by
  cases a with
  | ofNat a =>
    cases b with
    | ofNat b => simp only [intText] at h; rw [toDigits10_inj h]
    | negSucc b => simp only [intText] at h; exact absurd h (toDigits10_ne_neg _ _)
  | negSucc a =>
    cases b with
    | ofNat b => simp only [intText] at h; exact absurd h.symm (toDigits10_ne_neg _ _)
    | negSucc b =>
      simp only [intText, List.cons.injEq, true_and] at h
      have := toDigits10_inj h
      have : a = b := by omega
      rw [this]

namespace ListOps

theorem append_eq (l o : List Value) : append l o = l ++ o := by simp [append, add]
theorem prepend_eq (l o : List Value) : prepend l o = o ++ l := by simp [prepend, add]

theorem foldl_append_eq (items acc : List Value) :
    items.foldl (fun n x => append n [x]) acc = acc ++ items := by
  induction items generalizing acc with
  | nil => simp
  | cons x xs ih => rw [List.foldl_cons, ih, append_eq]; simp

theorem foldl_filter_eq (p : Value → Bool) (items acc : List Value) :
    items.foldl (fun t x => if p x then append t [x] else t) acc = acc ++ items.filter p := by
  induction items generalizing acc with
  | nil => simp
  | cons x xs ih =>
    rw [List.foldl_cons, ih]
    cases h : p x <;> simp [h, append_eq]

theorem hasText_iff {l : List Value} {v : Value} : hasText l v = true ↔ TextMem v l := by
  simp only [hasText, List.any_eq_true, beq_iff_eq, TextMem, SameText]
  constructor
  · rintro ⟨x, hx, h⟩; exact ⟨x, hx, h.symm⟩
  · rintro ⟨x, hx, h⟩; exact ⟨x, hx, h.symm⟩

theorem contains_singleton (l : List Value) (v : Value) : contains l [v] = hasText l v := by
  cases l with
  | nil => simp [contains, hasText]
  | cons a l => simp [contains]

theorem unique_snoc (l : List Value) (x : Value) :
    unique (l ++ [x]) = if hasText (unique l) x then unique l else unique l ++ [x] := by
  simp only [unique, List.foldl_append, List.foldl_cons, List.foldl_nil, contains_singleton, append_eq]

theorem hasText_append (a b : List Value) (v : Value) :
    hasText (a ++ b) v = (hasText a v || hasText b v) := by simp [hasText]

theorem hasText_congr {x y : Value} (h : sprint x = sprint y) (l : List Value) :
    hasText l x = hasText l y := by simp [hasText, h]

theorem hasText_unique (l : List Value) (v : Value) : hasText (unique l) v = hasText l v := by
  induction l using snoc_induction generalizing v with
  | h0 => rfl
  | h1 l x ih =>
    rw [unique_snoc, hasText_append]
    split
    · rename_i h
      rw [ih]
      by_cases e : sprint v = sprint x
      · rw [hasText_congr e l, ← ih x, h]; rfl
      · have : hasText [x] v = false := by simp [hasText, e]
        simp [this]
    · rw [hasText_append, ih]

theorem firstOccurrences_snoc (l : List Value) (x : Value) :
    firstOccurrences (l ++ [x]) =
      firstOccurrences l ++ (if hasText l x then [] else [x]) := by
  unfold firstOccurrences
  rw [List.zipIdx_append, List.filter_append, List.map_append]
  congr 1
  · congr 1
    apply List.filter_congr
    rintro ⟨y, i⟩ hy
    have hi : i < l.length := by
      have := List.mem_zipIdx hy; simp at this; omega
    simp only [isFirstOccurrence]
    rw [List.take_append_of_le_length (Nat.le_of_lt hi)]
  · simp only [List.zipIdx_singleton, Nat.zero_add]
    have : isFirstOccurrence (l ++ [x]) x l.length = !(hasText l x) := by
      simp only [isFirstOccurrence, hasText]
      rw [List.take_left]
      congr 1
      rw [Bool.eq_iff_iff]
      simp only [List.any_eq_true, beq_iff_eq]
      constructor
      · rintro ⟨y, hy, h⟩; exact ⟨y, hy, (of_decide_eq_true h).symm⟩
      · rintro ⟨y, hy, h⟩; exact ⟨y, hy, decide_eq_true h.symm⟩
    simp only [List.filter_cons, List.filter_nil, this]
    cases hasText l x <;> simp

theorem unique_eq_firstOccurrences (l : List Value) : unique l = firstOccurrences l := by
  induction l using snoc_induction with
  | h0 => rfl
  | h1 l x ih =>
    rw [unique_snoc, firstOccurrences_snoc, hasText_unique, ih]
    split <;> simp

theorem unique_sublist (l : List Value) : (unique l).Sublist l := by
  induction l using snoc_induction with
  | h0 => exact List.Sublist.refl _
  | h1 l x ih =>
    rw [unique_snoc]
    split
    · exact ih.trans (List.sublist_append_left _ _)
    · exact List.Sublist.append ih (List.Sublist.refl _)

theorem unique_noTextDup (l : List Value) : NoTextDup (unique l) := by
  induction l using snoc_induction with
  | h0 => exact List.Pairwise.nil
  | h1 l x ih =>
    rw [unique_snoc]
    split
    · exact ih
    · rename_i h
      unfold NoTextDup
      rw [List.pairwise_append]
      refine ⟨ih, by simp, ?_⟩
      intro a ha b hb hab
      simp at hb; subst hb
      exact h (hasText_iff.2 ⟨a, ha, hab⟩)

theorem unique_of_noTextDup {l : List Value} (h : NoTextDup l) : unique l = l := by
  induction l using snoc_induction with
  | h0 => rfl
  | h1 l x ih =>
    unfold NoTextDup at h
    rw [List.pairwise_append] at h
    rw [unique_snoc, ih h.1, if_neg]
    intro hx
    obtain ⟨y, hy, hxy⟩ := hasText_iff.1 hx
    exact h.2.2 y hy x (by simp) hxy

theorem without_eq_filter (l vs : List Value) : without l vs = l.filter (fun x => !(hasText vs x)) := by
  simp only [without, contains_singleton]
  rw [foldl_filter_eq (fun x => !(hasText vs x))]; simp

theorem intersect_eq_filter (l vs : List Value) : intersect l vs = (unique l).filter (hasText vs) := by
  simp only [intersect, contains_singleton]
  rw [foldl_filter_eq (hasText vs)]; simp

/-! Positions -/

theorem enlarge_eq (n : Nat) (l : List Value) : enlarge n l = l ++ List.replicate n .nil := by
  induction n generalizing l with
  | zero => simp [enlarge]
  | succ n ih => rw [enlarge, ih, append_eq, List.append_assoc, List.replicate_succ]; rfl

theorem setIndex_nat (l : List Value) (i : Nat) (v : Value) :
    setIndex l i v = some ((l ++ List.replicate (i + 1 - l.length) Value.nil).set i v) := by
  show some _ = _
  rw [enlarge_eq]

theorem setIndex_of_lt (l : List Value) (i : Nat) (v : Value) (h : i < l.length) :
    setIndex l i v = some (l.set i v) := by
  rw [setIndex_nat]
  have : i + 1 - l.length = 0 := by omega
  rw [this]; simp

theorem getIndex_nat (l : List Value) (i : Nat) : getIndex l i = l.getD i .nil := by
  unfold getIndex
  by_cases h : i < l.length
  · have h1 : ¬ ((i : Int) < 0) := by omega
    simp only [h1, if_false]
    have h2 : ¬ (False ∨ (i : Int) ≥ l.length) := by simp only [false_or]; omega
    rw [if_neg h2]
    simp
  · have h1 : ¬ ((i : Int) < 0) := by omega
    simp only [h1, if_false]
    rw [if_pos (by omega)]
    rw [List.getD_eq_getElem?_getD, List.getElem?_eq_none (by omega)]; rfl

theorem getIndex_eq_at (l : List Value) (i : Int) : getIndex l i = at? l i := by
  unfold at?
  by_cases h : 0 ≤ i
  · rw [if_pos h]
    obtain ⟨n, rfl⟩ := Int.eq_ofNat_of_zero_le h
    exact getIndex_nat l n
  · rw [if_neg h]
    unfold getIndex
    have h1 : i < 0 := by omega
    simp only [h1, if_true]
    split
    · rename_i h2
      rw [if_neg (by omega)]
    · rename_i h2
      rw [if_pos (by omega)]
      congr 1
      omega

theorem fill_eq (vs : List Value) (l : List Value) (i : Nat) (h : i + vs.length ≤ l.length) :
    fill i vs l = l.take i ++ vs ++ l.drop (i + vs.length) := by
  induction vs generalizing i l with
  | nil => simp [fill]
  | cons v vs ih =>
    simp only [List.length_cons] at h
    simp only [fill]
    rw [setIndex_of_lt _ _ _ (by omega)]
    simp only [Option.getD_some]
    rw [ih _ _ (by simp; omega)]
    rw [List.drop_set_of_lt (by omega)]
    have : (l.set i v).take (i + 1) = l.take i ++ [v] := by
      rw [List.take_set]
      rw [List.set_eq_take_append_cons_drop]
      have hl : i < (List.take (i + 1) l).length := by simp; omega
      rw [if_pos hl]
      have : List.drop (i + 1) (List.take (i + 1) l) = [] := by
        apply List.drop_eq_nil_of_le; simp; omega
      rw [this, List.take_take]; simp
    rw [this]
    have e : i + 1 + vs.length = i + (v :: vs).length := by simp; omega
    rw [e]; simp

theorem fill_create (vs : List Value) : fill 0 vs (create vs.length) = vs := by
  rw [fill_eq _ _ _ (by simp [create])]
  simp [create]

theorem reverseLoop_eq (rest done : List Value) :
    reverseLoop done.length rest (create rest.length ++ done.reverse) = (done ++ rest).reverse := by
  induction rest generalizing done with
  | nil => simp [reverseLoop, create]
  | cons v rest ih =>
    simp only [reverseLoop]
    have hlen : (create (v :: rest).length ++ done.reverse).length = rest.length + 1 + done.length := by
      simp [create]
    have hidx : (((create (v :: rest).length ++ done.reverse).length : Int) - (done.length : Int) - 1)
        = (rest.length : Nat) := by rw [hlen]; omega
    rw [hidx, setIndex_of_lt _ _ _ (by rw [hlen]; omega)]
    simp only [Option.getD_some]
    have : (create (v :: rest).length ++ done.reverse).set rest.length v
        = create rest.length ++ (done ++ [v]).reverse := by
      simp only [create, List.length_cons, List.replicate_succ']
      rw [List.append_assoc, List.set_append_right _ _ (by simp)]
      simp
    rw [this]
    have := ih (done ++ [v])
    simp only [List.length_append, List.length_singleton] at this
    rw [this]; simp

theorem reverse_eq (l : List Value) : reverse l = l.reverse := by
  have := reverseLoop_eq l []
  simpa [reverse] using this

theorem contains_ints {is : List Int} {n : Nat} :
    contains (is.map .int) [.int n] = true ↔ (n : Int) ∈ is := by
  rw [contains_singleton, hasText_iff]
  simp only [TextMem, SameText, List.mem_map]
  constructor
  · rintro ⟨_, ⟨j, hj, rfl⟩, h⟩
    simp only [sprint] at h
    rw [intText_inj h] at hj; exact hj
  · intro h; exact ⟨_, ⟨_, h, rfl⟩, rfl⟩

theorem removeLoop_eq (l d : List Value) (is : List Nat) (acc : List Value) :
    removeLoop l d is acc = acc ++ (is.filter (fun i : Nat => !(contains d [.int i]))).map (fun i : Nat => getIndex l i) := by
  induction is generalizing acc with
  | nil => simp [removeLoop]
  | cons i is ih =>
    simp only [removeLoop, ih]
    cases h : contains d [.int i] <;> simp [h, append_eq]

theorem range_filter_getD (l : List Value) (p : Nat → Bool) :
    ((List.range l.length).filter p).map (fun i => l.getD i .nil) = selectPositions p l := by
  induction l using snoc_induction with
  | h0 => rfl
  | h1 l x ih =>
    unfold selectPositions at *
    rw [List.zipIdx_append, List.filter_append, List.map_append, ← ih]
    simp only [List.length_append, List.length_singleton, List.range_succ, List.filter_append, List.map_append]
    congr 1
    · apply List.map_congr_left
      intro i hi
      have : i < l.length := by simpa using (List.mem_filter.1 hi).1
      simp [List.getD_eq_getElem?_getD, List.getElem?_append_left this]
    · simp only [List.zipIdx_singleton, Nat.zero_add, List.filter_cons, List.filter_nil]
      cases p l.length <;> simp [List.getD_eq_getElem?_getD]

end ListOps
end Verif
