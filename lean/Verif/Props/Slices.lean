import Verif.Model.Slice
import Verif.Lemmas.Numbers
import Verif.Lemmas.Float64
import Verif.Lemmas.DictOps
import Verif.Spec.SliceSpec
import Verif.Spec.NumberSpec
/-!
# C27 - C29: slice, extract, safeIndex
-/

namespace Verif
open Value Numbers Slice Spec

/-! ## Helpers -/

theorem section_eq {α : Type} (l : List α) (lo hi : Int) :
    section_ l lo hi = (l.drop lo.toNat).take (hi.toNat - lo.toNat) := by
  have key : ∀ (l : List α) (k : Nat) (lo hi : Int),
      ((l.zipIdx k).filter (fun p => decide (lo ≤ p.2) && decide ((p.2 : Int) < hi))).map Prod.fst =
        (l.drop (lo - k).toNat).take ((hi - k).toNat - (lo - k).toNat) := by
    intro l
    induction l with
    | nil => simp
    | cons x l ih =>
      intro k lo hi
      rw [List.zipIdx_cons, List.filter_cons]
      rcases lt_or_ge (k : Int) lo with h1 | h1
      · rw [if_neg (by simp; omega), ih]
        have e1 : (lo - (k : Int)).toNat = (lo - ((k + 1 : Nat) : Int)).toNat + 1 := by omega
        rw [e1, List.drop_succ_cons]
        congr 1; omega
      · have e1 : (lo - (k : Int)).toNat = 0 := by omega
        have e2 : (lo - ((k + 1 : Nat) : Int)).toNat = 0 := by omega
        rcases lt_or_ge (k : Int) hi with h2 | h2
        · have e3 : (hi - (k : Int)).toNat = (hi - ((k + 1 : Nat) : Int)).toNat + 1 := by omega
          rw [if_pos (by simp; omega), List.map_cons, ih, e1, e2, e3]
          simp
        · have e3 : (hi - (k : Int)).toNat = 0 := by omega
          have e4 : (hi - ((k + 1 : Nat) : Int)).toNat = 0 := by omega
          rw [if_neg (by simp; omega), ih, e1, e2, e3, e4]
          simp
  have := key l 0 lo hi
  simpa [section_] using this

theorem toInt64_cast {n : Int} (h : InInt64 n) : F64.toInt64 (n : ℚ) = n := by
  have hf : ∀ m : Int, Rat.floor (m : ℚ) = m := fun m => Rat.floor_intCast m
  have : (if (n : ℚ) < 0 then -(Rat.floor (-(n : ℚ))) else Rat.floor (n : ℚ)) = n := by
    split
    · rw [show -(n : ℚ) = ((-n : Int) : ℚ) by push_cast; rfl, hf]; omega
    · exact hf n
  unfold F64.toInt64
  simp only [this]
  exact if_pos h

theorem minInt_eq {e : Int} {len : Nat} (he : 0 ≤ e) (hl : (len : Int) < 2 ^ 53) : minInt e len = min e len := by
  have rl : F64.rnd ((len : Int) : ℚ) = ((len : Int) : ℚ) := F64.rnd_int (by rw [abs_of_nonneg (by omega)]; omega)
  unfold minInt
  rcases le_or_gt e (2 ^ 53) with h | h
  · rw [F64.rnd_int (n := e) (by rw [abs_of_nonneg he]; exact h), rl, ← Int.cast_min, toInt64_cast]
    exact ⟨by omega, by omega⟩
  · have h1 : ((2 ^ 53 : Int) : ℚ) ≤ F64.rnd (e : ℚ) := by
      have := F64.rnd_mono (x := ((2 ^ 53 : Int) : ℚ)) (y := (e : ℚ)) (by exact_mod_cast h.le)
      rwa [F64.rnd_int (by norm_num)] at this
    have h2 : ((len : Int) : ℚ) ≤ F64.rnd (e : ℚ) := by
      refine le_trans ?_ h1
      exact_mod_cast hl.le
    rw [rl, min_eq_right h2, toInt64_cast ⟨by omega, by omega⟩]
    omega

theorem rnd_limit : F64.rnd ((2 ^ 63 - 513 : Int) : ℚ) = ((2 ^ 63 - 1024 : Int) : ℚ) := by decide +kernel

theorem maxInt_eq {b : Int} (hb : b ≤ 2 ^ 53) : maxInt b 0 = max b 0 := by
  have r0 : F64.rnd ((0 : Int) : ℚ) = ((0 : Int) : ℚ) := F64.rnd_int (by norm_num)
  unfold maxInt
  rcases lt_or_ge b 0 with h | h
  · have h1 : F64.rnd (b : ℚ) ≤ ((0 : Int) : ℚ) := by
      rw [← r0]
      exact F64.rnd_mono (by exact_mod_cast h.le)
    rw [r0, max_eq_right h1, toInt64_cast ⟨by omega, by omega⟩]
    omega
  · rw [F64.rnd_int (n := b) (by rw [abs_of_nonneg h]; exact hb), r0, ← Int.cast_max, toInt64_cast]
    exact ⟨by omega, by omega⟩

theorem maxInt_large {b : Int} (hb : 2 ^ 53 < b) (hb' : b < 2 ^ 63 - 512) : 2 ^ 53 ≤ maxInt b 0 := by
  have r0 : F64.rnd ((0 : Int) : ℚ) = ((0 : Int) : ℚ) := F64.rnd_int (by norm_num)
  have h1 : ((2 ^ 53 : Int) : ℚ) ≤ F64.rnd (b : ℚ) := by
    have := F64.rnd_mono (x := ((2 ^ 53 : Int) : ℚ)) (y := (b : ℚ)) (by exact_mod_cast hb.le)
    rwa [F64.rnd_int (by norm_num)] at this
  have h2 : F64.rnd (b : ℚ) ≤ ((2 ^ 63 - 1024 : Int) : ℚ) := by
    rw [← rnd_limit]
    exact F64.rnd_mono (by exact_mod_cast (by omega : b ≤ 2 ^ 63 - 513))
  have h0 : ((0 : Int) : ℚ) ≤ F64.rnd (b : ℚ) := le_trans (by norm_num) h1
  unfold maxInt
  rw [r0, max_eq_left h0]
  unfold F64.toInt64
  have hn : ¬ F64.rnd (b : ℚ) < 0 := not_lt.2 (by exact_mod_cast h0)
  simp only [if_neg hn]
  have f1 : (2 ^ 53 : Int) ≤ Rat.floor (F64.rnd (b : ℚ)) := Rat.le_floor_iff.2 h1
  have f2 : Rat.floor (F64.rnd (b : ℚ)) ≤ 2 ^ 63 - 1024 := by
    have := Rat.floor_monotone h2
    rwa [Rat.floor_intCast] at this
  rw [if_pos ⟨by omega, by omega⟩]
  exact f1

/-- The bounds of a slice, when they are in the range where floating point numbers do no harm. -/
theorem bounds_eq {len : Nat} {a b : Int} (hl : (len : Int) < 2 ^ 53)
    (hpos : 0 ≤ sliceBound len a ∨ 0 ≤ sliceBound len b)
    (ha : a < 2 ^ 63 - 512) (hb : b < 2 ^ 63 - 512) :
    ∃ B E : Int, bounds len a b = (B, E, decide (sliceBound len b < sliceBound len a)) ∧
      E = min (max (sliceBound len a) (sliceBound len b)) len ∧
      (if min (sliceBound len a) (sliceBound len b) ≤ 2 ^ 53
        then B = max (min (sliceBound len a) (sliceBound len b)) 0 else 2 ^ 53 ≤ B) := by
  have sa : sliceBound len a < 2 ^ 63 - 512 := by unfold sliceBound; split <;> omega
  have sb : sliceBound len b < 2 ^ 63 - 512 := by unfold sliceBound; split <;> omega
  have e1 : (if a < 0 then (len : Int) + a + 1 else a) = sliceBound len a := rfl
  have e2 : (if b < 0 then (len : Int) + b + 1 else b) = sliceBound len b := rfl
  unfold bounds
  simp only [e1, e2]
  generalize sliceBound len a = p at *
  generalize sliceBound len b = q at *
  refine ⟨maxInt (min p q) 0, minInt (max p q) len, ?_, minInt_eq (by omega) hl, ?_⟩
  · by_cases h : q < p
    · simp only [h, decide_true, if_true]
      rw [min_eq_right h.le, max_eq_left h.le]
    · simp only [h, decide_false, Bool.false_eq_true, if_false]
      rw [min_eq_left (not_lt.1 h), max_eq_right (not_lt.1 h)]
  · split
    · rename_i h; exact maxInt_eq h
    · rename_i h; exact maxInt_large (by omega) (by omega)

theorem mapM_range_getElem {α : Type} (l : List α) (n k : Nat) (h : k + n ≤ l.length) :
    (List.range n).mapM (fun i => l[i + k]?) = some ((l.drop k).take n) := by
  induction n with
  | zero => simp
  | succ n ih =>
    rw [List.range_succ, List.mapM_append, ih (by omega)]
    have hlt : n + k < l.length := by omega
    simp only [List.mapM_cons, List.getElem?_eq_getElem hlt, List.mapM_nil, Option.pure_def, Option.bind_eq_bind,
      Option.bind_some]
    have e : (l.drop k)[n]? = some l[n + k] := by
      rw [List.getElem?_drop, Nat.add_comm k n, List.getElem?_eq_getElem hlt]
    rw [List.take_add_one, e]
    rfl

theorem sliced_eq {α : Type} (l : List α) (a b : Int) :
    sliced l a b =
      let s := (l.drop (min (sliceBound l.length a) (sliceBound l.length b)).toNat).take
        ((max (sliceBound l.length a) (sliceBound l.length b)).toNat -
          (min (sliceBound l.length a) (sliceBound l.length b)).toNat)
      if sliceBound l.length b < sliceBound l.length a then s.reverse else s := by
  unfold sliced
  simp only [section_eq]
  split
  · rename_i h; rw [min_eq_right h.le, max_eq_left h.le]
  · rename_i h; rw [min_eq_left (not_lt.1 h), max_eq_right (not_lt.1 h)]

theorem sliceList_eq (l : List Value) (a b : Int) (hl : (l.length : Int) < 2 ^ 53)
    (hpos : 0 ≤ sliceBound l.length a ∨ 0 ≤ sliceBound l.length b)
    (ha : a < 2 ^ 63 - 512) (hb : b < 2 ^ 63 - 512) : sliceList l a b = some (sliced l a b) := by
  obtain ⟨B, E, hbd, hE, hB⟩ := bounds_eq hl hpos ha hb
  rw [sliced_eq]
  unfold sliceList
  rw [hbd]
  simp only
  generalize sliceBound l.length a = p at *
  generalize sliceBound l.length b = q at *
  have hmax : 0 ≤ max p q := by omega
  by_cases hlt : B > (l.length : Int)
  · rw [if_pos hlt]
    have hbig : l.length ≤ (min p q).toNat := by
      split at hB <;> omega
    rw [List.drop_of_length_le hbig]
    simp
  · rw [if_neg hlt]
    have hB' : B = max (min p q) 0 := by
      split at hB
      · exact hB
      · omega
    have hBE : B ≤ E := by omega
    rw [if_neg (by omega), mapM_range_getElem l _ _ (by omega)]
    have e1 : B.toNat = (min p q).toNat := by omega
    have e2 : (l.drop (min p q).toNat).take (E - B).toNat =
        (l.drop (min p q).toNat).take ((max p q).toNat - (min p q).toNat) := by
      rcases le_or_gt (max p q) l.length with h | h
      · congr 1; omega
      · rw [List.take_of_length_le (by rw [List.length_drop]; omega),
          List.take_of_length_le (by rw [List.length_drop]; omega)]
    rw [e1, e2]
    by_cases h : q < p
    · simp [h, ListOps.reverse_eq]
    · simp [h]

theorem sliceText_eq (s : Text) (a b : Int) (hl : (s.length : Int) < 2 ^ 53)
    (hpos : 0 ≤ sliceBound s.length a ∨ 0 ≤ sliceBound s.length b)
    (hin : min (sliceBound s.length a) (sliceBound s.length b) ≤ s.length)
    (ha : a < 2 ^ 63 - 512) (hb : b < 2 ^ 63 - 512) : sliceText s a b = some (sliced s a b) := by
  obtain ⟨B, E, hbd, hE, hB⟩ := bounds_eq hl hpos ha hb
  rw [sliced_eq]
  unfold sliceText
  rw [hbd]
  simp only
  generalize sliceBound s.length a = p at *
  generalize sliceBound s.length b = q at *
  have hmax : 0 ≤ max p q := by omega
  have hB' : B = max (min p q) 0 := by
    split at hB
    · exact hB
    · omega
  unfold Strings.goSlice
  rw [if_pos ⟨by omega, by omega, by omega⟩]
  have e1 : B.toNat = (min p q).toNat := by omega
  have e2 : (s.drop (min p q).toNat).take (E - B).toNat =
      (s.drop (min p q).toNat).take ((max p q).toNat - (min p q).toNat) := by
    rcases le_or_gt (max p q) s.length with h | h
    · congr 1; omega
    · rw [List.take_of_length_le (by rw [List.length_drop]; omega),
        List.take_of_length_le (by rw [List.length_drop]; omega)]
  rw [e1, e2]
  by_cases h : q < p
  · simp [h, reverseString]
  · simp [h]

theorem slice_two (l : List Value) (a b : Int) (ha : InInt64 a) (hb : InInt64 b) :
    slice (.list l) [.int a, .int b] = (sliceList l a b).map .list := by
  unfold slice sliceInternal
  simp only [convertArgs, Bool.not_false, if_true]
  rw [toInt_int ha, toInt_int hb]; rfl

theorem slice_two_text (s : Text) (a b : Int) (ha : InInt64 a) (hb : InInt64 b) :
    slice (.str s) [.int a, .int b] = (sliceText s a b).map .str := by
  unfold slice sliceInternal
  simp only [convertArgs, Bool.not_false, if_true]
  rw [toInt_int ha, toInt_int hb]; rfl

/-! ## C27 -/

/-- C27, partial: `slice l a b` gives the elements between the two bounds, reversed when the second one is before the first one.
What is missing: bounds that both fall before the list, and bounds so large that they are rounded up to `2 ^ 63`. Both are
errors, see the two theorems below. -/
theorem C27_slice_list_partial (l : List Value) (a b : Int) (hl : (l.length : Int) < 2 ^ 53)
    (ha : -2 ^ 63 ≤ a ∧ a < 2 ^ 63 - 512) (hb : -2 ^ 63 ≤ b ∧ b < 2 ^ 63 - 512)
    (hpos : 0 ≤ sliceBound l.length a ∨ 0 ≤ sliceBound l.length b) :
    slice (.list l) [.int a, .int b] = some (.list (sliced l a b)) := by
  rw [slice_two l a b ⟨ha.1, by omega⟩ ⟨hb.1, by omega⟩, sliceList_eq l a b hl hpos ha.2 hb.2]; rfl

example : slice (.list [.int 0, .int 1, .int 2, .int 3, .int 4]) [.int (-2), .int 1] =
    some (.list [.int 3, .int 2, .int 1]) ∧ sliced [0, 1, 2, 3, 4] (-2) 1 = [3, 2, 1] := ⟨rfl, by decide⟩

/-- C27 fails when both bounds fall before the list: an error instead of an empty list. -/
theorem C27_not_before_start :
    slice (.list [.int 1, .int 2, .int 3]) [.int (-10), .int (-9)] = none ∧
      sliced [Value.int 1, .int 2, .int 3] (-10) (-9) = [] ∧
      slice (.list [.int 1, .int 2, .int 3]) [.int 10, .int 11] = some (.list []) := ⟨rfl, rfl, rfl⟩

/-- C27 fails for every list and all bounds that fall before it. -/
theorem C27_not_before_start_general (l : List Value) (a b : Int) (hl : (l.length : Int) < 2 ^ 52)
    (ha : -2 ^ 52 ≤ a) (hb : -2 ^ 52 ≤ b)
    (h1 : sliceBound l.length a < 0) (h2 : sliceBound l.length b < 0) :
    slice (.list l) [.int a, .int b] = none ∧ sliced l a b = [] := by
  have an : a < 0 := by unfold sliceBound at h1; split at h1 <;> omega
  have bn : b < 0 := by unfold sliceBound at h2; split at h2 <;> omega
  constructor
  · rw [slice_two l a b ⟨by omega, by omega⟩ ⟨by omega, by omega⟩]
    unfold sliceList bounds
    have e1 : (if a < 0 then (l.length : Int) + a + 1 else a) = sliceBound l.length a := rfl
    have e2 : (if b < 0 then (l.length : Int) + b + 1 else b) = sliceBound l.length b := rfl
    have l1 : -2 ^ 52 ≤ sliceBound l.length a := by unfold sliceBound; split <;> omega
    have l2 : -2 ^ 52 ≤ sliceBound l.length b := by unfold sliceBound; split <;> omega
    simp only [e1, e2]
    generalize sliceBound l.length a = p at *
    generalize sliceBound l.length b = q at *
    have hm : ∀ e : Int, e < 0 → -2 ^ 52 ≤ e → minInt e l.length = e := by
      intro e he he'
      unfold minInt
      rw [F64.rnd_int (n := e) (by rw [abs_of_neg he]; omega),
        F64.rnd_int (n := (l.length : Int)) (by rw [abs_of_nonneg (by omega)]; omega), ← Int.cast_min, toInt64_cast]
      · omega
      · exact ⟨by omega, by omega⟩
    by_cases h : q < p
    · simp only [h, decide_true, if_true]
      rw [hm p h1 l1, maxInt_eq (by omega), if_neg (by omega), if_pos (by omega)]; rfl
    · simp only [h, decide_false, Bool.false_eq_true, if_false]
      rw [hm q h2 l2, maxInt_eq (by omega), if_neg (by omega), if_pos (by omega)]; rfl
  · rw [sliced_eq]
    have : (max (sliceBound l.length a) (sliceBound l.length b)).toNat = 0 := by omega
    simp [this]

/-- C27 fails for bounds near the largest integer: an error instead of an empty list. -/
theorem C27_not_huge :
    slice (.list [.int 1]) [.int (2 ^ 63 - 1), .int (2 ^ 63 - 1)] = none ∧
      slice (.list [.int 1]) [.int (2 ^ 62), .int (2 ^ 62)] = some (.list []) := ⟨rfl, rfl⟩

/-- C27, partial, on texts: the same, for bounds that do not both fall outside of the text on the same side. -/
theorem C27_slice_text_partial (s : Text) (a b : Int) (hl : (s.length : Int) < 2 ^ 53)
    (ha : -2 ^ 63 ≤ a ∧ a < 2 ^ 63 - 512) (hb : -2 ^ 63 ≤ b ∧ b < 2 ^ 63 - 512)
    (hpos : 0 ≤ sliceBound s.length a ∨ 0 ≤ sliceBound s.length b)
    (hin : sliceBound s.length a ≤ s.length ∨ sliceBound s.length b ≤ s.length) :
    slice (.str s) [.int a, .int b] = some (.str (sliced s a b)) := by
  rw [slice_two_text s a b ⟨ha.1, by omega⟩ ⟨hb.1, by omega⟩, sliceText_eq s a b hl hpos (by omega) ha.2 hb.2]; rfl

example : slice (.str (T "abcdef")) [.int 1, .int (-3)] = some (.str (T "bcd")) := rfl

/-- C27 on texts fails when both bounds fall after the text: an error instead of an empty text. -/
theorem C27_not_after_text :
    slice (.str (T "abc")) [.int 4, .int 5] = none ∧ sliced (T "abc") 4 5 = [] := ⟨rfl, rfl⟩

/-- C27. `rest` and `initial` drop the first and the last element. -/
theorem C27_rest_initial (l : List Value) (hl : (l.length : Int) < 2 ^ 53) :
    rest (.list l) = some (.list (l.drop 1)) ∧ initial (.list l) = some (.list (l.take (l.length - 1))) := by
  constructor
  · unfold rest
    rw [C27_slice_list_partial l 1 (-1) hl (by omega) (by omega) (Or.inl (by simp [sliceBound])), sliced_eq]
    have e1 : sliceBound l.length 1 = 1 := rfl
    have e2 : sliceBound l.length (-1) = l.length := by unfold sliceBound; rw [if_pos (by omega)]; omega
    rw [e1, e2]
    simp only
    split
    · have : l = [] := List.length_eq_zero_iff.1 (by omega)
      simp [this]
    · have m1 : (min (1 : Int) l.length).toNat = 1 := by omega
      have m2 : (max (1 : Int) l.length).toNat = l.length := by omega
      rw [m1, m2, List.take_of_length_le (by rw [List.length_drop])]
  · unfold initial
    rw [C27_slice_list_partial l 0 (-2) hl (by omega) (by omega) (Or.inl (by simp [sliceBound])), sliced_eq]
    have e1 : sliceBound l.length 0 = 0 := rfl
    have e2 : sliceBound l.length (-2) = l.length - 1 := by unfold sliceBound; rw [if_pos (by omega)]; omega
    rw [e1, e2]
    simp only
    split
    · have : l = [] := List.length_eq_zero_iff.1 (by omega)
      simp [this]
    · have m1 : (min (0 : Int) ((l.length : Int) - 1)).toNat = 0 := by omega
      have m2 : (max (0 : Int) ((l.length : Int) - 1)).toNat = l.length - 1 := by omega
      rw [m1, m2]; simp

/-- C27. The first element with `rest`, and `initial` with the last element, recompose the list. -/
theorem C27_recompose (x : Value) (l : List Value) (hl : (l.length : Int) < 2 ^ 52) :
    (∃ r, rest (.list (x :: l)) = some (.list r) ∧ x :: r = x :: l) ∧
    (∃ r, initial (.list (l ++ [x])) = some (.list r) ∧ r ++ [x] = l ++ [x]) := by
  constructor
  · exact ⟨l, by rw [(C27_rest_initial (x :: l) (by rw [List.length_cons]; omega)).1]; rfl, rfl⟩
  · refine ⟨l, ?_, rfl⟩
    rw [(C27_rest_initial (l ++ [x]) (by rw [List.length_append, List.length_singleton]; omega)).2]
    simp

/-! ## C28 -/

theorem selectElement_eq (l : List Value) (i : Int) : selectElement l i = elementAt l i := by
  unfold selectElement elementAt
  by_cases h : 0 ≤ i
  · have h' : ¬ i < 0 := by omega
    simp [h, h']
  · have h' : i < 0 := by omega
    simp only [h, h', if_true, if_false]
    split
    · rw [List.getElem?_reverse (by omega)]
      congr 1; omega
    · rw [List.getElem?_eq_none]
      simp; omega

theorem selectChar_eq (s : Text) (i : Int) : selectChar s i = (elementAt s i).map (fun c => [c]) := by
  unfold selectChar elementAt Strings.goSlice
  have one : ∀ k : Nat, k < s.length → (s.drop k).take 1 = [s[k]!] := by
    intro k hk
    have e : s.drop k = s[k] :: s.drop (k + 1) := List.drop_eq_getElem_cons hk
    rw [e, List.take_succ_cons, List.take_zero, getElem!_pos s k hk]
  by_cases h : 0 ≤ i
  · have h' : ¬ i < 0 := by omega
    simp only [h, h', if_true, if_false, true_and]
    by_cases hk : i + 1 ≤ s.length
    · rw [if_pos ⟨by omega, hk⟩, show (i + 1 - i).toNat = 1 by omega, one _ (by omega),
        List.getElem?_eq_getElem (by omega)]
      simp [show i.toNat < s.length by omega]
    · rw [if_neg (by omega), List.getElem?_eq_none (by omega)]; rfl
  · have h' : i < 0 := by omega
    simp only [h, h', if_true, if_false]
    by_cases hk : 0 ≤ (s.length : Int) + i
    · rw [if_pos ⟨hk, by omega, by omega⟩, show ((s.length : Int) + i + 1 - (s.length + i)).toNat = 1 by omega,
        one _ (by omega), List.getElem?_reverse (by omega),
        show s.length - 1 - (-i - 1).toNat = ((s.length : Int) + i).toNat by omega, List.getElem?_eq_getElem (by omega)]
      simp [show ((s.length : Int) + i).toNat < s.length by omega]
    · rw [if_neg (by omega), List.getElem?_eq_none (by simp; omega)]; rfl

/-- C28. `slice l i` (and `extract l i`) is the element at position `i`, or an error when there is none. -/
theorem C28_select (l : List Value) (i : Int) (hi : InInt64 i) :
    slice (.list l) [.int i] = elementAt l i ∧ extract (.list l) [.int i] = elementAt l i := by
  constructor <;>
  · first | unfold slice | unfold extract
    unfold sliceInternal
    simp only [convertArgs, asList]
    rw [toInt_int hi, Option.bind_some, selectElement_eq]

/-- C28. The same on texts: the character at position `i`, as a text. -/
theorem C28_select_text (s : Text) (i : Int) (hi : InInt64 i) :
    slice (.str s) [.int i] = (elementAt s i).map (fun c => .str [c]) ∧
      extract (.str s) [.int i] = (elementAt s i).map (fun c => .str [c]) := by
  constructor <;>
  · first | unfold slice | unfold extract
    unfold sliceInternal
    simp only [convertArgs, asList]
    rw [toInt_int hi, Option.bind_some, selectChar_eq]
    cases elementAt s i <;> rfl

theorem mapM_toInt {β : Type} (is : List Int) (h : ∀ i ∈ is, InInt64 i) (f : Int → Option β) :
    (is.map Value.int).mapM (fun a => (toInt a).bind f) = is.mapM f := by
  induction is with
  | nil => rfl
  | cons i is ih =>
    rw [List.map_cons, List.mapM_cons, List.mapM_cons, toInt_int (h i (by simp)), ih (fun j hj => h j (by simp [hj]))]
    rfl

theorem mapM_some_iff {α β : Type} (f : α → Option β) (l : List α) (r : List β) :
    l.mapM f = some r ↔ l.map f = r.map some := by
  induction l generalizing r with
  | nil => cases r <;> simp
  | cons x l ih =>
    rw [List.mapM_cons]
    cases hx : f x with
    | none => cases r <;> simp [hx]
    | some y =>
      cases hl : l.mapM f with
      | none =>
        have : ∀ r : List β, l.map f ≠ r.map some := fun r e => by
          have := (ih r).2 e; rw [hl] at this; cases this
        cases r with
        | nil => simp
        | cons z r => simp [this]
      | some ys =>
        have := (ih ys).1 hl
        cases r with
        | nil => simp
        | cons z r =>
          simp only [Option.pure_def, Option.bind_eq_bind, Option.bind_some, Option.some.injEq, List.cons.injEq,
            List.map_cons, hx, this]
          constructor
          · rintro ⟨rfl, rfl⟩; exact ⟨rfl, rfl⟩
          · rintro ⟨h1, h2⟩
            exact ⟨h1, (List.map_inj_right (fun _ _ e => Option.some.inj e)).1 h2⟩

theorem length_mapM {α β : Type} {f : α → Option β} {l : List α} {r : List β} (h : l.mapM f = some r) :
    r.length = l.length := by
  have := congrArg List.length ((mapM_some_iff f l r).1 h)
  simpa using this.symm

/-- C28. `extract l i1 i2 ...` is the list of the elements at these positions, in this order; it is an error when one of them
does not exist. -/
theorem C28_extract (l : List Value) (is : List Int) (hi : ∀ i ∈ is, InInt64 i) (h2 : 2 ≤ is.length) (v : Value) :
    extract (.list l) (is.map .int) = some v ↔
      ∃ r, v = .list r ∧ is.map (elementAt l) = r.map some := by
  have e : extract (.list l) (is.map .int) = (is.mapM (elementAt l)).map .list := by
    match is, h2, hi with
    | i :: j :: is, _, hi =>
      have hm := mapM_toInt (i :: j :: is) hi (elementAt l)
      have hs : selectElement l = elementAt l := funext (selectElement_eq l)
      have hfill : ∀ r, (i :: j :: is).mapM (elementAt l) = some r →
          ListOps.fill 0 r (ListOps.create ((i :: j :: is).map Value.int).length) = r := by
        intro r hr
        rw [List.length_map, ← length_mapM hr, ListOps.fill_create]
      have hgen : ∀ args : List Value, args = (i :: j :: is).map Value.int →
          (args.mapM (fun a => (toInt a).bind (selectElement l))).map
            (fun results => Value.list (ListOps.fill 0 results (ListOps.create args.length))) =
          ((i :: j :: is).mapM (elementAt l)).map .list := by
        rintro args rfl
        rw [hs, hm]
        cases hr : (i :: j :: is).mapM (elementAt l) with
        | none => rfl
        | some r => simp only [Option.map_some]; rw [hfill r hr]
      unfold extract sliceInternal
      cases is with
      | nil => exact hgen _ rfl
      | cons k is => exact hgen _ rfl
  rw [e, Option.map_eq_some_iff]
  constructor
  · rintro ⟨r, hr, rfl⟩; exact ⟨r, rfl, (mapM_some_iff _ _ _).1 hr⟩
  · rintro ⟨r, rfl, hr⟩; exact ⟨r, (mapM_some_iff _ _ _).2 hr, rfl⟩

/-- C28. On texts `extract` concatenates the selected characters. -/
theorem C28_extract_text (s : Text) (is : List Int) (hi : ∀ i ∈ is, InInt64 i) (h2 : 2 ≤ is.length) (v : Value) :
    extract (.str s) (is.map .int) = some v ↔
      ∃ r, v = .str r ∧ is.map (elementAt s) = r.map some := by
  have e : extract (.str s) (is.map .int) = (is.mapM (elementAt s)).map .str := by
    match is, h2, hi with
    | i :: j :: is, _, hi =>
      have hm := mapM_toInt (i :: j :: is) hi (fun i => (elementAt s i).map (fun c => [c]))
      have hs : selectChar s = fun i => (elementAt s i).map (fun c => [c]) := funext (selectChar_eq s)
      have hflat : ∀ l : List Int, (l.mapM (fun i => (elementAt s i).map (fun c => [c]))).map List.flatten =
          l.mapM (elementAt s) := by
        intro l
        induction l with
        | nil => rfl
        | cons x l ih =>
          rw [List.mapM_cons, List.mapM_cons, ← ih]
          cases elementAt s x with
          | none => rfl
          | some y => cases l.mapM (fun i => (elementAt s i).map (fun c => [c])) <;> rfl
      have hgen : ∀ args : List Value, args = (i :: j :: is).map Value.int →
          (args.mapM (fun a => (toInt a).bind (selectChar s))).map (fun results => Value.str results.flatten) =
          ((i :: j :: is).mapM (elementAt s)).map .str := by
        rintro args rfl
        rw [hs, hm, ← hflat]
        cases (i :: j :: is).mapM (fun i => (elementAt s i).map (fun c => [c])) <;> rfl
      unfold extract sliceInternal
      cases is with
      | nil => exact hgen _ rfl
      | cons k is => exact hgen _ rfl
  rw [e, Option.map_eq_some_iff]
  constructor
  · rintro ⟨r, hr, rfl⟩; exact ⟨r, rfl, (mapM_some_iff _ _ _).1 hr⟩
  · rintro ⟨r, rfl, hr⟩; exact ⟨r, (mapM_some_iff _ _ _).2 hr, rfl⟩

example : extract (.str (T "hello")) [.int (-1), .int 0, .int 0] = some (.str (T "ohh")) ∧
    extract (.list [.int 7, .nil]) [.int (-2), .int 2] = none := ⟨rfl, rfl⟩

/-- C28. `safeIndex` returns the default exactly when the index is out of range, and the element otherwise. -/
theorem C28_safeIndex (l : List Value) (i : Int) (dflt : Value) :
    (0 ≤ i ∧ i < l.length → safeIndex (.list l) i dflt = elementAt l i) ∧
    (i < 0 ∨ (l.length : Int) ≤ i → safeIndex (.list l) i dflt = some dflt) := by
  unfold safeIndex elementAt
  simp only
  constructor
  · rintro ⟨h1, h2⟩
    rw [if_neg (by omega), if_pos h1]
  · intro h
    rw [if_pos (by omega)]

/-! ## C29 -/

/-- C29. `slice d k1 k2` gives the values of exactly the keys from `k1` to `k2`, in increasing key order, or in decreasing key
order when `k1` is greater than `k2`. -/
theorem C29_slice_dict (d : Dict) (hw : GoMap.WF d) (k1 k2 : Value) :
    ∃ ks : List Text, slice (.dict d) [k1, k2] = some (.list (ks.map (fun k => (GoMap.get? d k).getD .nil))) ∧
      (Text.le (sprint k1) (sprint k2) = true →
        ks.Pairwise (fun a b => Text.lt a b = true) ∧
        ∀ k, k ∈ ks ↔ (GoMap.get? d k).isSome ∧ Text.le (sprint k1) k = true ∧ Text.le k (sprint k2) = true) ∧
      (Text.lt (sprint k2) (sprint k1) = true →
        ks.Pairwise (fun a b => Text.lt b a = true) ∧
        ∀ k, k ∈ ks ↔ (GoMap.get? d k).isSome ∧ Text.le (sprint k2) k = true ∧ Text.le k (sprint k1) = true) := by
  have key : ∀ (ks : List Text) (lo hi : Text),
      (ks.map Value.str).foldl (fun results k =>
        if Text.le lo (sprint k) && Text.le (sprint k) hi then
          ListOps.append results [DictOps.get d [.str (sprint k)]] else results) [] =
      (ks.filter (fun k => Text.le lo k && Text.le k hi)).map (fun k => (GoMap.get? d k).getD .nil) := by
    intro ks lo hi
    have gen : ∀ (ks : List Text) (acc : List Value),
        (ks.map Value.str).foldl (fun results k =>
          if Text.le lo (sprint k) && Text.le (sprint k) hi then
            ListOps.append results [DictOps.get d [.str (sprint k)]] else results) acc =
        acc ++ (ks.filter (fun k => Text.le lo k && Text.le k hi)).map (fun k => (GoMap.get? d k).getD .nil) := by
      intro ks
      induction ks with
      | nil => simp
      | cons k ks ih =>
        intro acc
        simp only [List.map_cons, List.foldl_cons, DictOps.sprint_str]
        rw [ih, List.filter_cons]
        cases Text.le lo k && Text.le k hi with
        | false => simp
        | true =>
          simp only [if_true, List.map_cons]
          simp [ListOps.append, ListOps.add, DictOps.get, DictOps.getOne]
    simpa using gen ks []
  have mem : ∀ k, k ∈ DictOps.keysAsString d ↔ (GoMap.get? d k).isSome := fun k => DictOps.mem_keysAsString
  have srt := (DictOps.keysAre d hw).1
  have unf : slice (.dict d) [k1, k2] = sliceMap d false [k1, k2] := rfl
  rw [unf]
  unfold sliceMap
  simp only [Bool.not_false, if_true]
  cases hlt : Text.lt (sprint k2) (sprint k1) with
  | true =>
    refine ⟨(DictOps.keysAsString d).reverse.filter (fun k => Text.le (sprint k2) k && Text.le k (sprint k1)), ?_, ?_, ?_⟩
    · simp only [if_true]
      rw [ListOps.reverse_eq, DictOps.getKeys_eq, ← List.map_reverse, key]
    · intro hle
      have := (Text.lt_iff _ _).1 hlt
      exact absurd (Text.le_antisymm _ _ this.1 hle) this.2
    · intro _
      refine ⟨(List.pairwise_reverse.2 srt).filter _, ?_⟩
      intro k
      simp [mem]
  | false =>
    refine ⟨(DictOps.keysAsString d).filter (fun k => Text.le (sprint k1) k && Text.le k (sprint k2)), ?_, ?_, ?_⟩
    · simp only [Bool.false_eq_true, if_false]
      rw [DictOps.getKeys_eq, key]
    · intro _
      refine ⟨srt.filter _, ?_⟩
      intro k
      simp [mem]
    · intro h; cases h

example : slice (.dict [(T "b", .int 2), (T "a", .int 1), (T "d", .int 4), (T "c", .int 3)]) [.str (T "c"), .str (T "aa")] =
    some (.list [.int 3, .int 2]) := rfl

/-- C29. More than two keys are refused by `slice`; `extract` gives the value of each key, nil for a missing one. -/
theorem C29_many_keys (d : Dict) (ks : List Value) :
    (3 ≤ ks.length → slice (.dict d) ks = none) ∧
    (2 ≤ ks.length → extract (.dict d) ks = some (.list (ks.map (fun k => (GoMap.get? d (sprint k)).getD .nil)))) := by
  constructor
  · intro h
    match ks, h with
    | _ :: _ :: _ :: _, _ => rfl
  · intro h
    have hgen : ∀ args : List Value, ListOps.fill 0 (args.map (fun key => DictOps.get d [key])) (ListOps.create args.length) =
        args.map (fun k => (GoMap.get? d (sprint k)).getD .nil) := by
      intro args
      have := ListOps.fill_create (args.map (fun key => DictOps.get d [key]))
      rw [List.length_map] at this
      rw [this]; rfl
    match ks, h with
    | [a, b], _ =>
      have : extract (.dict d) [a, b] = some (.list (ListOps.fill 0 ([a, b].map (fun key => DictOps.get d [key])) (ListOps.create [a, b].length))) := rfl
      rw [this, hgen]
    | a :: b :: c :: r, _ =>
      have : extract (.dict d) (a :: b :: c :: r) = some (.list (ListOps.fill 0 ((a :: b :: c :: r).map (fun key => DictOps.get d [key])) (ListOps.create (a :: b :: c :: r).length))) := rfl
      rw [this, hgen]

/-! ## Other numbers of arguments -/

/-- Without an index, `slice` and `extract` return the list or the text itself. -/
theorem C27_no_index (l : List Value) (s : Text) (ex : Bool) :
    sliceInternal (.list l) ex [] = some (.list l) ∧ sliceInternal (.str s) ex [] = some (.str s) := ⟨rfl, rfl⟩

/-- The indexes may be given as one list of at least two. -/
theorem C27_list_of_indexes (v : Value) (ex : Bool) (a b : Value) (rest : List Value) :
    sliceInternal v ex [.list (a :: b :: rest)] = sliceInternal v ex (a :: b :: rest) := rfl

/-- More than two indexes are refused by `slice`. -/
theorem C27_too_many (v : Value) (a b c : Value) (rest : List Value) : slice v (a :: b :: c :: rest) = none := by
  cases v <;> rfl

/-- Something that is neither a list, a text nor a dictionary cannot be sliced. -/
theorem C27_other_values (v : Value) (args : List Value) (ex : Bool) (h1 : ∀ l, v ≠ .list l) (h2 : ∀ s, v ≠ .str s)
    (h3 : ∀ d, v ≠ .dict d) : sliceInternal v ex args = none := by
  cases v <;> first | rfl | exact absurd rfl (h1 _) | exact absurd rfl (h2 _) | exact absurd rfl (h3 _)

example : slice (.int 12) [.int 0] = none := C27_other_values _ _ _ (by simp) (by simp) (by simp)

end Verif
