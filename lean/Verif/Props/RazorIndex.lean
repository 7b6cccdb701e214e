import Verif.Lemmas.RazorIndex
import Verif.Props.Slices
/-!
# C36: partial slices of razor index expressions are completed
-/

namespace Verif.Props
open Spec Razor

/-- The state of `completeFrom` after a text. -/
def advance (o : Option Text) (s : Text) : Option Text :=
  s.foldl (fun o c => if c = '[' then some [] else o.map (fun w => w ++ [c])) o

theorem advance_cons (o : Option Text) (c : Char) (s : Text) :
    advance o (c :: s) = advance (if c = '[' then some [] else o.map (fun w => w ++ [c])) s := rfl

theorem advance_append (o : Option Text) (s t : Text) : advance o (s ++ t) = advance (advance o s) t := by
  unfold advance; rw [List.foldl_append]

theorem isNegative_bracket {w : Text} (h : ']' ∈ w ∨ '[' ∈ w) : isNegative w = false := by
  cases hn : isNegative w with
  | false => rfl
  | true =>
    unfold isNegative at hn
    split at hn
    · simp at hn h
      rcases h with h | h <;> exact absurd (hn.2 _ h) (by decide)
    · cases hn

theorem completed_state {s t : Text} (h : Completed s t) (o : Option Text) :
    advance o s = o.map (fun w => w ++ s) ∨ ('[' ∈ s ∧ ∃ w, advance o s = some w ∧ ']' ∈ w) := by
  have tail : ∀ {s : Text} {w : Text}, ']' ∈ w →
      (∀ o : Option Text, advance o s = o.map (fun w => w ++ s) ∨ ('[' ∈ s ∧ ∃ w, advance o s = some w ∧ ']' ∈ w)) →
      ∃ v, advance (some w) s = some v ∧ ']' ∈ v := by
    intro s w hw ih
    rcases ih (some w) with h | ⟨_, h⟩
    · exact ⟨w ++ s, h, by simp [hw]⟩
    · exact h
  induction h generalizing o with
  | nil => left; cases o <;> simp [advance]
  | @char c s t hc _ ih =>
    have hb : c ≠ '[' := by simp at hc; exact hc.1
    rw [advance_cons, if_neg hb]
    rcases ih (o.map (fun w => w ++ [c])) with h | ⟨h1, h2⟩
    · left; rw [h]; cases o <;> simp
    · right; exact ⟨by simp [h1], h2⟩
  | @all s t _ ih =>
    right
    refine ⟨by simp, ?_⟩
    simp only [advance_cons, if_true]
    exact tail (by simp) ih
  | @index i j s t _ _ _ ihi ihs =>
    right
    refine ⟨by simp, ?_⟩
    rw [advance_cons, if_pos rfl, advance_append, advance_cons, if_neg (by decide)]
    rcases ihi (some []) with h | ⟨_, w, h, _⟩ <;> rw [h] <;> exact tail (by simp) ihs
  | @slice a a' b b' s t _ _ _ iha ihb ihs =>
    right
    refine ⟨by simp, ?_⟩
    rw [advance_cons, if_pos rfl, advance_append, advance_cons, if_neg (by decide), advance_append, advance_cons, if_neg (by decide)]
    obtain ⟨u, hu⟩ : ∃ u, advance (some []) a = some u := by
      rcases iha (some []) with h | ⟨_, w, h, _⟩ <;> rw [h]
      · exact ⟨_, rfl⟩
      · exact ⟨_, rfl⟩
    rw [hu]
    rcases ihb (some (u ++ [':'])) with h | ⟨_, w, h, _⟩ <;> simp only [Option.map_some, h] <;> exact tail (by simp) ihs

theorem completed_negative {a a' : Text} (h : Completed a a') : (advance (some []) a).any isNegative = isNegative a := by
  rcases completed_state h (some []) with h | ⟨h1, w, h2, h3⟩
  · rw [h]; simp
  · rw [h2, isNegative_bracket (Or.inr h1)]
    simp [isNegative_bracket (Or.inl h3)]

theorem completed_head {s t : Text} (h : Completed s t) : s.head? ≠ some ']' ∧ s.head? ≠ some ':' := by
  cases h with
  | nil => simp
  | char hc _ => simp at hc ⊢; exact hc.2
  | _ => simp

theorem completed_nil_iff {s t : Text} (h : Completed s t) : s = [] ↔ t = [] := by
  cases h <;> simp [T]

theorem missing_none {o : Option Text} {c : Char} {n : Option Char} (h : c ≠ '[' ∧ c ≠ ':') : missing o c n = [] := by
  simp [missing, h]

theorem completeFrom_append {s t : Text} (h : Completed s t) (o : Option Text) (rest : Text) :
    completeFrom o (s ++ rest) = t ++ completeFrom (advance o s) rest := by
  induction h generalizing o rest with
  | nil => rfl
  | @char c s t hc _ ih =>
    simp at hc
    rw [List.cons_append, completeFrom, missing_none ⟨hc.1, hc.2.2⟩, ih, if_neg hc.1, advance_cons, if_neg hc.1]
    rfl
  | @all s t _ ih =>
    simp only [List.cons_append, completeFrom, if_true]
    rw [missing_none (c := ']') (by decide), ih]
    simp [missing, T, advance_cons]
  | @index i j s t hne hi _ ihi ihs =>
    have hh := completed_head hi
    have hm : missing o '[' (i ++ ']' :: s ++ rest).head? = [] := by
      cases i with
      | nil => exact absurd rfl hne
      | cons d i => simp at hh; simp [missing, hh]
    simp only [List.cons_append, completeFrom, if_true, hm]
    rw [List.append_assoc, ihi, List.cons_append, completeFrom, missing_none (c := ']') (by decide), ihs, advance_cons, advance_append,
      advance_cons]
    simp
  | @slice a a' b b' s t ha hb _ iha ihb ihs =>
    have hha := completed_head ha
    have hhb := completed_head hb
    have hm : missing o '[' (a ++ ':' :: (b ++ ']' :: s) ++ rest).head? ++ a' = firstBound a' := by
      cases a with
      | nil =>
        have : a' = [] := (completed_nil_iff ha).1 rfl
        subst this
        simp [missing, firstBound]
      | cons d a =>
        have hn : a' ≠ [] := fun e => by have := (completed_nil_iff ha).2 e; simp at this
        simp at hha
        simp [missing, hha, firstBound, hn]
    have hm2 : missing (advance (some []) a) ':' (b ++ ']' :: (s ++ rest)).head? ++ b' = lastBound a b' := by
      cases b with
      | nil =>
        have : b' = [] := (completed_nil_iff hb).1 rfl
        subst this
        simp [missing, lastBound, completed_negative ha]
      | cons d b =>
        have hn : b' ≠ [] := fun e => by have := (completed_nil_iff hb).2 e; simp at this
        simp at hhb
        simp [missing, hhb, lastBound, hn]
    rw [List.cons_append, completeFrom, if_pos rfl, List.append_assoc, iha, ← List.append_assoc, ← List.append_assoc, hm,
      List.cons_append, completeFrom, if_neg (by decide), List.append_assoc, List.cons_append, ihb, ← List.append_assoc (missing _ _ _), hm2, completeFrom,
      missing_none (c := ']') (by decide), ihs, advance_cons, advance_append, advance_cons, advance_append, advance_cons]
    simp

/-- C36: every expression with brackets is completed: omitted bounds are added, at every level of nesting, and nothing else changes. -/
theorem C36_complete {s t : Text} (h : Completed s t) : indexExpression s = t := by
  rw [indexExpression_eq, complete]
  have := completeFrom_append h none []
  simpa [completeFrom] using this

/-- `a[:x[1:]]+b[-2:]+c[]` -/
example : indexExpression (T "a[:x[1:]]+b[-2:]+c[]") = T "a[0:x[1:-1]]+b[-2:0]+c[0:-1]" := by
  have w : ∀ s : Text, (∀ c ∈ s, c ∉ ['[', ']', ':']) → ∀ r t, Completed r t → Completed (s ++ r) (s ++ t) := by
    intro s
    induction s with
    | nil => intro _ r t h; exact h
    | cons c s ih => intro hs r t h; exact .char (hs c (by simp)) (ih (fun x hx => hs x (by simp [hx])) r t h)
  have c := w (T "+c") (by decide) _ _ (.all .nil)
  have b := w (T "+b") (by decide) _ _ (.slice (w (T "-2") (by decide) _ _ .nil) .nil c)
  have x := w (T "x") (by decide) _ _ (.slice (w (T "1") (by decide) _ _ .nil) .nil .nil)
  exact C36_complete (w (T "a") (by decide) _ _ (.slice .nil x b))

/-- C36, for every text, even with unbalanced brackets: the result is the text with the missing bounds inserted. -/
theorem C36_any_text (s : Text) : indexExpression s = complete s := indexExpression_eq s

/-- No bound is omitted. -/
def noGap : Text → Bool
  | [] => true
  | c :: s => !(c == '[' && (s.head? == some ']' || s.head? == some ':')) && !(c == ':' && s.head? == some ']') && noGap s

theorem completeFrom_noGap {s : Text} (h : noGap s = true) (o : Option Text) : completeFrom o s = s := by
  induction s generalizing o with
  | nil => rfl
  | cons c s ih =>
    simp only [noGap, Bool.and_eq_true] at h
    have hm : missing o c s.head? = [] := by
      simp at h
      unfold missing
      by_cases h1 : c = '['
      · have := h.1.1.resolve_left (fun e => e h1)
        simp [h1, this]
      · by_cases h2 : c = ':'
        · have := h.1.2.resolve_left (fun e => e h2)
          simp [h2, this]
        · simp [h1, h2]
    rw [completeFrom, hm, ih h.2]
    rfl

theorem noGap_completeFrom (s : Text) (o : Option Text) : noGap (completeFrom o s) = true := by
  induction s generalizing o with
  | nil => rfl
  | cons c s ih =>
    rw [completeFrom]
    generalize (if c = '[' then some [] else o.map (fun w => w ++ [c])) = o'
    have ih := ih o'
    have hh : (completeFrom o' s).head? = s.head? := by cases s <;> rfl
    unfold missing
    split
    · rename_i h
      simp [T, noGap, h.1, hh, h.2, ih]
    · split
      · rename_i h
        simp [T, noGap, h.1, hh, h.2, ih]
      · split
        · rename_i h
          split <;> simp [T, noGap, h.1, hh, ih]
        · rename_i h1 h2 h3
          simp [noGap, hh, ih]
          simp at h1 h2 h3
          refine ⟨?_, ?_⟩
          · by_cases e : c = '['
            · exact Or.inr ⟨h1 e, h2 e⟩
            · exact Or.inl e
          · by_cases e : c = ':'
            · exact Or.inr (h3 e)
            · exact Or.inl e

/-- C36: an expression without omitted bound is unchanged. -/
theorem C36_unchanged {s : Text} (h : noGap s = true) : indexExpression s = s := by
  rw [indexExpression_eq]; exact completeFrom_noGap h none

example : noGap (T "x[-3] + y[1:n][2, 3:4]") = true := by decide

/-- C36: completing twice is completing once. -/
theorem C36_idempotent (s : Text) : indexExpression (indexExpression s) = indexExpression s := by
  apply C36_unchanged
  rw [indexExpression_eq]
  exact noGap_completeFrom s none

/-! ## What the completed bounds select -/

/-- C36: with the bounds added, `slice` gives what the short form stands for: everything, the first elements, the elements from a
position. -/
theorem C36_meaning (l : List Value) (hl : (l.length : Int) < 2 ^ 53) (n : Nat) (hn : (n : Int) < 2 ^ 63 - 512) :
    Slice.slice (.list l) [.int 0, .int (-1)] = some (.list l) ∧
    Slice.slice (.list l) [.int 0, .int n] = some (.list (l.take n)) ∧
    Slice.slice (.list l) [.int n, .int (-1)] = some (.list (l.drop n)) := by
  have b1 : sliceBound l.length (-1) = l.length := by simp [sliceBound]
  have b0 : sliceBound l.length 0 = 0 := rfl
  have bn : sliceBound l.length n = n := by simp [sliceBound]
  refine ⟨?_, ?_, ?_⟩
  · rw [C27_slice_list_partial l 0 (-1) hl (by omega) (by omega) (Or.inl (by simp [sliceBound])), sliced_eq, b1, b0]
    simp
  · rw [C27_slice_list_partial l 0 n hl (by omega) (by omega) (Or.inl (by simp [sliceBound])), sliced_eq, bn, b0]
    have c : ¬ ((n : Int) < 0) := by omega
    simp [c]
  · rw [C27_slice_list_partial l n (-1) hl (by omega) (by omega) (Or.inr (by simp [sliceBound])), sliced_eq, bn, b1]
    by_cases h : n ≤ l.length
    · have c : ¬ ((l.length : Int) < n) := by omega
      have e1 : min (n : Int) l.length = n := by omega
      have e2 : max (n : Int) l.length = l.length := by omega
      simp only [e1, e2, if_neg c, Int.toNat_natCast]
      rw [List.take_of_length_le (by simp)]
    · have c : (l.length : Int) < n := by omega
      have e1 : min (n : Int) l.length = l.length := by omega
      have e2 : l.drop n = [] := List.drop_eq_nil_of_le (by omega)
      simp only [e1, if_pos c, Int.toNat_natCast, List.drop_length, e2, List.take_nil, List.reverse_nil]

/-- C36: `[-n:]` takes the elements backwards, from the one before the last `n - 1` elements to the first one. -/
theorem C36_meaning_negative (l : List Value) (hl : (l.length : Int) < 2 ^ 53) (n : Nat) (h1 : 1 ≤ n) (h2 : n ≤ l.length) :
    Slice.slice (.list l) [.int (-n), .int 0] = some (.list (l.take (l.length + 1 - n)).reverse) := by
  have b0 : sliceBound l.length 0 = 0 := rfl
  have bn : sliceBound l.length (-n) = l.length + 1 - n := by simp [sliceBound]; omega
  rw [C27_slice_list_partial l (-n) 0 hl (by omega) (by omega) (Or.inr (by simp [sliceBound])), sliced_eq, bn, b0]
  have c : (0 : Int) < l.length + 1 - n := by omega
  have e1 : max ((l.length : Int) + 1 - n) 0 = (l.length + 1 - n : Nat) := by omega
  have e2 : min ((l.length : Int) + 1 - n) 0 = 0 := by omega
  simp only [e1, e2, if_pos c, Int.toNat_natCast]
  simp

example : Slice.slice (.list [.int 1, .int 2, .int 3]) [.int (-2), .int 0] = some (.list [.int 2, .int 1]) := rfl

/-! ## The call that is built -/

/-- C36: an index with a `:` is a slice between its two bounds. -/
theorem C36_call_slice (parse : Text → Option Text) {a b : Text} (ha : ∀ c ∈ a, c ∉ ['[', ']', ':']) (hb : ∀ c ∈ b, c ∉ ['[', ']', ':']) :
    indexCall parse ('[' :: (a ++ ':' :: (b ++ [']']))) =
      (do let x ← parse (firstBound a); let y ← parse (lastBound a b); some (T "slice", [x, y])) := by
  have w : ∀ s : Text, (∀ c ∈ s, c ∉ ['[', ']', ':']) → Completed s s := by
    intro s
    induction s with
    | nil => intro _; exact .nil
    | cons c s ih => intro hs; exact .char (hs c (by simp)) (ih (fun x hx => hs x (by simp [hx])))
  have e := C36_complete (.slice (w a ha) (w b hb) .nil)
  have na : ':' ∉ firstBound a := by
    unfold firstBound
    split
    · decide
    · intro h; exact ha ':' h (by decide)
  have nb : ':' ∉ lastBound a b := by
    unfold lastBound
    split
    · intro h; exact hb ':' h (by decide)
    · split <;> decide
  unfold indexCall
  simp only [e]
  have e2 : (List.drop 1 ('[' :: (firstBound a ++ ':' :: (lastBound a b ++ [']'])))).dropLast = firstBound a ++ ':' :: lastBound a b := by
    simp [List.dropLast_append_of_ne_nil, List.dropLast_cons_of_ne_nil]
  rw [e2]
  have e3 : ':' ∈ firstBound a ++ ':' :: lastBound a b := by simp
  simp only [e3, if_true]
  rw [Text.splitC_append _ na, Text.splitC_of_not_mem nb]
  cases h1 : parse (firstBound a) <;> cases h2 : parse (lastBound a b) <;> simp [List.mapM_cons, h1, h2]

/-- C36: an index without `:` extracts the listed elements. -/
theorem C36_call_extract (parse : Text → Option Text) {is : List Text} (hne : is ≠ []) (hnn : is ≠ [[]])
    (h : ∀ i ∈ is, ∀ c ∈ i, c ∉ ['[', ']', ':', ',']) :
    indexCall parse ('[' :: (Text.join [','] is ++ [']'])) = (is.mapM parse).map (fun v => (T "extract", v)) := by
  have hj : ∀ c ∈ Text.join [','] is, c ∉ ['[', ']', ':'] := by
    intro c hc
    clear hne hnn
    induction is with
    | nil => simp [Text.join] at hc
    | cons a as ih =>
      cases as with
      | nil =>
        simp [Text.join] at hc
        have := h a (by simp) c hc
        simp at this ⊢
        simp [this]
      | cons b bs =>
        rw [Text.join_cons_cons] at hc
        simp only [List.mem_append, List.mem_singleton] at hc
        rcases hc with (hc | rfl) | hc
        · have := h a (by simp) c hc
          simp at this ⊢
          simp [this]
        · decide
        · exact ih (fun i hi => h i (by simp [hi])) hc
  have hne' : Text.join [','] is ≠ [] := by
    cases is with
    | nil => exact absurd rfl hne
    | cons a as =>
      cases as with
      | nil => simp [Text.join]; intro e; exact hnn (by rw [e])
      | cons b bs => rw [Text.join_cons_cons]; simp
  have hg : noGap ('[' :: (Text.join [','] is ++ [']'])) = true := by
    have aux : ∀ t : Text, (∀ c ∈ t, c ∉ ['[', ']', ':']) → noGap (t ++ [']']) = true := by
      intro t
      induction t with
      | nil => intro _; rfl
      | cons c t ih =>
        intro ht
        have := ht c (by simp)
        simp at this
        simp [noGap, this, ih (fun x hx => ht x (by simp [hx]))]
    have hd : ∀ c, (Text.join [','] is ++ [']']).head? = some c → c ∉ ['[', ']', ':'] := by
      intro c hc
      cases hx : Text.join [','] is with
      | nil => exact absurd hx hne'
      | cons d t =>
        rw [hx] at hc
        simp at hc
        subst hc
        exact hj d (by rw [hx]; simp)
    have h1 : (Text.join [','] is ++ [']']).head? ≠ some ']' := fun e => hd _ e (by decide)
    have h2 : (Text.join [','] is ++ [']']).head? ≠ some ':' := fun e => hd _ e (by decide)
    simp only [noGap, beq_eq_false_iff_ne.2 h1, beq_eq_false_iff_ne.2 h2, aux _ hj]
    rfl
  unfold indexCall
  simp only [C36_unchanged hg]
  have e2 : (List.drop 1 ('[' :: (Text.join [','] is ++ [']']))).dropLast = Text.join [','] is := by simp
  rw [e2]
  have e3 : ':' ∉ Text.join [','] is := fun hc => hj _ hc (by decide)
  simp only [e3, if_false]
  rw [Text.splitC_join hne (fun i hi hc => h i hi _ hc (by decide))]

/-- C36 is false for a key that contains a `:`: `["a:b"]` is taken for a slice between `"a` and `b"`. -/
theorem C36_not_quoted_colon : indexCall some (T "[\"a:b\"]") = some (T "slice", [T "\"a", T "b\""]) := by decide

example : indexCall some (T "[1:n]") = some (T "slice", [T "1", T "n"]) :=
  C36_call_slice some (a := T "1") (b := T "n") (by decide) (by decide)
example : indexCall some (T "[1,n]") = some (T "extract", [T "1", T "n"]) :=
  C36_call_extract some (is := [T "1", T "n"]) (by decide) (by decide) (by decide)
example : Slice.slice (.list [.int 5, .int 6, .int 7]) [.int 1, .int (-1)] = some (.list [.int 6, .int 7]) :=
  (C36_meaning [.int 5, .int 6, .int 7] (by decide) 1 (by decide)).2.2


end Verif.Props
