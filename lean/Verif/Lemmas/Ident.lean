import Verif.Model.Ident

/-!
Lemmas about the identifiers made from texts (C78).
-/

namespace Verif.Lemmas
open Verif Verif.Ident

/-- One of each run of `x`; `p` tells that the previous character is `x`. -/
def squeeze (x : Char) : Bool → Text → Text
  | _, [] => []
  | p, c :: s => if c = x then (if p then squeeze x true s else x :: squeeze x true s) else c :: squeeze x false s

theorem squeeze_true (x : Char) (s : Text) : squeeze x true s = squeeze x false (s.dropWhile (· == x)) := by
  induction s with
  | nil => rfl
  | cons c s ih =>
    by_cases h : c = x
    · subst h
      simp only [squeeze, if_true, List.dropWhile_cons, beq_self_eq_true]
      exact ih
    · simp only [squeeze, if_neg h, List.dropWhile_cons, beq_iff_eq]

theorem dropPrefix_single (x c : Char) (s : Text) : Text.dropPrefix? [x] (c :: s) = if x = c then some s else none := by
  simp only [Text.dropPrefix?]

theorem dropRuns_single (x : Char) (s : Text) : ∀ n, s.length ≤ n → dropRuns [x] n s = s.dropWhile (· == x) := by
  induction s with
  | nil =>
    intro n _
    cases n <;> rfl
  | cons c s ih =>
    intro n hn
    cases n with
    | zero => simp at hn
    | succ n =>
      rw [dropRuns, dropPrefix_single]
      by_cases h : c = x
      · subst h
        simp only [if_true, List.dropWhile_cons, beq_self_eq_true]
        exact ih n (by simpa using hn)
      · have h' : ¬ x = c := fun e => h e.symm
        simp only [if_neg h', List.dropWhile_cons, beq_iff_eq, if_neg h]

theorem collapse_single (x : Char) : ∀ (n : Nat) (s : Text), s.length ≤ n → collapse [x] n s = squeeze x false s := by
  intro n
  induction n with
  | zero =>
    intro s hs
    have : s = [] := List.eq_nil_of_length_eq_zero (by omega)
    subst this; rfl
  | succ n ih =>
    intro s hs
    cases s with
    | nil => rfl
    | cons c s =>
      rw [collapse, dropPrefix_single]
      have hs' : s.length ≤ n := by simpa using hs
      by_cases h : c = x
      · subst h
        simp only [if_true, squeeze, Bool.false_eq_true, if_false]
        rw [dropRuns_single _ _ _ (Nat.le_refl _), ih, squeeze_true]
        · rfl
        · exact Nat.le_trans (List.dropWhile_sublist _).length_le hs'
      · have h' : ¬ x = c := fun e => h e.symm
        simp only [if_neg h', squeeze, if_neg h, ih s hs']

theorem squeeze_mem (x : Char) (s : Text) (p : Bool) {c : Char} (h : c ∈ squeeze x p s) : c ∈ s := by
  induction s generalizing p with
  | nil => exact h
  | cons a s ih =>
    simp only [squeeze] at h
    split at h
    · rename_i ha
      split at h
      · exact List.mem_cons_of_mem _ (ih _ h)
      · rcases List.mem_cons.1 h with h | h
        · rw [h, ← ha]; exact List.mem_cons_self
        · exact List.mem_cons_of_mem _ (ih _ h)
    · rcases List.mem_cons.1 h with h | h
      · rw [h]; exact List.mem_cons_self
      · exact List.mem_cons_of_mem _ (ih _ h)

theorem squeeze_true_head (x : Char) (s : Text) : ∀ t, squeeze x true s ≠ x :: t := by
  induction s with
  | nil => intro t h; simp [squeeze] at h
  | cons a s ih =>
    intro t h
    simp only [squeeze] at h
    split at h
    · simp only [if_true] at h
      exact ih t h
    · rename_i ha
      simp only [List.cons.injEq] at h
      exact ha h.1

theorem squeeze_no_double (x : Char) (s : Text) (p : Bool) : ¬ [x, x] <:+: squeeze x p s := by
  induction s generalizing p with
  | nil => simp [squeeze]
  | cons a s ih =>
    simp only [squeeze]
    split
    · split
      · exact ih _
      · intro h
        rcases List.infix_cons_iff.1 h with h | h
        · obtain ⟨t, ht⟩ := h
          simp only [List.cons_append, List.nil_append, List.cons.injEq, true_and] at ht
          exact squeeze_true_head x s t ht.symm
        · exact ih _ h
    · rename_i ha
      intro h
      rcases List.infix_cons_iff.1 h with h | h
      · obtain ⟨t, ht⟩ := h
        simp only [List.cons_append, List.cons.injEq] at ht
        exact ha ht.1.symm
      · exact ih _ h

theorem squeeze_same (x : Char) (s : Text) (h : ¬ [x, x] <:+: s) : squeeze x false s = s ∧ ((∀ t, s ≠ x :: t) → squeeze x true s = s) := by
  induction s with
  | nil => exact ⟨rfl, fun _ => rfl⟩
  | cons a s ih =>
    have ht : ¬ [x, x] <:+: s := fun e => h (List.infix_cons_iff.2 (.inr e))
    have ih := ih ht
    by_cases ha : a = x
    · subst ha
      have hs : ∀ t, s ≠ a :: t := by
        rintro t rfl
        exact h ⟨[], t, by simp⟩
      refine ⟨?_, fun hn => absurd rfl (hn s)⟩
      simp only [squeeze, if_true, Bool.false_eq_true, if_false]
      rw [ih.2 hs]
    · simp only [squeeze, if_neg ha]
      exact ⟨by rw [ih.1], fun _ => by rw [ih.1]⟩

theorem squeeze_filter (x : Char) (s : Text) (p : Bool) : (squeeze x p s).filter (· != x) = s.filter (· != x) := by
  induction s generalizing p with
  | nil => rfl
  | cons a s ih =>
    simp only [squeeze]
    split
    · rename_i ha
      subst ha
      split <;> simp [ih]
    · rename_i ha
      simp [ha, ih]

end Verif.Lemmas
