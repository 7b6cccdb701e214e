import Verif.Lemmas.RazorRules
/-!
# More lemmas about replacements
-/

namespace Verif.Lemmas
open Text

/-- Induction along a replacement. -/
theorem replace_induction {k : Text} (hk : k ≠ []) {P : Text → Prop} (nil : P []) (hit : ∀ s, P s → P (k ++ s))
    (skip : ∀ c s, hasPrefix k (c :: s) = false → P s → P (c :: s)) (s : Text) : P s := by
  have key : ∀ n (s : Text), s.length ≤ n → P s := by
    intro n
    induction n with
    | zero => intro s h; rw [List.length_eq_zero_iff.1 (Nat.le_zero.1 h)]; exact nil
    | succ n ih =>
      intro s h
      cases s with
      | nil => exact nil
      | cons c s =>
        cases hp : hasPrefix k (c :: s) with
        | false => exact skip c s hp (ih s (by simpa using h))
        | true =>
          obtain ⟨r, hr⟩ := hasPrefix_iff.1 hp
          rw [← hr]
          refine hit r (ih r ?_)
          have h1 := congrArg List.length hr
          have h2 := List.length_pos_iff.2 hk
          simp only [List.length_append, List.length_cons] at h1 h
          omega
  exact key s.length s (Nat.le_refl _)

/-- A beginning of the result without the first character of the new text is a beginning of the text. -/
theorem prefix_replaceAll {k w q : Text} {x : Char} (hx : x ∉ q) {s : Text} (h : q <+: replaceAll k (x :: w) s) : q <+: s := by
  induction q generalizing s with
  | nil => simp
  | cons a q ih =>
    cases s with
    | nil => rw [replaceAll_nil] at h; exact h
    | cons c s =>
      simp only [List.mem_cons, not_or] at hx
      cases hp : hasPrefix k (c :: s) with
      | false =>
        rw [replaceAll_skip hp, List.cons_prefix_cons] at h
        rw [List.cons_prefix_cons]
        exact ⟨h.1, ih hx.2 h.2⟩
      | true =>
        by_cases hk : k = []
        · subst hk; exact h
        · obtain ⟨r, hr⟩ := hasPrefix_iff.1 hp
          rw [← hr, replaceAll_match _ _ hk, List.cons_append, List.cons_prefix_cons] at h
          exact absurd h.1.symm hx.1

/-- A text found in two joined texts, without the last character of the first one, is in one of them. -/
theorem infix_append_of_last {q a b : Text} {y : Char} (hy : y ∉ q) (h : q <:+: a ++ [y] ++ b) : q <:+: a ++ [y] ∨ q <:+: b := by
  induction a with
  | nil =>
    simp only [List.nil_append, List.singleton_append] at h
    rcases List.infix_cons_iff.1 h with h | h
    · cases q with
      | nil => left; exact List.nil_infix
      | cons c q =>
        rw [List.cons_prefix_cons] at h
        exact absurd (by simp [h.1]) hy
    · right; exact h
  | cons c a ih =>
    simp only [List.cons_append] at h
    rcases List.infix_cons_iff.1 h with h | h
    · left
      have h2 : c :: (a ++ [y]) <+: c :: (a ++ [y] ++ b) := by rw [← List.cons_append]; exact List.prefix_append _ _
      rcases List.prefix_or_prefix_of_prefix h h2 with h3 | h3
      · exact h3.isInfix
      · exact absurd (h3.subset (by simp)) hy
    · rcases ih h with h | h
      · left; exact List.infix_cons h
      · right; exact h

/-- A text that has neither the first nor the last character of the new text, and is not in it, was there before. -/
theorem infix_replaceAll {k v q w w' : Text} {x y : Char} (hv : v = x :: w) (hv' : v = w' ++ [y]) (hx : x ∉ q) (hy : y ∉ q)
    (hq : ¬ q <:+: v) (hk : k ≠ []) {s : Text} (h : q <:+: replaceAll k v s) : q <:+: s := by
  revert h
  refine replace_induction hk (P := fun s => q <:+: replaceAll k v s → q <:+: s) ?_ ?_ ?_ s
  · intro h; rwa [replaceAll_nil] at h
  · intro s ih h
    rw [replaceAll_match _ _ hk, hv'] at h
    rcases infix_append_of_last hy h with h | h
    · rw [← hv'] at h; exact absurd h hq
    · rw [← hv'] at h; exact (ih h).trans (List.suffix_append _ _).isInfix
  · intro c s hp ih h
    have h0 := h
    rw [replaceAll_skip hp] at h
    rcases List.infix_cons_iff.1 h with h | h
    · rw [← replaceAll_skip hp, hv] at h
      exact (prefix_replaceAll hx h).isInfix
    · exact List.infix_cons (ih h)

/-- Nothing is left to be replaced. -/
theorem not_infix_replaceAll {k v w w' : Text} {x y : Char} (hv : v = x :: w) (hv' : v = w' ++ [y]) (hx : x ∉ k) (hy : y ∉ k)
    (hq : ¬ k <:+: v) (hk : k ≠ []) (s : Text) : ¬ k <:+: replaceAll k v s := by
  refine replace_induction hk (P := fun s => ¬ k <:+: replaceAll k v s) ?_ ?_ ?_ s
  · rw [replaceAll_nil, List.infix_nil]; exact hk
  · intro s ih h
    rw [replaceAll_match _ _ hk, hv'] at h
    rcases infix_append_of_last hy h with h | h
    · rw [← hv'] at h; exact hq h
    · rw [← hv'] at h; exact ih h
  · intro c s hp ih h
    rw [replaceAll_skip hp] at h
    rcases List.infix_cons_iff.1 h with h | h
    · rw [← replaceAll_skip hp, hv] at h
      rw [hasPrefix_iff.2 (prefix_replaceAll hx h)] at hp
      cases hp
    · exact ih h

/-- A replacement works line by line. -/
theorem replaceAll_join {k v : Text} {sep : Char} (hs : sep ∉ k) (ls : List Text) :
    replaceAll k v (join [sep] ls) = join [sep] (ls.map (replaceAll k v)) := by
  by_cases hk : k = []
  · subst hk
    have : replaceAll ([] : Text) v = id := by funext s; simp [replaceAll]
    rw [this]; simp
  · induction ls with
    | nil => exact replaceAll_nil _ _
    | cons l ls ih =>
      cases ls with
      | nil => rfl
      | cons m ls =>
        rw [join_cons_cons, replaceAll_cut hk (by simp) (by simpa using hs), ih]
        rfl

/-- When nothing is found nothing changes. -/
theorem replaceAll_free {k v s : Text} (h : ¬ k <:+: s) : replaceAll k v s = s := by
  apply replaceAll_of_not_contains
  cases hc : contains k s with
  | false => rfl
  | true => exact absurd (contains_iff.1 hc) h

/-- A part in which nothing begins is kept. -/
theorem replaceAll_over {k v : Text} {s : Text} : ∀ {m : Text}, (∀ a b, m = a ++ b → b ≠ [] → ¬ k <+: b ++ s) →
    replaceAll k v (m ++ s) = m ++ replaceAll k v s := by
  intro m
  induction m with
  | nil => intro _; rfl
  | cons c m ih =>
    intro h
    have hp : hasPrefix k (c :: (m ++ s)) = false := by
      cases hh : hasPrefix k (c :: (m ++ s)) with
      | false => rfl
      | true => exact absurd (hasPrefix_iff.1 hh) (h [] (c :: m) rfl (by simp))
    rw [List.cons_append, replaceAll_skip hp, ih (fun a b e hb => h (c :: a) b (by rw [e]; rfl) hb), List.cons_append]

end Verif.Lemmas
