import Verif.Spec.RegexSpec
/-!
# C88 The repetitions of regular expressions
-/

namespace Verif.Props
open Verif Regex Spec

theorem lastOr_append (p : Option Char) (x y : Text) : lastOr p (x ++ y) = lastOr (lastOr p x) y := by
  unfold lastOr
  rw [List.getLast?_append, Option.or_assoc]

theorem copies_append {letter : Char → Bool} {a : Re} {n m : Nat} {p : Option Char} {x y q : Text} {c c₁ c₂ : Caps}
    (h₁ : Copies letter a n p x (y ++ q) c c₁) (h₂ : Copies letter a m (lastOr p x) y q c₁ c₂) : Copies letter a (n + m) p (x ++ y) q c c₂ := by
  generalize hz : y ++ q = z at h₁
  induction h₁ with
  | zero => simpa [lastOr] using h₂
  | @succ n p x₁ x₂ q' c c₁' c₂' k1 k2 ih =>
    subst hz
    rw [List.append_assoc, Nat.add_right_comm]
    refine .succ (by rw [List.append_assoc]; exact k1) (ih ?_ rfl)
    rw [← lastOr_append]
    exact h₂

theorem copies_split {letter : Char → Bool} {a : Re} {n m : Nat} {p : Option Char} {z q : Text} {c c₂ : Caps}
    (h : Copies letter a (n + m) p z q c c₂) : ∃ x y c₁, z = x ++ y ∧ Copies letter a n p x (y ++ q) c c₁ ∧ Copies letter a m (lastOr p x) y q c₁ c₂ := by
  induction n generalizing p z c with
  | zero =>
    rw [Nat.zero_add] at h
    exact ⟨[], z, c, rfl, .zero, by simpa [lastOr] using h⟩
  | succ n ih =>
    rw [Nat.add_right_comm] at h
    cases h with
    | @succ _ _ x₁ x₂ _ _ c₁ _ k1 k2 =>
      obtain ⟨x, y, c', rfl, h1, h2⟩ := ih k2
      refine ⟨x₁ ++ x, y, c', (List.append_assoc ..).symm, .succ (by rw [← List.append_assoc]; exact k1) h1, ?_⟩
      rw [lastOr_append]
      exact h2

theorem copies_one {letter : Char → Bool} {a : Re} {p : Option Char} {x q : Text} {c c' : Caps} : Copies letter a 1 p x q c c' ↔ Fit letter a p x q c c' := by
  constructor
  · intro h
    cases h with
    | succ h1 h2 =>
      cases h2
      simpa using h1
  · intro h
    have := Copies.succ (y := []) (q := q) (by simpa using h) (.zero (letter := letter) (a := a))
    simpa using this

theorem fit_mkSeq {letter : Char → Bool} {a b : Re} {p : Option Char} {x q : Text} {c c' : Caps} :
    Fit letter (mkSeq a b) p x q c c' ↔ Fit letter (.seq a b) p x q c c' := by
  unfold mkSeq
  split
  · constructor
    · intro h
      exact Fit.seq (x := []) .eps (by simpa [lastOr] using h)
    · intro h
      cases h with
      | seq h1 h2 =>
        cases h1
        simpa [lastOr] using h2
  · exact .rfl

theorem fit_times {letter : Char → Bool} {a : Re} {n : Nat} {p : Option Char} {x q : Text} {c c' : Caps} :
    Fit letter (times a n) p x q c c' ↔ Copies letter a n p x q c c' := by
  induction n generalizing p x q c c' with
  | zero =>
    constructor
    · intro h
      cases h
      exact .zero
    · intro h
      cases h
      exact .eps
  | succ n ih =>
    rw [times, fit_mkSeq]
    constructor
    · intro h
      cases h with
      | seq h1 h2 => exact copies_append (ih.1 h1) (copies_one.2 h2)
    · intro h
      obtain ⟨x, y, c₁, rfl, h1, h2⟩ := copies_split h
      exact .seq (ih.2 h1) (copies_one.1 h2)

theorem fit_atMost_copies {letter : Char → Bool} {g : Bool} {a : Re} {n : Nat} {p : Option Char} {x q : Text} {c c' : Caps} :
    Fit letter (atMost g a n) p x q c c' ↔ ∃ k, k ≤ n ∧ Copies letter a k p x q c c' := by
  induction n generalizing p x q c c' with
  | zero =>
    constructor
    · intro h
      cases h
      exact ⟨0, Nat.le_refl _, .zero⟩
    · rintro ⟨k, hk, h⟩
      cases Nat.le_zero.1 hk
      cases h
      exact .eps
  | succ n ih =>
    constructor
    · intro h
      cases h with
      | none => exact ⟨0, Nat.zero_le _, .zero⟩
      | one h =>
        cases h with
        | seq h1 h2 =>
          obtain ⟨k, hk, h⟩ := ih.1 h2
          exact ⟨k + 1, Nat.succ_le_succ hk, .succ h1 h⟩
    · rintro ⟨k, hk, h⟩
      cases h with
      | zero => exact .none
      | succ h1 h2 => exact .one (.seq h1 (ih.2 ⟨_, Nat.le_of_succ_le_succ hk, h2⟩))

theorem fit_star_copies {letter : Char → Bool} {g : Bool} {a : Re} {p : Option Char} {x q : Text} {c c' : Caps} (h : Fit letter (.star g a) p x q c c') :
    ∃ k, Copies letter a k p x q c c' := by
  generalize hr : Re.star g a = r at h
  induction h with
  | done => exact ⟨0, .zero⟩
  | more _ h1 _ _ ih =>
    cases hr
    obtain ⟨k, hk⟩ := ih rfl
    exact ⟨k + 1, .succ h1 hk⟩
  | _ => cases hr

/-- **C88.** `{n,m}` after an expression: at least `n` and at most `m` matches of it, one after the other. -/
theorem C88_bounds (letter : Char → Bool) (a : Re) (s rest : Text) (n m : Nat) (hb : bounds s = some (n, m, rest)) (hnm : n ≤ m) (p : Option Char)
    (x q : Text) (c c' : Caps) :
    Fit letter (quantified a ('{' :: s)).1 p x q c c' ↔ ∃ k, n ≤ k ∧ k ≤ m ∧ Copies letter a k p x q c c' := by
  simp only [quantified, hb]
  constructor
  · intro h
    cases h with
    | seq h1 h2 =>
      obtain ⟨k, hk, h2⟩ := fit_atMost_copies.1 h2
      exact ⟨n + k, Nat.le_add_right .., by omega, copies_append (fit_times.1 h1) h2⟩
  · rintro ⟨k, h1, h2, h⟩
    obtain ⟨j, rfl⟩ := Nat.le.dest h1
    obtain ⟨x, y, c₁, rfl, k1, k2⟩ := copies_split h
    exact .seq (fit_times.2 k1) (fit_atMost_copies.2 ⟨j, by omega, k2⟩)

/-- **C88.** `*`, `+` and `?` after an expression, for the expressions that do not match the empty text. -/
theorem C88_repeated (letter : Char → Bool) (a : Re) (ha : ∀ p q c c', ¬ Fit letter a p [] q c c') (s : Text) (p : Option Char) (x q : Text) (c c' : Caps) :
    (Fit letter (quantified a ('*' :: s)).1 p x q c c' ↔ ∃ k, Copies letter a k p x q c c') ∧
    (Fit letter (quantified a ('+' :: s)).1 p x q c c' ↔ ∃ k, 1 ≤ k ∧ Copies letter a k p x q c c') ∧
    (Fit letter (quantified a ('?' :: s)).1 p x q c c' ↔ ∃ k, k ≤ 1 ∧ Copies letter a k p x q c c') := by
  have star : ∀ {p x q c c'}, Fit letter (.star (greedy s).1 a) p x q c c' ↔ ∃ k, Copies letter a k p x q c c' := by
    intro p x q c c'
    refine ⟨fit_star_copies, ?_⟩
    rintro ⟨k, h⟩
    induction h with
    | zero => exact .done
    | succ h1 _ ih =>
      refine .more ?_ h1 ih
      rintro rfl
      exact ha _ _ _ _ h1
  refine ⟨star, ?_, ?_⟩
  · constructor
    · intro h
      cases h with
      | seq h1 h2 =>
        obtain ⟨k, hk⟩ := star.1 h2
        exact ⟨k + 1, Nat.le_add_left .., .succ h1 hk⟩
    · rintro ⟨k, h1, h⟩
      cases h with
      | zero => cases h1
      | succ k1 k2 => exact .seq k1 (star.2 ⟨_, k2⟩)
  · constructor
    · intro h
      cases h with
      | none => exact ⟨0, Nat.zero_le _, .zero⟩
      | one h => exact ⟨1, Nat.le_refl _, copies_one.2 h⟩
    · rintro ⟨k, h1, h⟩
      cases h with
      | zero => exact .none
      | @succ n p x y q c c₁ c₂ k1 k2 =>
        have : n = 0 := by omega
        subst this
        cases k2
        exact .one (by simpa using k1)

/-- Two or three letters. -/
example : bounds c!"2,3}" = some (2, 3, []) ∧ (∀ p q c c', ¬ Fit (fun _ => true) (.cls ⟨false, [.chr 'a']⟩) p [] q c c') := by
  refine ⟨by decide, ?_⟩
  intro p q c c' h
  cases h

end Verif.Props
