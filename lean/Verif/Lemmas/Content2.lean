import Verif.Lemmas.Content

/-! Lemmas about the values that are not defined and about the number of delimiters in a code. -/

namespace Verif.Lemmas

open Text Razor Spec Verif.Content

/-! ## Values that are not defined -/

theorem hide_no (s : Text) : hideNoValue (noValue ++ s) = noValueRepl ++ hideNoValue s := by
  unfold hideNoValue
  rw [replaceAll_match _ _ (by decide)]
  exact replaceAll_pass (o := '<') (os := T "nil>") (by decide)

theorem hide_nil (s : Text) : hideNoValue (nilValue ++ s) = nilValueRepl ++ hideNoValue s := by
  unfold hideNoValue
  have e : nilValue = '<' :: T "nil>" := by decide
  have h1 : replaceAll noValue noValueRepl (nilValue ++ s) = nilValue ++ replaceAll noValue noValueRepl s := by
    apply replaceAll_over
    intro a b eab hb hp
    cases a with
    | nil =>
      simp only [List.nil_append] at eab
      rw [← eab] at hp
      exact not_prefix_of_take (k := noValue) (m := nilValue) 3 (by decide) (by decide) (by decide) s hp
    | cons a0 a =>
      obtain ⟨b0, b, rfl⟩ := List.exists_cons_of_ne_nil hb
      rw [e] at eab
      simp only [List.cons_append, List.cons.injEq] at eab
      have hm : b0 ∈ T "nil>" := by rw [eab.2]; simp
      have : noValue = '<' :: T "no value>" := by decide
      rw [this, List.cons_append, List.cons_prefix_cons] at hp
      rw [← hp.1] at hm
      exact absurd hm (by decide)
  rw [h1, replaceAll_match _ _ (by decide)]

theorem hide_skip {c : Char} {s : Text} (h1 : ¬ noValue <+: c :: s) (h2 : ¬ nilValue <+: c :: s) : hideNoValue (c :: s) = c :: hideNoValue s := by
  have p1 : hasPrefix noValue (c :: s) = false := by
    cases hp : hasPrefix noValue (c :: s) with
    | false => rfl
    | true => exact absurd (hasPrefix_iff.1 hp) h1
  unfold hideNoValue
  have e : noValueRepl = '!' :: T "NO_VALUE!" := by decide
  have p2 : hasPrefix nilValue (c :: replaceAll noValue noValueRepl s) = false := by
    cases hp : hasPrefix nilValue (c :: replaceAll noValue noValueRepl s) with
    | false => rfl
    | true =>
      have := hasPrefix_iff.1 hp
      rw [← replaceAll_skip p1, e] at this
      exact absurd (prefix_replaceAll (by decide) this) h2
  rw [replaceAll_skip p1, replaceAll_skip p2]

/-- Induction along the two replacements. -/
theorem hide_induction {P : Text → Prop} (nil : P []) (no : ∀ s, P s → P (noValue ++ s)) (nl : ∀ s, P s → P (nilValue ++ s))
    (skip : ∀ c s, ¬ noValue <+: c :: s → ¬ nilValue <+: c :: s → P s → P (c :: s)) (s : Text) : P s := by
  have key : ∀ n (s : Text), s.length ≤ n → P s := by
    intro n
    induction n with
    | zero => intro s h; rw [List.length_eq_zero_iff.1 (Nat.le_zero.1 h)]; exact nil
    | succ n ih =>
      intro s h
      cases s with
      | nil => exact nil
      | cons c s =>
        by_cases h1 : noValue <+: c :: s
        · obtain ⟨r, hr⟩ := h1
          rw [← hr]
          refine no r (ih r ?_)
          have := congrArg List.length hr
          have e : noValue.length = 10 := by decide
          simp only [List.length_append, List.length_cons, e] at this h
          omega
        · by_cases h2 : nilValue <+: c :: s
          · obtain ⟨r, hr⟩ := h2
            rw [← hr]
            refine nl r (ih r ?_)
            have := congrArg List.length hr
            have e : nilValue.length = 5 := by decide
            simp only [List.length_append, List.length_cons, e] at this h
            omega
          · exact skip c s h1 h2 (ih s (by simpa using h))
  exact key s.length s (Nat.le_refl _)

/-- A beginning of the result of `hideNoValue` without exclamation mark is a beginning of the text. -/
theorem prefix_hide {q s : Text} (hq : '!' ∉ q) (h : q <+: hideNoValue s) : q <+: s := by
  unfold hideNoValue at h
  have e1 : noValueRepl = '!' :: T "NO_VALUE!" := by decide
  have e2 : nilValueRepl = '!' :: T "NIL_VALUE!" := by decide
  rw [e1, e2] at h
  exact prefix_replaceAll hq (prefix_replaceAll hq h)

theorem infix_hide {q s : Text} (hq : '!' ∉ q) (h1 : ¬ q <:+: noValueRepl) (h2 : ¬ q <:+: nilValueRepl) (h : q <:+: hideNoValue s) : q <:+: s := by
  unfold hideNoValue at h
  exact infix_replaceAll (v := noValueRepl) (w := T "NO_VALUE!") (w' := T "!NO_VALUE") (x := '!') (y := '!') (by decide) (by decide) hq hq h1 (by decide)
    (infix_replaceAll (v := nilValueRepl) (w := T "NIL_VALUE!") (w' := T "!NIL_VALUE") (x := '!') (y := '!') (by decide) (by decide) hq hq h2 (by decide) h)

/-- The texts are not in the code any more. -/
theorem hide_free (s : Text) : ¬ noValue <:+: hideNoValue s ∧ ¬ nilValue <:+: hideNoValue s := by
  have first : ¬ noValue <:+: replaceAll noValue noValueRepl s :=
    not_infix_replaceAll (k := noValue) (v := noValueRepl) (w := T "NO_VALUE!") (w' := T "!NO_VALUE") (x := '!') (y := '!') (by decide +kernel) (by decide +kernel)
      (by decide +kernel) (by decide +kernel) (by decide +kernel) (by decide +kernel) s
  unfold hideNoValue
  generalize replaceAll noValue noValueRepl s = t at first
  constructor
  · intro h
    exact first (infix_replaceAll (k := nilValue) (q := noValue) (v := nilValueRepl) (w := T "NIL_VALUE!") (w' := T "!NIL_VALUE") (x := '!') (y := '!')
      (by decide +kernel) (by decide +kernel) (by decide +kernel) (by decide +kernel) (by decide +kernel) (by decide +kernel) h)
  · exact not_infix_replaceAll (k := nilValue) (v := nilValueRepl) (w := T "NIL_VALUE!") (w' := T "!NIL_VALUE") (x := '!') (y := '!') (by decide +kernel) (by decide +kernel)
      (by decide +kernel) (by decide +kernel) (by decide +kernel) (by decide +kernel) t

/-- The texts written in a content are found again. -/
theorem show_hide {s : Text} (h1 : ¬ T "NO_VALUE" <:+: s) (h2 : ¬ T "NIL_VALUE" <:+: s) : showNoValue (hideNoValue s) = s := by
  revert h1 h2
  have en : noValueRepl = '!' :: T "NO_VALUE!" := by decide
  have ei : nilValueRepl = '!' :: T "NIL_VALUE!" := by decide
  -- an exclamation mark followed by the rest is not one of the two marks
  have bang : ∀ s : Text, ¬ T "NO_VALUE" <:+: s → ¬ noValueRepl <+: '!' :: hideNoValue s := by
    intro s h hp
    rw [en, List.cons_prefix_cons] at hp
    have e : T "NO_VALUE!" = T "NO_VALUE" ++ ['!'] := by decide
    rw [e] at hp
    exact h (prefix_hide (by decide) ((List.prefix_append _ _).trans hp.2)).isInfix
  have bang2 : ∀ s : Text, ¬ T "NIL_VALUE" <:+: s → ¬ nilValueRepl <+: '!' :: replaceAll noValueRepl noValue (hideNoValue s) := by
    intro s h hp
    rw [ei, List.cons_prefix_cons] at hp
    have e : T "NIL_VALUE!" = T "NIL_VALUE" ++ ['!'] := by decide
    have e' : noValue = '<' :: T "no value>" := by decide
    rw [e, e'] at hp
    exact h (prefix_hide (by decide) (prefix_replaceAll (by decide) ((List.prefix_append _ _).trans hp.2))).isInfix
  refine hide_induction (P := fun s => ¬ T "NO_VALUE" <:+: s → ¬ T "NIL_VALUE" <:+: s → showNoValue (hideNoValue s) = s) ?_ ?_ ?_ ?_ s
  · intro _ _; decide
  · intro s ih h1 h2
    have f1 : ¬ T "NO_VALUE" <:+: s := fun h => h1 (h.trans (List.suffix_append _ _).isInfix)
    have f2 : ¬ T "NIL_VALUE" <:+: s := fun h => h2 (h.trans (List.suffix_append _ _).isInfix)
    rw [hide_no]
    have : showNoValue (noValueRepl ++ hideNoValue s) = noValue ++ showNoValue (hideNoValue s) := by
      unfold showNoValue
      rw [replaceAll_match _ _ (by decide), ei]
      exact replaceAll_pass (o := '!') (by decide)
    rw [this, ih f1 f2]
  · intro s ih h1 h2
    have f1 : ¬ T "NO_VALUE" <:+: s := fun h => h1 (h.trans (List.suffix_append _ _).isInfix)
    have f2 : ¬ T "NIL_VALUE" <:+: s := fun h => h2 (h.trans (List.suffix_append _ _).isInfix)
    rw [hide_nil]
    have over : replaceAll noValueRepl noValue (nilValueRepl ++ hideNoValue s) = nilValueRepl ++ replaceAll noValueRepl noValue (hideNoValue s) := by
      apply replaceAll_over
      intro a b eab hb hp
      cases a with
      | nil =>
        simp only [List.nil_append] at eab
        rw [← eab] at hp
        exact not_prefix_of_take (k := noValueRepl) (m := nilValueRepl) 3 (by decide) (by decide) (by decide) _ hp
      | cons a0 a =>
        have el : nilValueRepl = '!' :: (T "NIL_VALUE" ++ ['!']) := by decide
        rw [el] at eab
        simp only [List.cons_append, List.cons.injEq] at eab
        rcases List.eq_nil_or_concat b with rfl | ⟨b', y, rfl⟩
        · exact hb rfl
        · simp only [List.concat_eq_append, ← List.append_assoc] at eab hp
          have ey := List.append_inj' eab.2 rfl
          simp only [List.cons.injEq, and_true] at ey
          rw [← ey.2] at hp
          cases b' with
          | nil => exact bang s f1 (by simpa using hp)
          | cons b0 b' =>
            rw [en, List.cons_append, List.cons_append, List.cons_prefix_cons] at hp
            have hm : b0 ∈ T "NIL_VALUE" := by rw [ey.1]; simp
            rw [← hp.1] at hm
            exact absurd hm (by decide)
    have : showNoValue (nilValueRepl ++ hideNoValue s) = nilValue ++ showNoValue (hideNoValue s) := by
      unfold showNoValue
      rw [over, replaceAll_match _ _ (by decide)]
    rw [this, ih f1 f2]
  · intro c s p1 p2 ih h1 h2
    have f1 : ¬ T "NO_VALUE" <:+: s := fun h => h1 (List.infix_cons h)
    have f2 : ¬ T "NIL_VALUE" <:+: s := fun h => h2 (List.infix_cons h)
    rw [hide_skip p1 p2]
    have q1 : hasPrefix noValueRepl (c :: hideNoValue s) = false := by
      cases hp : hasPrefix noValueRepl (c :: hideNoValue s) with
      | false => rfl
      | true =>
        have hp' := hasPrefix_iff.1 hp
        have hc : c = '!' := by rw [en, List.cons_prefix_cons] at hp'; exact hp'.1.symm
        rw [hc] at hp'
        exact absurd hp' (bang s f1)
    have q2 : hasPrefix nilValueRepl (c :: replaceAll noValueRepl noValue (hideNoValue s)) = false := by
      cases hp : hasPrefix nilValueRepl (c :: replaceAll noValueRepl noValue (hideNoValue s)) with
      | false => rfl
      | true =>
        have hp' := hasPrefix_iff.1 hp
        have hc : c = '!' := by rw [ei, List.cons_prefix_cons] at hp'; exact hp'.1.symm
        rw [hc] at hp'
        exact absurd hp' (bang2 s f2)
    have : showNoValue (c :: hideNoValue s) = c :: showNoValue (hideNoValue s) := by
      unfold showNoValue
      rw [replaceAll_skip q1, replaceAll_skip q2]
    rw [this, ih f1 f2]

/-- What is looked for in a result. -/
theorem detect_iff (r : Text) : contains noValue (replaceAll nilValue noValue r) = true ↔ noValue <:+: r ∨ nilValue <:+: r := by
  rw [contains_iff]
  constructor
  · intro h
    by_cases hn : nilValue <:+: r
    · exact Or.inr hn
    · rw [replaceAll_free hn] at h; exact Or.inl h
  · intro h
    revert h
    refine hide_induction (P := fun r => noValue <:+: r ∨ nilValue <:+: r → noValue <:+: replaceAll nilValue noValue r) ?_ ?_ ?_ ?_ r
    · intro h
      rcases h with h | h <;> rw [List.infix_nil] at h <;> exact absurd h (by decide)
    · intro s _ _
      have : replaceAll nilValue noValue (noValue ++ s) = noValue ++ replaceAll nilValue noValue s := by
        apply replaceAll_over
        intro a b eab hb hp
        have e : nilValue = '<' :: T "nil>" := by decide
        have e' : noValue = '<' :: T "no value>" := by decide
        cases a with
        | nil =>
          simp only [List.nil_append] at eab
          rw [← eab] at hp
          exact not_prefix_of_take (k := nilValue) (m := noValue) 3 (by decide) (by decide) (by decide) s hp
        | cons a0 a =>
          obtain ⟨b0, b, rfl⟩ := List.exists_cons_of_ne_nil hb
          rw [e'] at eab
          simp only [List.cons_append, List.cons.injEq] at eab
          have hm : b0 ∈ T "no value>" := by rw [eab.2]; simp
          rw [e, List.cons_append, List.cons_prefix_cons] at hp
          rw [← hp.1] at hm
          exact absurd hm (by decide)
      rw [this]
      exact (List.prefix_append _ _).isInfix
    · intro s _ _
      rw [replaceAll_match _ _ (by decide)]
      exact (List.prefix_append _ _).isInfix
    · intro c s p1 p2 ih h
      have p : hasPrefix nilValue (c :: s) = false := by
        cases hp : hasPrefix nilValue (c :: s) with
        | false => rfl
        | true => exact absurd (hasPrefix_iff.1 hp) p2
      rw [replaceAll_skip p]
      apply List.infix_cons
      apply ih
      rcases h with h | h
      · rcases List.infix_cons_iff.1 h with h | h
        · exact absurd h p1
        · exact Or.inl h
      · rcases List.infix_cons_iff.1 h with h | h
        · exact absurd h p2
        · exact Or.inr h

/-! ## The number of delimiters -/

theorem occurrences_append_le (k a b : Text) : occurrences k a + occurrences k b ≤ occurrences k (a ++ b) := by
  induction a with
  | nil => simp [occurrences]
  | cons c a ih =>
    simp only [List.cons_append, occurrences]
    have : (if hasPrefix k (c :: a) = true then 1 else 0) ≤ (if hasPrefix k (c :: (a ++ b)) = true then 1 else 0) := by
      cases h : hasPrefix k (c :: a) with
      | false => simp
      | true =>
        have : hasPrefix k (c :: (a ++ b)) = true := hasPrefix_iff.2 ((hasPrefix_iff.1 h).trans (List.prefix_append (c :: a) b))
        simp [this]
    omega

theorem occurrences_zero {k s : Text} (h : ¬ k <:+: s) : occurrences k s = 0 := by
  induction s with
  | nil => rfl
  | cons c s ih =>
    have h1 : hasPrefix k (c :: s) = false := by
      cases hp : hasPrefix k (c :: s) with
      | false => rfl
      | true => exact absurd (hasPrefix_iff.1 hp).isInfix h
    simp [occurrences, h1, ih (fun hi => h (List.infix_cons hi))]

theorem occurrences_pos {k s : Text} (hk : k ≠ []) (h : k <:+: s) : 0 < occurrences k s := by
  induction s with
  | nil => rw [List.infix_nil] at h; exact absurd h hk
  | cons c s ih =>
    simp only [occurrences]
    rcases List.infix_cons_iff.1 h with h | h
    · simp only [hasPrefix_iff.2 h, if_true]; omega
    · have := ih h; omega

/-- A last character that is not in the text looked for cuts the count. -/
theorem occurrences_cut {k a b : Text} {y : Char} (hk : k ≠ []) (hy : y ∉ k) : occurrences k (a ++ [y] ++ b) = occurrences k (a ++ [y]) + occurrences k b := by
  induction a with
  | nil =>
    have : ∀ s, hasPrefix k (y :: s) = false := by
      intro s
      cases hp : hasPrefix k (y :: s) with
      | false => rfl
      | true =>
        obtain ⟨c, k', rfl⟩ := List.exists_cons_of_ne_nil hk
        have := hasPrefix_iff.1 hp
        rw [List.cons_prefix_cons] at this
        exact absurd (by simp [this.1]) hy
    simp [occurrences, this]
  | cons c a ih =>
    simp only [List.cons_append, occurrences]
    rw [ih]
    have : hasPrefix k (c :: (a ++ [y] ++ b)) = hasPrefix k (c :: (a ++ [y])) := by
      cases h : hasPrefix k (c :: (a ++ [y])) with
      | true => exact hasPrefix_iff.2 ((hasPrefix_iff.1 h).trans (List.prefix_append (c :: (a ++ [y])) b))
      | false =>
        cases h2 : hasPrefix k (c :: (a ++ [y] ++ b)) with
        | false => rfl
        | true =>
          have h3 := hasPrefix_iff.1 h2
          have h4 : c :: (a ++ [y]) <+: c :: (a ++ [y] ++ b) := List.prefix_append (c :: (a ++ [y])) b
          rcases List.prefix_or_prefix_of_prefix h3 h4 with h5 | h5
          · rw [hasPrefix_iff.2 h5] at h; cases h
          · exact absurd (h5.subset (by simp)) hy
    rw [this]; omega

theorem occurrences_join {k : Text} (hk : k ≠ []) {sep : Char} (hs : sep ∉ k) (ls : List Text) :
    occurrences k (join [sep] ls) = (ls.map (occurrences k)).sum := by
  induction ls with
  | nil => rfl
  | cons l ls ih =>
    cases ls with
    | nil => simp [join]
    | cons m ls =>
      rw [join_cons_cons, occurrences_cut hk hs, ih]
      have : occurrences k (l ++ [sep]) = occurrences k l := by
        have h := occurrences_cut (k := k) (a := l) (b := []) (y := sep) hk hs
        induction l with
        | nil =>
          simp only [List.nil_append, occurrences]
          obtain ⟨c, k', rfl⟩ := List.exists_cons_of_ne_nil hk
          have : hasPrefix (c :: k') [sep] = false := by
            cases hp : hasPrefix (c :: k') [sep] with
            | false => rfl
            | true =>
              have := hasPrefix_iff.1 hp
              rw [List.cons_prefix_cons] at this
              exact absurd (by simp [this.1]) hs
          simp [this]
        | cons c l ih =>
          simp only [List.cons_append, occurrences]
          have e : hasPrefix k (c :: (l ++ [sep])) = hasPrefix k (c :: l) := by
            cases h : hasPrefix k (c :: l) with
            | true => exact hasPrefix_iff.2 ((hasPrefix_iff.1 h).trans (List.prefix_append (c :: l) [sep]))
            | false =>
              cases h2 : hasPrefix k (c :: (l ++ [sep])) with
              | false => rfl
              | true =>
                have h3 := hasPrefix_iff.1 h2
                obtain ⟨r, hr⟩ := h3
                rcases List.eq_nil_or_concat r with rfl | ⟨r', z, rfl⟩
                · rw [List.append_nil] at hr
                  exact absurd (by rw [hr]; simp) hs
                · simp only [List.concat_eq_append, ← List.append_assoc] at hr
                  rw [← List.cons_append] at hr
                  have := List.append_inj_left' hr rfl
                  rw [hasPrefix_iff.2 ⟨r', this⟩] at h; cases h
          rw [e, ih (occurrences_cut hk hs)]
      rw [this]
      simp

/-- The replacement of a part that has a delimiter removes at least one. -/
theorem occurrences_replaceAll {k q : Text} (hk : k ≠ []) (hq : q ≠ []) (h1 : '"' ∉ q) (h2 : ¬ q <:+: runError) (hkq : q <:+: k) (s : Text) :
    occurrences q (replaceAll k runError s) ≤ occurrences q s ∧ (k <:+: s → occurrences q (replaceAll k runError s) < occurrences q s) := by
  have e1 : runError = T "\"<RUN_ERROR>" ++ ['"'] := by decide
  have e2 : runError = '"' :: T "<RUN_ERROR>\"" := by decide
  have run : ∀ t, occurrences q (runError ++ t) = occurrences q t := by
    intro t
    rw [e1, occurrences_cut hq h1, ← e1, occurrences_zero h2]; omega
  refine replace_induction hk (P := fun s => occurrences q (replaceAll k runError s) ≤ occurrences q s ∧
    (k <:+: s → occurrences q (replaceAll k runError s) < occurrences q s)) ?_ ?_ ?_ s
  · rw [replaceAll_nil]
    exact ⟨Nat.le_refl _, fun h => absurd (List.infix_nil.1 h) hk⟩
  · intro s ih
    rw [replaceAll_match _ _ hk, run]
    have a := occurrences_append_le q k s
    have b := occurrences_pos hq hkq
    exact ⟨by omega, fun _ => by omega⟩
  · intro c s hp ih
    have hstep : (if hasPrefix q (c :: replaceAll k runError s) = true then 1 else 0) ≤ (if hasPrefix q (c :: s) = true then 1 else 0) := by
      cases h : hasPrefix q (c :: replaceAll k runError s) with
      | false => simp
      | true =>
        have h := hasPrefix_iff.1 h
        rw [← replaceAll_skip hp, e2] at h
        simp [hasPrefix_iff.2 (prefix_replaceAll h1 h)]
    rw [replaceAll_skip hp]
    simp only [occurrences]
    refine ⟨by omega, fun hi => ?_⟩
    rcases List.infix_cons_iff.1 hi with h | h
    · rw [hasPrefix_iff.2 h] at hp; cases hp
    · have := ih.2 h; omega

end Verif.Lemmas
