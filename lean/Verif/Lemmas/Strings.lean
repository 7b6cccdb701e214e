import Verif.Model.Strings
import Verif.Spec.StringSpec
/-! # Lemmas about the string functions -/

namespace Verif.Strings
open Verif Text Spec

/-! ## Occurrences -/

theorem occurs_zero {sub s : Text} : OccursAt sub s 0 ↔ sub <+: s := by
  constructor
  · rintro ⟨a, b, h, ha⟩
    have : a = [] := List.length_eq_zero_iff.1 ha
    subst this
    exact ⟨b, by simpa using h.symm⟩
  · rintro ⟨b, h⟩; exact ⟨[], b, by simpa using h.symm, rfl⟩

theorem occurs_succ {sub s : Text} {c : Char} {i : Nat} : OccursAt sub (c :: s) (i + 1) ↔ OccursAt sub s i := by
  constructor
  · rintro ⟨a, b, h, ha⟩
    cases a with
    | nil => simp at ha
    | cons x a =>
      simp only [List.cons_append, List.cons.injEq] at h
      exact ⟨a, b, h.2, by simpa using ha⟩
  · rintro ⟨a, b, h, ha⟩; exact ⟨c :: a, b, by simp [h], by simp [ha]⟩

theorem occurs_drop {sub s : Text} {n i : Nat} (hn : n ≤ s.length) : OccursAt sub (s.drop n) i ↔ OccursAt sub s (n + i) := by
  induction n generalizing s with
  | zero => simp
  | succ n ih =>
    cases s with
    | nil => simp at hn
    | cons c s =>
      rw [List.drop_succ_cons, ih (by simpa using hn), show n + 1 + i = (n + i) + 1 by omega, occurs_succ]

theorem occurs_le {sub s : Text} {i : Nat} (h : OccursAt sub s i) : i + sub.length ≤ s.length := by
  obtain ⟨a, b, rfl, rfl⟩ := h
  simp

theorem occurs_eq {sub s : Text} {i : Nat} (h : OccursAt sub s i) :
    s = s.take i ++ sub ++ s.drop (i + sub.length) ∧ (s.drop i).take sub.length = sub := by
  obtain ⟨a, b, rfl, rfl⟩ := h
  constructor
  · simp
  · simp

theorem index?_some {p s : Text} {i : Nat} : index? p s = some i ↔ OccursAt p s i ∧ ∀ j, j < i → ¬ OccursAt p s j := by
  induction s generalizing i with
  | nil =>
    simp only [index?]
    split
    · rename_i h; subst h
      simp only [Option.some.injEq]
      constructor
      · rintro rfl; exact ⟨⟨[], [], rfl, rfl⟩, by intro j hj; omega⟩
      · rintro ⟨h, _⟩; have := occurs_le h; simp at this; omega
    · rename_i h
      simp only [reduceCtorEq, false_iff]
      rintro ⟨h2, _⟩
      have := occurs_le h2
      simp at this
      exact h this.2
  | cons c s ih =>
    simp only [index?]
    split
    · rename_i h
      rw [hasPrefix_iff, ← occurs_zero] at h
      simp only [Option.some.injEq]
      constructor
      · rintro rfl; exact ⟨h, by intro j hj; omega⟩
      · rintro ⟨_, h2⟩
        refine Classical.byContradiction fun hne => h2 0 (by omega) h
    · rename_i h
      rw [hasPrefix_iff, ← occurs_zero] at h
      cases i with
      | zero =>
        constructor
        · intro h2
          simp at h2
        · rintro ⟨h2, _⟩; exact absurd h2 h
      | succ i =>
        rw [occurs_succ]
        simp only [Option.map_eq_some_iff]
        constructor
        · rintro ⟨a, h1, h2⟩
          have : a = i := by omega
          subst this
          obtain ⟨h3, h4⟩ := ih.1 h1
          refine ⟨h3, ?_⟩
          intro j hj
          cases j with
          | zero => exact h
          | succ j => rw [occurs_succ]; exact h4 j (by omega)
        · rintro ⟨h1, h2⟩
          refine ⟨i, ih.2 ⟨h1, ?_⟩, rfl⟩
          intro j hj ho
          exact h2 (j + 1) (by omega) (occurs_succ.2 ho)

theorem index?_none {p s : Text} : index? p s = none ↔ ∀ i, ¬ OccursAt p s i := by
  constructor
  · intro h i ho
    induction i using Nat.strongRecOn with
    | ind i ih =>
      by_cases hex : ∃ j, j < i ∧ OccursAt p s j
      · obtain ⟨j, hj, hoj⟩ := hex
        exact ih j hj hoj
      · have := index?_some.2 ⟨ho, fun j hj hoj => hex ⟨j, hj, hoj⟩⟩
        rw [h] at this; cases this
  · intro h
    cases hi : index? p s with
    | none => rfl
    | some i => exact absurd (index?_some.1 hi).1 (h i)

theorem indexAllLoop_greedy (sub s : Text) (hs : sub ≠ []) : ∀ (fuel start : Nat), start ≤ s.length → s.length < start + fuel →
    Greedy sub s start (indexAllLoop sub fuel start (s.drop start)) := by
  have hl : 0 < sub.length := List.length_pos_iff.2 hs
  intro fuel
  induction fuel with
  | zero => intro start h1 h2; omega
  | succ fuel ih =>
    intro start h1 h2
    simp only [indexAllLoop]
    cases hi : index? sub (s.drop start) with
    | none =>
      refine Greedy.done ?_
      intro i hi2 ho
      have := index?_none.1 hi (i - start)
      rw [occurs_drop h1, show start + (i - start) = i by omega] at this
      exact this ho
    | some p =>
      obtain ⟨h3, h4⟩ := index?_some.1 hi
      rw [occurs_drop h1] at h3
      have hle := occurs_le h3
      simp only
      refine Greedy.next h3 (by omega) ?_ ?_
      · intro i hi1 hi2 ho
        have := h4 (i - start) (by omega)
        rw [occurs_drop h1, show start + (i - start) = i by omega] at this
        exact this ho
      · rw [List.drop_drop, show start + (p + sub.length) = start + p + sub.length by omega]
        exact ih (start + p + sub.length) hle (by omega)

theorem indexAll_greedy (s sub : Text) (hs : sub ≠ []) : Greedy sub s 0 (indexAll s sub) := by
  unfold indexAll
  split
  · rename_i h
    rcases h with h | h
    · exact absurd h hs
    · subst h
      refine Greedy.done ?_
      intro i _ ho
      have := occurs_le ho
      simp at this
      exact hs this.2
  · have := indexAllLoop_greedy sub s hs (s.length + 1) 0 (by omega) (by omega)
    simpa using this

theorem greedy_unique {sub s : Text} {from_ : Nat} {p₁ p₂ : List Nat} (h₁ : Greedy sub s from_ p₁) (h₂ : Greedy sub s from_ p₂) :
    p₁ = p₂ := by
  induction h₁ generalizing p₂ with
  | done h =>
    cases h₂ with
    | done _ => rfl
    | next ho hf _ _ => exact absurd ho (h _ hf)
  | @next f p ps ho hf hn hg ih =>
    cases h₂ with
    | done h => exact absurd ho (h _ hf)
    | @next _ p' ps' ho' hf' hn' hg' =>
      have : p = p' := by
        rcases Nat.lt_trichotomy p p' with h | h | h
        · exact absurd ho (hn' p hf h)
        · exact h
        · exact absurd ho' (hn p' hf' h)
      subst this
      rw [ih hg']

theorem greedy_mem {sub s : Text} {from_ : Nat} {ps : List Nat} (h : Greedy sub s from_ ps) :
    ∀ p ∈ ps, OccursAt sub s p ∧ from_ ≤ p := by
  induction h with
  | done h => intro p hp; simp at hp
  | next ho hf _ _ ih =>
    intro q hq
    rcases List.mem_cons.1 hq with rfl | hq
    · exact ⟨ho, hf⟩
    · have := ih q hq; exact ⟨this.1, by omega⟩

theorem greedy_sorted {sub s : Text} {from_ : Nat} {ps : List Nat} (h : Greedy sub s from_ ps) :
    ps.Pairwise (fun a b => a + sub.length ≤ b) := by
  induction h with
  | done h => exact List.Pairwise.nil
  | next ho hf _ hg ih =>
    refine List.Pairwise.cons ?_ ih
    intro q hq
    exact (greedy_mem hg q hq).2

/-- Each occurrence meets one of the listed ones. -/
theorem greedy_complete {sub s : Text} {from_ : Nat} {ps : List Nat} (h : Greedy sub s from_ ps) :
    ∀ i, from_ ≤ i → OccursAt sub s i → ∃ p ∈ ps, p ≤ i ∧ i < p + sub.length ∨ p = i := by
  induction h with
  | done h => intro i hi ho; exact absurd ho (h i hi)
  | @next f p ps ho hf hn hg ih =>
    intro i hi hoi
    rcases Nat.lt_or_ge i p with h1 | h1
    · exact absurd hoi (hn i hi h1)
    · rcases Nat.lt_or_ge i (p + sub.length) with h2 | h2
      · exact ⟨p, by simp, Or.inl ⟨h1, h2⟩⟩
      · obtain ⟨q, hq, hq2⟩ := ih i h2 hoi
        exact ⟨q, by simp [hq], hq2⟩

theorem replaceAll_prefix {old : Text} (new pre s : Text) (hold : old ≠ [])
    (h : ∀ i, i < pre.length → ¬ OccursAt old (pre ++ s) i) : replaceAll old new (pre ++ s) = pre ++ replaceAll old new s := by
  induction pre with
  | nil => rfl
  | cons c pre ih =>
    have h0 : hasPrefix old (c :: (pre ++ s)) = false := by
      cases hp : hasPrefix old (c :: (pre ++ s)) with
      | false => rfl
      | true => exact absurd (occurs_zero.2 (hasPrefix_iff.1 hp)) (h 0 (by simp))
    rw [List.cons_append, replaceAll_skip h0, ih]
    · rfl
    · intro i hi ho
      exact h (i + 1) (by simpa using hi) (occurs_succ.2 ho)

theorem join_between_greedy {sub s : Text} (new : Text) (hs : sub ≠ []) {from_ : Nat} {ps : List Nat} (hle : from_ ≤ s.length)
    (h : Greedy sub s from_ ps) : join new (between s sub.length from_ ps) = replaceAll sub new (s.drop from_) := by
  induction h with
  | @done f h =>
    simp only [between, join]
    rw [replaceAll_of_not_contains]
    cases hc : contains sub (s.drop f) with
    | false => rfl
    | true =>
      obtain ⟨a, b, hab⟩ := contains_iff.1 hc
      have : OccursAt sub (s.drop f) a.length := ⟨a, b, hab.symm, rfl⟩
      rw [occurs_drop hle] at this
      exact absurd this (h _ (by omega))
  | @next f p ps ho hf hn hg ih =>
    have hle2 := occurs_le ho
    rw [between, join_cons_of_ne, ih hle2]
    · have ho2 : OccursAt sub (s.drop f) (p - f) := by
        rw [occurs_drop hle, show f + (p - f) = p by omega]; exact ho
      have he := (occurs_eq ho2).1
      rw [List.drop_drop, show f + (p - f + sub.length) = p + sub.length by omega, List.append_assoc] at he
      have hlen : ((s.drop f).take (p - f)).length = p - f := by simp; omega
      conv => rhs; rw [he]
      rw [replaceAll_prefix new _ _ hs, replaceAll_match _ _ hs, List.append_assoc]
      intro i hi hoi
      rw [← he, occurs_drop hle] at hoi
      rw [hlen] at hi
      exact hn (f + i) (by omega) (by omega) hoi
    · cases ps <;> simp [between]

theorem lastIndex?_some {sub s : Text} {i : Nat} (h : lastIndex? sub s = some i) :
    OccursAt sub s i ∧ ∀ j, i < j → ¬ OccursAt sub s j := by
  have hrev : ∀ j, OccursAt sub s j → OccursAt sub.reverse s.reverse (s.length - sub.length - j) := by
    rintro j ⟨a, b, rfl, rfl⟩
    exact ⟨b.reverse, a.reverse, by simp, by simp; omega⟩
  have hrev2 : ∀ j, OccursAt sub.reverse s.reverse j → OccursAt sub s (s.length - sub.length - j) := by
    rintro j ⟨a, b, h, rfl⟩
    have : s = b.reverse ++ sub ++ a.reverse := by
      have := congrArg List.reverse h; simpa using this
    refine ⟨b.reverse, a.reverse, this, ?_⟩
    rw [this]; simp; omega
  unfold lastIndex? at h
  simp only [Option.map_eq_some_iff] at h
  obtain ⟨k, hk, rfl⟩ := h
  obtain ⟨h1, h2⟩ := index?_some.1 hk
  refine ⟨hrev2 k h1, ?_⟩
  intro j hj ho
  have hle := occurs_le ho
  have hlk := occurs_le h1
  simp at hlk
  exact h2 _ (by omega) (hrev j ho)

theorem lastIndex?_none {sub s : Text} (h : lastIndex? sub s = none) : ∀ i, ¬ OccursAt sub s i := by
  unfold lastIndex? at h
  rw [Option.map_eq_none_iff] at h
  rintro i ⟨a, b, rfl, rfl⟩
  exact index?_none.1 h b.length ⟨b.reverse, a.reverse, by simp, by simp⟩

theorem goSlice_some {s : Text} {i j : Nat} (h1 : i ≤ j) (h2 : j ≤ s.length) :
    goSlice s i j = some ((s.drop i).take (j - i)) := by
  unfold goSlice
  rw [if_pos (by omega)]
  congr 2
  omega

theorem occurs_take {sub s : Text} {n i : Nat} : OccursAt sub (s.take n) i ↔ OccursAt sub s i ∧ (i + sub.length ≤ n) ∧ i + sub.length ≤ s.length := by
  constructor
  · intro h
    have hle := occurs_le h
    rw [List.length_take] at hle
    obtain ⟨a, b, hab, rfl⟩ := h
    refine ⟨⟨a, b ++ s.drop n, ?_, rfl⟩, by omega, by omega⟩
    rw [← List.append_assoc, ← hab, List.take_append_drop]
  · rintro ⟨⟨a, b, rfl, rfl⟩, h, _⟩
    refine ⟨a, b.take (n - (a ++ sub).length), ?_, rfl⟩
    rw [List.take_append, List.take_of_length_le (by simpa using h)]

/-! ## Words -/

theorem wordBegin_eq (brk : Char → Bool) (s : Text) : ∀ (n : Nat), n < s.length → brk (s.getD n ' ') = false →
    ∃ b : Nat, wordBegin brk s n = (b : Int) - 1 ∧ b ≤ n ∧ (∀ i, b ≤ i → i ≤ n → brk (s.getD i ' ') = false) ∧
      (0 < b → brk (s.getD (b - 1) ' ') = true) := by
  intro n
  induction n with
  | zero =>
    intro _ h
    refine ⟨0, by simp only [wordBegin, h]; rfl, by omega, ?_, by omega⟩
    intro i _ hi; have : i = 0 := by omega
    subst this; exact h
  | succ n ih =>
    intro hn h
    have hw : wordBegin brk s (n + 1) = wordBegin brk s n := by simp only [wordBegin, h]; rfl
    rw [hw]
    cases hb : brk (s.getD n ' ') with
    | true =>
      refine ⟨n + 1, ?_, by omega, ?_, by intro _; simpa using hb⟩
      · cases n with
        | zero => simp only [wordBegin, hb]; rfl
        | succ m => simp only [wordBegin, hb]; simp
      · intro i h1 h2; have : i = n + 1 := by omega
        subst this; exact h
    | false =>
      obtain ⟨b, h1, h2, h3, h4⟩ := ih (by omega) hb
      refine ⟨b, h1, by omega, ?_, h4⟩
      intro i hi1 hi2
      by_cases hin : i = n + 1
      · subst hin; exact h
      · exact h3 i hi1 (by omega)

theorem wordAround_unique {sep : Char → Bool} {s : Text} {pos : Nat} {w₁ w₂ : Text} {b₁ b₂ : Nat}
    (h₁ : WordAround sep s pos w₁ b₁) (h₂ : WordAround sep s pos w₂ b₂) : w₁ = w₂ ∧ b₁ = b₂ := by
  have key : ∀ {w₁ w₂ : Text} {b₁ b₂ : Nat}, WordAround sep s pos w₁ b₁ → WordAround sep s pos w₂ b₂ →
      b₁ ≤ b₂ ∧ b₂ + w₂.length ≤ b₁ + w₁.length := by
    rintro w₁ w₂ b₁ b₂ ⟨p₁, q₁, e₁, rfl, hb₁, hc₁, hw₁, hl₁, hr₁⟩ ⟨p₂, q₂, e₂, rfl, hb₂, hc₂, hw₂, hl₂, hr₂⟩
    have hget : ∀ i, p₂.length ≤ i → i < p₂.length + w₂.length → ∃ c, s[i]? = some c ∧ sep c = false := by
      intro i h1 h2
      have hi : i - p₂.length < w₂.length := by omega
      refine ⟨w₂[i - p₂.length], ?_, hw₂ _ (List.getElem_mem hi)⟩
      rw [e₂, List.append_assoc, List.getElem?_append_right h1, List.getElem?_append_left hi, List.getElem?_eq_getElem hi]
    constructor
    · refine Classical.byContradiction fun hlt => ?_
      have hlt : p₂.length < p₁.length := by omega
      have hne : p₁ ≠ [] := by intro e; rw [e] at hlt; simp at hlt
      have := hl₁ p₁.dropLast (p₁.getLast hne) (List.dropLast_concat_getLast hne).symm
      obtain ⟨c, hc, hsc⟩ := hget (p₁.length - 1) (by omega) (by omega)
      rw [e₁, List.append_assoc, List.getElem?_append_left (by omega)] at hc
      rw [← List.getLast?_eq_getElem?, List.getLast?_eq_some_getLast hne] at hc
      simp only [Option.some.injEq] at hc
      rw [hc, hsc] at this; cases this
    · refine Classical.byContradiction fun hlt => ?_
      have hlen : s.length = p₁.length + w₁.length + q₁.length := by rw [e₁]; simp; omega
      have hlen2 : s.length = p₂.length + w₂.length + q₂.length := by rw [e₂]; simp; omega
      cases hq : q₁ with
      | nil => rw [hq] at hlen; simp at hlen; omega
      | cons c q =>
        have := hr₁ c q hq
        obtain ⟨c', hc', hsc⟩ := hget (p₁.length + w₁.length) (by omega) (by omega)
        rw [e₁, List.getElem?_append_right (by simp)] at hc'
        simp [hq] at hc'
        rw [← hc', this] at hsc; cases hsc
  have k1 := key h₁ h₂
  have k2 := key h₂ h₁
  have hb : b₁ = b₂ := by omega
  have hl : w₁.length = w₂.length := by omega
  obtain ⟨p₁, q₁, e₁, l₁, _⟩ := h₁
  obtain ⟨p₂, q₂, e₂, l₂, _⟩ := h₂
  refine ⟨?_, hb⟩
  have : p₁ ++ w₁ ++ q₁ = p₂ ++ w₂ ++ q₂ := e₁.symm.trans e₂
  have h1 := List.append_inj_left this (by simp; omega)
  exact List.append_inj_right h1 (by omega)

theorem wordAt_around (s : Text) (pos : Nat) (accept : Text) (hp : pos < s.length)
    (hb : isBreak accept (s.getD pos ' ') = false) :
    ∃ (w : Text) (b : Nat), wordAt s pos accept = some (w, (b : Int)) ∧ WordAround (isBreak accept) s pos w b := by
  obtain ⟨b, h1, h2, h3, h4⟩ := wordBegin_eq (isBreak accept) s pos hp hb
  -- the part of the text from the position
  generalize hk : ((s.drop pos).takeWhile (fun c => !isBreak accept c)).length = k
  have htw : ∀ c ∈ (s.drop pos).takeWhile (fun c => !isBreak accept c), isBreak accept c = false := by
    intro c hc
    have := List.all_eq_true.1 (List.all_takeWhile (p := fun c => !isBreak accept c) (l := s.drop pos)) c hc
    simpa using this
  have hsplit := List.takeWhile_append_dropWhile (p := fun c => !isBreak accept c) (l := s.drop pos)
  have hkl : pos + k ≤ s.length := by
    have := congrArg List.length hsplit
    rw [List.length_append, hk, List.length_drop] at this; omega
  have hkpos : 0 < k := by
    rw [← hk]
    have hd : s.drop pos = s[pos] :: s.drop (pos + 1) := List.drop_eq_getElem_cons hp
    have hb' : isBreak accept s[pos] = false := by simpa [hp] using hb
    rw [hd, List.takeWhile_cons]
    simp [hb']
  have htake : (s.drop pos).take k = (s.drop pos).takeWhile (fun c => !isBreak accept c) := by
    have h := List.prefix_iff_eq_take.1 (List.takeWhile_prefix (l := s.drop pos) (fun c => !isBreak accept c))
    rw [hk] at h; exact h.symm
  have hdrop : s.drop (pos + k) = (s.drop pos).dropWhile (fun c => !isBreak accept c) := by
    rw [← List.drop_drop]
    have h := List.take_append_drop k (s.drop pos)
    rw [htake] at h
    exact List.append_cancel_left (h.trans hsplit.symm)
  refine ⟨(s.drop b).take (pos + k - b), b, ?_, s.take b, s.drop (pos + k), ?_, ?_, h2, ?_, ?_, ?_, ?_⟩
  · unfold wordAt
    rw [if_neg (by omega)]
    simp only [Int.toNat_natCast, h1, wordEnd, hk]
    rw [if_pos (by omega), show ((b : Int) - 1 + 1) = b by omega, goSlice_some (by omega) (by omega)]
    rfl
  · have := List.take_append_drop (pos + k - b) (s.drop b)
    rw [List.drop_drop, show b + (pos + k - b) = pos + k by omega] at this
    rw [List.append_assoc, this, List.take_append_drop]
  · simp; omega
  · simp; omega
  · intro c hc
    obtain ⟨i, hi, rfl⟩ := List.getElem_of_mem hc
    have hil : i < pos + k - b := by simp at hi; omega
    rw [List.getElem_take, List.getElem_drop]
    by_cases hib : b + i ≤ pos
    · have := h3 (b + i) (by omega) hib
      have hlt : b + i < s.length := by omega
      simpa [hlt] using this
    · have : s[b + i] ∈ (s.drop pos).takeWhile (fun c => !isBreak accept c) := by
        rw [← htake]
        have hlt : b + i - pos < ((s.drop pos).take k).length := by simp; omega
        have := List.getElem_mem hlt
        rw [List.getElem_take, List.getElem_drop] at this
        simpa [show pos + (b + i - pos) = b + i by omega] using this
      exact htw _ this
  · intro p c he
    have hbpos : 0 < b := by
      have := congrArg List.length he
      simp at this; omega
    have := h4 hbpos
    have hlast : s[b - 1]? = some c := by
      have hg : (s.take b)[b - 1]? = some c := by
        rw [he]
        have := congrArg List.length he
        simp at this
        rw [show b - 1 = p.length by omega]
        simp
      rw [List.getElem?_take] at hg
      split at hg
      · exact hg
      · cases hg
    rw [List.getD_eq_getElem?_getD, hlast] at this
    simpa using this
  · intro c p he
    rw [hdrop] at he
    have := List.head?_dropWhile_not (p := fun c => !isBreak accept c) (s.drop pos)
    rw [he] at this
    simpa using this

/-! ## Contexts -/

/-- What a found context looks like. -/
def Delimited (s left right r : Text) (n : Nat) : Prop :=
  ∃ pre mid post, r = left ++ mid ++ right ∧ s = pre ++ r ++ post ∧ pre.length = n

theorem slice_delim {s left right : Text} {b e : Nat} (hb : OccursAt left s b) (he : OccursAt right s e)
    (h : b + left.length ≤ e) : ∃ r, goSlice s (b : Int) ((e : Int) + right.length) = some r ∧ r = (s.drop b).take (e + right.length - b) ∧
      Delimited s left right r b := by
  have hle := occurs_le he
  refine ⟨(s.drop b).take (e + right.length - b), ?_, rfl, s.take b, (s.drop (b + left.length)).take (e - (b + left.length)),
    s.drop (e + right.length), ?_, ?_, ?_⟩
  · have := goSlice_some (s := s) (i := b) (j := e + right.length) (by omega) hle
    simpa using this
  · have h1 := occurs_eq hb
    have h2 := occurs_eq he
    have e1 : s.drop b = left ++ s.drop (b + left.length) := by
      have := List.take_append_drop left.length (s.drop b)
      rw [h1.2, List.drop_drop] at this
      exact this.symm
    have e2 : s.drop (b + left.length) = (s.drop (b + left.length)).take (e - (b + left.length)) ++ (right ++ s.drop (e + right.length)) := by
      have e3 : s.drop e = right ++ s.drop (e + right.length) := by
        have := List.take_append_drop right.length (s.drop e)
        rw [h2.2, List.drop_drop] at this
        exact this.symm
      rw [← e3]
      have := List.take_append_drop (e - (b + left.length)) (s.drop (b + left.length))
      rw [List.drop_drop, show b + left.length + (e - (b + left.length)) = e by omega] at this
      exact this.symm
    have hl : ((s.drop (b + left.length)).take (e - (b + left.length))).length = e - (b + left.length) := by
      simp; omega
    rw [e1]
    generalize (s.drop (b + left.length)).take (e - (b + left.length)) = m at *
    rw [e2]
    have : e + right.length - b = (left ++ (m ++ right)).length := by simp; omega
    rw [this, ← List.append_assoc m, ← List.append_assoc left (m ++ right), List.take_left, List.append_assoc]
  · have := List.take_append_drop (e + right.length - b) (s.drop b)
    rw [List.drop_drop, show b + (e + right.length - b) = e + right.length by omega] at this
    rw [List.append_assoc, this, List.take_append_drop]
  · simp; omega

theorem goSlice_take {s : Text} {n : Nat} (h : n ≤ s.length) : goSlice s 0 n = some (s.take n) := by
  have := goSlice_some (s := s) (i := 0) (j := n) (by omega) h
  simpa using this

theorem goSlice_drop {s : Text} {n : Nat} (h : n ≤ s.length) : goSlice s n s.length = some (s.drop n) := by
  have := goSlice_some (s := s) (i := n) (j := s.length) h (by omega)
  rw [this, List.take_of_length_le (by simp)]

theorem occurs_nil {s : Text} {i : Nat} (h : i ≤ s.length) : OccursAt [] s i :=
  ⟨s.take i, s.drop i, by simp, by simp; omega⟩

/-- The opening delimiter found at or before the position. -/
theorem findLeft_spec (left s : Text) (pos : Nat) (h : pos ≤ s.length) :
    findLeft left s pos = some (-1) ∧ left ≠ [] ∧ (∀ i, i + left.length ≤ pos → ¬ OccursAt left s i) ∨
    ∃ b : Nat, findLeft left s pos = some (b : Int) ∧ OccursAt left s b ∧ b + left.length ≤ pos ∧
      (left ≠ [] → ∀ i, b < i → i + left.length ≤ pos → ¬ OccursAt left s i) := by
  unfold findLeft
  split
  · rename_i hl; subst hl
    exact Or.inr ⟨pos, rfl, occurs_nil h, by simp, by intro h; exact absurd rfl h⟩
  · rename_i hl
    rw [goSlice_take h]
    simp only [Option.map_some]
    cases hx : lastIndex? left (s.take pos) with
    | none =>
      refine Or.inl ⟨rfl, hl, ?_⟩
      intro i hi ho
      exact lastIndex?_none hx i (occurs_take.2 ⟨ho, hi, by omega⟩)
    | some b =>
      obtain ⟨h1, h2⟩ := lastIndex?_some hx
      rw [occurs_take] at h1
      refine Or.inr ⟨b, rfl, h1.1, h1.2.1, ?_⟩
      intro _ i hi hi2 ho
      exact h2 i hi (occurs_take.2 ⟨ho, hi2, by omega⟩)

theorem closing_mem {ls rs : List Nat} {r : Nat} (h : closing ls rs = some r) : r ∈ rs := by
  induction ls generalizing rs with
  | nil =>
    cases rs with
    | nil => simp [closing] at h
    | cons x rs => simp [closing] at h; simp [h]
  | cons l ls ih =>
    cases rs with
    | nil => simp [closing] at h
    | cons x rs =>
      simp only [closing] at h
      split at h
      · simp at h; simp [h]
      · exact List.mem_cons_of_mem _ (ih h)

/-- The value of the function, case by case, in terms of occurrences. -/
theorem context_cases (s left right : Text) (pos : Nat) (hp : pos < s.length) :
    -- no opening delimiter
    (context s pos left right = some ([], -1) ∧ left ≠ [] ∧ ∀ i, i + left.length ≤ pos → ¬ OccursAt left s i) ∨
    ∃ b : Nat, OccursAt left s b ∧ b + left.length ≤ pos ∧ (left ≠ [] → ∀ i, b < i → i + left.length ≤ pos → ¬ OccursAt left s i) ∧
      ((right = [] ∧ context s pos left right = (goSlice s b (pos + 1)).map (·, (b : Int))) ∨
       -- no closing delimiter
       (right ≠ [] ∧ context s pos left right = some ([], -1) ∧ ∀ i, pos ≤ i → ¬ OccursAt right s i) ∨
       ∃ e : Nat, right ≠ [] ∧ OccursAt right s e ∧ pos ≤ e ∧ (∀ i, pos ≤ i → i < e → ¬ OccursAt right s i) ∧
        (((left = [] ∨ ∀ i, b < i → i + left.length ≤ e → ¬ OccursAt left s i) ∧
            context s pos left right = (goSlice s b ((e : Int) + right.length)).map (·, (b : Int))) ∨
         (left ≠ [] ∧ (∃ i, b < i ∧ i + left.length ≤ e ∧ OccursAt left s i) ∧
            context s pos left right =
              match closing (indexAll (s.drop (b + left.length)) left) (indexAll (s.drop (b + left.length)) right) with
              | none => some ([], -1)
              | some r => (goSlice s b (((b + left.length + r : Nat) : Int) + right.length)).map (·, (b : Int))))) := by
  have hc : ¬ ((pos : Int) < 0 ∨ (pos : Int) ≥ s.length) := by omega
  rcases findLeft_spec left s pos (by omega) with ⟨h1, h2, h3⟩ | ⟨b, h1, h2, h3, h4⟩
  · refine Or.inl ⟨?_, h2, h3⟩
    unfold context
    rw [if_neg hc, h1]
    simp
  · refine Or.inr ⟨b, h2, h3, h4, ?_⟩
    by_cases hr : right = []
    · subst hr
      refine Or.inl ⟨rfl, ?_⟩
      unfold context
      rw [if_neg hc, h1]
      simp only [Option.bind_eq_bind, Option.bind_some]
      rw [if_neg (by simp), if_neg (by omega)]
    · have hrl : (0 : Int) < right.length := by
        have := List.length_pos_iff.2 hr; omega
      refine Or.inr ?_
      cases hi : index? right (s.drop pos) with
      | none =>
        refine Or.inl ⟨hr, ?_, ?_⟩
        · unfold context
          rw [if_neg hc, h1]
          simp only [Option.bind_eq_bind, Option.bind_some]
          rw [if_pos ⟨by omega, hrl⟩, goSlice_drop (by omega)]
          simp only [Option.bind_some, hi]
        · intro i hi2 ho
          have := index?_none.1 hi (i - pos)
          rw [occurs_drop (by omega), show pos + (i - pos) = i by omega] at this
          exact this ho
      | some e' =>
        obtain ⟨ho, hm⟩ := index?_some.1 hi
        rw [occurs_drop (by omega)] at ho
        have hle := occurs_le ho
        refine Or.inr ⟨pos + e', hr, ho, by omega, ?_, ?_⟩
        · intro i hi1 hi2 ho'
          have := hm (i - pos) (by omega)
          rw [occurs_drop (by omega), show pos + (i - pos) = i by omega] at this
          exact this ho'
        · -- the last opening delimiter before the closing one
          have hend : ((e' : Int) + pos + right.length) = ((pos + e' + right.length : Nat) : Int) := by omega
          have hctx : context s pos left right = (do
              let back ← findLeft left (s.take (pos + e' + right.length)) ((pos + e' : Nat) : Int)
              if left ≠ [] ∧ back ≠ (b : Int) then
                match closing (indexAll (s.drop (b + left.length)) left) (indexAll (s.drop (b + left.length)) right) with
                | none => some ([], -1)
                | some r => (goSlice s b (((b + left.length + r : Nat) : Int) + right.length)).map (·, (b : Int))
              else (goSlice s b (((pos + e' : Nat) : Int) + right.length)).map (·, (b : Int))) := by
            unfold context
            rw [if_neg hc, h1]
            simp only [Option.bind_eq_bind, Option.bind_some]
            rw [if_pos ⟨by omega, hrl⟩, goSlice_drop (by omega)]
            simp only [Option.bind_some, hi]
            rw [hend, goSlice_take hle]
            simp only [Option.bind_some]
            rw [show (((pos + e' + right.length : Nat) : Int) - right.length) = ((pos + e' : Nat) : Int) by omega]
            rw [show ((b : Int) + left.length) = ((b + left.length : Nat) : Int) by omega, goSlice_drop (by have := occurs_le h2; omega)]
            simp only [Option.bind_some]
            congr 1
            funext back
            split
            · split <;> rename_i hcl <;> rw [hcl]
              rename_i k
              simp only
              rw [show ((k : Nat) : Int) + ((b + left.length : Nat) : Int) + (right.length : Int) =
                ((b + left.length + k : Nat) : Int) + right.length by omega]
            · rw [show (((pos + e' + right.length : Nat) : Int)) = ((pos + e' : Nat) : Int) + right.length by omega]
          have hlt : (s.take (pos + e' + right.length)).length = pos + e' + right.length := by simp; omega
          rcases findLeft_spec left (s.take (pos + e' + right.length)) (pos + e') (by omega) with ⟨g1, g2, g3⟩ | ⟨b2, g1, g2, g3, g4⟩
          · exact absurd (occurs_take.2 ⟨h2, by omega, by omega⟩) (g3 b (by omega))
          · rw [occurs_take] at g2
            rw [g1] at hctx
            simp only [Option.bind_eq_bind, Option.bind_some] at hctx
            by_cases hl : left = []
            · refine Or.inl ⟨Or.inl hl, ?_⟩
              rw [hctx, if_neg (by simp [hl])]
            · by_cases hb2 : b2 = b
              · subst hb2
                refine Or.inl ⟨Or.inr ?_, ?_⟩
                · intro i hi1 hi2 hoi
                  exact g4 hl i hi1 hi2 (occurs_take.2 ⟨hoi, by omega, by omega⟩)
                · rw [hctx, if_neg (by simp)]
              · refine Or.inr ⟨hl, ⟨b2, ?_, g3, g2.1⟩, ?_⟩
                · refine Classical.byContradiction fun hnb => ?_
                  exact g4 hl b (by omega) (by omega) (occurs_take.2 ⟨h2, by omega, by omega⟩)
                · rw [hctx, if_pos ⟨hl, by omega⟩]

theorem context_delimited (s left right : Text) (pos : Int) : ∃ r b, context s pos left right = some (r, b) ∧
    ((r = [] ∧ b = -1) ∨ ∃ n : Nat, b = n ∧ (n : Int) ≤ pos ∧ Delimited s left right r n) := by
  by_cases hpos : pos < 0 ∨ pos ≥ s.length
  · exact ⟨[], -1, by unfold context; rw [if_pos hpos], Or.inl ⟨rfl, rfl⟩⟩
  · obtain ⟨n, rfl⟩ : ∃ n : Nat, pos = n := ⟨pos.toNat, by omega⟩
    rcases context_cases s left right n (by omega) with ⟨h, _⟩ | ⟨b, hb1, hb2, hb3, h⟩
    · exact ⟨[], -1, h, Or.inl ⟨rfl, rfl⟩⟩
    · rcases h with ⟨rfl, h⟩ | ⟨_, h, _⟩ | ⟨e, hr, he1, he2, he3, ⟨_, h⟩ | ⟨hl, _, h⟩⟩
      · obtain ⟨r, h1, _, h3⟩ := slice_delim hb1 (occurs_nil (s := s) (i := n + 1) (by omega)) (by omega)
        simp only [List.length_nil] at h1
        refine ⟨r, b, ?_, Or.inr ⟨b, rfl, by omega, h3⟩⟩
        rw [h, show ((n : Int) + 1) = ((n + 1 : Nat) : Int) + (0 : Nat) by omega, h1]; rfl
      · exact ⟨[], -1, h, Or.inl ⟨rfl, rfl⟩⟩
      · obtain ⟨r, h1, _, h3⟩ := slice_delim hb1 he1 (by omega)
        exact ⟨r, b, by rw [h, h1]; rfl, Or.inr ⟨b, rfl, by omega, h3⟩⟩
      · cases hcl : closing (indexAll (s.drop (b + left.length)) left) (indexAll (s.drop (b + left.length)) right) with
        | none => exact ⟨[], -1, by rw [h, hcl], Or.inl ⟨rfl, rfl⟩⟩
        | some k =>
          have hk := (greedy_mem (indexAll_greedy (s.drop (b + left.length)) right hr) k (closing_mem hcl)).1
          rw [occurs_drop (occurs_le hb1)] at hk
          obtain ⟨r, h1, _, h3⟩ := slice_delim hb1 hk (by omega)
          exact ⟨r, b, by rw [h, hcl]; simp only [h1]; rfl, Or.inr ⟨b, rfl, by omega, h3⟩⟩

/-! ## Matching single-character delimiters -/

/-- The positions of a character, counted from `i`. -/
def positions (a : Char) : Nat → Text → List Nat
  | _, [] => []
  | i, c :: cs => if c = a then i :: positions a (i + 1) cs else positions a (i + 1) cs

theorem positions_greedy (a : Char) (s : Text) : ∀ (t : Text) (i : Nat), s.drop i = t → i ≤ s.length → Greedy [a] s i (positions a i t) := by
  have hocc : ∀ i, OccursAt [a] s i ↔ s[i]? = some a := by
    intro i
    constructor
    · rintro ⟨x, y, rfl, rfl⟩; simp
    · intro h
      have hlt : i < s.length := by
        refine Classical.byContradiction fun hge => ?_
        rw [List.getElem?_eq_none (by omega)] at h; cases h
      rw [List.getElem?_eq_getElem hlt] at h
      simp only [Option.some.injEq] at h
      refine ⟨s.take i, s.drop (i + 1), ?_, by simp; omega⟩
      rw [← h, List.append_assoc, List.singleton_append, ← List.drop_eq_getElem_cons hlt, List.take_append_drop]
  intro t
  induction t with
  | nil =>
    intro i ht hi
    refine Greedy.done ?_
    intro j hj ho
    have h1 := occurs_le ho
    have h2 := congrArg List.length ht
    simp at h1 h2; omega
  | cons c t ih =>
    intro i ht hi
    have hlt : i < s.length := by
      have := congrArg List.length ht
      simp at this; omega
    have hget : s[i]? = some c := by
      have : (s.drop i)[0]? = some c := by rw [ht]; rfl
      simpa using this
    have htail : s.drop (i + 1) = t := by
      rw [← List.tail_drop, ht]; rfl
    have ih' := ih (i + 1) htail (by omega)
    simp only [positions]
    split
    · rename_i hc; subst hc
      exact Greedy.next ((hocc i).2 hget) (by omega) (by intro j h1 h2; omega) ih'
    · rename_i hc
      have hno : ¬ OccursAt [a] s i := by
        intro ho; rw [hocc, hget] at ho; simp at ho; exact hc ho
      cases hps : positions a (i + 1) t with
      | nil =>
        rw [hps] at ih'
        cases ih' with
        | done h =>
          refine Greedy.done ?_
          intro j hj
          by_cases hji : j = i
          · subst hji; exact hno
          · exact h j (by omega)
      | cons p ps =>
        rw [hps] at ih'
        cases ih' with
        | next ho hf hn hg =>
          refine Greedy.next ho (by omega) ?_ hg
          intro j h1 h2
          by_cases hji : j = i
          · subst hji; exact hno
          · exact hn j (by omega) h2

theorem indexAll_char (a : Char) (s : Text) : indexAll s [a] = positions a 0 s :=
  greedy_unique (indexAll_greedy s [a] (by simp)) (positions_greedy a s s 0 rfl (by omega))

theorem positions_ge (a : Char) (t : Text) (i : Nat) : ∀ p ∈ positions a i t, i ≤ p := by
  induction t generalizing i with
  | nil => intro p hp; simp [positions] at hp
  | cons c t ih =>
    intro p hp
    simp only [positions] at hp
    split at hp
    · rcases List.mem_cons.1 hp with rfl | hp
      · omega
      · have := ih (i + 1) p hp; omega
    · have := ih (i + 1) p hp; omega

theorem closing_matchClose (a b : Char) (hab : a ≠ b) (t : Text) : ∀ (i : Nat) (pend : List Nat), (∀ p ∈ pend, p < i) →
    closing (pend ++ positions a i t) (positions b i t) = matchClose a b pend.length i t := by
  induction t with
  | nil => intro i pend _; cases pend <;> simp [positions, closing, matchClose]
  | cons c t ih =>
    intro i pend hpend
    by_cases hb : c = b
    · subst hb
      have h1 : positions a i (c :: t) = positions a (i + 1) t := by
        simp only [positions]; rw [if_neg (fun e => hab e.symm)]
      have h2 : positions c i (c :: t) = i :: positions c (i + 1) t := by simp [positions]
      rw [h1, h2]
      cases pend with
      | nil =>
        simp only [List.nil_append, List.length_nil, matchClose, if_pos]
        cases h3 : positions a (i + 1) t with
        | nil => rfl
        | cons l ls =>
          have : i + 1 ≤ l := positions_ge a t (i + 1) l (by rw [h3]; simp)
          simp only [closing]
          rw [if_pos (by omega)]
      | cons p pend =>
        have hp : p < i := hpend p (by simp)
        simp only [List.cons_append, List.length_cons, matchClose, closing, if_pos]
        rw [if_neg (by omega)]
        exact ih (i + 1) pend (fun q hq => by have := hpend q (by simp [hq]); omega)
    · have h2 : positions b i (c :: t) = positions b (i + 1) t := by simp [positions, hb]
      rw [h2]
      by_cases ha : c = a
      · subst ha
        have h1 : positions c i (c :: t) = i :: positions c (i + 1) t := by simp [positions]
        rw [h1]
        simp only [matchClose, if_neg hb, if_pos]
        have := ih (i + 1) (pend ++ [i]) (fun q hq => by
          rcases List.mem_append.1 hq with hq | hq
          · have := hpend q hq; omega
          · simp at hq; omega)
        rw [List.append_assoc, List.singleton_append] at this
        rw [this]
        simp
      · have h1 : positions a i (c :: t) = positions a (i + 1) t := by simp [positions, ha]
        rw [h1]
        simp only [matchClose, if_neg hb, if_neg ha]
        exact ih (i + 1) pend (fun q hq => by have := hpend q hq; omega)

theorem matchClose_plain (a b : Char) (m t : Text) (d i : Nat) (ha : a ∉ m) (hb : b ∉ m) :
    matchClose a b d i (m ++ t) = matchClose a b d (i + m.length) t := by
  induction m generalizing i with
  | nil => rfl
  | cons c m ih =>
    simp only [List.mem_cons, not_or] at ha hb
    simp only [List.cons_append, matchClose]
    rw [if_neg (fun e => hb.1 e.symm), if_neg (fun e => ha.1 e.symm), ih _ ha.2 hb.2]
    congr 1; simp; omega

theorem matchClose_none (a b : Char) (t : Text) (d i : Nat) (hb : b ∉ t) : matchClose a b d i t = none := by
  induction t generalizing d i with
  | nil => rfl
  | cons c m ih =>
    simp only [List.mem_cons, not_or] at hb
    simp only [matchClose]
    rw [if_neg (fun e => hb.1 e.symm)]
    split
    · exact ih _ _ hb.2
    · exact ih _ _ hb.2

theorem occurs_char {a : Char} {s : Text} {i : Nat} : OccursAt [a] s i ↔ ∃ x y, s = x ++ a :: y ∧ x.length = i := by
  unfold OccursAt
  constructor
  · rintro ⟨x, y, h, hl⟩; exact ⟨x, y, by simpa using h, hl⟩
  · rintro ⟨x, y, h, hl⟩; exact ⟨x, y, by simpa using h, hl⟩

/-- Between the opening delimiter that precedes the position and the position there is no closing one: the context is the
one of the matching delimiter. -/
theorem context_match (a b : Char) (hab : a ≠ b) (x m₁ y : Text) (c : Char) (ha : a ∉ m₁) (hb : b ∉ m₁) :
    context (x ++ a :: (m₁ ++ c :: y)) ((x.length + 1 + m₁.length : Nat) : Int) [a] [b] =
      match matchClose a b 0 0 (m₁ ++ c :: y) with
      | none => some ([], -1)
      | some r => some (a :: ((m₁ ++ c :: y).take (r + 1)), (x.length : Int)) := by
  generalize hs : x ++ a :: (m₁ ++ c :: y) = s
  have hlen : s.length = x.length + 1 + m₁.length + 1 + y.length := by rw [← hs]; simp; omega
  have hdx : s.drop x.length = a :: (m₁ ++ c :: y) := by rw [← hs]; simp
  have hdx1 : s.drop (x.length + 1) = m₁ ++ c :: y := by rw [← List.tail_drop, hdx]; rfl
  have hget1 : ∀ i, x.length + 1 ≤ i → s[i]? = (m₁ ++ c :: y)[i - (x.length + 1)]? := by
    intro i hi
    have : (s.drop (x.length + 1))[i - (x.length + 1)]? = s[i]? := by
      rw [List.getElem?_drop]; congr 1; omega
    rw [← this, hdx1]
  have hocc : ∀ (z : Char) (i : Nat), OccursAt [z] s i → s[i]? = some z := by
    rintro z i ⟨u, v, he, rfl⟩; rw [he]; simp
  have hnot : ∀ (z : Char) (i : Nat), z ∉ m₁ → x.length + 1 ≤ i → i < x.length + 1 + m₁.length → ¬ OccursAt [z] s i := by
    intro z i hz h1 h2 ho
    have := hocc z i ho
    rw [hget1 i h1, List.getElem?_append_left (by omega)] at this
    exact hz (List.mem_of_getElem? this)
  have hxa : OccursAt [a] s x.length := occurs_char.2 ⟨x, _, hs.symm, rfl⟩
  rcases context_cases s [a] [b] (x.length + 1 + m₁.length) (by omega) with ⟨_, _, h⟩ | ⟨b', hb1, hb2, hb3, h⟩
  · exact absurd hxa (h x.length (by simp))
  · have hbx : b' = x.length := by
      rcases Nat.lt_trichotomy b' x.length with h1 | h1 | h1
      · exact absurd hxa (hb3 (by simp) x.length h1 (by simp))
      · exact h1
      · simp only [List.length_singleton] at hb2
        exact absurd hb1 (hnot a b' ha (by omega) (by omega))
    subst hbx
    have hslice : ∀ r, r < (m₁ ++ c :: y).length → goSlice s (x.length : Int) (((x.length + 1 + r : Nat) : Int) + ([b] : Text).length) =
        some (a :: (m₁ ++ c :: y).take (r + 1)) := by
      intro r hr
      have hr' : r < m₁.length + 1 + y.length := by simp at hr; omega
      have := goSlice_some (s := s) (i := x.length) (j := x.length + 1 + r + 1) (by omega) (by omega)
      rw [show (((x.length + 1 + r : Nat) : Int) + ([b] : Text).length) = ((x.length + 1 + r + 1 : Nat) : Int) by simp, this, hdx,
        show x.length + 1 + r + 1 - x.length = (r + 1) + 1 by omega, List.take_succ_cons]
    rcases h with ⟨h, _⟩ | ⟨_, h, hn⟩ | ⟨e, _, he1, he2, he3, ⟨hleft, h⟩ | ⟨_, _, h⟩⟩
    · simp at h
    · -- no closing delimiter at all
      have hno : b ∉ m₁ ++ c :: y := by
        intro hmem
        obtain ⟨u, v, huv⟩ := List.append_of_mem hmem
        have ho : OccursAt [b] s (x.length + 1 + u.length) := by
          have := (occurs_drop (sub := [b]) (s := s) (n := x.length + 1) (i := u.length) (by omega)).1
          apply this
          rw [hdx1]
          exact occurs_char.2 ⟨u, v, huv, rfl⟩
        by_cases hu : m₁.length ≤ u.length
        · exact hn _ (by omega) ho
        · exact hnot b _ hb (by omega) (by omega) ho
      rw [h, matchClose_none a b _ 0 0 hno]
    · have hnoa : a ∉ (m₁ ++ c :: y).take (e - (x.length + 1)) := by
        intro hmem
        obtain ⟨i, hi, hg⟩ := List.getElem_of_mem hmem
        have hi2 : i < e - (x.length + 1) := by simp at hi; omega
        have hlt2 : x.length + 1 + i < s.length := by have := occurs_le he1; simp at this; omega
        have hge : s[x.length + 1 + i]? = some a := by
          rw [hget1 _ (by omega), show x.length + 1 + i - (x.length + 1) = i by omega]
          rw [List.getElem_take] at hg
          rw [List.getElem?_eq_getElem (by simp; omega), hg]
        have ho : OccursAt [a] s (x.length + 1 + i) := by
          refine ⟨s.take (x.length + 1 + i), s.drop (x.length + 1 + i + 1), ?_, by simp; omega⟩
          rw [List.getElem?_eq_getElem hlt2] at hge
          simp only [Option.some.injEq] at hge
          rw [← hge, List.append_assoc, List.singleton_append, ← List.drop_eq_getElem_cons hlt2, List.take_append_drop]
        rcases hleft with hl | hl
        · simp at hl
        · exact hl _ (by omega) (by simp; omega) ho
      have hnob : b ∉ (m₁ ++ c :: y).take (e - (x.length + 1)) := by
        intro hmem
        obtain ⟨i, hi, hg⟩ := List.getElem_of_mem hmem
        have hi2 : i < e - (x.length + 1) := by simp at hi; omega
        have hlt2 : x.length + 1 + i < s.length := by have := occurs_le he1; simp at this; omega
        have hge : s[x.length + 1 + i]? = some b := by
          rw [hget1 _ (by omega), show x.length + 1 + i - (x.length + 1) = i by omega]
          rw [List.getElem_take] at hg
          rw [List.getElem?_eq_getElem (by simp; omega), hg]
        have ho : OccursAt [b] s (x.length + 1 + i) := by
          refine ⟨s.take (x.length + 1 + i), s.drop (x.length + 1 + i + 1), ?_, by simp; omega⟩
          rw [List.getElem?_eq_getElem hlt2] at hge
          simp only [Option.some.injEq] at hge
          rw [← hge, List.append_assoc, List.singleton_append, ← List.drop_eq_getElem_cons hlt2, List.take_append_drop]
        by_cases hi3 : x.length + 1 + m₁.length ≤ x.length + 1 + i
        · exact he3 _ hi3 (by omega) ho
        · exact hnot b _ hb (by omega) (by omega) ho
      have hele := occurs_le he1
      simp only [List.length_singleton] at hele
      have heb : (m₁ ++ c :: y).drop (e - (x.length + 1)) = b :: (m₁ ++ c :: y).drop (e - (x.length + 1) + 1) := by
        have hlt2 : e - (x.length + 1) < (m₁ ++ c :: y).length := by simp; omega
        rw [List.drop_eq_getElem_cons hlt2]
        congr 1
        have := hocc b e he1
        rw [hget1 e (by omega), List.getElem?_eq_getElem hlt2] at this
        simpa using this
      have hmc : matchClose a b 0 0 (m₁ ++ c :: y) = some (e - (x.length + 1)) := by
        rw [← List.take_append_drop (e - (x.length + 1)) (m₁ ++ c :: y), matchClose_plain a b _ _ 0 0 hnoa hnob, heb]
        simp only [matchClose, if_pos]
        congr 1
        simp; omega
      rw [h, hmc]
      simp only
      have := hslice (e - (x.length + 1)) (by simp; omega)
      rw [show x.length + 1 + (e - (x.length + 1)) = e by omega] at this
      rw [this]; rfl
    · rw [h]
      simp only [List.length_singleton, hdx1]
      rw [indexAll_char, indexAll_char]
      have hcm := closing_matchClose a b hab (m₁ ++ c :: y) 0 [] (by simp)
      rw [List.nil_append] at hcm
      rw [hcm]
      simp only [List.length_nil]
      cases hm : matchClose a b 0 0 (m₁ ++ c :: y) with
      | none => rfl
      | some r =>
        have hr : r < (m₁ ++ c :: y).length := by
          have hmem := closing_mem (hcm.trans hm)
          have ho := (greedy_mem (positions_greedy b (m₁ ++ c :: y) _ 0 rfl (by omega)) r hmem).1
          have := occurs_le ho
          simp only [List.length_singleton] at this
          omega
        have := hslice r hr
        simp only [List.length_singleton] at this
        simp only
        rw [this]; rfl

end Verif.Strings
