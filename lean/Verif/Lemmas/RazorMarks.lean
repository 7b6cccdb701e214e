import Verif.Lemmas.RazorPrepare
/-!
# The marks in a razor expression, and their return
-/

namespace Verif.Lemmas
open Verif Text Razor Prepare Spec

/-- The marks: `0` to `7` for the reserved words, `8` for a leading dot, `9` for a global variable, `10` for a call. -/
def markOf (i : Nat) : Text := if i = 8 then dotMark else if i = 9 then globalMark else if i = 10 then c!"__FuncCall__" else replMark i

/-- The text of a mark in the end. -/
def outOf (i : Nat) : Text := if i = 0 then c!"$$" else if i = 8 then c!"." else if i = 9 then c!"$$." else reservedKeywords.getD i []

/-- A text with marks. -/
abbrev Marked := List (Char ⊕ Nat)

def flat (L : Marked) : Text := L.flatMap fun x => match x with | .inl c => [c] | .inr i => markOf i

/-- The text where the marks that are chosen are replaced. -/
def opened (f : Nat → Option Text) (L : Marked) : Marked :=
  L.flatMap fun x => match x with
    | .inl c => [.inl c]
    | .inr i => match f i with
      | some t => t.map .inl
      | none => [.inr i]

/-- The text in the end. -/
def full (L : Marked) : Text := L.flatMap fun x => match x with | .inl c => [c] | .inr i => outOf i

def Known (L : Marked) : Prop := ∀ i, .inr i ∈ L → i < 11

@[simp] theorem flat_nil : flat [] = [] := rfl
@[simp] theorem flat_char (c : Char) (L : Marked) : flat (.inl c :: L) = c :: flat L := rfl
@[simp] theorem flat_mark (i : Nat) (L : Marked) : flat (.inr i :: L) = markOf i ++ flat L := rfl
@[simp] theorem full_char (c : Char) (L : Marked) : full (.inl c :: L) = c :: full L := rfl
@[simp] theorem full_mark (i : Nat) (L : Marked) : full (.inr i :: L) = outOf i ++ full L := rfl

theorem markOf_form : ∀ i, i < 11 → ∃ w ∈ [c!"REPL", c!"DoTPrefix", c!"GlobalVar", c!"FuncCall"], ∃ t, markOf i = c!"__" ++ (w ++ t) := by
  have : ∀ i ∈ List.range 11, [c!"REPL", c!"DoTPrefix", c!"GlobalVar", c!"FuncCall"].any (fun w => (c!"__" ++ w).isPrefixOf (markOf i)) = true := by decide +kernel
  intro i hi
  have := this i (List.mem_range.mpr hi)
  obtain ⟨w, hw, h⟩ := List.any_eq_true.mp this
  obtain ⟨t, ht⟩ := List.isPrefixOf_iff_prefix.mp h
  exact ⟨w, hw, t, by rw [← ht]; simp⟩

/-- A text without underscore at the beginning is not in a mark. -/
theorem prefix_chars {w : Text} (hw : '_' ∉ w) : ∀ {L : Marked}, Known L → w <+: flat L → ∃ L', L = w.map .inl ++ L' := by
  induction w with
  | nil => intro L _ _; exact ⟨L, rfl⟩
  | cons c w ih =>
    intro L hk h
    simp only [List.mem_cons, not_or] at hw
    cases L with
    | nil => simp at h
    | cons x L =>
      cases x with
      | inl d =>
        rw [flat_char, List.cons_prefix_cons] at h
        obtain ⟨L', rfl⟩ := ih hw.2 (fun i hi => hk i (List.mem_cons_of_mem _ hi)) h.2
        exact ⟨L', by rw [h.1]; rfl⟩
      | inr i =>
        obtain ⟨v, _, t, hm⟩ := markOf_form i (hk i (List.mem_cons_self ..))
        rw [flat_mark, hm, List.cons_append, List.cons_append, List.cons_prefix_cons] at h
        exact absurd h.1.symm hw.1

theorem full_append (L M : Marked) : full (L ++ M) = full L ++ full M := by simp [full]
theorem flat_append (L M : Marked) : flat (L ++ M) = flat L ++ flat M := by simp [flat]
theorem full_chars (t : Text) : full (t.map .inl) = t := by induction t with | nil => rfl | cons c t ih => simp [ih]
theorem flat_chars (t : Text) : flat (t.map .inl) = t := by induction t with | nil => rfl | cons c t ih => simp [ih]

/-- No word of the marks is in the text in the end. -/
def Clear (L : Marked) : Prop := ∀ w ∈ markWords, ¬ w <:+: full L

theorem clear_tail {x : Char ⊕ Nat} {L : Marked} (h : Clear (x :: L)) : Clear L := by
  intro w hw hi
  refine h w hw (hi.trans ?_)
  have : full (x :: L) = full [x] ++ full L := full_append [x] L
  rw [this]
  exact (List.suffix_append _ _).isInfix

theorem clear_word {L : Marked} (hk : Known L) (h : Clear L) {w : Text} (hw : w ∈ markWords) (t : Text) : ¬ w ++ t <+: flat L := by
  intro hp
  have hu : ∀ w ∈ markWords, '_' ∉ w := by decide
  obtain ⟨L', rfl⟩ := prefix_chars (hu w hw) hk ((List.prefix_append _ _).trans hp)
  refine h w hw ?_
  rw [full_append, full_chars]
  exact (List.prefix_append _ _).isInfix

theorem clear_under {L : Marked} (hk : Known L) (h : Clear L) {w : Text} (hw : w ∈ markWords) (t : Text) : ¬ '_' :: (w ++ t) <+: flat L := by
  intro hp
  cases L with
  | nil => simp at hp
  | cons x L =>
    cases x with
    | inl d =>
      rw [flat_char, List.cons_prefix_cons] at hp
      exact clear_word (fun i hi => hk i (List.mem_cons_of_mem _ hi)) (clear_tail h) hw t hp.2
    | inr i =>
      obtain ⟨v, _, u, hm⟩ := markOf_form i (hk i (List.mem_cons_self ..))
      rw [flat_mark, hm, List.cons_append, List.cons_append, List.cons_prefix_cons] at hp
      have hne : ∀ w ∈ markWords, ∀ t x, ¬ w ++ t <+: '_' :: x := by
        intro w hw t x hp
        have : ∀ w ∈ markWords, ∃ c y, w = c :: y ∧ c ≠ '_' := by
          intro w hw
          simp only [markWords, List.mem_cons, List.not_mem_nil, or_false] at hw
          rcases hw with rfl | rfl | rfl | rfl <;> exact ⟨_, _, rfl, by decide⟩
        obtain ⟨c, y, rfl, hc⟩ := this w hw
        rw [List.cons_append, List.cons_prefix_cons] at hp
        exact hc hp.1
      exact hne w hw t _ hp.2

theorem marks_apart : ∀ i ∈ List.range 11, ∀ j ∈ List.range 11, i ≠ j → ∀ n ∈ List.range (markOf i).length,
    (markOf j).isPrefixOf ((markOf i).drop n) = false ∧
      (((markOf i).drop n).isPrefixOf (markOf j) = true → (markOf i).drop n = c!"__" ∨ (markOf i).drop n = c!"_") := by
  decide +kernel

/-- The return of one mark. -/
theorem mark_back {j : Nat} (hj : j < 11) (t : Text) : ∀ {L : Marked}, Known L → Clear L →
    replaceAll (markOf j) t (flat L) = flat (opened (fun i => if i = j then some t else none) L) := by
  obtain ⟨w, hw, u, hm⟩ := markOf_form j hj
  have hw' : w ∈ markWords := by
    revert hw
    revert w
    intro w _ hw
    simp only [List.mem_cons, List.not_mem_nil, or_false] at hw
    rcases hw with rfl | rfl | rfl | rfl <;> decide
  intro L
  induction L with
  | nil => intro _ _; exact replaceAll_nil _ _
  | cons x L ih =>
    intro hk hc
    have hk' : Known L := fun i hi => hk i (List.mem_cons_of_mem _ hi)
    have ih := ih hk' (clear_tail hc)
    cases x with
    | inl d =>
      have hp : hasPrefix (markOf j) (d :: flat L) = false := by
        cases hh : hasPrefix (markOf j) (d :: flat L) with
        | false => rfl
        | true =>
          have := hasPrefix_iff.mp hh
          rw [hm, List.cons_append, List.cons_append, List.cons_prefix_cons] at this
          exact absurd this.2 (clear_under hk' (clear_tail hc) hw' u)
      rw [flat_char, replaceAll_skip hp, ih]
      rfl
    | inr i =>
      by_cases hij : i = j
      · subst hij
        rw [flat_mark, replaceAll_match _ _ (by rw [hm]; simp), ih]
        simp [opened, flat_append, flat_chars]
      · rw [flat_mark, replaceAll_over, ih]
        · simp [opened, hij]
        · intro a b hab hb hp
          have hn : a.length ∈ List.range (markOf i).length := by
            rw [hab, List.mem_range]
            cases b with
            | nil => exact absurd rfl hb
            | cons d b => simp
          have hd : (markOf i).drop a.length = b := by rw [hab]; simp
          obtain ⟨h1, h2⟩ := marks_apart i (List.mem_range.mpr (hk i (List.mem_cons_self ..))) j (List.mem_range.mpr hj) hij a.length hn
          rw [hd] at h1 h2
          rcases List.prefix_or_prefix_of_prefix hp (List.prefix_append b (flat L)) with h | h
          · rw [List.isPrefixOf_iff_prefix.mpr h] at h1
            cases h1
          · rcases h2 (List.isPrefixOf_iff_prefix.mpr h) with rfl | rfl
            · rw [hm] at hp
              simp only [List.cons_append, List.nil_append, List.cons_prefix_cons, true_and] at hp
              exact clear_word hk' (clear_tail hc) hw' u hp
            · rw [hm] at hp
              simp only [List.cons_append, List.nil_append, List.cons_prefix_cons, true_and] at hp
              exact clear_under hk' (clear_tail hc) hw' u hp

/-! ## The marks put in -/

/-- What a mark was in the source. -/
def keyOf (i : Nat) : Text := if i = 8 then c!"." else reservedKeywords.getD i []

def source (L : Marked) : Text := L.flatMap fun x => match x with | .inl c => [c] | .inr i => keyOf i

@[simp] theorem source_char (c : Char) (L : Marked) : source (.inl c :: L) = c :: source L := rfl
@[simp] theorem source_mark (i : Nat) (L : Marked) : source (.inr i :: L) = keyOf i ++ source L := rfl
theorem source_append (L M : Marked) : source (L ++ M) = source L ++ source M := by simp [source]
theorem source_chars (t : Text) : source (t.map .inl) = t := by induction t with | nil => rfl | cons c t ih => simp [ih]

theorem mark_ends : ∀ i, i < 11 → ∃ t, markOf i = t ++ ['_'] := by
  have : ∀ i ∈ List.range 11, (markOf i).getLast? = some '_' := by decide +kernel
  intro i hi
  have := this i (List.mem_range.mpr hi)
  obtain ⟨t, ht⟩ := List.getLast?_eq_some_iff.mp this
  exact ⟨t, ht⟩

/-- A word without underscore does not begin in a mark. -/
theorem no_cross {w : Text} (hu : '_' ∉ w) {i : Nat} (hi : i < 11) (hn : ¬ w <:+: markOf i) {a b : Text} (hab : markOf i = a ++ b) (hb : b ≠ []) (s : Text) :
    ¬ w <+: b ++ s := by
  intro hp
  rcases List.prefix_or_prefix_of_prefix hp (List.prefix_append b s) with h | h
  · exact hn (hab ▸ h.isInfix.trans (List.suffix_append a b).isInfix)
  · obtain ⟨t, ht⟩ := mark_ends i hi
    refine hu (h.subset ?_)
    obtain ⟨d, b', hd⟩ : ∃ d b', b = b' ++ [d] := by
      rcases List.eq_nil_or_concat b with h | ⟨b', d, h⟩
      · exact absurd h hb
      · exact ⟨d, b', by simpa using h⟩
    have : t ++ ['_'] = (a ++ b') ++ [d] := by rw [← ht, hab, hd]; simp
    have := (List.append_inj' this rfl).2
    simp only [List.cons.injEq, and_true] at this
    rw [hd, this]
    simp

theorem word_infix {w : Text} (hu : '_' ∉ w) (hn : ∀ i, i < 11 → ¬ w <:+: markOf i) : ∀ {L : Marked}, Known L → w <:+: flat L → w <:+: full L := by
  intro L
  induction L with
  | nil => intro _ h; exact h
  | cons x L ih =>
    intro hk h
    have hk' : Known L := fun i hi => hk i (List.mem_cons_of_mem _ hi)
    have hs : full L <:+: full (x :: L) := by
      have : full (x :: L) = full [x] ++ full L := full_append [x] L
      rw [this]
      exact (List.suffix_append _ _).isInfix
    cases x with
    | inl c =>
      rw [flat_char] at h
      rcases List.infix_cons_iff.mp h with h | h
      · rw [← flat_char] at h
        obtain ⟨L', hL⟩ := prefix_chars hu hk h
        rw [hL, full_append, full_chars]
        exact (List.prefix_append _ _).isInfix
      · exact (ih hk' h).trans hs
    | inr i =>
      have hi := hk i (List.mem_cons_self ..)
      rw [flat_mark] at h
      have key : ∀ (b a : Text), markOf i = a ++ b → w <:+: b ++ flat L → w <:+: flat L := by
        intro b
        induction b with
        | nil => intro a _ h; exact h
        | cons d b ihb =>
          intro a hab h
          rw [List.cons_append] at h
          rcases List.infix_cons_iff.mp h with h | h
          · exact absurd h (no_cross hu hi (hn i hi) hab (by simp) _)
          · exact ihb (a ++ [d]) (by rw [hab]; simp) h
      exact (ih hk' (key _ [] rfl h)).trans hs

theorem keys_plain : ∀ i ∈ List.range 8, '_' ∉ keyOf i ∧ keyOf i ≠ [] ∧ ∀ j ∈ List.range 11, contains (keyOf i) (markOf j) = false := by decide +kernel

theorem key_plain {i : Nat} (hi : i < 8) : '_' ∉ keyOf i ∧ keyOf i ≠ [] ∧ ∀ j, j < 11 → ¬ keyOf i <:+: markOf j := by
  obtain ⟨h1, h2, h3⟩ := keys_plain i (List.mem_range.mpr hi)
  refine ⟨h1, h2, fun j hj hc => ?_⟩
  have := h3 j (List.mem_range.mpr hj)
  rw [contains_iff.mpr hc] at this
  cases this

/-- A text whose marks stand for reserved words. -/
def FromWords (s : Text) (L : Marked) : Prop := (∀ i, .inr i ∈ L → i < 8) ∧ source L = s

theorem mark_forth {j : Nat} (hj : j < 8) {s : Text} {L : Marked} (h : FromWords s L) : ∃ L', FromWords s L' ∧ replaceAll (keyOf j) (markOf j) (flat L) = flat L' := by
  obtain ⟨hu, hne, hm⟩ := key_plain hj
  have key : ∀ n (s : Text) (L : Marked), L.length ≤ n → FromWords s L → ∃ L', FromWords s L' ∧ replaceAll (keyOf j) (markOf j) (flat L) = flat L' := by
    intro n
    induction n with
    | zero =>
      intro s L hn h
      have : L = [] := List.length_eq_zero_iff.mp (Nat.le_zero.mp hn)
      subst this
      exact ⟨[], h, replaceAll_nil _ _⟩
    | succ n ih =>
      intro s L hn h
      have hk : Known L := fun i hi => Nat.lt_trans (h.1 i hi) (by decide)
      by_cases hp : keyOf j <+: flat L
      · obtain ⟨L', rfl⟩ := prefix_chars hu hk hp
        have hlen : L'.length ≤ n := by
          have : 0 < (keyOf j).length := List.length_pos_iff.mpr hne
          simp only [List.length_append, List.length_map] at hn
          omega
        obtain ⟨L'', h2, h3⟩ := ih (source L') L' hlen ⟨fun i hi => h.1 i (List.mem_append_right _ hi), rfl⟩
        refine ⟨.inr j :: L'', ⟨?_, ?_⟩, ?_⟩
        · intro i hi
          rcases List.mem_cons.mp hi with hi | hi
          · cases hi; exact hj
          · exact h2.1 i hi
        · rw [source_mark, h2.2, ← h.2, source_append, source_chars]
        · rw [flat_append, flat_chars, replaceAll_match _ _ hne, h3, flat_mark]
      · cases L with
        | nil => exact ⟨[], h, replaceAll_nil _ _⟩
        | cons x L =>
          obtain ⟨L'', h2, h3⟩ := ih (source L) L (by simpa using hn) ⟨fun i hi => h.1 i (List.mem_cons_of_mem _ hi), rfl⟩
          refine ⟨x :: L'', ⟨?_, ?_⟩, ?_⟩
          · intro i hi
            rcases List.mem_cons.mp hi with hi | hi
            · exact h.1 i (hi ▸ List.mem_cons_self ..)
            · exact h2.1 i hi
          · have e : ∀ M, source (x :: M) = source [x] ++ source M := fun M => source_append [x] M
            rw [e, h2.2, ← e, h.2]
          · cases x with
            | inl c =>
              have hq : hasPrefix (keyOf j) (c :: flat L) = false := by
                cases hh : hasPrefix (keyOf j) (c :: flat L) with
                | false => rfl
                | true => exact absurd (hasPrefix_iff.mp hh) hp
              rw [flat_char, replaceAll_skip hq, h3, flat_char]
            | inr i =>
              have hi := hk i (List.mem_cons_self ..)
              rw [flat_mark, replaceAll_over (fun a b hab hb => no_cross hu hi (hm i hi) hab hb _), h3, flat_mark]
  exact key L.length s L (Nat.le_refl _) h

theorem reserved_entry {k : Text × Text} (h : k ∈ reserved) : ∃ i, i < 8 ∧ k = (keyOf i, markOf i) := by
  have : ∀ k ∈ reserved, ∃ i ∈ List.range 8, k = (keyOf i, markOf i) := by decide +kernel
  obtain ⟨i, hi, e⟩ := this k h
  exact ⟨i, List.mem_range.mp hi, e⟩

theorem words_marked {order : List (Text × Text)} (h : ∀ k ∈ order, k ∈ reserved) : ∀ {s : Text} {L : Marked}, FromWords s L →
    ∃ L', FromWords s L' ∧ replaceEach order (flat L) = flat L' := by
  induction order with
  | nil => intro s L hL; exact ⟨L, hL, rfl⟩
  | cons k order ih =>
    intro s L hL
    obtain ⟨i, hi, rfl⟩ := reserved_entry (h k (List.mem_cons_self ..))
    obtain ⟨L1, h1, e1⟩ := mark_forth hi hL
    obtain ⟨L2, h2, e2⟩ := ih (fun k hk => h k (List.mem_cons_of_mem _ hk)) h1
    exact ⟨L2, h2, by rw [← e2, ← e1]; rfl⟩

/-- No reserved word is left. -/
theorem words_gone {order : List (Text × Text)} (h : ∀ k ∈ order, k ∈ reserved) : ∀ (s : Text), ∀ k ∈ order, ¬ k.1 <:+: replaceEach order s := by
  have keep : ∀ (order : List (Text × Text)), (∀ k ∈ order, k ∈ reserved) → ∀ q : Text, '_' ∉ q → (∀ i, i < 11 → ¬ q <:+: markOf i) → ∀ s, ¬ q <:+: s →
      ¬ q <:+: replaceEach order s := by
    intro order
    induction order with
    | nil => intro _ q _ _ s hs; exact hs
    | cons k order ih =>
      intro h q hq hm s hs
      obtain ⟨i, hi, rfl⟩ := reserved_entry (h k (List.mem_cons_self ..))
      have hi' : i < 11 := Nat.lt_trans hi (by decide)
      refine ih (fun k hk => h k (List.mem_cons_of_mem _ hk)) q hq hm _ (fun hc => hs ?_)
      obtain ⟨w, _, t, hf⟩ := markOf_form i hi'
      obtain ⟨t', ht'⟩ := mark_ends i hi'
      exact infix_replaceAll (x := '_') (w := '_' :: (w ++ t)) hf ht' hq hq (hm i hi') (key_plain hi).2.1 hc
  induction order with
  | nil => intro s k hk; cases hk
  | cons k order ih =>
    intro s k' hk'
    have ih := ih fun k hk => h k (List.mem_cons_of_mem _ hk)
    rcases List.mem_cons.mp hk' with rfl | hk'
    · obtain ⟨i, hi, rfl⟩ := reserved_entry (h k' (List.mem_cons_self ..))
      have hi' : i < 11 := Nat.lt_trans hi (by decide)
      obtain ⟨w, _, t, hf⟩ := markOf_form i hi'
      obtain ⟨t', ht'⟩ := mark_ends i hi'
      obtain ⟨h1, h2, h3⟩ := key_plain hi
      exact keep order (fun k hk => h k (List.mem_cons_of_mem _ hk)) _ h1 h3 _
        (not_infix_replaceAll (x := '_') (w := '_' :: (w ++ t)) hf ht' h1 h1 (h3 i hi') h2 s)
    · exact ih _ k' hk'

end Verif.Lemmas
