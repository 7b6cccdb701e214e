/-!
# Text

Texts are lists of characters.  This file has the text functions of Go's `strings`
package that the modelled code uses, as total computable functions, with the basic
lemmas about them.  They model library functions, not `/repo` code.
-/

namespace Verif

/-- Go `string`, as the list of its characters. -/
abbrev Text := List Char

/-- String literal to text. -/
abbrev T (s : String) : Text := s.toList

namespace Text

/-! ## Order (Go's `<=` on strings) -/

/-- Lexicographic order on code points; the same order as Go's byte-wise comparison on valid UTF-8. -/
def le : Text → Text → Bool
  | [], _ => true
  | _ :: _, [] => false
  | a :: as, b :: bs => a.val < b.val || (a == b && le as bs)

/-- Strict order. -/
def lt (a b : Text) : Bool := !(le b a)

theorem le_refl (a : Text) : le a a = true := by
  induction a with
  | nil => rfl
  | cons x xs ih => simp [le, ih]

theorem le_total (a b : Text) : le a b = true ∨ le b a = true := by
  induction a generalizing b with
  | nil => simp [le]
  | cons x xs ih =>
    cases b with
    | nil => simp [le]
    | cons y ys =>
      simp only [le, Bool.or_eq_true, Bool.and_eq_true, decide_eq_true_eq, beq_iff_eq]
      by_cases h : x = y
      · subst h
        rcases ih ys with h | h
        · left; right; exact ⟨rfl, h⟩
        · right; right; exact ⟨rfl, h⟩
      · have : x.val ≠ y.val := fun e => h (Char.ext e)
        rcases UInt32.lt_or_lt_of_ne this with h | h
        · left; left; exact h
        · right; left; exact h

theorem le_trans (a b c : Text) (h1 : le a b = true) (h2 : le b c = true) : le a c = true := by
  induction a generalizing b c with
  | nil => simp [le]
  | cons x xs ih =>
    cases b with
    | nil => simp [le] at h1
    | cons y ys =>
      cases c with
      | nil => simp [le] at h2
      | cons z zs =>
        simp only [le, Bool.or_eq_true, Bool.and_eq_true, decide_eq_true_eq, beq_iff_eq] at *
        rcases h1 with h1 | ⟨h1, h1'⟩
        · rcases h2 with h2 | ⟨h2, h2'⟩
          · left; exact UInt32.lt_trans h1 h2
          · subst h2; left; exact h1
        · subst h1
          rcases h2 with h2 | ⟨h2, h2'⟩
          · left; exact h2
          · right; exact ⟨h2, ih _ _ h1' h2'⟩

theorem le_antisymm (a b : Text) (h1 : le a b = true) (h2 : le b a = true) : a = b := by
  induction a generalizing b with
  | nil => cases b with
    | nil => rfl
    | cons => simp [le] at h2
  | cons x xs ih =>
    cases b with
    | nil => simp [le] at h1
    | cons y ys =>
      simp only [le, Bool.or_eq_true, Bool.and_eq_true, decide_eq_true_eq, beq_iff_eq] at *
      rcases h1 with h1 | ⟨h1, h1'⟩
      · rcases h2 with h2 | ⟨h2, h2'⟩
        · exact absurd (UInt32.lt_trans h1 h2) (UInt32.lt_irrefl _)
        · subst h2; exact absurd h1 (UInt32.lt_irrefl _)
      · subst h1
        rcases h2 with h2 | ⟨_, h2'⟩
        · exact absurd h2 (UInt32.lt_irrefl _)
        · rw [ih _ h1' h2']

theorem lt_iff (a b : Text) : lt a b = true ↔ le a b = true ∧ a ≠ b := by
  constructor
  · intro h
    simp only [lt, Bool.not_eq_true'] at h
    constructor
    · rcases le_total a b with h' | h'
      · exact h'
      · rw [h] at h'; cases h'
    · intro e; subst e; rw [le_refl] at h; cases h
  · rintro ⟨h1, h2⟩
    simp only [lt, Bool.not_eq_true']
    cases h : le b a with
    | false => rfl
    | true => exact absurd (le_antisymm _ _ h1 h) h2

/-! ## Prefixes, suffixes and search -/

/-- `strings.HasPrefix`, `strings.CutPrefix`: the rest of `s` after prefix `p`. -/
def dropPrefix? : Text → Text → Option Text
  | [], s => some s
  | _ :: _, [] => none
  | p :: ps, c :: cs => if p = c then dropPrefix? ps cs else none

theorem dropPrefix?_eq_some {p s r : Text} : dropPrefix? p s = some r ↔ s = p ++ r := by
  induction p generalizing s with
  | nil => simp [dropPrefix?, eq_comm]
  | cons a ps ih =>
    cases s with
    | nil => simp [dropPrefix?]
    | cons c cs =>
      simp only [dropPrefix?]
      split
      · rename_i h; subst h; simp [ih]
      · rename_i h; simp; intro e; exact absurd e.symm h

/-- `strings.HasPrefix`. -/
def hasPrefix (p s : Text) : Bool := (dropPrefix? p s).isSome

theorem hasPrefix_iff {p s : Text} : hasPrefix p s = true ↔ p <+: s := by
  unfold hasPrefix
  rw [Option.isSome_iff_exists]
  constructor
  · rintro ⟨r, h⟩; exact ⟨r, (dropPrefix?_eq_some.1 h).symm⟩
  · rintro ⟨r, h⟩; exact ⟨r, dropPrefix?_eq_some.2 h.symm⟩

/-- `strings.HasSuffix`. -/
def hasSuffix (p s : Text) : Bool := hasPrefix p.reverse s.reverse

theorem hasSuffix_iff {p s : Text} : hasSuffix p s = true ↔ p <:+ s := by
  unfold hasSuffix; rw [hasPrefix_iff, List.reverse_prefix]

/-- `strings.TrimPrefix`. -/
def trimPrefix (p s : Text) : Text := (dropPrefix? p s).getD s

/-- `strings.TrimSuffix`. -/
def trimSuffix (p s : Text) : Text :=
  match dropPrefix? p.reverse s.reverse with
  | some r => r.reverse
  | none => s

theorem trimSuffix_append (p s : Text) : trimSuffix p (s ++ p) = s := by
  have : dropPrefix? p.reverse (s ++ p).reverse = some s.reverse := by
    rw [dropPrefix?_eq_some]; simp
  simp only [trimSuffix, this, List.reverse_reverse]

theorem trimSuffix_of_not {p s : Text} (h : ¬ p <:+ s) : trimSuffix p s = s := by
  unfold trimSuffix
  split
  · rename_i r hr
    rw [dropPrefix?_eq_some] at hr
    exact absurd ⟨r.reverse, by have := congrArg List.reverse hr; simpa using this.symm⟩ h
  · rfl

/-- `strings.Index`: position of the first occurrence of `p` in `s`. -/
def index? (p : Text) : Text → Option Nat
  | [] => if p = [] then some 0 else none
  | c :: cs => if hasPrefix p (c :: cs) then some 0 else (index? p cs).map (· + 1)

/-- `strings.Contains`. -/
def contains (p s : Text) : Bool := (index? p s).isSome

theorem contains_iff {p s : Text} : contains p s = true ↔ p <:+: s := by
  unfold contains
  induction s with
  | nil =>
    simp only [index?]
    split
    · rename_i h; subst h; simp
    · rename_i h; simp; exact h
  | cons c cs ih =>
    simp only [index?]
    split
    · rename_i h
      simp only [Option.isSome_some, true_iff]
      exact (hasPrefix_iff.1 h).isInfix
    · rename_i h
      rw [Option.isSome_map, ih, List.infix_cons_iff]
      constructor
      · exact Or.inr
      · rintro (h' | h')
        · exact absurd (hasPrefix_iff.2 h') h
        · exact h'

/-! ## Splitting and joining -/

/-- `strings.Split(s, sep)` for a one-character separator. -/
def splitC (sep : Char) : Text → List Text
  | [] => [[]]
  | c :: cs =>
    if c = sep then [] :: splitC sep cs
    else match splitC sep cs with
      | [] => [[c]]
      | l :: ls => (c :: l) :: ls

/-- `strings.Join`. -/
def join (sep : Text) : List Text → Text
  | [] => []
  | [x] => x
  | x :: y :: l => x ++ sep ++ join sep (y :: l)

theorem splitC_ne_nil (sep : Char) (s : Text) : splitC sep s ≠ [] := by
  cases s with
  | nil => simp [splitC]
  | cons c cs =>
    simp only [splitC]
    split
    · simp
    · split <;> simp

theorem join_cons_cons (sep x y : Text) (l : List Text) :
    join sep (x :: y :: l) = x ++ sep ++ join sep (y :: l) := rfl

theorem join_cons_of_ne (sep x : Text) {l : List Text} (h : l ≠ []) :
    join sep (x :: l) = x ++ sep ++ join sep l := by
  cases l with
  | nil => exact absurd rfl h
  | cons => rfl

theorem join_splitC (sep : Char) (s : Text) : join [sep] (splitC sep s) = s := by
  induction s with
  | nil => rfl
  | cons c cs ih =>
    simp only [splitC]
    split
    · rename_i h; subst h
      rw [join_cons_of_ne _ _ (splitC_ne_nil _ _), ih]; rfl
    · split
      · rename_i h; exact absurd h (splitC_ne_nil _ _)
      · rename_i l ls h
        rw [h] at ih
        cases ls with
        | nil => simp only [join] at *; rw [ih]
        | cons l2 ls2 =>
          simp only [join, List.cons_append] at *; rw [ih]

theorem splitC_no_sep (sep : Char) (s l : Text) (h : l ∈ splitC sep s) : sep ∉ l := by
  induction s generalizing l with
  | nil => simp [splitC] at h; subst h; simp
  | cons c cs ih =>
    simp only [splitC] at h
    split at h
    · rcases List.mem_cons.1 h with h | h
      · subst h; simp
      · exact ih _ h
    · rename_i hc
      split at h
      · simp at h; subst h; simp; exact fun e => hc e.symm
      · rename_i l' ls hl
        rcases List.mem_cons.1 h with h | h
        · subst h
          have := ih l' (by rw [hl]; simp)
          simp only [List.mem_cons, not_or]
          exact ⟨fun e => hc e.symm, this⟩
        · exact ih _ (by rw [hl]; simp [h])

theorem splitC_of_not_mem {sep : Char} {s : Text} (h : sep ∉ s) : splitC sep s = [s] := by
  induction s with
  | nil => rfl
  | cons c cs ih =>
    simp only [List.mem_cons, not_or] at h
    simp only [splitC]
    rw [if_neg (fun e => h.1 e.symm), ih h.2]

theorem splitC_append {sep : Char} {a : Text} (b : Text) (h : sep ∉ a) :
    splitC sep (a ++ sep :: b) = a :: splitC sep b := by
  induction a with
  | nil => simp [splitC]
  | cons c cs ih =>
    simp only [List.mem_cons, not_or] at h
    simp only [List.cons_append, splitC]
    rw [if_neg (fun e => h.1 e.symm), ih h.2]

theorem splitC_join {sep : Char} {ls : List Text} (hne : ls ≠ [])
    (h : ∀ l ∈ ls, sep ∉ l) : splitC sep (join [sep] ls) = ls := by
  induction ls with
  | nil => exact absurd rfl hne
  | cons l ls ih =>
    cases ls with
    | nil => simp only [join]; exact splitC_of_not_mem (h l (by simp))
    | cons l2 ls2 =>
      simp only [join, List.append_assoc, List.singleton_append]
      rw [splitC_append _ (h l (by simp)), ih (by simp) (fun x hx => h x (by simp [hx]))]

/-! ## Replacement -/

/-- `strings.Replace(s, old, new, -1)` for a non-empty `old`: leftmost, non-overlapping.
`n` counts the characters of the current match still to be skipped. -/
def replaceAux (old new : Text) : Nat → Text → Text
  | _, [] => []
  | n + 1, _ :: cs => replaceAux old new n cs
  | 0, c :: cs =>
    if hasPrefix old (c :: cs) then new ++ replaceAux old new (old.length - 1) cs
    else c :: replaceAux old new 0 cs

/-- `strings.ReplaceAll`; an empty `old` is not used by the modelled code and leaves `s` unchanged here. -/
def replaceAll (old new s : Text) : Text :=
  if old = [] then s else replaceAux old new 0 s

theorem replaceAux_skip (old new a b : Text) :
    replaceAux old new a.length (a ++ b) = replaceAux old new 0 b := by
  induction a with
  | nil => rfl
  | cons c cs ih => simpa [replaceAux] using ih

/-- A match at the head is replaced. -/
theorem replaceAll_match {old : Text} (new s : Text) (h : old ≠ []) :
    replaceAll old new (old ++ s) = new ++ replaceAll old new s := by
  unfold replaceAll
  rw [if_neg h, if_neg h]
  cases old with
  | nil => exact absurd rfl h
  | cons o os =>
    have hp : hasPrefix (o :: os) (o :: (os ++ s)) = true := hasPrefix_iff.2 ⟨s, rfl⟩
    simp only [List.cons_append, replaceAux, hp, if_true, List.length_cons, Nat.add_sub_cancel]
    rw [replaceAux_skip]

theorem replaceAll_nil (old new : Text) : replaceAll old new [] = [] := by
  unfold replaceAll; split <;> rfl

/-- Without a match at the head the first character is kept. -/
theorem replaceAll_skip {old new s : Text} {c : Char} (h : hasPrefix old (c :: s) = false) :
    replaceAll old new (c :: s) = c :: replaceAll old new s := by
  unfold replaceAll
  split
  · rfl
  · simp only [replaceAux, h]; rfl

theorem replaceAll_of_not_contains {old new s : Text} (h : contains old s = false) :
    replaceAll old new s = s := by
  induction s with
  | nil => exact replaceAll_nil _ _
  | cons c cs ih =>
    have h0 : ¬ old <:+: c :: cs := by rw [← contains_iff, h]; simp
    have h1 : hasPrefix old (c :: cs) = false := by
      cases hp : hasPrefix old (c :: cs) with
      | false => rfl
      | true => exact absurd (hasPrefix_iff.1 hp).isInfix h0
    rw [replaceAll_skip h1, ih]
    cases hc : contains old cs with
    | false => rfl
    | true => exact absurd ((contains_iff.1 hc).trans (List.infix_cons (List.infix_refl _))) h0

/-! ## Sorting (Go's sort.Strings / StringArray.Sorted) -/

/-- Insert in a sorted list. -/
def insertSorted {α : Type} (key : α → Text) (x : α) : List α → List α
  | [] => [x]
  | y :: ys => if le (key x) (key y) then x :: y :: ys else y :: insertSorted key x ys

/-- Sort by a text key.  The sort of the Go code is only applied to lists of distinct keys,
so stability does not matter. -/
def sortBy {α : Type} (key : α → Text) : List α → List α
  | [] => []
  | x :: xs => insertSorted key x (sortBy key xs)

theorem insertSorted_perm {α : Type} (key : α → Text) (x : α) (l : List α) :
    (insertSorted key x l).Perm (x :: l) := by
  induction l with
  | nil => exact List.Perm.refl _
  | cons y ys ih =>
    simp only [insertSorted]
    split
    · exact List.Perm.refl _
    · exact (List.Perm.cons y ih).trans (List.Perm.swap x y ys)

theorem sortBy_perm {α : Type} (key : α → Text) (l : List α) : (sortBy key l).Perm l := by
  induction l with
  | nil => exact List.Perm.refl _
  | cons x xs ih => exact (insertSorted_perm key x _).trans (List.Perm.cons x ih)

theorem insertSorted_pairwise {α : Type} (key : α → Text) (x : α) (l : List α)
    (h : l.Pairwise (fun a b => le (key a) (key b) = true)) :
    (insertSorted key x l).Pairwise (fun a b => le (key a) (key b) = true) := by
  induction l with
  | nil => simp [insertSorted]
  | cons y ys ih =>
    simp only [insertSorted]
    rw [List.pairwise_cons] at h
    split
    · rename_i hxy
      rw [List.pairwise_cons]
      refine ⟨?_, List.pairwise_cons.2 h⟩
      intro z hz
      rcases List.mem_cons.1 hz with hz | hz
      · subst hz; exact hxy
      · exact le_trans _ _ _ hxy (h.1 z hz)
    · rename_i hxy
      rw [List.pairwise_cons]
      refine ⟨?_, ih h.2⟩
      intro z hz
      rcases List.mem_cons.1 ((insertSorted_perm key x ys).mem_iff.1 hz) with hz | hz
      · subst hz
        rcases le_total (key z) (key y) with h' | h'
        · exact absurd h' hxy
        · exact h'
      · exact h.1 z hz

theorem sortBy_sorted {α : Type} (key : α → Text) (l : List α) :
    (sortBy key l).Pairwise (fun a b => le (key a) (key b) = true) := by
  induction l with
  | nil => exact List.Pairwise.nil
  | cons x xs ih => exact insertSorted_pairwise key x _ ih

/-- Two sorted permutations with distinct keys are equal. -/
theorem sorted_perm_unique {α : Type} (key : α → Text) {l₁ l₂ : List α}
    (hp : l₁.Perm l₂) (h1 : l₁.Pairwise (fun a b => le (key a) (key b) = true))
    (h2 : l₂.Pairwise (fun a b => le (key a) (key b) = true))
    (hn : (l₁.map key).Nodup) : l₁ = l₂ := by
  induction l₁ generalizing l₂ with
  | nil => exact (List.nil_perm.1 hp).symm
  | cons x xs ih =>
    cases l₂ with
    | nil => exact absurd (List.perm_nil.1 hp) (by simp)
    | cons y ys =>
      rw [List.pairwise_cons] at h1 h2
      rw [List.map_cons, List.nodup_cons] at hn
      have hxy : x = y := by
        rcases List.mem_cons.1 (hp.mem_iff.1 (List.mem_cons_self : x ∈ x :: xs)) with h | hx
        · exact h
        rcases List.mem_cons.1 (hp.mem_iff.2 (List.mem_cons_self : y ∈ y :: ys)) with h | hy
        · exact h.symm
        have e : key x = key y := le_antisymm _ _ (h1.1 y hy) (h2.1 x hx)
        exact absurd (by rw [e]; exact List.mem_map_of_mem hy) hn.1
      subst hxy
      rw [ih (List.Perm.cons_inv hp) h1.2 h2.2 hn.2]

/-- The sorted list depends only on the contents, not on the order (e.g. map iteration order). -/
theorem sortBy_perm_invariant {α : Type} (key : α → Text) {l₁ l₂ : List α}
    (hp : l₁.Perm l₂) (hn : (l₁.map key).Nodup) : sortBy key l₁ = sortBy key l₂ := by
  have hp' : (sortBy key l₁).Perm (sortBy key l₂) :=
    (sortBy_perm key l₁).trans (hp.trans (sortBy_perm key l₂).symm)
  exact sorted_perm_unique key hp' (sortBy_sorted key l₁) (sortBy_sorted key l₂)
    (((sortBy_perm key l₁).map key).nodup_iff.2 hn)

theorem sortBy_map {α : Type} (key : α → Text) (l : List α) :
    (sortBy key l).map key = sortBy id (l.map key) := by
  induction l with
  | nil => rfl
  | cons x xs ih =>
    simp only [sortBy, List.map_cons, ← ih]
    generalize sortBy key xs = m
    induction m with
    | nil => rfl
    | cons y ys ih2 =>
      simp only [insertSorted, List.map_cons, id]
      split
      · rfl
      · simp [ih2]

end Text
end Verif
