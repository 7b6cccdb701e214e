import Verif.Lemmas.RazorPrepareName
/-!
# The operators in razor expressions
-/

namespace Verif.Lemmas
open Verif Text Razor Prepare Spec

/-! ## Replacements on both sides of a place -/

theorem replaceAll_same {k v : Text} (hk : k ≠ []) (s : Text) : replaceAll k v s = s ∨ v <:+: replaceAll k v s := by
  refine replace_induction hk (P := fun s => replaceAll k v s = s ∨ v <:+: replaceAll k v s) ?_ ?_ ?_ s
  · exact .inl (replaceAll_nil _ _)
  · intro s _
    rw [replaceAll_match _ _ hk]
    exact .inr (List.prefix_append _ _).isInfix
  · intro c s hp ih
    rw [replaceAll_skip hp]
    rcases ih with h | h
    · exact .inl (by rw [h])
    · exact .inr (List.infix_cons h)

theorem suffix_tail {q v w D : Text} {y : Char} (hv : v = w ++ [y]) (hy : y ∉ q) (h : q <:+ v ++ D) : q <:+ D := by
  rcases List.suffix_or_suffix_of_suffix h (List.suffix_append v D) with h' | ⟨t, rfl⟩
  · exact h'
  · obtain ⟨u, hu⟩ := h
    rw [← List.append_assoc] at hu
    have := List.append_cancel_right hu
    rcases List.eq_nil_or_concat t with rfl | ⟨t', d, rfl⟩
    · exact List.suffix_refl _
    · rw [hv, List.concat_eq_append, ← List.append_assoc] at this
      have := (List.append_inj' this rfl).2
      simp only [List.cons.injEq, and_true] at this
      exact absurd (by simp [this]) hy

theorem suffix_replaceAll {k v w q : Text} {y : Char} (hk : k ≠ []) (hv : v = w ++ [y]) (hy : y ∉ q) (s : Text) (h : q <:+ replaceAll k v s) : q <:+ s := by
  revert h
  refine replace_induction hk (P := fun s => q <:+ replaceAll k v s → q <:+ s) ?_ ?_ ?_ s
  · intro h
    rwa [replaceAll_nil] at h
  · intro s ih h
    rw [replaceAll_match _ _ hk] at h
    exact (ih (suffix_tail hv hy h)).trans (List.suffix_append _ _)
  · intro c s hp ih h
    rw [replaceAll_skip hp] at h
    rcases List.suffix_cons_iff.mp h with h | h
    · rcases replaceAll_same (v := v) hk s with e | e
      · rw [h, e]
        exact List.suffix_refl _
      · refine absurd ?_ hy
        rw [h]
        exact List.mem_cons_of_mem _ (e.subset (by rw [hv]; simp))
    · exact (ih h).trans (List.suffix_cons _ _)

theorem replaceAll_empty {k v s : Text} (hk : k ≠ []) (hv : v ≠ []) (h : replaceAll k v s = []) : s = [] := by
  revert h
  refine replace_induction hk (P := fun s => replaceAll k v s = [] → s = []) ?_ ?_ ?_ s
  · intro _; rfl
  · intro s _ h
    rw [replaceAll_match _ _ hk] at h
    exact absurd (List.append_eq_nil_iff.mp h).1 hv
  · intro c s hp _ h
    rw [replaceAll_skip hp] at h
    cases h

theorem last_cons {d c : Char} {R : Text} (h : [d] <:+ c :: R) : (R = [] ∧ c = d) ∨ [d] <:+ R := by
  rcases List.suffix_cons_iff.mp h with h | h
  · left
    cases h
    exact ⟨rfl, rfl⟩
  · exact .inr h

theorem last_append {d : Char} {v R : Text} (h : [d] <:+ v ++ R) : (R = [] ∧ [d] <:+ v) ∨ [d] <:+ R := by
  rcases List.eq_nil_or_concat R with rfl | ⟨R', e, rfl⟩
  · rw [List.append_nil] at h
    exact .inl ⟨rfl, h⟩
  · right
    rcases List.suffix_or_suffix_of_suffix h (List.suffix_append v (R'.concat e)) with h' | h'
    · exact h'
    · have := h'.length_le
      simp only [List.length_singleton, List.length_concat] at this
      have hR : R' = [] := List.length_eq_zero_iff.mp (by omega)
      subst hR
      obtain ⟨t, ht⟩ := h'
      cases t with
      | nil => exact ⟨[], ht.symm⟩
      | cons x t => simp at ht

theorem last_replaceAll {k v : Text} (hk : k ≠ []) (hv : v ≠ []) {d : Char} (s : Text) (h : [d] <:+ replaceAll k v s) : [d] <:+ s ∨ (k <:+ s ∧ [d] <:+ v) := by
  revert h
  refine replace_induction hk (P := fun s => [d] <:+ replaceAll k v s → [d] <:+ s ∨ (k <:+ s ∧ [d] <:+ v)) ?_ ?_ ?_ s
  · intro h
    rw [replaceAll_nil] at h
    exact .inl h
  · intro s ih h
    rw [replaceAll_match _ _ hk] at h
    rcases last_append h with ⟨h1, h2⟩ | h
    · have := replaceAll_empty hk hv h1
      subst this
      exact .inr ⟨by simp, h2⟩
    · rcases ih h with h | h
      · exact .inl (h.trans (List.suffix_append _ _))
      · exact .inr ⟨h.1.trans (List.suffix_append _ _), h.2⟩
  · intro c s hp ih h
    rw [replaceAll_skip hp] at h
    rcases last_cons h with ⟨h1, rfl⟩ | h
    · have := replaceAll_empty hk hv h1
      subst this
      exact .inl (List.suffix_refl _)
    · rcases ih h with h | h
      · exact .inl (h.trans (List.suffix_cons _ _))
      · exact .inr ⟨h.1.trans (List.suffix_cons _ _), h.2⟩

theorem head_replaceAll {k v : Text} (hk : k ≠ []) (hv : v ≠ []) {d : Char} {s : Text} (h : [d] <+: replaceAll k v s) : [d] <+: s ∨ (k <+: s ∧ [d] <+: v) := by
  cases s with
  | nil => rw [replaceAll_nil] at h; exact .inl h
  | cons c s =>
    cases hp : hasPrefix k (c :: s) with
    | false =>
      rw [replaceAll_skip hp, List.cons_prefix_cons] at h
      rw [List.cons_prefix_cons]
      exact .inl ⟨h.1, List.nil_prefix⟩
    | true =>
      have hkp := hasPrefix_iff.mp hp
      obtain ⟨r, hr⟩ := hkp
      rw [← hr, replaceAll_match _ _ hk] at h
      obtain ⟨e, v', rfl⟩ := List.exists_cons_of_ne_nil hv
      rw [List.cons_append, List.cons_prefix_cons] at h
      refine .inr ⟨⟨r, hr⟩, ?_⟩
      rw [List.cons_prefix_cons]
      exact ⟨h.1, List.nil_prefix⟩

/-- Nothing is replaced across the place between two texts. -/
theorem replaceAll_apart {k v C : Text} (hk : k ≠ []) : ∀ {A : Text}, (∀ k1 k2, k = k1 ++ k2 → k1 ≠ [] → k2 ≠ [] → k1 <:+ A → ¬ k2 <+: C) →
    replaceAll k v (A ++ C) = replaceAll k v A ++ replaceAll k v C := by
  intro A
  refine replace_induction hk (P := fun A => (∀ k1 k2, k = k1 ++ k2 → k1 ≠ [] → k2 ≠ [] → k1 <:+ A → ¬ k2 <+: C) →
    replaceAll k v (A ++ C) = replaceAll k v A ++ replaceAll k v C) ?_ ?_ ?_ A
  · intro _
    rw [replaceAll_nil]
    rfl
  · intro s ih h
    rw [List.append_assoc, replaceAll_match _ _ hk, replaceAll_match _ _ hk, ih (fun k1 k2 e h1 h2 h3 => h k1 k2 e h1 h2 (h3.trans (List.suffix_append _ _))),
      List.append_assoc]
  · intro c s hp ih h
    have hq : hasPrefix k (c :: s ++ C) = false := by
      cases hh : hasPrefix k (c :: s ++ C) with
      | false => rfl
      | true =>
        have h1 := hasPrefix_iff.mp hh
        rcases List.prefix_or_prefix_of_prefix h1 (List.prefix_append (c :: s) C) with h2 | ⟨k2, h2⟩
        · rw [hasPrefix_iff.mpr h2] at hp
          cases hp
        · rcases List.eq_nil_or_concat k2 with rfl | ⟨_, _, hc⟩
          · rw [List.append_nil] at h2
            rw [hasPrefix_iff.mpr (h2 ▸ List.prefix_refl _)] at hp
            cases hp
          · refine absurd ?_ (h (c :: s) k2 h2.symm (by simp) (by rw [hc]; simp) (List.suffix_refl _))
            rw [← h2] at h1
            exact (List.prefix_append_right_inj _).mp h1
    have e : replaceAll k v (c :: s ++ C) = c :: replaceAll k v (s ++ C) := replaceAll_skip hq
    rw [e, replaceAll_skip hp, ih (fun k1 k2 e h1 h2 h3 => h k1 k2 e h1 h2 (h3.trans (List.suffix_cons _ _)))]
    rfl

/-- A separator that has no character of the key. -/
theorem replaceAll_around {k v X : Text} (hk : k ≠ []) (hX : X ≠ []) (h : ∀ c ∈ X, c ∉ k) (A B : Text) :
    replaceAll k v (A ++ (X ++ B)) = replaceAll k v A ++ (X ++ replaceAll k v B) := by
  have := replaceAll_cut (v := v) hk hX h B A
  simpa using this

theorem each_around {order : List (Text × Text)} (hk : ∀ k ∈ order, k.1 ≠ []) {X : Text} (hX : X ≠ []) (h : ∀ k ∈ order, ∀ c ∈ X, c ∉ k.1) : ∀ A B : Text,
    replaceEach order (A ++ (X ++ B)) = replaceEach order A ++ (X ++ replaceEach order B) := by
  induction order with
  | nil => intro A B; rfl
  | cons k order ih =>
    intro A B
    have e : ∀ s, replaceEach (k :: order) s = replaceEach order (replaceAll k.1 k.2 s) := fun _ => rfl
    rw [e, e, e, replaceAll_around (hk k (List.mem_cons_self ..)) hX (h k (List.mem_cons_self ..)),
      ih (fun k hk' => hk k (List.mem_cons_of_mem _ hk')) (fun k hk' => h k (List.mem_cons_of_mem _ hk'))]

/-- The character is not part of a dot or of a name. -/
def loose (d : Char) : Bool := d != '.' && !wordChar d && d != ')' && d != ']'

theorem dots_around {d : Char} (hd : loose d = true) (b : Text) : ∀ (a : Text) (p : Place), dots p (a ++ d :: b) = dots p a ++ d :: dots .free b := by
  simp only [loose, Bool.and_eq_true, bne_iff_ne, Bool.not_eq_true'] at hd
  obtain ⟨⟨⟨h1, h2⟩, h3⟩, h4⟩ := hd
  have hp : placeAfter d = .free := by simp [placeAfter, h2, h3, h4]
  intro a
  induction a with
  | nil =>
    intro p
    cases p <;> simp [dots, h1, h2, hp]
  | cons c a ih =>
    intro p
    cases p <;> simp only [List.cons_append, dots] <;> (try split) <;> simp [ih]

theorem dots_same : ∀ (s : Text) (p : Place), dots p s = s ∨ '_' ∈ dots p s := by
  intro s
  induction s with
  | nil => intro p; exact .inl rfl
  | cons c s ih =>
    intro p
    have key : ∀ q, c :: dots q s = c :: s ∨ '_' ∈ c :: dots q s := by
      intro q
      rcases ih q with h | h
      · exact .inl (by rw [h])
      · exact .inr (List.mem_cons_of_mem _ h)
    cases p <;> simp only [dots]
    · split
      · exact .inr (List.mem_append_left _ (by decide))
      · exact key _
    · exact key _
    · split <;> exact key _
    · split <;> exact key _

theorem dots_suffix {q : Text} (hq : '_' ∉ q) : ∀ (s : Text) (p : Place), q <:+ dots p s → q <:+ s := by
  intro s
  induction s with
  | nil => intro p h; exact h
  | cons c s ih =>
    intro p h
    have key : ∀ r, q <:+ c :: dots r s → q <:+ c :: s := by
      intro r h
      rcases List.suffix_cons_iff.mp h with h | h
      · rcases dots_same s r with e | e
        · rw [h, e]
          exact List.suffix_refl _
        · exact absurd (h ▸ List.mem_cons_of_mem _ e) hq
      · exact (ih r h).trans (List.suffix_cons _ _)
    cases p <;> simp only [dots] at h
    · split at h
      · exact (ih _ (suffix_tail (w := c!"__DoTPrefix_") (y := '_') rfl hq h)).trans (List.suffix_cons _ _)
      · exact key _ h
    · exact key _ h
    · split at h <;> exact key _ h
    · split at h <;> exact key _ h

theorem dots_prefix : ∀ {q : Text}, '_' ∉ q → ∀ {s : Text} {p : Place}, q <+: dots p s → q <+: s := by
  intro q
  induction q with
  | nil => intro _ s p _; exact List.nil_prefix
  | cons d q ih =>
    intro hq s p h
    simp only [List.mem_cons, not_or] at hq
    cases s with
    | nil => exact h
    | cons c s =>
      have key : ∀ r, d :: q <+: c :: dots r s → d :: q <+: c :: s := by
        intro r h
        rw [List.cons_prefix_cons] at h ⊢
        exact ⟨h.1, ih hq.2 h.2⟩
      cases p <;> simp only [dots] at h
      · split at h
        · rw [show dotMark = '_' :: c!"_DoTPrefix__" from rfl, List.cons_append, List.cons_prefix_cons] at h
          exact absurd h.1.symm hq.1
        · exact key _ h
      · exact key _ h
      · split at h <;> exact key _ h
      · split at h <;> exact key _ h

/-! ## The completion of slices -/

theorem completeFrom_over {B : Text} : ∀ {g : Text} {o : Option Text}, '[' ∉ g → ':' ∉ g → completeFrom o (g ++ B) = g ++ completeFrom (openedBy o g) B := by
  intro g
  induction g with
  | nil => intro o _ _; rfl
  | cons c g ih =>
    intro o h1 h2
    simp only [List.mem_cons, not_or] at h1 h2
    have hm : ∀ n, missing o c n = [] := by
      intro n
      simp [missing, Ne.symm h1.1, Ne.symm h2.1]
    rw [List.cons_append, completeFrom, hm, List.nil_append, ih h1.2 h2.2]
    rfl

theorem openedBy_append (o : Option Text) (a b : Text) : openedBy o (a ++ b) = openedBy (openedBy o a) b := by
  simp [openedBy, List.foldl_append]

theorem openedBy_none {a : Text} (h : '[' ∉ a) : openedBy none a = none := by
  induction a with
  | nil => rfl
  | cons c a ih =>
    simp only [List.mem_cons, not_or] at h
    have : openedBy none (c :: a) = openedBy (if c = '[' then some [] else none) a := rfl
    rw [this, if_neg (Ne.symm h.1), ih h.2]

theorem dead_openedBy {o : Option Text} (h : Dead o) {g : Text} (hg : '[' ∉ g) : Dead (openedBy o g) := by
  induction g generalizing o with
  | nil => exact h
  | cons c g ih =>
    simp only [List.mem_cons, not_or] at hg
    have : openedBy o (c :: g) = openedBy (if c = '[' then some [] else o.map fun w => w ++ [c]) g := rfl
    rw [this, if_neg (Ne.symm hg.1)]
    exact ih (dead_step h c) hg.2

theorem openedBy_dead {o : Option Text} {g : Text} (hg : '[' ∉ g) {d : Char} (hd : d ∈ g) (h1 : d ≠ '-') (h2 : d.isDigit = false) : Dead (openedBy o g) := by
  induction g generalizing o with
  | nil => cases hd
  | cons c g ih =>
    simp only [List.mem_cons, not_or] at hg
    have e : openedBy o (c :: g) = openedBy (if c = '[' then some [] else o.map fun w => w ++ [c]) g := rfl
    rw [e, if_neg (Ne.symm hg.1)]
    rcases List.mem_cons.mp hd with rfl | hd
    · refine dead_openedBy ?_ hg.2
      intro w hw u
      cases o with
      | none => cases hw
      | some v =>
        cases hw
        exact isNegative_not (c := d) (by simp) h1 h2
    · exact ih hg.2 hd

/-- An operator of Go does not change the slices. -/
theorem index_around {g : Text} (hg : ∀ c ∈ g, c ≠ '[' ∧ c ≠ ']' ∧ c ≠ ':') (hne : g ≠ []) {A : Text}
    (h : (∃ c ∈ g, c ≠ '-' ∧ c.isDigit = false) ∨ '[' ∉ A) (B : Text) : indexExpression (A ++ (g ++ B)) = indexExpression A ++ (g ++ indexExpression B) := by
  simp only [indexExpression_eq, complete]
  have h1 : '[' ∉ g := fun hm => (hg _ hm).1 rfl
  have h2 : ':' ∉ g := fun hm => (hg _ hm).2.2 rfl
  rw [completeFrom_cut, completeFrom_over h1 h2]
  · refine congrArg (fun x => completeFrom none A ++ (g ++ x)) (completeFrom_dead ?_ dead_none)
    rcases h with ⟨c, hc, hc1, hc2⟩ | h
    · exact openedBy_dead h1 hc hc1 hc2
    · rw [openedBy_none h, openedBy_none h1]
      exact dead_none
  · intro c hc
    obtain ⟨d, g', rfl⟩ := List.exists_cons_of_ne_nil hne
    cases hc
    exact ⟨(hg _ (List.mem_cons_self ..)).2.1, (hg _ (List.mem_cons_self ..)).2.2⟩

end Verif.Lemmas
