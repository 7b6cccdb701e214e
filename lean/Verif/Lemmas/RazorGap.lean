import Verif.Lemmas.RazorBetween
/-!
# Texts without omitted bounds
-/

namespace Verif.Lemmas
open Verif Text Razor Prepare Spec

/-- What is completed in a slice. -/
def gapWords : List Text := [c!"[]", c!"[:", c!":]"]

def Gapless (s : Text) : Prop := ∀ w ∈ gapWords, ¬ w <:+: s

theorem gapless_part {s t : Text} (h : Gapless s) (ht : t <:+: s) : Gapless t := fun w hw hi => h w hw (hi.trans ht)

theorem complete_gapless {s : Text} (h : Gapless s) (o : Option Text) : completeFrom o s = s := by
  induction s generalizing o with
  | nil => rfl
  | cons c s ih =>
    have key : ∀ x y : Char, [x, y] ∈ gapWords → ¬ (c = x ∧ s.head? = some y) := by
      rintro x y hm ⟨rfl, hy⟩
      cases s with
      | nil => cases hy
      | cons d t =>
        cases hy
        exact h _ hm ⟨[], t, rfl⟩
    rw [completeFrom, missing, if_neg (key _ _ (by decide)), if_neg (key _ _ (by decide)), if_neg (key _ _ (by decide)), ih (gapless_part h (List.suffix_cons c s).isInfix)]
    rfl

theorem pair_skip {c d : Char} {v R : Text} (hc : c ∉ v) (h : [c, d] <:+: v ++ R) : [c, d] <:+: R := by
  induction v with
  | nil => exact h
  | cons x v ih =>
    simp only [List.mem_cons, not_or] at hc
    rcases List.infix_cons_iff.mp h with h | h
    · exact absurd (List.cons_prefix_cons.mp h).1 hc.1
    · exact ih hc.2 h

theorem pair_replace {k v : Text} (hk : k ≠ []) (hv : v ≠ []) {c d : Char} (hc : c ∉ v) (hd : d ∉ v) : ∀ s : Text, [c, d] <:+: replaceAll k v s → [c, d] <:+: s := by
  intro s
  refine replace_induction (k := k) hk (P := fun s => [c, d] <:+: replaceAll k v s → [c, d] <:+: s) ?_ ?_ ?_ s
  · rw [replaceAll_nil]; exact id
  · intro s ih h
    rw [replaceAll_match _ _ hk] at h
    exact (ih (pair_skip hc h)).trans (List.suffix_append _ _).isInfix
  · intro x s hp ih h
    rw [replaceAll_skip hp] at h
    rcases List.infix_cons_iff.mp h with h | h
    · obtain ⟨e, h2⟩ := List.cons_prefix_cons.mp h
      rcases head_replaceAll hk hv h2 with h3 | ⟨_, h3⟩
      · exact List.IsPrefix.isInfix (List.cons_prefix_cons.mpr ⟨e, h3⟩)
      · exact absurd (h3.subset (by simp)) hd
    · exact (ih h).trans (List.suffix_cons _ _).isInfix

theorem pair_dots {c d : Char} (hc : c ∉ dotMark) (hd : d ∉ dotMark) : ∀ (s : Text) (p : Place), [c, d] <:+: dots p s → [c, d] <:+: s := by
  have hd' : '_' ∉ [d] := fun hm => hd (by rw [← List.mem_singleton.mp hm]; decide)
  intro s
  induction s with
  | nil => intro p h; exact h
  | cons x s ih =>
    intro p h
    have key : ∀ q, [c, d] <:+: x :: dots q s → [c, d] <:+: x :: s := by
      intro q h
      rcases List.infix_cons_iff.mp h with h | h
      · obtain ⟨e, h2⟩ := List.cons_prefix_cons.mp h
        exact List.IsPrefix.isInfix (List.cons_prefix_cons.mpr ⟨e, dots_prefix hd' h2⟩)
      · exact (ih q h).trans (List.suffix_cons _ _).isInfix
    cases p <;> simp only [dots] at h
    · split at h
      · exact (ih _ (pair_skip hc h)).trans (List.suffix_cons _ _).isInfix
      · exact key _ h
    · exact key _ h
    · split at h <;> exact key _ h
    · split at h <;> exact key _ h

theorem gap_pairs : ∀ w ∈ gapWords, ∃ c d, w = [c, d] ∧ c ∈ c!"[:" ∧ d ∈ c!"]:" := by
  intro w hw
  simp only [gapWords, List.mem_cons, List.not_mem_nil, or_false] at hw
  rcases hw with rfl | rfl | rfl
  · exact ⟨_, _, rfl, by decide, by decide⟩
  · exact ⟨_, _, rfl, by decide, by decide⟩
  · exact ⟨_, _, rfl, by decide, by decide⟩

theorem gapless_replace {k : Text × Text} (hk : k ∈ reserved ++ Prepare.signs ++ wordOperators) {A : Text} (h : Gapless A) : Gapless (replaceAll k.1 k.2 A) := by
  have facts : ∀ k ∈ reserved ++ Prepare.signs ++ wordOperators, k.1 ≠ [] ∧ k.2 ≠ [] ∧ ∀ c ∈ c!"[]:", c ∉ k.2 := by decide +kernel
  obtain ⟨h1, h2, h3⟩ := facts k hk
  intro w hw hi
  obtain ⟨c, d, rfl, hc, hd⟩ := gap_pairs w hw
  refine h _ hw (pair_replace h1 h2 (h3 c ?_) (h3 d ?_) A hi)
  · clear hw hi; revert hc; revert c; decide
  · clear hw hi; revert hd; revert d; decide

theorem passes_gapless {o : Orders} (ho : SomeOrder o) {s : Text} (h : Gapless s) : Gapless (passes o s) := by
  refine each_inv (P := Gapless) (fun k hk A hA => gapless_replace (in_operators ho hk) hA) ?_
  refine each_inv (P := Gapless) (fun k hk A hA => gapless_replace (in_signs ho hk) hA) ?_
  have h1 : Gapless (replaceEach o.words s) := each_inv (P := Gapless) (fun k hk A hA => gapless_replace (in_words ho hk) hA) h
  intro w hw hi
  obtain ⟨c, d, rfl, hc, hd⟩ := gap_pairs w hw
  refine h1 _ hw (pair_dots ?_ ?_ _ _ hi)
  · clear hw hi; revert hc; revert c; decide
  · clear hw hi; revert hd; revert d; decide

theorem rewrite_gapless {o : Orders} (ho : SomeOrder o) {s : Text} (h : Gapless s) : rewrite o s = passes o s := by
  show indexExpression (passes o s) = _
  rw [indexExpression_eq]
  exact complete_gapless (passes_gapless ho h) none

theorem rewrite_parts {o : Orders} (ho : SomeOrder o) {a x g b : Text} (h : passes o (a ++ (x ++ b)) = passes o a ++ (g ++ passes o b)) (hg : Gapless (a ++ (x ++ b))) :
    rewrite o (a ++ (x ++ b)) = rewrite o a ++ (g ++ rewrite o b) := by
  rw [rewrite_gapless ho hg, rewrite_gapless ho (gapless_part hg (List.prefix_append _ _).isInfix), rewrite_gapless ho (gapless_part hg ⟨a ++ x, [], by simp⟩), h]

/-- The last character is not one after which a bound can be omitted. -/
def LastKept (s : Text) : Prop := ∀ c, s.getLast? = some c → c ∉ c!"[:"
def FirstKept (s : Text) : Prop := ∀ c, s.head? = some c → c ∉ c!"]:"

theorem gapless_join {u v : Text} (hu : Gapless u) (hv : Gapless v) (h : LastKept u ∨ FirstKept v) : Gapless (u ++ v) := by
  induction u with
  | nil => exact hv
  | cons x u ih =>
    intro w hw hi
    have ih := ih (gapless_part hu (List.suffix_cons _ _).isInfix) (by
      rcases h with h | h
      · left
        intro c hc
        refine h c ?_
        cases u with
        | nil => cases hc
        | cons y u => rw [List.getLast?_cons_cons]; exact hc
      · exact .inr h)
    obtain ⟨c, d, rfl, hc, hd⟩ := gap_pairs w hw
    rcases List.infix_cons_iff.mp hi with hi | hi
    · obtain ⟨e, h2⟩ := List.cons_prefix_cons.mp hi
      cases u with
      | nil =>
        rcases h with h | h
        · exact h c (by rw [e]; rfl) hc
        · exact h d (singleton_prefix_iff.mp h2) hd
      | cons y u =>
        obtain ⟨e2, _⟩ := List.cons_prefix_cons.mp h2
        exact hu _ hw ⟨[], u, by rw [e, e2]; rfl⟩
    · exact ih _ hw hi

def GapEnd (s : Text) : Prop := ∀ u, u <:+ s → Plain u → Gapless u
def GapStart (s : Text) : Prop := ∀ u, u <+: s → Plain u → Gapless u

theorem gapless_free {s : Text} (h : ∀ c ∈ s, c ∉ c!"[:") : Gapless s := by
  intro w hw hi
  obtain ⟨c, d, rfl, hc, _⟩ := gap_pairs w hw
  exact h c (hi.subset (by simp)) hc

theorem gapless_end {s : Text} (h : Gapless s) : GapEnd s := fun _ hu _ => gapless_part h hu.isInfix
theorem gapless_start {s : Text} (h : Gapless s) : GapStart s := fun _ hu _ => gapless_part h hu.isInfix

theorem suffix_split {s a b : Text} (h : s <:+ a ++ b) : s <:+ b ∨ ∃ t, t ≠ [] ∧ t <:+ a ∧ s = t ++ b := by
  obtain ⟨p, hp⟩ := h
  rcases List.append_eq_append_iff.mp hp with ⟨u, h1, h2⟩ | ⟨u, h1, h2⟩
  · cases u with
    | nil => left; rw [h2]; exact List.suffix_refl _
    | cons c u => right; exact ⟨c :: u, by simp, ⟨p, h1.symm⟩, h2⟩
  · left; exact ⟨u, h2.symm⟩

theorem prefix_split {s a b : Text} (h : s <+: a ++ b) : s <+: a ∨ ∃ t, t ≠ [] ∧ t <+: b ∧ s = a ++ t := by
  obtain ⟨q, hq⟩ := h
  rcases List.append_eq_append_iff.mp hq with ⟨u, h1, h2⟩ | ⟨u, h1, h2⟩
  · left; exact ⟨u, h1.symm⟩
  · cases u with
    | nil => left; rw [h1]; simp
    | cons c u => right; exact ⟨c :: u, by simp, ⟨q, h2.symm⟩, h1⟩

theorem kept_last {u a : Text} (h : LastKept a) (hu : u <:+ a) : LastKept u := fun c hc => h c (singleton_suffix_iff.mp ((singleton_suffix_iff.mpr hc).trans hu))
theorem kept_first {u a : Text} (h : FirstKept a) (hu : u <+: a) : FirstKept u := fun c hc => h c (singleton_prefix_iff.mp ((singleton_prefix_iff.mpr hc).trans hu))

theorem gapEnd_append {a b : Text} (ha : GapEnd a) (hb : GapEnd b) (h : LastKept a ∨ FirstKept b) : GapEnd (a ++ b) := by
  intro u hu hp
  rcases suffix_split hu with hu | ⟨t, _, ht, rfl⟩
  · exact hb u hu hp
  · exact gapless_join (ha t ht fun c hc => hp c (List.mem_append_left _ hc)) (hb b (List.suffix_refl _) fun c hc => hp c (List.mem_append_right _ hc)) (h.imp (kept_last · ht) id)

theorem gapStart_append {a b : Text} (ha : GapStart a) (hb : GapStart b) (h : LastKept a ∨ FirstKept b) : GapStart (a ++ b) := by
  intro u hu hp
  rcases prefix_split hu with hu | ⟨t, _, ht, rfl⟩
  · exact ha u hu hp
  · exact gapless_join (ha a (List.prefix_refl _) fun c hc => hp c (List.mem_append_left _ hc)) (hb t ht fun c hc => hp c (List.mem_append_right _ hc)) (h.imp id (kept_first · ht))

end Verif.Lemmas
