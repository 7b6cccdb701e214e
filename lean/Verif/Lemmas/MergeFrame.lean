import Verif.Lemmas.HeapOps
/-! # What a merge of several sources writes -/

namespace Verif.HeapOps
open Verif Spec

theorem set_same {α : Type} {m : GoMap α} {k : Text} {v : α} (h : m.get? k = some v) : m.set k v = m := by
  induction m with
  | nil => cases h
  | cons e m ih =>
    obtain ⟨k', v'⟩ := e
    rw [GoMap.get?_cons] at h
    rw [GoMap.set]
    split at h
    · rename_i hk
      cases h
      rw [if_pos hk, hk]
    · rename_i hk
      rw [if_neg hk, ih h]

theorem setKey_same {h : Heap} {a : Nat} {k : Text} {v : HVal} (he : entry h a k = some v) : setKey h a k v = h := by
  unfold setKey
  split
  · rename_i m hm
    have : m.get? k = some v := by simpa [entry, child, hm] using he
    rw [set_same this]
    apply List.ext_getElem?
    intro i
    rw [List.getElem?_set]
    split
    · rename_i hi
      subst hi
      rw [hm]
      split
      · rfl
      · rename_i hlt
        rw [List.getElem?_eq_none (Nat.le_of_not_lt hlt)] at hm
        cases hm
    · rfl
  · rfl

theorem mergeLoop_self {rec : Heap → Nat → Nat → Option Heap} (hrec : ∀ h a h', rec h a a = some h' → h' = h) {a : Nat} :
    ∀ (ks : List Text) (g g' : Heap), mergeLoop rec a a ks g = some g' → g' = g := by
  intro ks
  induction ks with
  | nil => intro g g' hl; simp only [mergeLoop, Option.some.injEq] at hl; exact hl.symm
  | cons k ks ih =>
    intro g g' hl
    simp only [mergeLoop, Option.bind_eq_some_iff] at hl
    obtain ⟨g1, h1, h2⟩ := hl
    have hg : g1 = g := by
      unfold mergeKey at h1
      split at h1
      · cases h1; rfl
      · rename_i sv hsv
        simp only at h1
        split at h1
        · rename_i x y
          rename_i heq
          obtain ⟨g2, h3, h4⟩ := Option.map_eq_some_iff.1 h1
          cases hrec _ _ _ h3
          rw [← h4]
          exact setKey_same hsv
        · cases h1; rfl
    rw [hg] at h2
    exact ih g g' h2

/-- A dictionary merged in itself is not changed. -/
theorem deepMerge_self (n : Nat) : ∀ (h : Heap) (a : Nat) (h' : Heap), deepMerge n h a a = some h' → h' = h := by
  induction n with
  | zero => intro h a h' hd; simp [deepMerge] at hd
  | succ n ih =>
    intro h a h' hd
    simp only [deepMerge, Option.bind_eq_some_iff] at hd
    obtain ⟨keys, _, hl⟩ := hd
    exact mergeLoop_self ih keys h h' hl

theorem dictAt_snoc {h : Heap} {k : Text} {c : Nat} (p : List Text) : ∀ {a : Nat},
    dictAt h a (p ++ [k]) = some c ↔ ∃ b, dictAt h a p = some b ∧ entry h b k = some (.dict c) := by
  induction p with
  | nil =>
    intro a
    rw [List.nil_append, dictAt_cons]
    simp [dictAt]
  | cons k' p ih =>
    intro a
    rw [List.cons_append, dictAt_cons]
    constructor
    · rintro ⟨b, hb, hp⟩
      obtain ⟨d, hd, he⟩ := ih.1 hp
      exact ⟨d, dictAt_cons.2 ⟨b, hb, hd⟩, he⟩
    · rintro ⟨d, hd, he⟩
      obtain ⟨b, hb, hp⟩ := dictAt_cons.1 hd
      exact ⟨b, hb, ih.2 ⟨d, hp, he⟩⟩

/-- The state of a merge: only dictionaries the target had are written, and what they hold under a new key is what a
source has at the same place. -/
structure ManyInv (h0 : Heap) (t : Nat) (ss : List Nat) (g : Heap) : Prop where
  frame : ∀ a, (∀ p, dictAt h0 t p ≠ some a) → g[a]? = h0[a]?
  new : ∀ p a k v, dictAt h0 t p = some a → entry g a k = some v → entry h0 a k = some v ∨
    (entry h0 a k = none ∧ ∃ s ∈ ss, ∃ b, dictAt h0 s p = some b ∧ entry h0 b k = some v)
  kept : ∀ p a k, dictAt h0 t p = some a → entry g a k = none → entry h0 a k = none

theorem entry_setKey_cases {g : Heap} {a : Nat} {k k' : Text} {v : HVal} :
    entry (setKey g a k v) a k' = entry g a k' ∨ (k' = k ∧ entry (setKey g a k v) a k' = some v) := by
  cases hc : g[a]? with
  | none => left; unfold HeapOps.setKey; rw [hc]
  | some c =>
    cases c with
    | dict m =>
      rw [entry_of (setKey_self k v hc), entry_of hc, GoMap.get?_set]
      split
      · rename_i hk; exact Or.inr ⟨hk.symm, rfl⟩
      · exact Or.inl rfl
    | arr l => left; unfold HeapOps.setKey; rw [hc]

theorem ManyInv.store {h0 : Heap} {t : Nat} {ss : List Nat} {g : Heap} (ht : Treelike h0 t) (hi : ManyInv h0 t ss g)
    {p : List Text} {a : Nat} {k : Text} {v : HVal} (hp : dictAt h0 t p = some a)
    (hv : entry h0 a k = some v ∨ (entry h0 a k = none ∧ ∃ s ∈ ss, ∃ b, dictAt h0 s p = some b ∧ entry h0 b k = some v)) :
    ManyInv h0 t ss (setKey g a k v) := by
  refine ⟨?_, ?_, ?_⟩
  · intro c hc
    rw [setKey_ne _ _ _ _ _ (by rintro rfl; exact hc p hp)]
    exact hi.frame c hc
  · intro q c k' w hq he
    by_cases hc : c = a
    · subst hc
      rcases entry_setKey_cases (g := g) (a := c) (k := k) (k' := k') (v := v) with h1 | ⟨rfl, h1⟩
      · rw [h1] at he; exact hi.new q c k' w hq he
      · rw [h1] at he
        cases he
        rw [ht q p c hq hp]
        exact hv
    · rw [entry_agree (setKey_ne _ _ _ _ _ hc)] at he
      exact hi.new q c k' w hq he
  · intro q c k' hq he
    by_cases hc : c = a
    · subst hc
      rcases entry_setKey_cases (g := g) (a := c) (k := k) (k' := k') (v := v) with h1 | ⟨rfl, h1⟩
      · rw [h1] at he; exact hi.kept q c k' hq he
      · rw [h1] at he; cases he
    · rw [entry_agree (setKey_ne _ _ _ _ _ hc)] at he
      exact hi.kept q c k' hq he

theorem mergeLoop_many {rec : Heap → Nat → Nat → Option Heap} {h0 : Heap} {t : Nat} {ss : List Nat} {s : Nat}
    (ht : Treelike h0 t) (hs : s ∈ ss) (hdisj : ∀ p b, dictAt h0 s p = some b → ∀ q, dictAt h0 t q ≠ some b)
    (hcov : OverlapsCovered h0 t ss) (hself : ∀ h a h', rec h a a = some h' → h' = h)
    (hrec : ∀ (p : List Text) (a b : Nat) (g g' : Heap), dictAt h0 t p = some a → dictAt h0 s p = some b →
      ManyInv h0 t ss g → rec g a b = some g' → ManyInv h0 t ss g')
    {p : List Text} {a b : Nat} (hp : dictAt h0 t p = some a) (hb : dictAt h0 s p = some b) :
    ∀ (ks : List Text) (g g' : Heap), ManyInv h0 t ss g → mergeLoop rec a b ks g = some g' → ManyInv h0 t ss g' := by
  intro ks
  induction ks with
  | nil => intro g g' hi hl; simp only [mergeLoop, Option.some.injEq] at hl; subst hl; exact hi
  | cons k ks ih =>
    intro g g' hi hl
    simp only [mergeLoop, Option.bind_eq_some_iff] at hl
    obtain ⟨g1, h1, h2⟩ := hl
    refine ih g1 g' ?_ h2
    unfold mergeKey at h1
    split at h1
    · cases h1; exact hi
    · rename_i sv hsv
      have hsv0 : entry h0 b k = some sv := by
        rw [← hsv]; exact (entry_agree (hi.frame b (hdisj p b hb)) k).symm
      split at h1
      · rename_i htv
        cases h1
        exact hi.store ht hp (Or.inr ⟨hi.kept p a k hp htv, s, hs, b, hb, hsv0⟩)
      · rename_i tv htv
        split at h1
        · rename_i c d
          simp only [Option.map_eq_some_iff] at h1
          obtain ⟨g2, hr, rfl⟩ := h1
          have hd : dictAt h0 s (p ++ [k]) = some d := (dictAt_snoc p).2 ⟨b, hb, hsv0⟩
          rcases hi.new p a k _ hp htv with h3 | ⟨h3, s', hs', b', hb', he'⟩
          · have hc : dictAt h0 t (p ++ [k]) = some c := (dictAt_snoc p).2 ⟨a, hp, h3⟩
            exact (hrec _ c d g g2 hc hd hi hr).store ht hp (Or.inl h3)
          · have hc : dictAt h0 s' (p ++ [k]) = some c := (dictAt_snoc p).2 ⟨b', hb', he'⟩
            rcases hcov s' hs' s hs (p ++ [k]) c d hc hd with rfl | ⟨x, hx⟩
            · cases hself _ _ _ hr
              rw [setKey_same htv]
              exact hi
            · obtain ⟨y, hy, hyk⟩ := (dictAt_snoc p).1 hx
              rw [hp] at hy
              cases hy
              rw [h3] at hyk
              cases hyk
        · cases h1; exact hi

theorem deepMerge_many {h0 : Heap} {t : Nat} {ss : List Nat} {s : Nat} (ht : Treelike h0 t) (hs : s ∈ ss)
    (hdisj : ∀ p b, dictAt h0 s p = some b → ∀ q, dictAt h0 t q ≠ some b) (hcov : OverlapsCovered h0 t ss) (n : Nat) :
    ∀ (p : List Text) (a b : Nat) (g g' : Heap), dictAt h0 t p = some a → dictAt h0 s p = some b →
      ManyInv h0 t ss g → deepMerge n g a b = some g' → ManyInv h0 t ss g' := by
  induction n with
  | zero => intro p a b g g' _ _ _ hd; simp [deepMerge] at hd
  | succ n ih =>
    intro p a b g g' hp hb hi hd
    simp only [deepMerge, Option.bind_eq_some_iff] at hd
    obtain ⟨keys, _, hl⟩ := hd
    exact mergeLoop_many ht hs hdisj hcov (deepMerge_self n) ih hp hb keys g g' hi hl

/-- A merge only writes dictionaries the target had, when no dictionary it takes from a source is met again. -/
theorem merge_many {n : Nat} {h0 : Heap} {t : Nat} {ss : List Nat} (ht : Treelike h0 t)
    (hdisj : ∀ s ∈ ss, ∀ p b, dictAt h0 s p = some b → ∀ q, dictAt h0 t q ≠ some b) (hcov : OverlapsCovered h0 t ss) :
    ∀ (rest : List Nat), (∀ s ∈ rest, s ∈ ss) → ∀ (g g' : Heap), ManyInv h0 t ss g → merge n g t rest = some g' →
      ManyInv h0 t ss g' := by
  intro rest
  induction rest with
  | nil => intro _ g g' hi hm; cases hm; exact hi
  | cons s rest ih =>
    intro hr g g' hi hm
    simp only [merge, Option.bind_eq_some_iff] at hm
    obtain ⟨g1, hd, hm⟩ := hm
    exact ih (fun x hx => hr x (List.mem_cons_of_mem _ hx)) g1 g'
      (deepMerge_many ht (hr s (by simp)) (hdisj s (hr s (by simp))) hcov n [] t s g g1 rfl rfl hi hd) hm

theorem manyInv_start (h0 : Heap) (t : Nat) (ss : List Nat) : ManyInv h0 t ss h0 :=
  ⟨fun _ _ => rfl, fun _ _ _ _ _ he => Or.inl he, fun _ _ _ _ he => he⟩

end Verif.HeapOps
