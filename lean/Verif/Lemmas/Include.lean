import Verif.Model.Include
import Verif.Lemmas.HeapOps
/-!
# Lemmas about sub-templates
-/

namespace Verif.Lemmas
open Verif Spec HeapOps Text Include

theorem copyConstants_spec {src dst : Nat} (hne : src ≠ dst) (ks : List Text) : ∀ {h : Heap} {m : GoMap HVal}, h[dst]? = some (.dict m) → m.WF →
    (copyConstants src dst ks h).length = h.length ∧ (∀ a, a ≠ dst → (copyConstants src dst ks h)[a]? = h[a]?) ∧
    ∃ m', (copyConstants src dst ks h)[dst]? = some (.dict m') ∧ m'.WF ∧
      ∀ k, m'.get? k = if k ∈ ks then some ((entry h src k).getD (.atom .nil)) else m.get? k := by
  induction ks with
  | nil => intro h m hm hw; exact ⟨rfl, fun _ _ => rfl, m, hm, hw, by simp⟩
  | cons x ks ih =>
    intro h m hm hw
    obtain ⟨h1, h2, m', h3, h4, h5⟩ := ih (setKey_self x ((entry h src x).getD (.atom .nil)) hm) (GoMap.WF.set hw _ _)
    refine ⟨by simp only [copyConstants]; rw [h1, length_setKey], fun a ha => by simp only [copyConstants]; rw [h2 a ha, setKey_ne _ _ _ _ _ ha], m', h3, h4, ?_⟩
    intro k
    rw [h5, entry_agree (setKey_ne _ _ _ _ _ hne), GoMap.get?_set]
    by_cases hk : k ∈ ks
    · simp [hk]
    · by_cases hx : x = k
      · subst hx; simp [hk]
      · simp [hk, hx, Ne.symm hx]

theorem smallContext_spec (constants : List Text) {s : State} (hc : s.context < s.heap.length) :
    (smallContext constants s).2 = s.heap.length ∧ (smallContext constants s).1.length = s.heap.length + 1 ∧
    (∀ a, a < s.heap.length → (smallContext constants s).1[a]? = s.heap[a]?) ∧
    ∃ m, (smallContext constants s).1[s.heap.length]? = some (.dict m) ∧ m.WF ∧
      ∀ k, m.get? k = if k = T "_" then some (.dict s.context) else if k ∈ constants then some ((entry s.heap s.context k).getD (.atom .nil)) else none := by
  have h0 : (s.heap ++ [.dict []])[s.heap.length]? = some (.dict []) := by simp
  obtain ⟨h1, h2, m, h3, h4, h5⟩ := copyConstants_spec (src := s.context) (dst := s.heap.length) (by omega) constants h0 (by decide)
  refine ⟨rfl, by simp [smallContext, length_setKey, h1], ?_, m.set (T "_") (.dict s.context), setKey_self _ _ h3, GoMap.WF.set h4 _ _, ?_⟩
  · intro a ha
    simp only [smallContext]
    rw [setKey_ne _ _ _ _ _ (by omega), h2 a (by omega), List.getElem?_append_left ha]
  · intro k
    rw [GoMap.get?_set, h5, entry_agree (List.getElem?_append_left hc)]
    by_cases hk : T "_" = k
    · simp [hk]
    · simp [hk, Ne.symm hk]

theorem cloneList_frame {h : Heap} {a : Nat} {h' : Heap} {v : HVal} (hc : cloneList h a = some (h', v)) :
    h.length ≤ h'.length ∧ ∀ b, b < h.length → h'[b]? = h[b]? := by
  unfold cloneList at hc
  cases h1 : arrayOf h a with
  | none => simp [h1] at hc
  | some l =>
    cases h2 : cloneItems h l with
    | none => simp [h1, h2] at hc
    | some l' =>
      simp only [h1, h2, Option.bind_eq_bind, Option.bind_some, Option.pure_def, Option.some.injEq, Prod.mk.injEq] at hc
      obtain ⟨rfl, _⟩ := hc
      exact ⟨by simp, fun b hb => List.getElem?_append_left hb⟩

theorem cloneLoop_frame {rec : Heap → Nat → Option (Heap × Nat)} {src dst : Nat}
    (hrec : ∀ h a h' c, rec h a = some (h', c) → h.length ≤ h'.length ∧ ∀ b, b < h.length → h'[b]? = h[b]?) (ks : List Text) : ∀ {h h' : Heap},
    cloneLoop rec src dst ks h = some h' → h.length ≤ h'.length ∧ ∀ b, b ≠ dst → b < h.length → h'[b]? = h[b]? := by
  induction ks with
  | nil =>
    intro h h' hl
    simp only [cloneLoop, Option.some.injEq] at hl
    subst hl
    exact ⟨Nat.le_refl _, fun _ _ _ => rfl⟩
  | cons k ks ih =>
    intro h h' hl
    simp only [cloneLoop, Option.bind_eq_bind, Option.bind_eq_some_iff] at hl
    obtain ⟨⟨g, v⟩, hv, hl⟩ := hl
    have hg : h.length ≤ g.length ∧ ∀ b, b < h.length → g[b]? = h[b]? := by
      cases hx : (entry h src k).getD (.atom .nil) with
      | atom x =>
        rw [hx] at hv
        simp only [cloneVal, Option.some.injEq, Prod.mk.injEq] at hv
        rw [hv.1]
        exact ⟨Nat.le_refl _, fun _ _ => rfl⟩
      | dict a =>
        rw [hx] at hv
        simp only [cloneVal, Option.map_eq_some_iff, Prod.mk.injEq] at hv
        obtain ⟨⟨g', c⟩, h1, h2, _⟩ := hv
        rw [← h2]
        exact hrec _ _ _ _ h1
      | list a =>
        rw [hx] at hv
        exact cloneList_frame hv
    obtain ⟨h1, h2⟩ := ih hl
    rw [length_setKey] at h1 h2
    refine ⟨Nat.le_trans hg.1 h1, fun b hb hlt => ?_⟩
    rw [h2 b hb (Nat.lt_of_lt_of_le hlt hg.1), setKey_ne _ _ _ _ _ hb, hg.2 b hlt]

/-- Cloning never changes an existing cell, whatever the heap. -/
theorem cloneDict_frame (n : Nat) : ∀ (h : Heap) (a : Nat) (h' : Heap) (c : Nat), cloneDict n h a = some (h', c) →
    h.length ≤ h'.length ∧ ∀ b, b < h.length → h'[b]? = h[b]? := by
  induction n with
  | zero => intro h a h' c hc; simp [cloneDict] at hc
  | succ n ih =>
    intro h a h' c hc
    simp only [cloneDict, Option.bind_eq_bind, Option.bind_eq_some_iff, Option.pure_def, Option.some.injEq, Prod.mk.injEq] at hc
    obtain ⟨keys, _, g, hg, rfl, _⟩ := hc
    obtain ⟨h1, h2⟩ := cloneLoop_frame ih _ hg
    simp only [List.length_append, List.length_singleton] at h1 h2
    refine ⟨by omega, fun b hb => ?_⟩
    rw [h2 b (by omega) (by omega), List.getElem?_append_left hb]

theorem cloneDict_new {n : Nat} {h : Heap} {a : Nat} {h' : Heap} {c : Nat} (hc : cloneDict n h a = some (h', c)) : c = h.length := by
  cases n with
  | zero => simp [cloneDict] at hc
  | succ n =>
    simp only [cloneDict, Option.bind_eq_bind, Option.bind_eq_some_iff, Option.pure_def, Option.some.injEq, Prod.mk.injEq] at hc
    obtain ⟨keys, _, g, hg, _, rfl⟩ := hc
    rfl

/-- Merging a source into a target that has no dictionary under a key of the source only adds the missing keys. -/
theorem mergeLoop_plain {rec : Heap → Nat → Nat → Option Heap} {t s : Nat} (hne : s ≠ t) (ks : List Text) : ∀ {g : Heap} {m : GoMap HVal}, ks.Nodup →
    g[t]? = some (.dict m) → (∀ k ∈ ks, ∀ x, m.get? k ≠ some (.dict x)) →
    ∃ g' m', mergeLoop rec t s ks g = some g' ∧ g'.length = g.length ∧ (∀ a, a ≠ t → g'[a]? = g[a]?) ∧ g'[t]? = some (.dict m') ∧
      ∀ k, m'.get? k = (m.get? k).or (if k ∈ ks then entry g s k else none) := by
  induction ks with
  | nil => intro g m _ hm _; exact ⟨g, m, rfl, rfl, fun _ _ => rfl, hm, by simp⟩
  | cons x ks ih =>
    intro g m hn hm hd
    have hn' := List.nodup_cons.1 hn
    have key : ∃ g1 m1, mergeKey rec t s x g = some g1 ∧ g1.length = g.length ∧ (∀ a, a ≠ t → g1[a]? = g[a]?) ∧ g1[t]? = some (.dict m1) ∧
        ∀ k, m1.get? k = if k = x then (m.get? x).or (entry g s x) else m.get? k := by
      unfold mergeKey
      cases h1 : entry g s x with
      | none => exact ⟨g, m, rfl, rfl, fun _ _ => rfl, hm, fun k => by by_cases h : k = x <;> simp [h]⟩
      | some sv =>
        rw [entry_of hm]
        cases h2 : m.get? x with
        | none =>
          refine ⟨setKey g t x sv, m.set x sv, rfl, length_setKey _ _ _ _, fun a ha => setKey_ne _ _ _ _ _ ha, setKey_self _ _ hm, fun k => ?_⟩
          rw [GoMap.get?_set]
          by_cases h : x = k
          · simp [h]
          · simp [h, Ne.symm h]
        | some tv =>
          have hnd := hd x (by simp)
          refine ⟨g, m, ?_, rfl, fun _ _ => rfl, hm, fun k => ?_⟩
          · cases tv with
            | dict a => exact absurd h2 (hnd a)
            | atom _ => rfl
            | list _ => rfl
          · by_cases h : k = x
            · subst h; simp [h2]
            · simp [h]
    obtain ⟨g1, m1, k1, k2, k3, k4, k5⟩ := key
    obtain ⟨g', m', r1, r2, r3, r4, r5⟩ := ih hn'.2 k4 (fun k hk y => by
      rw [k5, if_neg (by rintro rfl; exact hn'.1 hk)]; exact hd k (by simp [hk]) y)
    refine ⟨g', m', by simp [mergeLoop, k1, r1], by omega, fun a ha => by rw [r3 a ha, k3 a ha], r4, fun k => ?_⟩
    rw [r5, k5, entry_agree (k3 s hne)]
    by_cases h : k = x
    · subst h; simp [hn'.1]
    · simp [h]

theorem merge_plain {n : Nat} {h : Heap} {t s : Nat} {m ms : GoMap HVal} (hne : s ≠ t) (hm : h[t]? = some (.dict m)) (hs : h[s]? = some (.dict ms)) (hw : ms.WF)
    (hd : ∀ k v x, ms.get? k = some v → m.get? k ≠ some (.dict x)) :
    ∃ h' m', merge (n + 1) h t [s] = some h' ∧ h'.length = h.length ∧ (∀ a, a ≠ t → h'[a]? = h[a]?) ∧ h'[t]? = some (.dict m') ∧
      ∀ k, m'.get? k = (m.get? k).or (ms.get? k) := by
  obtain ⟨g', m', r1, r2, r3, r4, r5⟩ := mergeLoop_plain (rec := deepMerge n) hne ms.keys hw hm (fun k hk x => by
    obtain ⟨v, hv⟩ := Option.isSome_iff_exists.1 (GoMap.mem_keys_iff.1 hk)
    exact hd k v x hv)
  refine ⟨g', m', ?_, r2, r3, r4, fun k => ?_⟩
  · simp [merge, deepMerge, mapKeys, hs, r1]
  · rw [r5, entry_of hs]
    by_cases hk : k ∈ ms.keys
    · simp [hk]
    · rw [if_neg hk]
      have : ms.get? k = none := by
        cases h : ms.get? k with
        | none => rfl
        | some v => exact absurd (GoMap.mem_keys_iff.2 (by rw [h]; rfl)) hk
      rw [this]

end Verif.Lemmas
