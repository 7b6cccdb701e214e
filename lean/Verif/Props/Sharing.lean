import Verif.Lemmas.MergeFrame
/-!
# C12 Merge does not modify its sources; C13 Clone isolates

Dictionaries are references here: the statements are about what is observed, through every path, before and after.
-/

namespace Verif
open Spec HeapOps

/-! ## C12 -/

/-- C12, the property: after `target.Merge(sources...)`, every source has the contents it had before. -/
def MergePreservesSources (n : Nat) (h : Heap) (t : Nat) (ss : List Nat) : Prop :=
  ∀ h', merge n h t ss = some h' → ∀ s ∈ ss, SameContents h (.dict s) h' (.dict s)

/-- C12 (violated). `{}.Merge(A, B)` with `A = {k: {x: 1}}` and `B = {k: {y: 2}}` adds `y` to the dictionary inside `A`. -/
theorem C12_merge_violated :
    ∃ h t ss n, WFMaps h ∧ Treelike h t ∧ t ∉ ss ∧ ¬ MergePreservesSources n h t ss := by
  refine ⟨[.dict [], .dict [(T "k", .dict 2)], .dict [(T "x", .atom (.int 1))], .dict [(T "k", .dict 4)],
    .dict [(T "y", .atom (.int 2))]], 0, [1, 3], 2, ?_, ?_, by simp, ?_⟩
  · intro a m hm
    match a with
    | 0 | 1 | 2 | 3 | 4 => simp at hm; subst hm; decide
    | a + 5 => simp at hm
  · intro p q a hp hq
    have key : ∀ p a, dictAt [.dict [], .dict [(T "k", .dict 2)], .dict [(T "x", .atom (.int 1))],
        .dict [(T "k", .dict 4)], .dict [(T "y", .atom (.int 2))]] 0 p = some a → p = [] := by
      intro p a h
      cases p with
      | nil => rfl
      | cons k p => simp [dictAt, child] at h
    rw [key p a hp, key q a hq]
  · intro hall
    have := hall _ rfl 1 (by simp) [.key (T "k"), .key (T "y")]
    have h2 : some (Shape.atom (.int 2)) = none := this
    cases h2

/-- C12 (violated). Even with one source, when the target holds the same dictionary under two keys: with
`D = {}`, `{x: D, y: D}.Merge({x: {k: {}}, y: {k: {z: 1}}})` adds `z` to the dictionary the source has under `x.k`. -/
theorem C12_merge_violated_shared :
    ∃ h t s n, WFMaps h ∧ Within h (fun a => ∀ p, dictAt h t p ≠ some a) (.dict s) ∧ ¬ MergePreservesSources n h t [s] := by
  let h : Heap := [.dict [(T "x", .dict 1), (T "y", .dict 1)], .dict [],
    .dict [(T "x", .dict 3), (T "y", .dict 4)], .dict [(T "k", .dict 5)], .dict [(T "k", .dict 6)], .dict [],
    .dict [(T "z", .atom (.int 1))]]
  refine ⟨h, 0, 2, 3, ?_, ?_, ?_⟩
  · intro a m hm
    match a with
    | 0 | 1 | 2 | 3 | 4 | 5 | 6 => simp [h] at hm; subst hm; decide
    | a + 7 => simp [h] at hm
  · have htgt : ∀ p a, dictAt h 0 p = some a → a < 2 := by
      intro p a hp
      have h1 : ∀ p a, dictAt h 1 p = some a → a = 1 := by
        intro p a hp
        cases p with
        | nil => simp [dictAt] at hp; exact hp.symm
        | cons k p => simp [dictAt, child, h] at hp
      cases p with
      | nil => simp [dictAt] at hp; omega
      | cons k p =>
        obtain ⟨b, hb, hp⟩ := dictAt_cons.1 hp
        simp [entry, child, h, GoMap.get?] at hb
        have : b = 1 := by split at hb <;> simp_all
        subst this
        have := h1 p a hp; omega
    have hcl : Closed h (fun a => 2 ≤ a) := by
      intro v s w hv hc
      cases v with
      | atom _ => cases s <;> cases hc
      | list a =>
        cases s with
        | key k => cases hc
        | idx i =>
          match a with
          | 0 | 1 | 2 | 3 | 4 | 5 | 6 => simp [child, h] at hc
          | a + 7 => simp [child, h] at hc
      | dict a =>
        cases s with
        | idx k => cases hc
        | key k =>
          match a with
          | 0 => exact absurd hv (by simp [Ref])
          | 1 | 5 => simp [child, h, GoMap.get?] at hc
          | 2 =>
            simp only [child, h, List.getElem?_cons_succ, List.getElem?_cons_zero, GoMap.get?] at hc
            split at hc
            · cases hc; simp [Ref]
            · split at hc
              · cases hc; simp [Ref]
              · cases hc
          | 3 | 4 | 6 =>
            simp only [child, h, List.getElem?_cons_succ, List.getElem?_cons_zero, GoMap.get?] at hc
            split at hc
            · cases hc; simp [Ref]
            · cases hc
          | a + 7 => simp [child, h] at hc
    refine (Within.closed (v := .dict 2) hcl (by simp [Ref])).mono ?_
    intro a ha p hp
    have := htgt p a hp; omega
  · intro hall
    have := hall _ rfl 2 (by simp) [.key (T "x"), .key (T "k"), .key (T "z")]
    have h2 : some (Shape.atom (.int 1)) = none := this
    cases h2

/-- C12 (partial). Any number of sources are not modified, however deep, when the dictionaries of the target form a tree,
none of them belongs to a source, and wherever two sources have different dictionaries at the same place the target has
a dictionary there too. Missing: the other merges, where the code is wrong (see `C12_merge_violated`, in which only the
last condition fails, and `C12_merge_violated_shared`, in which only the first one fails). -/
theorem C12_merge_many_partial (n : Nat) (h : Heap) (t : Nat) (ss : List Nat) (ht : Treelike h t)
    (hdisj : ∀ s ∈ ss, Within h (fun a => ∀ p, dictAt h t p ≠ some a) (.dict s)) (hcov : OverlapsCovered h t ss) :
    MergePreservesSources n h t ss := by
  intro h' hm s hs
  refine same_agree (hdisj s hs) (merge_many ht ?_ hcov ss (fun _ hx => hx) h h' (manyInv_start h t ss) hm).frame
  intro x hx p b hb q
  exact hdisj x hx _ _ (valueAt_dictAt p hb) q

/-- C12 (partial). A single source is not modified, however deep, when the dictionaries of the target form a tree and
none of them belongs to the source. -/
theorem C12_merge_single_partial (n : Nat) (h : Heap) (t s : Nat) (ht : Treelike h t)
    (hdisj : Within h (fun a => ∀ p, dictAt h t p ≠ some a) (.dict s)) : MergePreservesSources n h t [s] := by
  refine C12_merge_many_partial n h t [s] ht (by simpa using hdisj) ?_
  intro x hx y hy p b b' hb hb'
  simp only [List.mem_singleton] at hx hy
  subst hx
  subst hy
  rw [hb] at hb'
  exact Or.inl (Option.some.inj hb')

/-- C12 (partial). Under the same conditions nothing else in the program is modified either: only values that reach a
dictionary of the target can change. -/
theorem C12_merge_frame_partial (n : Nat) (h : Heap) (t : Nat) (ss : List Nat) (h' : Heap) (ht : Treelike h t)
    (hdisj : ∀ s ∈ ss, Within h (fun a => ∀ p, dictAt h t p ≠ some a) (.dict s)) (hcov : OverlapsCovered h t ss)
    (hm : merge n h t ss = some h') (v : HVal) (hv : Within h (fun a => ∀ p, dictAt h t p ≠ some a) v) :
    SameContents h v h' v := by
  refine same_agree hv (merge_many ht ?_ hcov ss (fun _ hx => hx) h h' (manyInv_start h t ss) hm).frame
  intro x hx p b hb q
  exact hdisj x hx _ _ (valueAt_dictAt p hb) q

/-- C12. Conversely, when the target is a tree apart from the sources, a modified source means that two sources have
different dictionaries at a place where the target has none. -/
theorem C12_merge_cause_partial (n : Nat) (h : Heap) (t : Nat) (ss : List Nat) (ht : Treelike h t)
    (hdisj : ∀ s ∈ ss, Within h (fun a => ∀ p, dictAt h t p ≠ some a) (.dict s)) (hbad : ¬ MergePreservesSources n h t ss) :
    ∃ s ∈ ss, ∃ s' ∈ ss, ∃ p b b', dictAt h s p = some b ∧ dictAt h s' p = some b' ∧ b ≠ b' ∧ dictAt h t p = none := by
  apply Classical.byContradiction
  intro hno
  apply hbad
  apply C12_merge_many_partial n h t ss ht hdisj
  intro s hs s' hs' p b b' hb hb'
  by_cases he : b = b'
  · exact Or.inl he
  · cases hc : dictAt h t p with
    | some a => exact Or.inr ⟨a, rfl⟩
    | none => exact absurd ⟨s, hs, s', hs', p, b, b', hb, hb', he, hc⟩ hno

/-- C12 (partial). Any number of sources that hold no dictionary (at their first level) are not modified, whatever
the target, as long as they do not reach the target itself. -/
theorem C12_merge_flat_partial (n : Nat) (h : Heap) (t : Nat) (ss : List Nat)
    (hflat : ∀ s ∈ ss, ∀ k b, child h (.dict s) (.key k) ≠ some (.dict b))
    (hne : ∀ s ∈ ss, Within h (· ≠ t) (.dict s)) : MergePreservesSources n h t ss := by
  intro h' hm s hs
  exact same_agree (hne s hs) (merge_flat ss (fun x hx => ⟨(hne x hx).self, hflat x hx⟩) hm)

/-- The hypotheses of the single-source theorem are met by a nested target and a nested source, and the merge returns. -/
example : let h : Heap := [.dict [(T "k", .dict 1)], .dict [], .dict [(T "k", .dict 3)], .dict [(T "x", .atom (.int 1))]]
    Treelike h 0 ∧ (merge 2 h 0 [2]).isSome := by
  intro h
  refine ⟨?_, rfl⟩
  have key : ∀ p a, dictAt h 0 p = some a → (p = [] ∧ a = 0) ∨ (p = [T "k"] ∧ a = 1) := by
    intro p a hp
    cases p with
    | nil => simp [dictAt] at hp; exact Or.inl ⟨rfl, hp.symm⟩
    | cons k p =>
      obtain ⟨b, hb, hp⟩ := dictAt_cons.1 hp
      simp [entry, child, h, GoMap.get?] at hb
      obtain ⟨rfl, rfl⟩ := hb
      cases p with
      | nil => simp [dictAt] at hp; exact Or.inr ⟨rfl, hp.symm⟩
      | cons k p => simp [dictAt, child, h] at hp
  intro p q a hp hq
  rcases key p a hp with ⟨rfl, rfl⟩ | ⟨rfl, rfl⟩ <;> rcases key q _ hq with ⟨rfl, h2⟩ | ⟨rfl, h2⟩ <;> simp_all

/-- The hypotheses of the theorem on many sources are met by `{k: {}}.Merge({k: {x: 1}}, {k: {y: 2}})`, which returns:
both sources have a dictionary under `k`, and so has the target. -/
example : let h : Heap := [.dict [(T "k", .dict 1)], .dict [], .dict [(T "k", .dict 3)], .dict [(T "x", .atom (.int 1))],
      .dict [(T "k", .dict 5)], .dict [(T "y", .atom (.int 2))]]
    Treelike h 0 ∧ OverlapsCovered h 0 [2, 4] ∧ (merge 2 h 0 [2, 4]).isSome := by
  intro h
  have key : ∀ a b, (a = 0 ∧ b = 1) ∨ (a = 2 ∧ b = 3) ∨ (a = 4 ∧ b = 5) → ∀ p c, dictAt h a p = some c →
      (p = [] ∧ c = a) ∨ (p = [T "k"] ∧ c = b) := by
    rintro a b hab p c hp
    rcases hab with ⟨rfl, rfl⟩ | ⟨rfl, rfl⟩ | ⟨rfl, rfl⟩ <;>
    · cases p with
      | nil => simp [dictAt] at hp; exact Or.inl ⟨rfl, hp.symm⟩
      | cons k p =>
        obtain ⟨b, hb, hp⟩ := dictAt_cons.1 hp
        simp [entry, child, h, GoMap.get?] at hb
        obtain ⟨rfl, rfl⟩ := hb
        cases p with
        | nil => simp [dictAt] at hp; exact Or.inr ⟨rfl, hp.symm⟩
        | cons k p => simp [dictAt, child, h, GoMap.get?] at hp
  refine ⟨?_, ?_, rfl⟩
  · intro p q a hp hq
    rcases key 0 1 (by simp) p a hp with ⟨rfl, rfl⟩ | ⟨rfl, rfl⟩ <;>
      rcases key 0 1 (by simp) q _ hq with ⟨rfl, h2⟩ | ⟨rfl, h2⟩ <;> simp_all
  · intro s hs s' hs' p b b' hb _
    have : (s = 2 ∨ s = 4) := by simpa using hs
    have hp : p = [] ∨ p = [T "k"] := by
      rcases this with rfl | rfl
      · rcases key 2 3 (by simp) p b hb with ⟨rfl, _⟩ | ⟨rfl, _⟩ <;> simp
      · rcases key 4 5 (by simp) p b hb with ⟨rfl, _⟩ | ⟨rfl, _⟩ <;> simp
    rcases hp with rfl | rfl
    · exact Or.inr ⟨0, rfl⟩
    · exact Or.inr ⟨1, rfl⟩

/-! ## C13 -/

/-- C13, the property: whatever the two holders did so far, a modification made through one of them is not observed
through the other one. -/
def Isolated (h : Heap) (d c : HVal) : Prop :=
  ∀ (history : List (Bool × Write)) (w : Write),
    let now := interleave d c h history
    SameContents now d (w.apply now c) d ∧ SameContents now c (w.apply now d) c

/-- C13 (violated). `{l: [{x: 1}]}`: the clone shares the dictionary inside the list, so that a write through the clone is
seen through the original. -/
theorem C13_clone_violated :
    ∃ h d n h' c, WFHeap h ∧ cloneDict n h d = some (h', c) ∧ ¬ Isolated h' (.dict d) (.dict c) := by
  refine ⟨[.dict [(T "l", .list 1)], .arr [.dict 2], .dict [(T "x", .atom (.int 1))]], 0, 1, _, 3, ?_, rfl, ?_⟩
  · intro v s w hc
    cases v with
    | atom _ => cases s <;> cases hc
    | dict a =>
      cases s with
      | idx _ => cases hc
      | key k =>
        match a with
        | 0 | 2 =>
          simp only [child, List.getElem?_cons_succ, List.getElem?_cons_zero, GoMap.get?] at hc
          split at hc
          · cases hc; simp [Ref]
          · cases hc
        | 1 => simp [child] at hc
        | a + 3 => simp [child] at hc
    | list a =>
      cases s with
      | key _ => cases hc
      | idx i =>
        match a with
        | 0 | 2 => simp [child] at hc
        | 1 =>
          match i with
          | 0 => simp [child] at hc; subst hc; simp [Ref]
          | i + 1 => simp [child] at hc
        | a + 3 => simp [child] at hc
  · intro hiso
    have := (hiso [] (.setKey [.key (T "l"), .idx 0] (T "x") (.atom (.int 9)))).1 [.key (T "l"), .idx 0, .key (T "x")]
    have h2 : some (Shape.atom (.int 9)) = some (Shape.atom (.int 1)) := this
    cases h2

/-- C13 (violated). The same with a list inside a list. -/
theorem C13_clone_violated_nested_list :
    ∃ h d n h' c, cloneDict n h d = some (h', c) ∧ ¬ Isolated h' (.dict d) (.dict c) := by
  refine ⟨[.dict [(T "l", .list 1)], .arr [.list 2, .atom (.int 0)], .arr [.atom (.int 1)]], 0, 1, _, 3, rfl, ?_⟩
  intro hiso
  have := (hiso [] (.setIdx [.key (T "l"), .idx 0] 0 (.atom (.int 9)))).1 [.key (T "l"), .idx 0, .idx 0]
  have h2 : some (Shape.atom (.int 9)) = some (Shape.atom (.int 1)) := this
  cases h2

/-- C13 (partial). When no list reached from the dictionary contains a dictionary or a list, the clone is isolated from
the original for every later history of modifications by both sides. Missing: dictionaries and lists inside lists,
where the code is wrong. -/
theorem C13_clone_isolated_partial (n : Nat) (h : Heap) (d : Nat) (h' : Heap) (c : Nat) (hwf : WFHeap h)
    (hd : d < h.length) (hf : FlatLists h (.dict d)) (hc : cloneDict n h d = some (h', c)) :
    Isolated h' (.dict d) (.dict c) := by
  have hin : Within h (· < h.length) (.dict d) := Within.closed (closed_lt hwf) hd
  obtain ⟨⟨e, he⟩, _, hfresh, hcl⟩ := cloneDict_cloned n h d h' c hf hin hc
  have hag : ∀ a, a < h.length → h'[a]? = h[a]? := by rw [he]; exact append_agree h e
  have hlen : h.length ≤ h'.length := by rw [he]; simp
  have hsep : Separate h' (.dict d) (.dict c) := by
    refine ⟨(· < h.length), (fun a => h.length ≤ a ∧ a < h'.length), ?_, ?_, ?_, ?_, hcl, hd, hfresh.self⟩
    · intro a ha hb; omega
    · intro a ha; exact Nat.lt_of_lt_of_le ha hlen
    · intro a ha; exact ha.2
    · intro v s w hv hcw
      rw [child_agree hv hag] at hcw
      exact hwf v s w hcw
  intro history w
  have hs := hsep.interleave history
  exact ⟨(hs.symm.write w).2, (hs.write w).2⟩

/-- C13. Under the same conditions the clone has the contents of the original, and cloning changes nothing that existed. -/
theorem C13_clone_equal_partial (n : Nat) (h : Heap) (d : Nat) (h' : Heap) (c : Nat) (hwf : WFHeap h)
    (hd : d < h.length) (hf : FlatLists h (.dict d)) (hc : cloneDict n h d = some (h', c)) :
    SameContents h (.dict d) h' (.dict c) ∧ ∀ v, Ref (· < h.length) v → SameContents h v h' v := by
  have hin : Within h (· < h.length) (.dict d) := Within.closed (closed_lt hwf) hd
  obtain ⟨⟨e, he⟩, hsame, _, _⟩ := cloneDict_cloned n h d h' c hf hin hc
  refine ⟨hsame, fun v hv => ?_⟩
  have hag : ∀ a, a < h.length → h'[a]? = h[a]? := by rw [he]; exact append_agree h e
  exact same_agree (Within.closed (closed_lt hwf) hv) hag

/-- C13. On every such dictionary that contains no cycle, `Clone` does return a clone (the depth bounds the recursion). -/
theorem C13_clone_returns_partial (n : Nat) (h : Heap) (d : Nat) (hwf : WFHeap h) (hd : d < h.length)
    (hf : FlatLists h (.dict d)) (ht : ∀ p w, valueAt h (.dict d) p = some w → (shapeOf h w).isSome)
    (hdepth : ∀ p c, dictAt h d p = some c → p.length < n) : ∃ h' c, cloneDict n h d = some (h', c) := by
  have hin : Within h (· < h.length) (.dict d) := Within.closed (closed_lt hwf) hd
  obtain ⟨⟨h', c⟩, hr⟩ := cloneDict_total n h d hf hin ht hdepth
  exact ⟨h', c, hr⟩

/-- A nested dictionary with a list: it has a clone, and the hypothesis on lists holds. -/
example : let h : Heap := [.dict [(T "l", .list 1), (T "d", .dict 2)], .arr [.atom (.int 1)], .dict [(T "x", .atom .nil)]]
    (cloneDict 2 h 0).isSome ∧ WFHeap h ∧ FlatLists h (.dict 0) := by
  intro h
  have hl : ∀ b i w, child h (.list b) (.idx i) = some w → ∃ x, w = .atom x := by
    intro b i w hc
    match b, i with
    | 1, 0 => simp [child, h] at hc; exact ⟨_, hc.symm⟩
    | 1, i + 1 => simp [child, h] at hc
    | 0, _ | 2, _ => simp [child, h] at hc
    | b + 3, _ => simp [child, h] at hc
  refine ⟨rfl, ?_, fun p b _ => hl b⟩
  intro v s w hc
  cases v with
  | atom _ => cases s <;> cases hc
  | list b =>
    cases s with
    | key _ => cases hc
    | idx i => obtain ⟨x, rfl⟩ := hl b i w hc; trivial
  | dict a =>
    cases s with
    | idx _ => cases hc
    | key k =>
      match a with
      | 0 =>
        simp only [child, h, List.getElem?_cons_zero, GoMap.get?] at hc
        split at hc
        · cases hc; simp [Ref, h]
        · split at hc
          · cases hc; simp [Ref, h]
          · cases hc
      | 1 => simp [child, h] at hc
      | 2 =>
        simp only [child, h, List.getElem?_cons_succ, List.getElem?_cons_zero, GoMap.get?] at hc
        split at hc
        · cases hc; trivial
        · cases hc
      | a + 3 => simp [child, h] at hc

end Verif
