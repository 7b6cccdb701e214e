import Verif.Lemmas.Merge
/-!
# Properties of dictionaries: C09 - C11, C14 - C17
-/

namespace Verif
open Value Spec DictOps

/-! ## C09 A dictionary behaves as a finite map -/

/-- One call on the concrete dictionary: the dictionary after the call and what is returned. -/
def dictCall (d : Dict) : DictOp → Dict × DictOut
  | .set k v => (DictOps.set d k v, .done)
  | .delete k ks =>
    match delete d k ks with
    | (d', none) => (d', .done)
    | (d', some key) => (d', .missing key)
  | .flush ks => (flush d ks, .done)
  | .pop ks => ((pop d ks).2, .val (pop d ks).1)
  | .get ks => (d, .val (get d ks))
  | .has ks => (d, .flag (has d ks))
  | .default k dflt => (d, .val (DictOps.default d k dflt))
  | .len => (d, .num d.length)
  | .keys => (d, .items (getKeys d))
  | .values => (d, .items (getValues d))

/-- A sequence of calls. -/
def dictCalls (d : Dict) : List DictOp → Dict × List DictOut
  | [] => (d, [])
  | op :: ops =>
    let (d', out) := dictCall d op
    let (d'', outs) := dictCalls d' ops
    (d'', out :: outs)

theorem deleteLoop_true (d : Dict) (hw : GoMap.WF d) (ks : List Value) :
    (∃ d', deleteLoop true d ks = (d', none) ∧ Deletable (GoMap.get? d) (ks.map sprint) ∧ GoMap.WF d' ∧
      GoMap.get? d' = FMap.remove (GoMap.get? d) (ks.map sprint)) ∨
    (∃ d' before bad after, deleteLoop true d ks = (d', some bad) ∧ ks = before ++ bad :: after ∧
      Deletable (GoMap.get? d) (before.map sprint) ∧
      (GoMap.get? d bad.sprint = none ∨ bad.sprint ∈ before.map sprint) ∧ GoMap.WF d' ∧
      GoMap.get? d' = FMap.remove (GoMap.get? d) (before.map sprint)) := by
  induction ks generalizing d with
  | nil =>
    refine Or.inl ⟨d, rfl, ⟨by simp, by simp⟩, hw, ?_⟩
    funext k; simp [FMap.remove]
  | cons k ks ih =>
    simp only [deleteLoop, Bool.true_and, has_single]
    cases hk : GoMap.has d (sprint k) with
    | false =>
      refine Or.inr ⟨d, [], k, ks, by simp, rfl, ⟨by simp, by simp⟩, Or.inl ?_, hw, ?_⟩
      · simpa [GoMap.has] using hk
      · funext k; simp [FMap.remove]
    | true =>
      simp only [Bool.not_true, Bool.false_eq_true, if_false]
      have hkm : (GoMap.get? d (sprint k)).isSome := by simpa [GoMap.has] using hk
      have hcomb : ∀ l : List Value, Deletable (GoMap.get? (GoMap.erase d (sprint k))) (l.map sprint) →
          Deletable (GoMap.get? d) ((k :: l).map sprint) := by
        rintro l ⟨h1, h2⟩
        refine ⟨?_, ?_⟩
        · rw [List.map_cons, List.nodup_cons]
          refine ⟨?_, h1⟩
          intro hm
          have := h2 _ hm
          simp [GoMap.get?_erase] at this
        · intro x hx
          rw [List.map_cons, List.mem_cons] at hx
          rcases hx with rfl | hx
          · exact hkm
          · have := h2 x hx
            rw [GoMap.get?_erase] at this
            split at this
            · simp at this
            · exact this
      have hrem : ∀ l : List Value, FMap.remove (GoMap.get? (GoMap.erase d (sprint k))) (l.map sprint) =
          FMap.remove (GoMap.get? d) ((k :: l).map sprint) := by
        intro l
        funext k'
        simp only [FMap.remove, List.map_cons, List.mem_cons, GoMap.get?_erase]
        by_cases e : k' = sprint k
        · simp [e]
        · have e' : ¬ sprint k = k' := fun h => e h.symm
          simp [e, e']
      rcases ih _ (hw.erase (sprint k)) with ⟨d', h1, h2, h3, h4⟩ | ⟨d', before, bad, after, h1, h2, h3, h4, h5, h6⟩
      · exact Or.inl ⟨d', h1, hcomb ks h2, h3, by rw [h4, hrem]⟩
      · refine Or.inr ⟨d', k :: before, bad, after, h1, by rw [h2]; rfl, hcomb before h3, ?_, h5, by rw [h6, hrem]⟩
        rw [GoMap.get?_erase] at h4
        rw [List.map_cons, List.mem_cons]
        by_cases e : sprint k = sprint bad
        · exact Or.inr (Or.inl e.symm)
        · rw [if_neg e] at h4
          rcases h4 with h4 | h4
          · exact Or.inl h4
          · exact Or.inr (Or.inr h4)

/-- C09. Every call does what the abstract finite map allows. -/
theorem C09_call_refines (d : Dict) (hw : GoMap.WF d) (op : DictOp) :
    GoMap.WF (dictCall d op).1 ∧
    DictStep (GoMap.get? d) op (dictCall d op).2 (GoMap.get? (dictCall d op).1) := by
  cases op with
  | set k v =>
    refine ⟨hw.set _ _, ?_⟩
    have : GoMap.get? (DictOps.set d k v) = FMap.update (GoMap.get? d) k.sprint v := by
      funext k'; simp only [DictOps.set, GoMap.get?_set, FMap.update]
      by_cases e : sprint k = k'
      · simp [e]
      · have e' : ¬ k' = sprint k := fun h => e h.symm
        simp [e, e']
    simp only [dictCall, this]
    exact .set k v
  | delete k ks =>
    rcases deleteLoop_true d hw (k :: ks) with ⟨d', h1, h2, h3, h4⟩ | ⟨d', before, bad, after, h1, h2, h3, h4, h5, h6⟩
    · simp only [dictCall, delete, h1]
      exact ⟨h3, by rw [h4]; exact .deleteOk k ks h2⟩
    · simp only [dictCall, delete, h1]
      exact ⟨h5, by rw [h6]; exact .deleteMissing k ks before bad after h2 h3 h4⟩
  | flush ks =>
    simp only [dictCall, flush]
    cases ks with
    | nil =>
      simp only [List.length_nil, if_true]
      obtain ⟨-, h2, h3⟩ := deleteLoop_false d (getKeys d)
      refine ⟨h2 hw, ?_⟩
      have : GoMap.get? (deleteLoop false d (getKeys d)).1 = FMap.empty := by
        rw [h3, getKeys_texts]
        funext k
        simp only [FMap.remove, FMap.empty, mem_keysAsString]
        cases GoMap.get? d k <;> simp
      rw [this]; exact .flushAll
    | cons k ks =>
      simp only [List.length_cons, Nat.succ_ne_zero, if_false]
      obtain ⟨-, h2, h3⟩ := deleteLoop_false d (k :: ks)
      exact ⟨h2 hw, by rw [h3]; exact .flush _ (by simp)⟩
  | pop ks =>
    simp only [dictCall, pop]
    cases ks with
    | nil =>
      simp only [List.length_nil, if_true]
      refine ⟨hw, ?_⟩
      have := DictStep.pop (m := GoMap.get? d) []
      have e : FMap.remove (GoMap.get? d) (List.map sprint []) = GoMap.get? d := by
        funext k; simp [FMap.remove]
      rw [e] at this; exact this
    | cons k ks =>
      simp only [List.length_cons, Nat.succ_ne_zero, if_false]
      obtain ⟨-, h2, h3⟩ := deleteLoop_false d (k :: ks)
      refine ⟨h2 hw, ?_⟩
      rw [h3, get_eq]; exact .pop _
  | get ks => exact ⟨hw, by simp only [dictCall]; rw [get_eq]; exact .get ks⟩
  | has ks =>
    refine ⟨hw, .has ks _ ?_⟩
    simp only [has, Bool.and_eq_true, List.all_eq_true, GoMap.has, decide_eq_true_eq]
    apply and_congr_right
    intro _
    constructor
    · intro h
      obtain ⟨⟨k, v⟩, he⟩ := List.exists_mem_of_length_pos h
      exact ⟨k, GoMap.get?_isSome_of_mem he⟩
    · rintro ⟨k, hk⟩
      apply List.length_pos_iff.2
      rintro rfl; simp at hk
  | default k dflt =>
    refine ⟨hw, ?_⟩
    have : DictOps.default d k dflt = (GoMap.get? d k.sprint).getD dflt := by
      simp only [DictOps.default, has_single, GoMap.has, DictOps.get, getOne]
      cases GoMap.get? d (sprint k) <;> rfl
    simp only [dictCall, this]
    exact .default k dflt
  | len =>
    refine ⟨hw, ?_⟩
    have := DictStep.len (m := GoMap.get? d) _ (keysAre d hw)
    rw [length_keysAsString] at this; exact this
  | keys =>
    refine ⟨hw, ?_⟩
    simp only [dictCall, getKeys_eq]
    exact .keys _ (keysAre d hw)
  | values =>
    refine ⟨hw, ?_⟩
    simp only [dictCall, getValues_eq]
    exact .values _ (keysAre d hw)

/-- C09. Every history of calls is a history of the abstract finite map: same outputs, corresponding states. -/
theorem C09_history_refines (ops : List DictOp) (d : Dict) (hw : GoMap.WF d) :
    GoMap.WF (dictCalls d ops).1 ∧
    DictHistory (GoMap.get? d) ops (dictCalls d ops).2 (GoMap.get? (dictCalls d ops).1) := by
  induction ops generalizing d with
  | nil => exact ⟨hw, .nil _⟩
  | cons op ops ih =>
    obtain ⟨h1, h2⟩ := C09_call_refines d hw op
    obtain ⟨h3, h4⟩ := ih _ h1
    exact ⟨h3, .cons h2 h4⟩

/-- C09. Reading your write: whatever is done before, a value just set is read back, under any key that prints alike,
until the key is written or removed again. -/
theorem C09_read_your_write (d : Dict) (hw : GoMap.WF d) (before after : List DictOp) (k k' v : Value)
    (hk : k'.sprint = k.sprint)
    (hafter : ∀ op ∈ after, match op with
      | .set j _ => j.sprint ≠ k.sprint
      | .delete j js => ∀ x ∈ j :: js, x.sprint ≠ k.sprint
      | .flush js => js ≠ [] ∧ ∀ x ∈ js, x.sprint ≠ k.sprint
      | .pop js => ∀ x ∈ js, x.sprint ≠ k.sprint
      | _ => True) :
    get (dictCalls d (before ++ .set k v :: after)).1 [k'] = v := by
  have happ : ∀ (a b : List DictOp) (d : Dict), (dictCalls d (a ++ b)).1 = (dictCalls (dictCalls d a).1 b).1 := by
    intro a
    induction a with
    | nil => intros; rfl
    | cons op a ih => intro b d; exact ih b _
  rw [happ]
  obtain ⟨hw1, -⟩ := C09_history_refines before d hw
  generalize (dictCalls d before).1 = d1 at *
  show getOne (dictCalls (dictCall d1 (.set k v)).1 after).1 k' = v
  obtain ⟨hw2, -⟩ := C09_call_refines d1 hw1 (.set k v)
  have h2 : GoMap.get? (dictCall d1 (.set k v)).1 k.sprint = some v := by
    simp [dictCall, DictOps.set, GoMap.get?_set]
  generalize (dictCall d1 (.set k v)).1 = d2 at *
  have key : ∀ d2 : Dict, GoMap.WF d2 → GoMap.get? d2 k.sprint = some v →
      GoMap.get? (dictCalls d2 after).1 k.sprint = some v := by
    induction after with
    | nil => intro d2 _ h; exact h
    | cons op after ih =>
      intro d2 hw2 h
      obtain ⟨hw3, hs⟩ := C09_call_refines d2 hw2 op
      refine ih (fun op hop => hafter op (by simp [hop])) _ hw3 ?_
      have hop := hafter op (by simp)
      show GoMap.get? (dictCall d2 op).1 k.sprint = some v
      generalize (dictCall d2 op).1 = d3 at *
      generalize (dictCall d2 op).2 = out at *
      generalize hm3 : GoMap.get? d3 = m3 at *
      have rem : ∀ l : List Value, (∀ x ∈ l, x.sprint ≠ k.sprint) →
          FMap.remove (GoMap.get? d2) (l.map sprint) k.sprint = some v := by
        intro l hl
        simp only [FMap.remove]
        rw [if_neg, h]
        rw [List.mem_map]
        rintro ⟨x, hx, hxe⟩
        exact hl x hx hxe
      cases hs with
      | set j w =>
        simp only at hop
        simp only [FMap.update]; rw [if_neg (Ne.symm hop), h]
      | deleteOk j js _ => exact rem _ hop
      | deleteMissing j js b bad a hs _ _ =>
        apply rem
        intro x hx
        exact hop x (by rw [hs]; simp [hx])
      | flush js _ => exact rem _ hop.2
      | flushAll => exact absurd rfl hop.1
      | pop js => exact rem _ hop
      | _ => exact h
  have := key d2 hw2 h2
  rw [← hk] at this
  simp [getOne, this]

example : GoMap.WF ([] : Dict) := GoMap.WF_nil
example : dictCalls [] [.set (.str ['a']) (.int 1), .set (.int 2) (.int 3), .delete (.str ['2']) [.str ['a'], .str ['a']], .len] =
    ([], [.done, .done, .missing (.str ['a']), .num 0]) := by rfl

/-! ## C10 Enumeration of keys and values -/

/-- C10. The keys are listed once each, in strictly increasing order. -/
theorem C10_keys (d : Dict) (hw : GoMap.WF d) :
    ∃ ks : List Text, getKeys d = ks.map Value.str ∧ ks.Pairwise (fun a b => Text.lt a b = true) ∧
      ∀ k, k ∈ ks ↔ (GoMap.get? d k).isSome :=
  ⟨keysAsString d, getKeys_eq d, (keysAre d hw).1, (keysAre d hw).2⟩

/-- C10. The values are listed in the order of the keys. -/
theorem C10_values (d : Dict) :
    getValues d = (getKeys d).map (fun k => get d [k]) := by
  rw [getValues_eq, getKeys_eq, List.map_map]
  apply List.map_congr_left
  intro k _; simp [DictOps.get, getOne]

/-- C10. Keys, values and printed form do not depend on the iteration order of the map. -/
theorem C10_order_independent (d d' : Dict) (hw : GoMap.WF d) (hp : d.Perm d') :
    getKeys d = getKeys d' ∧ getValues d = getValues d' ∧ sprint (.dict d) = sprint (.dict d') := by
  have hk : keysAsString d = keysAsString d' :=
    Text.sortBy_perm_invariant id (hp.map Prod.fst) (by rw [List.map_id]; exact hw)
  refine ⟨by rw [getKeys_eq, getKeys_eq, hk], ?_, ?_⟩
  · rw [getValues_eq, getValues_eq, hk]
    apply List.map_congr_left
    intro k _; rw [GoMap.get?_perm hp hw]
  · rw [← sprint_canon (.dict d), ← sprint_canon (.dict d'), canon_dict_perm hw hp]

/-- C10. The printed form of any value depends only on its content: dictionaries at any depth may be enumerated in any
order. -/
theorem C10_print_content (a b : Value) (h : SameContent a b) : sprint a = sprint b := by
  rw [← sprint_canon a, ← sprint_canon b, h]

/-- C10. Two histories that lead to the same finite map give the same keys, values and printed form. -/
theorem C10_history_independent (d d' : Dict) (hw : GoMap.WF d) (hw' : GoMap.WF d')
    (h : ∀ k, GoMap.get? d k = GoMap.get? d' k) :
    getKeys d = getKeys d' ∧ getValues d = getValues d' ∧ sprint (.dict d) = sprint (.dict d') :=
  C10_order_independent d d' hw (GoMap.perm_of_get?_eq hw hw' h)

example : GoMap.WF ([(['b'], .int 1), (['a'], .int 2)] : Dict) ∧
    ([(['b'], .int 1), (['a'], .int 2)] : Dict).Perm [(['a'], .int 2), (['b'], .int 1)] :=
  ⟨by decide, List.Perm.swap _ _ _⟩
example : SameContent (.list [.dict [(['b'], .int 1), (['a'], .int 2)]]) (.list [.dict [(['a'], .int 2), (['b'], .int 1)]]) := by
  rfl

/-! ## C11 Merge -/

/-- C11. What every path leads to after a merge: the first definition wins, recursively. -/
theorem C11_merge_paths (t : Dict) (sources : List (Option Dict))
    (hs : ∀ s, some s ∈ sources → WFValue (.dict s)) (p : List Text) :
    seenAt p (merge t sources) = resolve p (t :: sources.filterMap id) := by
  induction sources generalizing t with
  | nil => exact seenAt_eq_resolve p t
  | cons o sources ih =>
    have ih := fun t => ih t (fun s h => hs s (by simp [h]))
    cases o with
    | none => simp only [merge, List.foldl_cons] at *; rw [ih]; rfl
    | some s =>
      simp only [merge, List.foldl_cons, List.filterMap_cons, id] at *
      rw [ih, resolve_deepMerge p t s _ (hs s (by simp))]

/-- C11. Top level reading: a key of the result comes from the first argument that has it; if that is not a dictionary,
its value is exactly that one. -/
theorem C11_merge_first_wins (t : Dict) (sources : List (Option Dict))
    (hs : ∀ s, some s ∈ sources → WFValue (.dict s)) (k : Text) (v : Value) (rest : List Value)
    (h : (t :: sources.filterMap id).filterMap (fun d => GoMap.get? d k) = v :: rest) (hv : ∀ d, v ≠ .dict d) :
    GoMap.get? (merge t sources) k = some v := by
  have this : seenAt [k] (merge t sources) = some (.leaf v) := by
    rw [C11_merge_paths t sources hs [k]]
    unfold resolve
    rw [h]
    cases v <;> first | rfl | exact absurd rfl (hv _)
  rw [seenAt_cons] at this
  cases hg : GoMap.get? (merge t sources) k with
  | none => rw [hg] at this; simp at this
  | some w =>
    rw [hg] at this
    cases w <;> first | (simp [seenAt] at this; done) | (simp at this; rw [this])

/-- C11. The result does not depend on the order in which Go enumerates the maps. -/
theorem C11_merge_order_independent (t t' s s' : Dict) (ht : GoMap.WF t) (hs : WFValue (.dict s))
    (hpt : t.Perm t') (hps : s.Perm s') (k : Text) :
    GoMap.get? (deepMerge t s) k = GoMap.get? (deepMerge t' s') k := by
  have hw := (WFValue_dict_iff.1 hs).1
  rw [get?_deepMerge t s hw, get?_deepMerge t' s' (hw.perm hps), GoMap.get?_perm hpt ht, GoMap.get?_perm hps hw]

/-- C11. Merging a dictionary into itself changes nothing. -/
theorem C11_merge_self (d : Dict) (hd : WFValue (.dict d)) (p : List Text) : seenAt p (merge d [some d]) = seenAt p d := by
  simp only [merge, List.foldl_cons, List.foldl_nil]
  induction p generalizing d with
  | nil => rfl
  | cons k rest ih =>
    rw [seenAt_cons, seenAt_cons, get?_deepMerge d d (WFValue_dict_iff.1 hd).1]
    cases h : GoMap.get? d k with
    | none => rfl
    | some v =>
      cases v with
      | dict a => exact ih a (WFValue_get? hd h)
      | _ => rfl

/-- The associativity part of C11, for three given dictionaries. -/
def MergeAssoc (a b c : Dict) : Prop :=
  ∀ p, seenAt p (merge (merge a [some b]) [some c]) = seenAt p (merge a [some (merge b [some c])])

/-- C11 (violated part). Merge is not associative: with `a = {k: {}}`, `b = {k: 1}`, `c = {k: {x: 2}}`,
`a.Merge(b).Merge(c)` has `k.x` but `a.Merge(b.Merge(c))` has not: the leaf of `b` is dropped by `a` in one case and
hides `c` in the other. -/
theorem C11_merge_assoc_violated :
    ¬ ∀ a b c : Dict, WFValue (.dict a) → WFValue (.dict b) → WFValue (.dict c) → MergeAssoc a b c := by
  intro h
  have := h [(['k'], .dict [])] [(['k'], .int 1)] [(['k'], .dict [(['x'], .int 2)])]
    (by simp [WFValue, WFEntries]) (by simp [WFValue, WFEntries]) (by simp [WFValue, WFEntries]) [['k'], ['x']]
  exact absurd this (by
    intro h
    have h1 : some (Seen.leaf (.int 2)) = none := h
    cases h1)

/-- C11 (partial). Merge is associative when no path is a leaf in `b` and a dictionary in both `a` and `c`. Missing: the
conflicting case, where the code is not associative. -/
theorem C11_merge_assoc_partial (a b c : Dict) (hb : WFValue (.dict b)) (hc : WFValue (.dict c))
    (hcompat : ∀ p v, seenAt p a = some .dict → seenAt p b = some (.leaf v) → seenAt p c ≠ some .dict) :
    MergeAssoc a b c := by
  intro p
  simp only [merge, List.foldl_cons, List.foldl_nil]
  induction p generalizing a b c with
  | nil => rfl
  | cons k rest ih =>
    have wb := (WFValue_dict_iff.1 hb).1
    have wc := (WFValue_dict_iff.1 hc).1
    have wbc : GoMap.WF (deepMerge b c) := WF_deepMerge wb
    rw [seenAt_cons, seenAt_cons, get?_deepMerge _ c wc, get?_deepMerge a b wb, get?_deepMerge a _ wbc,
      get?_deepMerge b c wc]
    cases h1 : GoMap.get? a k with
    | none => rfl
    | some va =>
      cases h2 : GoMap.get? b k with
      | none => rw [combine_none]; rfl
      | some vb =>
        cases h3 : GoMap.get? c k with
        | none => rw [combine_none, combine_none]
        | some vc =>
          cases va with
          | dict da =>
            cases vb with
            | dict db =>
              cases vc with
              | dict dc =>
                simp only [combine]
                apply ih da db dc (WFValue_get? hb h2) (WFValue_get? hc h3)
                intro p v hpa hpb
                have := hcompat (k :: p) v (by rw [seenAt_cons, h1]; exact hpa) (by rw [seenAt_cons, h2]; exact hpb)
                rw [seenAt_cons, h3] at this
                exact this
              | _ => rfl
            | _ =>
              cases vc with
              | dict dc =>
                exfalso
                refine hcompat [k] _ (by rw [seenAt_cons, h1]; rfl) (by rw [seenAt_cons, h2]; rfl) ?_
                rw [seenAt_cons, h3]; rfl
              | _ => rfl
          | _ => cases vb <;> cases vc <;> rfl

/-- C11. Merging several sources at once is merging them one after the other. -/
theorem C11_merge_sequential (t : Dict) (xs ys : List (Option Dict)) :
    merge t (xs ++ ys) = merge (merge t xs) ys := by
  simp [merge, List.foldl_append]

example : seenAt [['k'], ['y']] (merge [(['k'], .dict [(['x'], .int 1)])] [none, some [(['k'], .dict [(['x'], .int 5), (['y'], .int 2)])]]) =
    some (.leaf (.int 2)) := by rfl
example : WFValue (.dict [(['k'], .dict [(['x'], .int 5), (['y'], .int 2)])]) := by
  simp [WFValue, WFEntries]

/-! ## C14 Omit and Clone(keys) -/

/-- C14. `Clone(keys)` has exactly the listed keys. -/
theorem C14_pick_keys (d : Dict) (ks : List Value) (h : ks ≠ []) (k : Text) :
    (GoMap.get? (clone d ks) k).isSome ↔ k ∈ ks.map sprint := by
  rw [get?_clone d ks h]; split <;> simp_all

/-- C14. Each listed key has the value it has in the original (nil if absent), for values whose nested lists are not
made of a single list (see C06). -/
theorem C14_pick_values (d : Dict) (hd : WFValue (.dict d)) (hn : NoSingletonNest (.dict d)) (ks : List Value)
    (k : Text) (hk : k ∈ ks.map sprint) :
    ∃ v, GoMap.get? (clone d ks) k = some v ∧ SameContent v ((GoMap.get? d k).getD .nil) := by
  have h : ks ≠ [] := by rintro rfl; simp at hk
  refine ⟨_, by rw [get?_clone d ks h, if_pos hk], ?_⟩
  cases hg : GoMap.get? d k with
  | none => rfl
  | some v =>
    simp only [NoSingletonNest] at hn
    exact canon_cloneValue v (WFValue_get? hd hg) ((NoSingletonNestEntries_iff d).1 hn (k, v) (GoMap.mem_of_get? hg))

/-- C14. `Omit` keeps exactly the keys that are not listed. -/
theorem C14_omit_keys (d : Dict) (key : Value) (others : List Value) (k : Text) :
    (GoMap.get? (omitKeys d key others) k).isSome ↔
      (GoMap.get? d k).isSome ∧ k ∉ (key :: others).map sprint := by
  unfold omitKeys flush
  simp only [List.length_cons, Nat.succ_ne_zero, if_false]
  rw [(deleteLoop_false (clone d []) (key :: others)).2.2]
  simp only [FMap.remove, get?_clone_all]
  split <;> simp_all

/-- C14. `Omit` keeps their values. -/
theorem C14_omit_values (d : Dict) (hd : WFValue (.dict d)) (hn : NoSingletonNest (.dict d)) (key : Value)
    (others : List Value) (k : Text) (v : Value) (hg : GoMap.get? d k = some v) (hk : k ∉ (key :: others).map sprint) :
    ∃ v', GoMap.get? (omitKeys d key others) k = some v' ∧ SameContent v' v := by
  unfold omitKeys flush
  simp only [List.length_cons, Nat.succ_ne_zero, if_false]
  rw [(deleteLoop_false (clone d []) (key :: others)).2.2]
  refine ⟨cloneValue v, ?_, ?_⟩
  · simp only [FMap.remove, get?_clone_all, if_neg hk, hg, Option.map_some]
  · simp only [NoSingletonNest] at hn
    exact canon_cloneValue v (WFValue_get? hd hg) ((NoSingletonNestEntries_iff d).1 hn (k, v) (GoMap.mem_of_get? hg))

/-- C14. A full `Clone` has the same keys and, under the same condition, the same content. -/
theorem C14_clone_all (d : Dict) (hd : WFValue (.dict d)) (hn : NoSingletonNest (.dict d)) :
    SameContent (.dict (clone d [])) (.dict d) := by
  have h1 := (WFValue_dict_iff.1 hd).1
  have h2 : ∀ k, GoMap.get? (clone d []) k = GoMap.get? (d.map (fun e => (e.1, cloneValue e.2))) k := by
    intro k; rw [get?_clone_all, GoMap.get?_map]
  have hw : GoMap.WF (d.map (fun e => (e.1, cloneValue e.2))) := by
    unfold GoMap.WF GoMap.keys; rw [List.map_map]; exact h1
  have hp := GoMap.perm_of_get?_eq (WF_clone d []) hw h2
  unfold SameContent
  rw [canon_dict_perm (WF_clone d []) hp, canon_dict, canon_dict, List.map_map]
  congr 2
  apply List.map_congr_left
  intro e he
  simp only [NoSingletonNest] at hn
  simp only [WFValue] at hd
  simp [canon_cloneValue e.2 ((WFEntries_iff d).1 hd.2 e he) ((NoSingletonNestEntries_iff d).1 hn e he)]

/-- C14 (violated for values). `Clone` changes a value that is a list made of one list. -/
theorem C14_clone_values_violated :
    ¬ ∀ (d : Dict), WFValue (.dict d) → ∀ k v, GoMap.get? d k = some v →
      ∃ v', GoMap.get? (clone d []) k = some v' ∧ SameContent v' v := by
  intro h
  obtain ⟨v', h1, h2⟩ := h [(['a'], .list [.list [.int 1, .int 2]])] (by simp [WFValue, WFEntries, WFItems])
    ['a'] _ rfl
  rw [get?_clone_all] at h1
  simp [GoMap.get?, cloneValue, ListOps.clone, ListOps.newList, ListOps.append, ListOps.add] at h1
  subst h1
  simp [SameContent, canon, canonItems] at h2

example : WFValue (.dict [(['a'], .int 1), (['b'], .dict [(['c'], .list [.int 1])])]) ∧
    NoSingletonNest (.dict [(['a'], .int 1), (['b'], .dict [(['c'], .list [.int 1])])]) := by
  simp [WFValue, WFEntries, WFItems, NoSingletonNest, NoSingletonNestEntries]

/-! ## C15 pluck and pickv -/

/-- What `pluck` should return. -/
def PluckSpec (key : Value) (ds : List Dict) (out : List Value) : Prop :=
  out = (ds.filter (fun d => (GoMap.get? d key.sprint).isSome)).map (fun d => (GoMap.get? d key.sprint).getD .nil)

theorem pluck_eq_nil (key : Value) (ds : List Dict) : pluck key ds = [] := by
  unfold pluck
  have : ∀ acc : List Value, ds.foldl (fun result d =>
      if has d [key] then (let _ := ListOps.append result [getOne d key]; result) else result) acc = acc := by
    induction ds with
    | nil => intro acc; rfl
    | cons d ds ih => intro acc; rw [List.foldl_cons]; simp only [ite_self] at ih ⊢; exact ih acc
  rw [this]; rfl

/-- C15 (violated). `pluck` returns an empty list even when a dictionary has the key. -/
theorem C15_pluck_violated : ¬ ∀ key ds, PluckSpec key ds (pluck key ds) := by
  intro h
  have := h (.str ['a']) [[(['a'], .int 1)]]
  rw [pluck_eq_nil] at this
  simp [PluckSpec, GoMap.get?] at this

/-- C15 (partial). `pluck` is right exactly when no dictionary has the key. Missing: all other calls, where the code is
wrong. -/
theorem C15_pluck_partial (key : Value) (ds : List Dict) :
    PluckSpec key ds (pluck key ds) ↔ ∀ d ∈ ds, GoMap.get? d key.sprint = none := by
  rw [pluck_eq_nil]
  unfold PluckSpec
  constructor
  · intro h d hd
    have h' := List.map_eq_nil_iff.1 h.symm
    rw [List.filter_eq_nil_iff] at h'
    simpa using h' d hd
  · intro h
    symm
    rw [List.map_eq_nil_iff, List.filter_eq_nil_iff]
    intro d hd; simp [h d hd]

/-- C15 (partial). `pickv` reports an error exactly when the dictionary has a key that is not requested. -/
theorem C15_pickv_error_partial (d : Dict) (key : Value) (others : List Value) :
    pickv d key others = none ↔ ∃ k, (GoMap.get? d k).isSome ∧ k ∉ (key :: others).map sprint := by
  unfold pickv
  constructor
  · intro h
    simp only at h
    split at h
    · rename_i hl
      obtain ⟨⟨k, v⟩, he⟩ := List.exists_mem_of_length_pos hl
      exact ⟨k, (C14_omit_keys d key others k).1 (GoMap.get?_isSome_of_mem he)⟩
    · cases h
  · rintro ⟨k, hk⟩
    have := (C14_omit_keys d key others k).2 hk
    have hl : (omitKeys d key others).length > 0 := by
      apply List.length_pos_iff.2
      intro h; rw [h] at this; simp at this
    simp [hl]

/-- C15 (violated). When `pickv` succeeds, the result is a dictionary whose only key is the printed list of the
requested keys: no requested key is in the result (unless it happens to be that text). -/
theorem C15_pickv_result (d r : Dict) (key : Value) (others : List Value) (h : pickv d key others = some r) (k : Text) :
    (GoMap.get? r k).isSome ↔ k = sprint (.list (others ++ [key])) := by
  unfold pickv at h
  simp only at h
  split at h
  · cases h
  · cases h
    rw [pick, C14_pick_keys _ _ (by simp)]
    simp

/-- C15 (violated). Witness: `pickv` of the only key of `{a: 1}` loses it. -/
theorem C15_pickv_violated :
    ¬ ∀ (d r : Dict) (key : Value) (others : List Value), pickv d key others = some r →
      ∀ x ∈ key :: others, GoMap.get? r x.sprint = GoMap.get? d x.sprint := by
  intro h
  have := h [(['a'], .int 1)] [(T "[a]", .nil)] (.str ['a']) [] (by rfl) (.str ['a']) (by simp)
  have h1 : none = some (Value.int 1) := this
  cases h1

/-! ## C16 Transpose -/

/-- The texts a value stands for: those of its elements for a list, its own text otherwise. -/
def mentioned : Value → List Text
  | .list l => l.map sprint
  | v => [sprint v]

/-- The (text, key) pairs of a dictionary enumerated in the order of `ks`. -/
def mentions (d : Dict) (ks : List Text) : List (Text × Text) :=
  ks.flatMap (fun k => (mentioned ((GoMap.get? d k).getD .nil)).map (fun t => (t, k)))

/-- How the keys that mention a text are stored. -/
def rendered : List Text → Option Value
  | [] => none
  | [k] => some (.str k)
  | ks => some (.list (ks.map .str))

/-- C16 for one dictionary. -/
def TransposeSpec (d : Dict) : Prop :=
  ∀ ks, FMap.KeysAre (GoMap.get? d) ks → ∀ t,
    GoMap.get? (transpose d) t = rendered (((mentions d ks).filter (fun m => m.1 == t)).map Prod.snd)

theorem get?_add (d : Dict) (v : Value) (k t : Text) (ms : List Text)
    (h : GoMap.get? d (sprint v) = rendered ms) :
    GoMap.get? (DictOps.add d v (.str k)) t = if sprint v = t then rendered (ms ++ [k]) else GoMap.get? d t := by
  unfold DictOps.add
  match ms with
  | [] => simp only [rendered] at h; simp [h, GoMap.get?_set, rendered]
  | [m] => simp only [rendered] at h; simp [h, tryAsList, GoMap.get?_set, rendered, ListOps.append_eq, ListOps.create]
  | m1 :: m2 :: ms => simp only [rendered] at h; simp [h, tryAsList, GoMap.get?_set, rendered, ListOps.append_eq]

theorem foldl_add (ps : List (Value × Text)) :
    ∀ t, GoMap.get? (ps.foldl (fun r p => DictOps.add r p.1 (.str p.2)) []) t =
      rendered ((ps.filter (fun p => sprint p.1 == t)).map Prod.snd) := by
  induction ps using snoc_induction with
  | h0 => intro t; rfl
  | h1 ps p ih =>
    intro t
    rw [List.foldl_append, List.foldl_cons, List.foldl_nil, get?_add _ _ _ _ _ (ih _), List.filter_append,
      List.map_append]
    by_cases e : sprint p.1 = t
    · subst e; simp
    · simp [e, ih t]

/-- The pairs visited by the loops of `transpose`. -/
def visited (d : Dict) (ks : List Text) : List (Value × Text) :=
  ks.flatMap (fun k =>
    match tryAsList ((GoMap.get? d k).getD .nil) with
    | some l => l.map (fun v => (v, k))
    | none => [((GoMap.get? d k).getD .nil, k)])

theorem transpose_eq (d : Dict) :
    transpose d = (visited d (keysAsString d)).foldl (fun r p => DictOps.add r p.1 (.str p.2)) [] := by
  unfold transpose
  rw [getKeys_eq, List.foldl_map]
  have : ∀ (ks : List Text) (acc : Dict),
      ks.foldl (fun x y => match tryAsList (get d [.str y]) with
        | some l => l.foldl (fun result v => DictOps.add result v (.str y)) x
        | none => DictOps.add x (get d [.str y]) (.str y)) acc =
      (visited d ks).foldl (fun r p => DictOps.add r p.1 (.str p.2)) acc := by
    intro ks
    induction ks with
    | nil => intro acc; rfl
    | cons k ks ih =>
      intro acc
      have e : get d [.str k] = (GoMap.get? d k).getD .nil := by simp [DictOps.get, getOne]
      rw [List.foldl_cons, ih]
      simp only [visited, List.flatMap_cons, List.foldl_append, e]
      congr 1
      cases tryAsList ((GoMap.get? d k).getD .nil) with
      | none => rfl
      | some l => simp [List.foldl_map]
  exact this _ _

theorem keysAre_unique {m : FMap} {a b : List Text} (ha : m.KeysAre a) (hb : m.KeysAre b) : a = b := by
  have h1 : ∀ l : List Text, l.Pairwise (fun a b => Text.lt a b = true) →
      l.Pairwise (fun a b => Text.le a b = true) ∧ l.Nodup := by
    intro l h
    constructor
    · exact h.imp (fun h => ((Text.lt_iff _ _).1 h).1)
    · exact h.imp (fun h => ((Text.lt_iff _ _).1 h).2)
  have hp : a.Perm b := (List.perm_ext_iff_of_nodup (h1 a ha.1).2 (h1 b hb.1).2).2 (fun k => by rw [ha.2, hb.2])
  exact Text.sorted_perm_unique id hp (h1 a ha.1).1 (h1 b hb.1).1 (by simpa using (h1 a ha.1).2)

theorem flatMap_congr_mem {α β : Type} {l : List α} {f g : α → List β} (h : ∀ a ∈ l, f a = g a) :
    l.flatMap f = l.flatMap g := by
  induction l with
  | nil => rfl
  | cons a l ih => rw [List.flatMap_cons, List.flatMap_cons, h a (by simp), ih (fun b hb => h b (by simp [hb]))]

theorem transpose_get? (d : Dict) (t : Text) :
    GoMap.get? (transpose d) t =
      rendered ((((visited d (keysAsString d)).map (fun p => (sprint p.1, p.2))).filter (fun m => m.1 == t)).map Prod.snd) := by
  rw [transpose_eq, foldl_add, List.filter_map, List.map_map]
  rfl

/-- C16. Exactly what `Transpose` returns, nil values included: they are skipped. -/
theorem C16_transpose_exact (d : Dict) (hw : GoMap.WF d) (ks : List Text) (hks : FMap.KeysAre (GoMap.get? d) ks) (t : Text) :
    GoMap.get? (transpose d) t = rendered (((ks.flatMap (fun k => match GoMap.get? d k with
      | some .nil => []
      | some v => (mentioned v).map (fun t => (t, k))
      | none => [])).filter (fun m => m.1 == t)).map Prod.snd) := by
  rw [transpose_get?, keysAre_unique (keysAre d hw) hks]
  congr 3
  unfold visited
  rw [List.map_flatMap]
  have hall : ∀ k ∈ ks, GoMap.get? d k ≠ none := by
    intro k hk' h; have := (hks.2 k).1 hk'; rw [h] at this; simp at this
  apply flatMap_congr_mem
  intro k hk
  have h1 := hall k hk
  cases hg : GoMap.get? d k with
  | none => exact absurd hg h1
  | some v => cases v <;> simp [tryAsList, mentioned]

/-- C16 (partial). `Transpose` inverts the relation for every dictionary without nil values. Missing: nil values, see
`C16_transpose_violated`. -/
theorem C16_transpose_partial (d : Dict) (hw : GoMap.WF d) (hn : ∀ k, GoMap.get? d k ≠ some .nil) : TransposeSpec d := by
  intro ks hks t
  rw [C16_transpose_exact d hw ks hks]
  congr 3
  unfold mentions
  apply flatMap_congr_mem
  intro k hk
  have h1 := (hks.2 k).1 hk
  have h2 := hn k
  cases hg : GoMap.get? d k with
  | none => rw [hg] at h1; simp at h1
  | some v => cases v <;> first | rfl | exact absurd hg h2

/-- C16 (violated). A key with a nil value is lost by `Transpose`: nil is taken for an empty list. -/
theorem C16_transpose_violated : ¬ ∀ d : Dict, GoMap.WF d → TransposeSpec d := by
  intro h
  have := h [(['a'], .nil)] (by decide) [['a']] (by
    refine ⟨by simp, ?_⟩
    intro k
    simp only [GoMap.get?, List.mem_singleton]
    constructor
    · rintro rfl; simp
    · intro hk; split at hk
      · rename_i e; exact e.symm
      · simp at hk) (T "<nil>")
  have h1 : none = some (Value.str ['a']) := this
  cases h1

example : transpose [(['b'], .list [.int 1, .int 2]), (['a'], .int 1), (['c'], .str ['x'])] =
    [(['1'], .list [.str ['a'], .str ['b']]), (['2'], .str ['b']), (['x'], .str ['c'])] := by rfl
example : ∀ k, GoMap.get? ([(['b'], .list [.int 1, .int 2]), (['a'], .int 1)] : Dict) k ≠ some .nil := by
  intro k
  simp only [GoMap.get?_cons, GoMap.get?_nil]
  split
  · simp
  · split <;> simp

/-! ## C17 Delete -/

/-- C17. `Delete` succeeds iff all keys are defined and no two of them print alike, and then removes exactly them. -/
theorem C17_delete_ok (d : Dict) (hw : GoMap.WF d) (k : Value) (ks : List Value) :
    (∃ d', delete d k ks = (d', none)) ↔
      ((k :: ks).map sprint).Nodup ∧ ∀ x ∈ k :: ks, (GoMap.get? d x.sprint).isSome := by
  constructor
  · rintro ⟨d', h⟩
    rcases deleteLoop_true d hw (k :: ks) with ⟨d1, h1, h2, h3, h4⟩ | ⟨d1, before, bad, after, h1, h2, h3, h4, h5, h6⟩
    · refine ⟨h2.1, ?_⟩
      intro x hx
      exact h2.2 _ (List.mem_map_of_mem hx)
    · rw [delete, h1] at h; simp at h
  · rintro ⟨hn, hall⟩
    rcases deleteLoop_true d hw (k :: ks) with ⟨d1, h1, h2, h3, h4⟩ | ⟨d1, before, bad, after, h1, h2, h3, h4, h5, h6⟩
    · exact ⟨d1, h1⟩
    · exfalso
      rcases h4 with h4 | h4
      · have := hall bad (by rw [h2]; simp)
        rw [h4] at this; simp at this
      · rw [h2, List.map_append, List.nodup_append] at hn
        exact hn.2.2 _ h4 _ (by simp) rfl

/-- C17. After a successful `Delete`, exactly the listed keys are gone. -/
theorem C17_delete_effect (d d' : Dict) (hw : GoMap.WF d) (k : Value) (ks : List Value)
    (h : delete d k ks = (d', none)) (x : Text) :
    GoMap.get? d' x = if x ∈ (k :: ks).map sprint then none else GoMap.get? d x := by
  rcases deleteLoop_true d hw (k :: ks) with ⟨d1, h1, h2, h3, h4⟩ | ⟨d1, before, bad, after, h1, h2, h3, h4, h5, h6⟩
  · rw [delete, h1] at h
    cases h
    exact congrFun h4 x
  · rw [delete, h1] at h; simp at h

/-- C17. When `Delete` fails, the error names the first key that is missing when its turn comes, the keys before it are
gone and everything else is intact. -/
theorem C17_delete_error (d d' : Dict) (hw : GoMap.WF d) (k bad : Value) (ks : List Value)
    (h : delete d k ks = (d', some bad)) :
    ∃ before after, k :: ks = before ++ bad :: after ∧
      (∀ x ∈ before, (GoMap.get? d x.sprint).isSome) ∧ (before.map sprint).Nodup ∧
      (GoMap.get? d bad.sprint = none ∨ bad.sprint ∈ before.map sprint) ∧
      ∀ x, GoMap.get? d' x = if x ∈ before.map sprint then none else GoMap.get? d x := by
  rcases deleteLoop_true d hw (k :: ks) with ⟨d1, h1, h2, h3, h4⟩ | ⟨d1, before, bad', after, h1, h2, h3, h4, h5, h6⟩
  · rw [delete, h1] at h; simp at h
  · rw [delete, h1] at h
    cases h
    exact ⟨before, after, h2, fun x hx => h3.2 _ (List.mem_map_of_mem hx), h3.1, h4, fun x => congrFun h6 x⟩

example : delete [(['a'], .int 1), (['b'], .int 2), (['c'], .int 3)] (.str ['b']) [.str ['x'], .str ['a']] =
    ([(['a'], .int 1), (['c'], .int 3)], some (.str ['x'])) := by rfl

end Verif
