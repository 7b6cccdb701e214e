import Verif.Spec.DataFuncsSpec
import Verif.Props.Lists
import Verif.Props.Strings

/-!
C76: `get`, `hasKey`, `set`, `unset`, `key` and `content` on dictionaries; C77: `contains` and `find` on lists and texts.
-/

namespace Verif.Props
open Verif Verif.Value Verif.DataFuncs Verif.Spec

theorem tryAsDict_keyLike {v : Value} (h : KeyLike v) : tryAsDict v = none := by
  cases v with
  | nil => exact absurd rfl h.2
  | dict d => exact absurd rfl (h.1 d)
  | _ => rfl

theorem tryAsDict_dict (d : Dict) : tryAsDict (.dict d) = some d := rfl

/-- **C76**: the dictionary and the key can be given in either order, to `get`, to `hasKey` and to `unset`; to `set`, the dictionary is the first or the last. -/
theorem C76_either_order (d : Dict) (k : Value) (hk : KeyLike k) (defaults : List Value) (v : Value) :
    getFn k (.dict d) defaults = getFn (.dict d) k defaults ∧
    hasKeyFn k (.dict d) = hasKeyFn (.dict d) k ∧
    (unsetFn k (.dict d)).map Prod.swap = unsetFn (.dict d) k ∧
    (setFn k v (.dict d)).map (fun r => (r.2.2, r.1, r.2.1)) = setFn (.dict d) k v := by
  simp only [getFn, hasKeyFn, unsetFn, setFn, tryAsDict_keyLike hk, tryAsDict_dict, after, Option.map_some, Prod.swap, and_self]

/-- **C76**: `get` gives the value of the entry; when there is none, or when it is nil, the default value, the list of them if there are several, or nil if there are none. It does not fail. -/
theorem C76_get (d : Dict) (k : Value) (defaults : List Value) :
    (∀ v, HoldsAt d k v → v ≠ .nil → getFn (.dict d) k defaults = some v) ∧
    ((∀ v, HoldsAt d k v → v = .nil) →
      getFn (.dict d) k [] = some .nil ∧ (∀ a, getFn (.dict d) k [a] = some a) ∧
      ∀ a b l, getFn (.dict d) k (a :: b :: l) = some (.list (a :: b :: l))) := by
  constructor
  · intro v hv hn
    simp only [getFn, tryAsDict, DictOps.get, DictOps.getOne]
    rw [hv]
    cases v <;> first | rfl | exact absurd rfl hn
  · intro h
    have : DictOps.getOne d k = .nil := by
      unfold DictOps.getOne
      cases hg : GoMap.get? d (sprint k) with
      | none => rfl
      | some v => exact h v hg
    simp only [getFn, tryAsDict, DictOps.get, this, orDefault, implies_true, and_self]

/-- **C76**: `hasKey` tells whether there is an entry, even if its value is nil. -/
theorem C76_hasKey (d : Dict) (k : Value) : ∃ b, hasKeyFn (.dict d) k = some b ∧ (b = true ↔ ∃ v, HoldsAt d k v) := by
  refine ⟨_, rfl, ?_⟩
  unfold DictOps.has HoldsAt
  simp only [List.all_cons, List.all_nil, Bool.and_true, Bool.and_eq_true, decide_eq_true_eq]
  rw [GoMap.has_iff, GoMap.mem_keys_iff, Option.isSome_iff_exists]
  refine ⟨fun h => h.1, fun h => ⟨h, ?_⟩⟩
  cases d with
  | nil => obtain ⟨v, hv⟩ := h; cases hv
  | cons e d => simp

/-- **C76**: `set` on a dictionary changes the entry of the keyFn and nothing else. -/
theorem C76_set (d : Dict) (k v : Value) : ∃ d', setFn (.dict d) k v = some (.dict d', k, v) ∧ HoldsAt d' k v ∧
    ∀ k' w, ¬ SameKey k' k → (HoldsAt d' k' w ↔ HoldsAt d k' w) := by
  refine ⟨DictOps.set d k v, rfl, ?_, ?_⟩
  · unfold HoldsAt DictOps.set
    rw [GoMap.get?_set]
    simp
  · intro k' w h
    unfold HoldsAt DictOps.set
    rw [GoMap.get?_set, if_neg]
    exact fun e => h (by unfold SameKey; first | exact e.symm | exact e)

/-- **C76**: after `set`, `get` gives the value in the place of its default values, unless it is nil. -/
theorem C76_get_set (d : Dict) (k v : Value) (hv : v ≠ .nil) (defaults : List Value) :
    ∃ d', setFn (.dict d) k v = some (.dict d', k, v) ∧ getFn (.dict d') k defaults = some v := by
  obtain ⟨d', h1, h2, _⟩ := C76_set d k v
  exact ⟨d', h1, (C76_get d' k defaults).1 v h2 hv⟩

/-- **C76**: `unset` removes the entry of the keyFn and nothing else; it does not fail when there is none. -/
theorem C76_unset (d : Dict) (k : Value) : ∃ d', unsetFn (.dict d) k = some (.dict d', k) ∧ (∀ v, ¬ HoldsAt d' k v) ∧
    ∀ k' w, ¬ SameKey k' k → (HoldsAt d' k' w ↔ HoldsAt d k' w) := by
  have hdel : (DictOps.delete d k []).1 = GoMap.erase d (sprint k) ∨
      ((DictOps.delete d k []).1 = d ∧ ∀ v, ¬ HoldsAt d k v) := by
    unfold DictOps.delete DictOps.deleteLoop
    split
    · rename_i h
      refine .inr ⟨rfl, fun v hv => ?_⟩
      obtain ⟨b, hb, hbe⟩ := C76_hasKey d k
      have hb' : DictOps.has d [k] = b := by simpa [hasKeyFn, tryAsDict] using hb
      have : b = true := hbe.2 ⟨v, hv⟩
      rw [hb', this] at h
      simp at h
    · exact .inl rfl
  refine ⟨(DictOps.delete d k []).1, rfl, ?_, ?_⟩
  · rcases hdel with h | ⟨h, hn⟩
    · rw [h]
      intro v hv
      unfold HoldsAt at hv
      rw [GoMap.get?_erase] at hv
      simp at hv
    · rw [h]; exact hn
  · intro k' w hk
    rcases hdel with h | ⟨h, hn⟩
    · rw [h]
      unfold HoldsAt
      rw [GoMap.get?_erase, if_neg]
      exact fun e => hk (by unfold SameKey; first | exact e.symm | exact e)
    · rw [h]

/-- **C76**: without a dictionary (nor nil) among the arguments that can be one, the functions fail. -/
theorem C76_error (a b c : Value) (ha : KeyLike a) (hb : KeyLike b) (hc : KeyLike c) (defaults : List Value) :
    getFn a b defaults = none ∧ hasKeyFn a b = none ∧ unsetFn a b = none ∧ setFn a b c = none := by
  simp only [getFn, hasKeyFn, unsetFn, setFn, tryAsDict_keyLike ha, tryAsDict_keyLike hb, tryAsDict_keyLike hc, and_self]

/-- **C76**, not for every key: nil before the dictionary is taken for an empty dictionary, so that the order matters. -/
theorem C76_not_nil_key : ∃ d : Dict, getFn (.dict d) .nil [] = some (.int 1) ∧ getFn .nil (.dict d) [] = some .nil ∧
    hasKeyFn .nil (.dict d) = some false := by
  exact ⟨[(T "<nil>", .int 1)], by rfl, by rfl, by rfl⟩

/-- **C76**, not for every dictionary: `set` on nil succeeds and has no effect. -/
theorem C76_not_set_nil (k v : Value) : setFn .nil k v = some (.nil, k, v) ∧ getFn .nil k [] = some .nil := by
  exact ⟨rfl, rfl⟩

/-- **C76**, not for every pair of keys: values of different types with the same text are one key. -/
theorem C76_not_typed_keys : ∃ (d d' : Dict) (k k' v : Value), k ≠ k' ∧ setFn (.dict d) k v = some (.dict d', k, v) ∧
    hasKeyFn (.dict d) k' = some false ∧ getFn (.dict d') k' [] = some v :=
  ⟨[], [(T "1", .bool true)], .int 1, .str (T "1"), .bool true, by simp, rfl, rfl, rfl⟩

/-! ### `key` and `content` -/

theorem collectPairs_get (ps : List (Value × Value)) (hd : (ps.map fun p => sprint p.1).Nodup) (k : Text) (v : Value) :
    GoMap.get? (collectPairs ps) k = some v ↔ ∃ p ∈ ps, sprint p.1 = k ∧ p.2 = v := by
  have gen : ∀ (ps : List (Value × Value)) (d : Dict), (ps.map fun p => sprint p.1).Nodup →
      (∀ p ∈ ps, GoMap.get? d (sprint p.1) = none) →
      (GoMap.get? (ps.foldl (fun (d : Dict) p => GoMap.set d (sprint p.1) p.2) d) k = some v ↔
        GoMap.get? d k = some v ∨ ∃ p ∈ ps, sprint p.1 = k ∧ p.2 = v) := by
    intro ps
    induction ps with
    | nil => intro d _ _; simp
    | cons p ps ih =>
      intro d hn hf
      rw [List.map_cons, List.nodup_cons] at hn
      rw [List.foldl_cons, ih _ hn.2]
      · rw [GoMap.get?_set]
        have h0 := hf p (by simp)
        by_cases h : sprint p.1 = k
        · subst h
          simp [h0]
        · simp [h]
      · intro q hq
        rw [GoMap.get?_set, if_neg]
        · exact hf q (by simp [hq])
        · intro e
          refine hn.1 ?_
          rw [List.mem_map]
          exact ⟨q, hq, e.symm⟩
  have := gen ps [] hd (by simp)
  unfold collectPairs
  simpa using this

/-- **C76**: `key` and `content` of a dictionary with one entry are its keyFn and its value; they fail on any other dictionary. -/
theorem C76_single (d : Dict) :
    (∀ k v, d = [(k, v)] → keyFn (.dict d) = some (.str k) ∧ contentFn (.dict d) = some v) ∧
    (d.length ≠ 1 → keyFn (.dict d) = none ∧ contentFn (.dict d) = none) := by
  constructor
  · rintro k v rfl
    exact ⟨rfl, rfl⟩
  · intro h
    match d, h with
    | [], _ => exact ⟨rfl, rfl⟩
    | [_], h => exact absurd rfl h
    | _ :: _ :: _, _ => exact ⟨rfl, rfl⟩

theorem singles_of (es : List (Text × Value)) : singles (es.map fun e => .dict [e]) = some (es.map fun e => (.str e.1, e.2)) := by
  induction es with
  | nil => rfl
  | cons e es ih =>
    obtain ⟨k, v⟩ := e
    simp only [List.map_cons, singles, ih]
    rfl

/-- **C76**: on a list of dictionaries with one entry each, `key` gives the list of the keys and `content` a dictionary with all the entries, if their keys are distinct. -/
theorem C76_single_list_partial (es : List (Text × Value)) (hd : (es.map Prod.fst).Nodup) :
    keyFn (.list (es.map fun e => .dict [e])) = some (.list (es.map fun e => .str e.1)) ∧
    ∃ d, contentFn (.list (es.map fun e => .dict [e])) = some (.dict d) ∧ ∀ k v, GoMap.get? d k = some v ↔ (k, v) ∈ es := by
  refine ⟨?_, collectPairs (es.map fun e => (.str e.1, e.2)), ?_, ?_⟩
  · simp only [keyFn, single, singles_of, Option.map_some, pairsResult, List.map_map, Function.comp_def]
  · simp only [contentFn, single, singles_of, Option.map_some, pairsResult]
  · intro k v
    rw [collectPairs_get]
    · simp only [List.mem_map]
      constructor
      · rintro ⟨p, ⟨e, he, rfl⟩, hk, hv⟩
        simp only [sprint] at hk hv
        subst hk hv
        exact he
      · intro h
        exact ⟨_, ⟨_, h, rfl⟩, by simp [sprint], rfl⟩
    · simpa [List.map_map, Function.comp_def, sprint] using hd

theorem singles_none (l : List Value) : singles l = none ↔ ∃ v ∈ l, single v = none := by
  induction l with
  | nil => simp [singles]
  | cons v l ih =>
    rw [singles]
    cases hs : single v with
    | none => simp [consPair, hs]
    | some p =>
      cases hl : singles l with
      | none =>
        have := ih.1 hl
        simp only [consPair, true_iff]
        obtain ⟨w, hw, hn⟩ := this
        exact ⟨w, List.mem_cons_of_mem _ hw, hn⟩
      | some ps =>
        simp only [consPair, reduceCtorEq, false_iff]
        rintro ⟨w, hw, hn⟩
        rcases List.mem_cons.1 hw with rfl | hw
        · rw [hs] at hn; cases hn
        · rw [ih.2 ⟨w, hw, hn⟩] at hl; cases hl

/-- **C76**: on a list, `key` and `content` fail exactly when they fail on one of its elements; they fail on anything that is neither a list nor a dictionary. -/
theorem C76_single_refused (l : List Value) :
    (keyFn (.list l) = none ↔ ∃ v ∈ l, keyFn v = none) ∧ (contentFn (.list l) = none ↔ ∃ v ∈ l, contentFn v = none) ∧
    ∀ v, (∀ d, v ≠ .dict d) → (∀ l, v ≠ .list l) → keyFn v = none ∧ contentFn v = none := by
  have hs : single (.list l) = (singles l).map pairsResult := by rw [single]
  refine ⟨?_, ?_, ?_⟩
  · unfold keyFn
    rw [hs]
    simp only [Option.map_eq_none_iff]
    exact singles_none l
  · unfold contentFn
    rw [hs]
    simp only [Option.map_eq_none_iff]
    exact singles_none l
  · intro v hd hl
    have : single v = none := by
      cases v with
      | dict d => exact absurd rfl (hd d)
      | list l => exact absurd rfl (hl l)
      | _ => rw [single] <;> simp
    unfold keyFn contentFn
    rw [this]
    exact ⟨rfl, rfl⟩

/-- **C76**, not for every list: of two entries with the same key, `content` keeps one. -/
theorem C76_not_all_content : contentFn (.list [.dict [(T "a", .int 1)], .dict [(T "a", .int 2)]]) = some (.dict [(T "a", .int 2)]) := by rfl

/-! ### `contains` and `find` -/

theorem tryAsList_itemLike {v : Value} (h : ItemLike v) : DictOps.tryAsList v = none := by
  cases v with
  | nil => exact absurd rfl h.2
  | list l => exact absurd rfl (h.1 l)
  | _ => rfl

theorem containsFn_list (strict : Bool) (l es : List Value) : containsFn strict (.list l) es = containsList strict l es := by
  unfold containsFn
  simp [DictOps.tryAsList, asList]

/-- **C77**: `contains` tells whether all the elements are, by their text, in a list that is not empty. -/
theorem C77_contains (l es : List Value) (hl : l ≠ []) :
    ∃ b, containsFn false (.list l) es = some b ∧ (b = true ↔ ∀ e ∈ es, TextMem e l) := by
  refine ⟨ListOps.contains l es, containsFn_list false l es, C08_contains l es hl⟩

/-- **C77**: `containsStrict` tells whether all the elements, which are not lists nor dictionaries, are in a list that is not empty, as values of the same type. -/
theorem C77_contains_strict_partial (l es : List Value) (hl : l ≠ []) (hs : ∀ e ∈ es, e.isScalar = true) :
    ∃ b, containsFn true (.list l) es = some b ∧ (b = true ↔ ∀ e ∈ es, ∃ x ∈ l, e = x) := by
  refine ⟨_, (containsFn_list true l es).trans (C08_contains_strict l es hl hs), ?_⟩
  rw [decide_eq_true_iff]
  have : ∀ a b : Value, a.isScalar = true → (goEq a b = some true ↔ a = b) := by
    intro a b ha
    cases a <;> cases b <;> simp_all [goEq, isScalar]
  constructor
  · intro h e he
    obtain ⟨x, hx, hg⟩ := h e he
    exact ⟨x, hx, (this e x (hs e he)).1 hg⟩
  · intro h e he
    obtain ⟨x, hx, hg⟩ := h e he
    exact ⟨x, hx, (this e x (hs e he)).2 hg⟩

/-- **C77**: the list and the element can be given in either order. -/
theorem C77_either_order (strict : Bool) (l : List Value) (e : Value) (he : ItemLike e) :
    containsFn strict e [.list l] = containsFn strict (.list l) [e] := by
  rw [containsFn_list]
  unfold containsFn
  rw [tryAsList_itemLike he]
  rfl

/-- **C77**: without a list, `contains` looks for the text of the first argument in the second, which must be a text. -/
theorem C77_text (strict : Bool) (e : Value) (he : ItemLike e) :
    (∀ s, ∃ b, containsFn strict e [.str s] = some b ∧ (b = true ↔ sprint e <:+: s)) ∧
    (∀ v, ItemLike v → (∀ s, v ≠ .str s) → containsFn strict e [v] = none) := by
  constructor
  · intro s
    refine ⟨Text.contains (sprint e) s, ?_, Text.contains_iff⟩
    unfold containsFn
    rw [tryAsList_itemLike he]
    rfl
  · intro v hv hs
    unfold containsFn
    rw [tryAsList_itemLike he]
    simp only [tryAsList_itemLike hv]

/-- **C77**: nothing is in nil nor in an empty list. -/
theorem C77_empty (es : List Value) :
    containsFn false .nil es = some false ∧ containsFn false (.list []) es = some false := by
  constructor
  · unfold containsFn
    simp [DictOps.tryAsList, asList, containsList, C08_contains_empty]
  · rw [containsFn_list]
    simp [containsList, C08_contains_empty]

/-- **C77**, not for every list: an empty list does not contain all the elements of nothing, although any other list does. -/
theorem C77_not_vacuous : containsFn false (.list []) [] = some false ∧ ∀ l, l ≠ [] → containsFn false (.list l) [] = some true := by
  refine ⟨(C77_empty []).2, fun l hl => ?_⟩
  obtain ⟨b, hb, hbe⟩ := C77_contains l [] hl
  rw [hb, hbe.2 (by simp)]

/-- **C77**, not for every call: with several elements, a text is not searched, it is an element. -/
theorem C77_not_several : containsFn false (.str (T "a")) [.str (T "abc")] = some true ∧
    containsFn false (.str (T "abc")) [.str (T "a")] = some false ∧
    containsFn false (.str (T "abc")) [.str (T "a"), .str (T "b")] = some false := by
  refine ⟨by decide +kernel, by decide +kernel, by decide +kernel⟩

/-- **C77**: `find` gives, in order, the positions of the elements with the text of the one that is looked for. -/
theorem C77_find (l : List Value) (e : Value) :
    ∃ ps : List Nat, findFn false (.list l) e = some (ps.map fun p : Nat => Value.int p) ∧ ps.Pairwise (· < ·) ∧
      ∀ i, i ∈ ps ↔ ∃ x, l[i]? = some x ∧ SameText x e := by
  obtain ⟨ps, hp, hs⟩ := C08_find_sorted l e
  have h : findFn false (.list l) e = some (ListOps.find l e) := rfl
  refine ⟨ps, by rw [h, hp], hs, fun i => ?_⟩
  rw [← C08_find, hp, List.mem_map]
  constructor
  · intro hi; exact ⟨i, hi, rfl⟩
  · rintro ⟨j, hj, he⟩
    have : j = i := by
      have : (j : Int) = i := by simpa using he
      omega
    exact this ▸ hj

/-- **C77**: `findStrict` gives the positions of the elements that are the value looked for, if it is not a list nor a dictionary. -/
theorem C77_find_strict_partial (l : List Value) (e : Value) (hs : e.isScalar = true) :
    ∃ ps, findFn true (.list l) e = some ps ∧ ∀ i : Nat, .int i ∈ ps ↔ ∃ x, l[i]? = some x ∧ goEq e x = some true := by
  have h : findFn true (.list l) e = ListOps.findStrict l e := rfl
  rw [h]
  exact C08_find_strict l e hs

/-- **C77**, not for every element: lists and dictionaries cannot be looked for strictly among values of their kind. -/
theorem C77_not_strict_lists : containsFn true (.list [.list []]) [.list []] = none ∧ findFn true (.list [.dict []]) (.dict []) = none := by
  exact ⟨rfl, rfl⟩

/-- **C77**: `find` finds something exactly when `contains` says so. -/
theorem C77_find_contains (l : List Value) (e : Value) :
    findFn false (.list l) e ≠ some [] ↔ containsFn false (.list l) [e] = some true := by
  rw [containsFn_list]
  have h : findFn false (.list l) e = some (ListOps.find l e) := rfl
  rw [h]
  simp only [containsList, Bool.false_eq_true, if_false, ne_eq, Option.some.injEq]
  exact C08_find_iff_contains l e

/-- **C77**: in a text, `find` gives the places where the text of the element is, from left to right and without overlap. -/
theorem C77_find_text (strict : Bool) (s : Text) (e : Value) (he : sprint e ≠ []) :
    ∃ ps : List Nat, findFn strict (.str s) e = some (ps.map fun p : Nat => Value.int p) ∧
      (∀ p ∈ ps, OccursAt (sprint e) s p) ∧ ps.Pairwise (fun a b => a + (sprint e).length ≤ b) ∧
      ∀ i, OccursAt (sprint e) s i → ∃ p ∈ ps, p ≤ i ∧ i < p + (sprint e).length := by
  exact ⟨Strings.indexAll s (sprint e), rfl, C23_positions s (sprint e) he⟩

/-- **C77**: what is neither a list nor nil is searched like the list of that element alone: by `contains` when there is not exactly one element to look for, and by `find` if it is not a text. -/
theorem C77_alone (strict : Bool) (v : Value) (hv : ItemLike v) :
    (∀ es : List Value, es.length ≠ 1 → containsFn strict v es = containsFn strict (.list [v]) es) ∧
    (∀ e, (∀ s, v ≠ .str s) → findFn strict v e = findFn strict (.list [v]) e) ∧
    (∀ e, findFn strict .nil e = findFn strict (.list []) e) := by
  refine ⟨fun es he => ?_, fun e hs => ?_, fun e => rfl⟩
  · rw [containsFn_list]
    unfold containsFn asList
    rw [tryAsList_itemLike hv]
    match es, he with
    | [], _ => rfl
    | [_], he => exact absurd rfl he
    | _ :: _ :: _, _ => rfl
  · unfold findFn
    cases v with
    | str s => exact absurd rfl (hs s)
    | list l => exact absurd rfl (hv.1 l)
    | nil => exact absurd rfl hv.2
    | _ => rfl

/-! ### Cases to which the theorems apply -/

example : KeyLike (.str (T "a")) ∧ KeyLike (.int 1) ∧ ItemLike (.str (T "a")) ∧ ItemLike (.dict []) := by
  simp [KeyLike, ItemLike]
example : getFn (.str (T "a")) (.dict [(T "a", .int 1)]) [.int 2] = some (.int 1) := by rfl
example : getFn (.dict [(T "a", .int 1)]) (.str (T "b")) [.int 2] = some (.int 2) := by rfl
example : HoldsAt [(T "1", .bool true)] (.int 1) (.bool true) := by rfl
example : ¬ SameKey (.str (T "a")) (.str (T "b")) := by unfold SameKey; decide
example : keyFn (.list [.dict [(T "a", .int 1)], .dict [(T "b", .int 2)]]) = some (.list [.str (T "a"), .str (T "b")]) := by rfl
example : findFn false (.list [.int 1, .str (T "a"), .str (T "1")]) (.int 1) = some [.int 0, .int 2] := by rfl

example : hasKeyFn (.str (T "a")) (.dict [(T "a", .int 1)]) = hasKeyFn (.dict [(T "a", .int 1)]) (.str (T "a")) :=
  (C76_either_order [(T "a", .int 1)] (.str (T "a")) (by simp [KeyLike]) [] .nil).2.1
example : ∃ d', setFn (.dict [(T "a", .int 1)]) (.int 2) (.bool false) = some (.dict d', .int 2, .bool false) ∧ getFn (.dict d') (.int 2) [.int 3] = some (.bool false) :=
  C76_get_set [(T "a", .int 1)] (.int 2) (.bool false) (by simp) [.int 3]
example : setFn (.int 1) (.str (T "a")) (.list []) = none := (C76_error (.int 1) (.str (T "a")) (.list []) (by simp [KeyLike]) (by simp [KeyLike]) (by simp [KeyLike]) []).2.2.2
example := C76_single_list_partial [(T "a", .int 1), (T "b", .int 2)] (by decide)
example : ∃ b, containsFn false (.list [.int 1, .str (T "a")]) [.str (T "1")] = some b ∧ (b = true ↔ ∀ e ∈ [Value.str (T "1")], TextMem e [.int 1, .str (T "a")]) :=
  C77_contains _ _ (by simp)
example : ∃ b, containsFn true (.list [.int 1, .str (T "a")]) [.str (T "1")] = some b ∧ (b = true ↔ ∀ e ∈ [Value.str (T "1")], ∃ x ∈ [Value.int 1, .str (T "a")], e = x) :=
  C77_contains_strict_partial _ _ (by simp) (by simp [Value.isScalar])
example : containsFn true (.int 1) [.list [.int 1, .str (T "a")]] = containsFn true (.list [.int 1, .str (T "a")]) [.int 1] :=
  C77_either_order true _ _ (by simp [ItemLike])
example : containsFn true (.int 1) [.bool true] = none := (C77_text true (.int 1) (by simp [ItemLike])).2 _ (by simp [ItemLike]) (by simp)
example := C77_find_strict_partial [.int 1, .str (T "1"), .int 1] (.int 1) rfl
example := C77_find_text false (T "abcabc") (.str (T "bc")) (by decide)
example : findFn true (.int 1) (.int 1) = findFn true (.list [.int 1]) (.int 1) := (C77_alone true (.int 1) (by simp [ItemLike])).2.1 _ (by simp)


end Verif.Props
